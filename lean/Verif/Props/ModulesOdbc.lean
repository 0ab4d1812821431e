import Verif.Props.Command
import Verif.Props.CleanText

/-!
# C70 continued: functions, and functions defined in `func_odbc.conf`
-/

namespace ALint.Spec

/-- The function is called somewhere in the text. -/
def Txt.Calls (f : Str) : Txt → Prop
  | .nil => False
  | .text _ r => r.Calls f
  | .var _ r => r.Calls f
  | .sub _ _ _ r => r.Calls f
  | .call g a r => g = f ∨ a.Calls f ∨ r.Calls f
  | .expr e r => e.Calls f ∨ r.Calls f

end ALint.Spec

namespace ALint.Props
open ALint ALint.Spec

theorem calls_used (env : FEnv) (w : Where) (f : Str) (t : Txt) (h : t.Calls f) : Ev.func (env.lower f) ∈ t.used env w := by
  induction t with
  | nil => cases h
  | text s r ih => exact ih h
  | var n r ih => exact List.mem_cons_of_mem _ (ih h)
  | sub n s l r ih => exact List.mem_cons_of_mem _ (ih h)
  | call g a r iha ih =>
    rw [Txt.used, List.mem_append, List.mem_cons]
    rcases h with rfl | h | h
    · exact .inr (.inl rfl)
    · exact .inl (iha h)
    · exact .inr (.inr (ih h))
  | expr e r ihe ih =>
    rw [Txt.used, List.mem_append]
    rcases h with h | h
    · exact .inl (ihe h)
    · exact .inr (ih h)

/-- `name(data)`. -/
structure CallsWith (name : Str) (data : Txt) (text : Str) : Prop where
  named : name ≠ [] ∧ '(' ∉ name ∧ NoLead name ∧ NoTrail name
  text : text = name ++ '(' :: (data.write ++ [')'])

theorem runApp_data_uses {env : AEnv} {n : Nat} {sp : Option Str} {w : Where} {name text : Str} {data : Txt}
    (hc : CallsWith name data text) (hg : GoodTxt env.toFEnv false data) {r : Option Str × List Jump}
    (h : (runApp env n sp w (strV text)).val = .ok r) {e : Ev} (he : e ∈ data.used env.toFEnv w) :
    e ∈ (runApp env n sp w (strV text)).ev := by
  obtain ⟨⟨h1, h2, h3, h4⟩, rfl⟩ := hc
  cases n with
  | zero => cases h
  | succ n =>
    rw [runApp, splitApp_named h1 h2 h3 h4 data.write w, Tr.pure_bind] at h ⊢
    dsimp only at h ⊢
    obtain ⟨x, _, hx2, hx3⟩ := Tr.bind_ok h
    rw [hx3]
    refine List.mem_append.2 (.inr ?_)
    obtain ⟨y, _, _, hy3⟩ := Tr.bind_ok hx2
    rw [hy3]
    refine List.mem_append.2 (.inl ?_)
    rw [parseInner_text env.toFEnv w name data hg]
    exact he

theorem used_no_msg (env : FEnv) (w : Where) (t : Txt) (m : Msg) : Ev.msg m ∉ t.used env w := by
  intro h
  have : m ∈ evMsgs (t.used env w) := List.mem_filterMap.2 ⟨_, h, rfl⟩
  rw [used_silent] at this
  simp at this

/-- What is used in the data of a step is among what was used. -/
theorem step_func_used {env : DEnv} {sp : Option Str} {es : List Elem} {log : List Msg} {st : DState}
    (h : After env sp es log st) {c : DCtx} (hc : c ∈ st.dp.contexts) {s : Step} (hs : s ∈ c.steps)
    {name : Str} {data : Txt} (hcall : CallsWith name data s.app) (hg : GoodTxt env.toFEnv false data)
    {f : Str} (hf : data.Calls f) : Ev.func (env.lower f) ∈ st.uses := by
  obtain ⟨hi, _, _⟩ := after_inv h
  have hs' : s ∈ stepsOf st.dp c.name := by
    rw [stepsOf_get (get_of_mem hi.names hc)]; exact hs
  obtain ⟨sp', r, hr, hu⟩ := read_uses (congrArg Res.val h) c.name s hs'
  exact hu _ (evUses_mem (runApp_data_uses hcall hg hr (calls_used _ _ _ _ hf)) (by intro m; simp))

theorem func_load {env : DEnv} {st : DState} {low : Str} (hu : Ev.func low ∈ st.uses) {fi : FuncInfo}
    (ha : env.funcs low = some fi) (hk : fi.module ≠ c! "unknown") (hb : fi.module ≠ c! "<builtin>") (l : List Msg) :
    c! "load => " ++ fi.module ++ c! ".so" ∈ modulesShow env st l := by
  have hmod : fi.module ∈ allMods env st := by
    refine List.mem_append.2 (.inr ((usedMods_mem ..).2 ⟨hk, low, mem_usedFunc.2 hu, ?_⟩))
    exact ⟨⟨fi.name, fi.module⟩, by simp [funcItem, ha], rfl⟩
  have : c! "load => " ++ fi.module ++ c! ".so" ∈ loadLines (allMods env st) := by
    refine List.mem_append.2 (.inl (List.mem_append.2 (.inr (List.mem_map.2 ⟨fi.module, ?_, rfl⟩))))
    rw [List.mem_filter, (sortStrs_spec _).2]
    exact ⟨hmod, by simpa using hb⟩
  exact List.mem_append.2 (.inl (List.mem_append.2 (.inl (List.mem_append.2 (.inr this)))))

/-- C70: if the data of a step, written in order, calls a function at any depth, the module of this
function has its `load` line unless it is built in. -/
theorem C70_needed_function (env : DEnv) (sp : Option Str) (es : List Elem) (log l : List Msg) (st : DState)
    (h : After env sp es log st) (c : DCtx) (hc : c ∈ st.dp.contexts) (s : Step) (hs : s ∈ c.steps)
    (name : Str) (data : Txt) (hcall : CallsWith name data s.app) (hg : GoodTxt env.toFEnv false data)
    (f : Str) (hf : data.Calls f) (fi : FuncInfo) (ha : env.funcs (env.lower f) = some fi)
    (hk : fi.module ≠ c! "unknown") (hb : fi.module ≠ c! "<builtin>") :
    c! "load => " ++ fi.module ++ c! ".so" ∈ modulesShow env st l :=
  func_load (step_func_used h hc hs hcall hg hf) ha hk hb l

/-! ## The program -/

theorem readDialplan_after {fs : FS} {env : DEnv} {n : Nat} {path : Str} {st : DState}
    (h : (readDialplan fs env n path).val = .ok (.ok st)) :
    ∃ content es l, fs path = some content ∧
      (pipeRun fs collect n ⟨[openFrame path content], [], [], []⟩).val = .ok (some es) ∧
      After env none es l st ∧ List.Sublist l (readDialplan fs env n path).log := by
  cases hc : fs path with
  | none => simp [readDialplan, opening, hc, Res.pure] at h
  | some content =>
    simp only [readDialplan, opening, hc, finished] at h ⊢
    obtain ⟨o, h1, h2, h3⟩ := Res.bind_ok h
    cases o with
    | none => simp [Res.pure] at h2
    | some st' =>
      dsimp only at h2
      obtain ⟨_, _, h4, _⟩ := Res.bind_ok h2
      simp only [Res.pure, Except.ok.injEq] at h4
      subst h4
      obtain ⟨es, g1, g2, g3⟩ := pipeRun_collect fs (dialplanStep env) n _ _ h1
      refine ⟨content, es, (feed (dialplanStep env) (.init none) es).log, rfl, by simpa [PState.with_] using g2 [], ?_, ?_⟩
      · unfold After
        rw [← g1]
      · rw [h3]
        exact g3.trans (List.sublist_append_left _ _)

/-- C70: a `modules-show` that comes to its end has read the definitions of functions and the
dialplan, and prints the lines described in `C70_output` and has the exit code described in
`C70_exit`, for the functions known then and the messages of both. -/
theorem C70_program (sh : Shell) (fs : FS) (env : DEnv) (n : Nat) (arg : Option Str) (path : Str) (k : Nat)
    (h : (modulesProgram sh fs env n arg path).fin = .exit k) :
    ∃ env' first content es l st, DefinesFrom fs env n arg path env' first ∧ fs path = some content ∧
      (pipeRun fs collect n ⟨[openFrame path content], [], [], []⟩).val = .ok (some es) ∧
      After { env with toFEnv := env' } none es l st ∧
      (modulesProgram sh fs env n arg path).out = modulesShow { env with toFEnv := env' } st
        (first ++ (readDialplan fs { env with toFEnv := env' } n path).log) ∧
      k = modulesExit (first ++ (readDialplan fs { env with toFEnv := env' } n path).log) := by
  have hv : ∃ es, (modulesRead fs env n arg path).val = .ok (.ok es) ∧ k = modulesExit (modulesRead fs env n arg path).log ∧
      (modulesProgram sh fs env n arg path).out = modulesShow es.1 es.2 (modulesRead fs env n arg path).log := by
    cases hr : (modulesRead fs env n arg path).val with
    | error e => simp [modulesProgram, program, hr] at h
    | ok r =>
      cases r with
      | error s => simp [modulesProgram, program, hr] at h
      | ok a =>
        refine ⟨a, rfl, ?_, by simp [modulesProgram, program, hr]⟩
        simpa [modulesProgram, program, hr] using h.symm
  obtain ⟨⟨env2, st⟩, hv, hk, ho⟩ := hv
  have hv' := hv
  simp only [modulesRead, andThen] at hv'
  obtain ⟨o, h1, h2, h3⟩ := Res.bind_ok hv'
  cases o with
  | error s => simp [Res.pure] at h2
  | ok env3 =>
    obtain ⟨he, hd⟩ := readOdbc_ok h1
    dsimp only at h2 h3
    obtain ⟨o', g1, g2, g3⟩ := Res.bind_ok h2
    cases o' with
    | error s => simp [Res.pure] at g2
    | ok st' =>
      simp only [Res.pure, Except.ok.injEq, Prod.mk.injEq] at g2
      obtain ⟨rfl, rfl⟩ := g2
      have hl : (modulesRead fs env n arg path).log =
          (readOdbc fs env n arg path).log ++ (readDialplan fs env3 n path).log := by
        simp only [modulesRead, andThen]
        rw [h3, g3]
        simp [Res.pure]
      obtain ⟨content, es, l, k1, k2, k3, k4⟩ := readDialplan_after g1
      refine ⟨env3.toFEnv, _, content, es, l, st', hd, k1, k2, ?_, ?_, ?_⟩
      · rw [← he]; exact k3
      · rw [← he, ho, hl]
      · rw [← he, hk, hl]

/-- C70: if the data of a step calls a function that is defined in the file with the definitions,
there is a `load` line for `func_odbc`. -/
theorem C70_func_odbc (sh : Shell) (fs : FS) (env : DEnv) (n : Nat) (arg : Option Str) (path : Str) (k : Nat)
    (h : (modulesProgram sh fs env n arg path).fin = .exit k) (p : Str) (hp : OdbcFileFor fs path arg (some p))
    (odbc : Bytes) (ho : fs p = some odbc) (des : List Elem)
    (hd : (pipeRun fs collect n ⟨[openFrame p odbc], [], [], []⟩).val = .ok (some des)) (f : Str)
    (hf : f ∈ odbcNames (sectionsOf des)) :
    ∃ env' content es l st, fs path = some content ∧
      (pipeRun fs collect n ⟨[openFrame path content], [], [], []⟩).val = .ok (some es) ∧
      After { env with toFEnv := env' } none es l st ∧
      ∀ c ∈ st.dp.contexts, ∀ s ∈ c.steps, ∀ name data, CallsWith name data s.app → GoodTxt env' false data →
        data.Calls f → c! "load => func_odbc.so" ∈ (modulesProgram sh fs env n arg path).out := by
  obtain ⟨env', first, content, es, l, st, k1, k2, k3, k4, k5, k6⟩ := C70_program sh fs env n arg path k h
  refine ⟨env', content, es, l, st, k2, k3, k4, fun c hc s hs name data hcall hg hcf => ?_⟩
  have huse := step_func_used k4 hc hs hcall hg hcf
  rw [k5]
  clear k5 k6
  have hfun : ∃ g, env'.funcs (env'.lower f) = some ⟨g, c! "func_odbc", .plain⟩ := by
    cases k1 with
    | none hno =>
      exfalso
      cases hp with
      | given hne => cases hno; exact hne rfl
      | beside hx => cases hno with | absent hy => rw [hx] at hy; simp at hy
    | some hp' hc' hl =>
      rename_i p' content' fns
      have hpp : p' = p := by
        cases hp with
        | given hne => cases hp'; rfl
        | beside hx => cases hp'; rfl
      subst hpp
      rw [ho] at hc'
      simp only [Option.some.injEq] at hc'
      subst hc'
      obtain ⟨es', q1, _, q3, _⟩ := loadOdbc_spec hl
      rw [hd] at q1
      simp only [Except.ok.injEq, Option.some.injEq] at q1
      subst q1
      obtain ⟨l1, l2⟩ := registerAll_spec env.toFEnv (odbcNames (sectionsOf des))
      rw [← q3] at l1 l2
      rw [l1, l2]
      cases hr : (odbcNames (sectionsOf des)).reverse.find? (fun n => env.lower n == env.lower f) with
      | none =>
        have := List.find?_eq_none.1 hr f (by simpa using hf)
        simp at this
      | some g => exact ⟨g, rfl⟩
  obtain ⟨g, hg'⟩ := hfun
  have := func_load (env := { env with toFEnv := env' }) huse hg' (by simp) (by simp)
    (first ++ (readDialplan fs { env with toFEnv := env' } n path).log)
  exact this

/-! ## Example -/

example : modulesProgram plainShell cmdFiles modEnv 99 none (c! "/etc/extensions.conf") =
    ⟨[c! "; Application providing modules used:",
      c! ";   <builtin>             NoOp()",
      c! ";",
      c! "; Function providing modules used:",
      c! ";   func_odbc             DB_USER()",
      c! ";",
      c! "; modules.conf",
      c! "load => func_odbc.so",
      [],
      c! "; WARNING: The following unknown applications were seen:",
      c! ";   Foo",
      c! ";"], [], .exit 1⟩ := by decide +kernel

/-- The step of the example. -/
example : CallsWith (c! "NoOp") (.call (c! "DB_USER") (.text (c! "x") .nil) .nil) (c! "NoOp(${DB_USER(x)})") ∧
    Txt.Calls (c! "DB_USER") (.call (c! "DB_USER") (.text (c! "x") .nil) .nil) := by
  refine ⟨⟨⟨by decide, by decide, ?_, ?_⟩, rfl⟩, .inl rfl⟩
  · intro c r h
    simp at h
    obtain ⟨rfl, _⟩ := h
    decide
  · intro r c h
    have : (c! "NoOp").getLast? = some c := by rw [h]; simp
    simp at this
    subst this
    decide

end ALint.Props
