import Verif.Proofs.Odbc
import Verif.Props.Located

/-!
# C58, C59: func_odbc.conf
-/

namespace ALint.Props
open ALint ALint.Spec

/-! ## Examples -/

/-- A function known, and the one for unknown functions. -/
def odbcEnv : FEnv where
  lower := fun s => s.map Char.toLower
  funcs := fun s =>
    if s = c! "len" then some ⟨c! "LEN", c! "func_strings", .plain⟩
    else if s = c! "unknown" then some ⟨c! "UNKNOWN", c! "unknown", .plain⟩
    else none

/-- Two functions; a late, an unknown and a repeated setting. -/
def odbcText : Str :=
  c! "[USER]\ndsn=a\nprefix=DB\nreadsql=SELECT 1\nfoo=1\ndsn=b\n\n[NOTHING]\ndsn=c\n\n[GROUP]\nwritesql=SELECT 2\n"

def loadText (s : Str) : Res (Option (FEnv × List OdbcFn)) := loadOdbc noFiles odbcEnv 99 (c! "f.conf") (asciiBytes s)

def textElems (s : Str) : List Elem :=
  (((pipeRun noFiles collect 99 ⟨[openFrame (c! "f.conf") (asciiBytes s)], [], [], []⟩).val.toOption).bind id).getD []

/-! ## C58 -/

/-- What a function read from a section consists of: for each setting the first line of the
section for it and no other, known settings only, in the order of the file. -/
structure FunctionOf (s : CtxE × List VarE) (f : OdbcFn) : Prop where
  name : f.name = s.1.name
  at_ : f.at_ = s.1.at_
  inOrder : List.Sublist f.sets s.2
  once : (f.sets.map (·.key)).Nodup
  known : ∀ v ∈ f.sets, v.key ∈ odbcSettings
  first : ∀ k ∈ odbcSettings, f.sets.find? (fun v => v.key == k) = s.2.find? (fun v => v.key == k)

/-- C58: every section of the file becomes a function with the first line for each known
setting, and each other line of a section is reported, as unknown or as repeated (with the
place of the first), in order, and nothing else is so reported. -/
theorem C58_settings (fs : FS) (env env' : FEnv) (n : Nat) (path : Str) (content : Bytes) (fns : List OdbcFn)
    (h : (loadOdbc fs env n path content).val = .ok (some (env', fns))) :
    ∃ es, (pipeRun fs collect n ⟨[openFrame path content], [], [], []⟩).val = .ok (some es) ∧
      Zips FunctionOf (sectionsOf es) fns ∧
      ∃ ms, (loadOdbc fs env n path content).log.filter
          (fun m => m.kind = .E_CONF_KEY_INVALID || m.kind = .E_CONF_KEY_DUPE) = ms ∧
        Zips (fun m (r : MK × Where × Str × Option Where) =>
            m = ⟨r.1, r.2.1, [(c! "key", .one (.str r.2.2.1))], r.2.2.2⟩) ms
          ((sectionsOf es).flatMap fun s => settingReports [] s.2) := by
  obtain ⟨es, h1, h2, h3, h4⟩ := loadOdbc_spec h
  refine ⟨es, h1, ?_, _, h4, ?_⟩
  · rw [h2]
    generalize sectionsOf es = ss
    induction ss with
    | nil => exact .nil
    | cons s ss ih =>
      refine .cons ?_ ih
      obtain ⟨⟨l, k1, k2⟩, k3, k4⟩ := kept_shape [] s.2 (by simp) (by simp)
      refine ⟨rfl, rfl, ?_, k3, k4, agree_nil s.2⟩
      show List.Sublist (odbcKept [] s.2) s.2
      rw [k1]
      exact k2
  · generalize sectionsOf es = ss
    induction ss with
    | nil => exact .nil
    | cons s ss ih =>
      rw [List.flatMap_cons, List.flatMap_cons]
      exact zips_append (zips_reports (fun _ _ => rfl) s.2) ih

/-- In the example the second function has no statement, and of the first one two lines are
dropped. -/
example : ∃ env fns, (loadText odbcText).val = .ok (some (env, fns)) ∧
    fns.map (fun f => (f.name, f.sets.map (·.key))) =
      [(c! "USER", [c! "dsn", c! "prefix", c! "readsql"]), (c! "NOTHING", [c! "dsn"]), (c! "GROUP", [c! "writesql"])] ∧
    (loadText odbcText).log.map (fun m => (m.kind, m.at_.lineno)) =
      [(.W_CONF_KEY_LATE, 3), (.E_CONF_KEY_INVALID, 5), (.E_CONF_KEY_DUPE, 6), (.E_ODBC_NOSQL, 8)] := by
  refine ⟨_, _, rfl, ?_⟩
  decide +kernel

/-- A section with nothing unknown or repeated is kept as it is. -/
theorem C58_clean (vs : List VarE) (f : OdbcFn) (c : CtxE) (h : FunctionOf (c, vs) f)
    (hk : ∀ v ∈ vs, v.key ∈ odbcSettings) (hn : (vs.map (·.key)).Nodup) :
    f.sets = vs ∧ settingReports [] vs = [] := by
  constructor
  · refine h.inOrder.eq_of_length_le ?_
    have : ∀ v ∈ vs, v ∈ f.sets := by
      intro v hv
      have hf : vs.find? (fun u => u.key == v.key) = some v := by
        clear h hk
        induction vs with
        | nil => simp at hv
        | cons u us ih =>
          simp only [List.map_cons, List.nodup_cons, List.mem_map, not_exists, not_and] at hn
          rcases List.mem_cons.1 hv with rfl | hv
          · simp
          · rw [List.find?_cons]
            have : (u.key == v.key) = false := by
              simpa using fun he : u.key = v.key => hn.1 v hv he.symm
            rw [this]
            exact ih hn.2 hv
      have := h.first v.key (hk v hv)
      rw [hf] at this
      exact List.mem_of_find?_eq_some this
    have := nodup_le (l := vs.map (·.key)) (m := f.sets.map (·.key)) hn (fun k hk => by
      obtain ⟨v, hv, rfl⟩ := List.mem_map.1 hk
      exact List.mem_map.2 ⟨v, this v hv, rfl⟩)
    simpa using this
  · have key : ∀ before vs : List VarE, (∀ v ∈ vs, v.key ∈ odbcSettings) → ((before ++ vs).map (·.key)).Nodup →
        settingReports before vs = [] := by
      intro before vs
      induction vs generalizing before with
      | nil => intros; rfl
      | cons v vs ih =>
        intro hk hn
        rw [settingReports, ih (before ++ [v]) (fun u hu => hk u (by simp [hu])) (by simpa using hn)]
        have hkv := hk v (by simp)
        have hf : before.find? (fun u => u.key == v.key) = none := by
          rw [List.find?_eq_none]
          intro u hu
          rw [List.map_append, List.nodup_append] at hn
          have := hn.2.2 u.key (List.mem_map.2 ⟨u, hu, rfl⟩) v.key (by simp)
          simpa using this
        simp [hkv, hf]
    exact key [] vs hk hn

/-- A section with two known settings. -/
example : FunctionOf (⟨c! "A", [], false, demoW 1⟩,
      [⟨c! "dsn", c! "a", false, false, demoW 2⟩, ⟨c! "readsql", c! "x", false, false, demoW 3⟩])
    ⟨c! "A", [], false, demoW 1,
      [⟨c! "dsn", c! "a", false, false, demoW 2⟩, ⟨c! "readsql", c! "x", false, false, demoW 3⟩]⟩ :=
  ⟨rfl, rfl, List.Sublist.refl _, by decide, by decide, fun _ _ => rfl⟩

/-! ## C59 -/

/-- The linter looks the function up and has nothing to say. -/
def AcceptsFunc (env : FEnv) (f : Str) : Prop :=
  ∀ w, evMsgs (getFunc env w f).ev = [] ∧ ∃ fi, (getFunc env w f).val = .ok fi

theorem accepts_iff (env : FEnv) (f : Str) :
    AcceptsFunc env f ↔ ∃ fi, env.found f = some fi ∧ fi.name = f := by
  unfold AcceptsFunc
  have hmsg := getFunc_msgs env
  constructor
  · intro h
    obtain ⟨h1, fi, h2⟩ := h ⟨[], 0, []⟩
    rw [hmsg] at h1
    unfold funcReport at h1
    cases hf : env.found f with
    | none =>
      unfold getFunc at h2
      unfold FEnv.found at hf
      dsimp only at h2
      rw [hf] at h2
      simp [Tr.raise] at h2
    | some fi =>
      rw [hf] at h1
      dsimp only at h1
      refine ⟨fi, rfl, ?_⟩
      by_cases hn : fi.name = f
      · exact hn
      · rw [if_neg hn] at h1
        split at h1 <;> simp at h1
  · rintro ⟨fi, h1, h2⟩ w
    refine ⟨by rw [hmsg]; unfold funcReport; rw [h1]; dsimp only; rw [if_pos h2], fi, ?_⟩
    unfold getFunc
    unfold FEnv.found at h1
    dsimp only
    rw [h1]
    simp [h2, Tr.bind, Tr.note, Tr.pure]

/-- C59, first part: after loading, every function defined is accepted, provided no other
function defined has a name that differs in letter case only. -/
theorem C59_accepted_partial (fs : FS) (env env' : FEnv) (n : Nat) (path : Str) (content : Bytes) (fns : List OdbcFn)
    (h : (loadOdbc fs env n path content).val = .ok (some (env', fns))) :
    ∃ es, (pipeRun fs collect n ⟨[openFrame path content], [], [], []⟩).val = .ok (some es) ∧
      ∀ f ∈ odbcNames (sectionsOf es), (∀ g ∈ odbcNames (sectionsOf es), env.lower g = env.lower f → g = f) →
        AcceptsFunc env' f := by
  obtain ⟨es, h1, h2, h3, h4⟩ := loadOdbc_spec h
  refine ⟨es, h1, fun f hf hu => ?_⟩
  obtain ⟨l1, l2⟩ := registerAll_spec env (odbcNames (sectionsOf es))
  rw [← h3] at l1 l2
  rw [accepts_iff]
  unfold FEnv.found
  rw [l1, l2]
  cases hr : (odbcNames (sectionsOf es)).reverse.find? (fun n => env.lower n == env.lower f) with
  | none =>
    have := List.find?_eq_none.1 hr f (by simpa using hf)
    simp at this
  | some g =>
    have hg := hu g (by simpa using List.mem_of_find?_eq_some hr) (by simpa using List.find?_some hr)
    subst hg
    exact ⟨_, rfl, rfl⟩

/-- C59 is violated: of two functions whose names differ in letter case only, the first one
is not accepted. -/
theorem C59_violated_case :
    ∃ env fns, (loadText (c! "[a]\nreadsql=x\n\n[A]\nreadsql=x\n")).val = .ok (some (env, fns)) ∧
      odbcNames (sectionsOf (textElems (c! "[a]\nreadsql=x\n\n[A]\nreadsql=x\n"))) = [c! "ODBC_a", c! "ODBC_A"] ∧
      ¬ AcceptsFunc env (c! "ODBC_a") := by
  refine ⟨_, _, rfl, by decide +kernel, ?_⟩
  rw [accepts_iff]
  rintro ⟨fi, h1, h2⟩
  have h3 : (⟨c! "ODBC_A", c! "func_odbc", .plain⟩ : FuncInfo) = fi := by
    have : some (⟨c! "ODBC_A", c! "func_odbc", .plain⟩ : FuncInfo) = some fi := by
      rw [← h1]; decide +kernel
    simpa using this
  rw [← h3] at h2
  revert h2
  decide

/-- C59, second part: nothing else becomes accepted.  (`lower` is `str.lower`; it leaves
underscores alone.) -/
theorem C59_nothing_else (fs : FS) (env env' : FEnv) (n : Nat) (path : Str) (content : Bytes) (fns : List OdbcFn)
    (h : (loadOdbc fs env n path content).val = .ok (some (env', fns)))
    (hl : ∀ s, '_' ∈ s → '_' ∈ env.lower s) :
    ∃ es, (pipeRun fs collect n ⟨[openFrame path content], [], [], []⟩).val = .ok (some es) ∧
      ∀ f, AcceptsFunc env' f → AcceptsFunc env f ∨ f ∈ odbcNames (sectionsOf es) := by
  obtain ⟨es, h1, h2, h3, h4⟩ := loadOdbc_spec h
  refine ⟨es, h1, fun f hf => ?_⟩
  obtain ⟨l1, l2⟩ := registerAll_spec env (odbcNames (sectionsOf es))
  rw [← h3] at l1 l2
  rw [accepts_iff] at hf ⊢
  have hu : env'.funcs (c! "unknown") = env.funcs (c! "unknown") := by
    rw [l2]
    cases hr : (odbcNames (sectionsOf es)).reverse.find? (fun n => env.lower n == c! "unknown") with
    | none => rfl
    | some g =>
      exfalso
      have hg : g ∈ odbcNames (sectionsOf es) := by simpa using List.mem_of_find?_eq_some hr
      have he : env.lower g = c! "unknown" := by simpa using List.find?_some hr
      have : '_' ∈ g := by
        unfold odbcNames at hg
        obtain ⟨s, _, rfl⟩ := List.mem_map.1 hg
        unfold odbcName
        simp
      have := hl g this
      rw [he] at this
      revert this
      decide
  unfold FEnv.found at hf ⊢
  rw [l1, l2, hu] at hf
  cases hr : (odbcNames (sectionsOf es)).reverse.find? (fun n => env.lower n == env.lower f) with
  | none => rw [hr] at hf; exact .inl hf
  | some g =>
    rw [hr] at hf
    obtain ⟨fi, f1, f2⟩ := hf
    have hfi : (⟨g, c! "func_odbc", .plain⟩ : FuncInfo) = fi := by simpa using f1
    rw [← hfi] at f2
    refine .inr ?_
    rw [← show g = f from f2]
    simpa using List.mem_of_find?_eq_some hr

/-- What was accepted before stays accepted, unless a function defined has a name that
differs in letter case only. -/
theorem C59_kept (fs : FS) (env env' : FEnv) (n : Nat) (path : Str) (content : Bytes) (fns : List OdbcFn)
    (h : (loadOdbc fs env n path content).val = .ok (some (env', fns)))
    (hl : ∀ s, '_' ∈ s → '_' ∈ env.lower s) :
    ∃ es, (pipeRun fs collect n ⟨[openFrame path content], [], [], []⟩).val = .ok (some es) ∧
      ∀ f, AcceptsFunc env f → (∀ g ∈ odbcNames (sectionsOf es), env.lower g = env.lower f → g = f) →
        AcceptsFunc env' f := by
  obtain ⟨es, h1, h2, h3, h4⟩ := loadOdbc_spec h
  refine ⟨es, h1, fun f hf hno => ?_⟩
  obtain ⟨l1, l2⟩ := registerAll_spec env (odbcNames (sectionsOf es))
  rw [← h3] at l1 l2
  rw [accepts_iff] at hf ⊢
  have hu : env'.funcs (c! "unknown") = env.funcs (c! "unknown") := by
    rw [l2]
    cases hr : (odbcNames (sectionsOf es)).reverse.find? (fun n => env.lower n == c! "unknown") with
    | none => rfl
    | some g =>
      exfalso
      have hg : g ∈ odbcNames (sectionsOf es) := by simpa using List.mem_of_find?_eq_some hr
      have he : env.lower g = c! "unknown" := by simpa using List.find?_some hr
      have : '_' ∈ g := by
        unfold odbcNames at hg
        obtain ⟨s, _, rfl⟩ := List.mem_map.1 hg
        unfold odbcName
        simp
      have := hl g this
      rw [he] at this
      revert this
      decide
  unfold FEnv.found at hf ⊢
  rw [l1, l2, hu]
  cases hr : (odbcNames (sectionsOf es)).reverse.find? (fun n => env.lower n == env.lower f) with
  | none => exact hf
  | some g =>
    have hg := hno g (by simpa using List.mem_of_find?_eq_some hr) (by simpa using List.find?_some hr)
    exact ⟨_, rfl, hg⟩

/-- In the example: `DB_USER` and `ODBC_GROUP` are accepted now, `LEN` is still. -/
example : ∃ env fns, (loadText odbcText).val = .ok (some (env, fns)) ∧
    odbcNames (sectionsOf (textElems odbcText)) = [c! "DB_USER", c! "ODBC_GROUP"] ∧
    AcceptsFunc env (c! "DB_USER") ∧ AcceptsFunc env (c! "ODBC_GROUP") ∧ AcceptsFunc env (c! "LEN") ∧
    ¬ AcceptsFunc odbcEnv (c! "DB_USER") ∧ ¬ AcceptsFunc env (c! "ODBC_NOTHING") := by
  refine ⟨_, _, rfl, by decide +kernel, (accepts_iff _ _).2 ⟨_, rfl, by decide +kernel⟩,
    (accepts_iff _ _).2 ⟨_, rfl, by decide +kernel⟩, (accepts_iff _ _).2 ⟨_, rfl, by decide +kernel⟩, ?_, ?_⟩
  · rw [accepts_iff]
    rintro ⟨fi, h1, h2⟩
    have : some (⟨c! "UNKNOWN", c! "unknown", .plain⟩ : FuncInfo) = some fi := by rw [← h1]; decide +kernel
    simp only [Option.some.injEq] at this
    rw [← this] at h2
    revert h2
    decide
  · rw [accepts_iff]
    rintro ⟨fi, h1, h2⟩
    have : some (⟨c! "UNKNOWN", c! "unknown", .plain⟩ : FuncInfo) = some fi := by rw [← h1]; decide +kernel
    simp only [Option.some.injEq] at this
    rw [← this] at h2
    revert h2
    decide

/-- C59 for whole dialplans: in a check after loading, a complaint that a function is unknown
or wrongly spelled is never about one that is defined (when no two names defined differ in
letter case only). -/
theorem C59_dialplan_partial (fs : FS) (env : DEnv) (env' : FEnv) (n : Nat) (path : Str) (content : Bytes)
    (fns : List OdbcFn) (h : (loadOdbc fs env.toFEnv n path content).val = .ok (some (env', fns))) :
    ∃ es, (pipeRun fs collect n ⟨[openFrame path content], [], [], []⟩).val = .ok (some es) ∧
      ∀ f ∈ odbcNames (sectionsOf es), (∀ g ∈ odbcNames (sectionsOf es), env.lower g = env.lower f → g = f) →
        ∀ sp n' path' content', ∀ m ∈ (checkDialplan fs { env with toFEnv := env' } sp n' path' content').log,
          (m.kind = .E_FUNC_MISSING ∨ m.kind = .E_FUNC_BAD_CASE) → (c! "func", .one (.str f)) ∉ m.args := by
  obtain ⟨es, h1, h2⟩ := C59_accepted_partial fs env.toFEnv env' n path content fns h
  refine ⟨es, h1, fun f hf hu sp n' path' content' m hm hk ha => ?_⟩
  obtain ⟨g, hg⟩ := func_check fs { env with toFEnv := env' } sp n' path' content' m hm hk
  have hgf : g = f := by
    unfold funcReport at hg
    split at hg
    · simp at hg
    · split at hg
      · simp at hg
      · split at hg
        · simp only [List.mem_singleton] at hg
          have := congrArg Msg.args hg
          rw [this] at ha
          simp [mkMsg] at ha
          exact ha.symm
        · simp only [List.mem_singleton] at hg
          have := congrArg Msg.args hg
          rw [this] at ha
          simp [mkMsg] at ha
          exact ha.symm
  subst hgf
  obtain ⟨fi, f1, f2⟩ := (accepts_iff _ _).1 (h2 g hf hu)
  unfold funcReport at hg
  rw [show (({ env with toFEnv := env' } : DEnv).toFEnv).found g = some fi from f1] at hg
  dsimp only at hg
  rw [if_pos f2] at hg
  simp at hg

/-- The same dialplan before and after loading. -/
example : ∃ env fns, (loadText odbcText).val = .ok (some (env, fns)) ∧
    let text := asciiBytes (c! "[general]\n\n[globals]\n\n[a]\nexten => s,1,NoOp(${DB_USER(1)}${NIX(1)})\n")
    ((checkDialplan noFiles { demoEnv with toFEnv := odbcEnv } none 99 (c! "e.conf") text).log.filter
      (fun m => m.kind = .E_FUNC_MISSING)).map (·.args) =
        [[(c! "func", .one (.str (c! "DB_USER")))], [(c! "func", .one (.str (c! "NIX")))]] ∧
    ((checkDialplan noFiles { demoEnv with toFEnv := env } none 99 (c! "e.conf") text).log.filter
      (fun m => m.kind = .E_FUNC_MISSING)).map (·.args) = [[(c! "func", .one (.str (c! "NIX")))]] := by
  refine ⟨_, _, rfl, ?_⟩
  decide +kernel

/-- Loading ends without an internal error when all lines can be read and no name defined has
a NUL in it. -/
theorem C59_loads (fs : FS) (env : FEnv) (n : Nat) (path : Str) (content : Bytes) (es : List Elem)
    (h : (pipeRun fs collect n ⟨[openFrame path content], [], [], []⟩).val = .ok (some es)) :
    (∃ r, (loadOdbc fs env n path content).val = .ok (some r)) ↔
      ∀ f ∈ odbcNames (sectionsOf es), ∀ c ∈ f, c.toNat ≠ 0 :=
  loadOdbc_ok h

/-- Both cases occur. -/
example : (∃ r, (loadText odbcText).val = .ok (some r)) ∧
    (loadText (c! "[a\x00]\nread=x\n")).val.toOption.isNone = true :=
  ⟨⟨_, rfl⟩, by decide +kernel⟩

end ALint.Props
