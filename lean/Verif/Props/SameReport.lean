import Verif.Spec.SameReport
import Verif.Proofs.Located
import Verif.Props.OneLine

/-!
# C108: the same files give the same report
-/

namespace ALint
open Spec

/-! ## Messages without addresses -/

/-- Under the names of a template, the first value is the only one looked at. -/
theorem showsObject_kind {m : Msg} (h : Addressless m) (hs : ShowsObject m) : m.kind ∈ objectKinds := by
  unfold Addressless at h
  rcases (Bool.or_eq_true _ _).mp h with h | h
  · simpa using h
  · rw [List.all_eq_true] at h
    exfalso
    cases hs with
    | quoted hp hl ho =>
      have h1 := h _ (lookup_mem hl)
      unfold addresslessArg at h1
      have h2 := List.all_eq_true.1 h1 _ hp
      cases ho <;> simp [Arg.isPlain] at h2
    | @listed name r vs v hp hl hv ho =>
      have h1 := h _ (lookup_mem hl)
      unfold addresslessArg at h1
      have h2 := List.all_eq_true.1 h1 _ hp
      cases r <;> simp [Arg.isPlain, Arg.isOne] at h2

/-- Of another class, and without a variable. -/
def NoObject (m : Msg) : Prop := objectKinds.contains m.kind = false ∧ Addressless m

theorem fine_no_object {S : Where → Prop} {m : Msg} (h : Fine S m) : objectKinds.contains m.kind = false := by
  have := h.kind
  generalize m.kind = k at this ⊢
  cases k <;> first | rfl | cases this

theorem noObject_order (sets : List VarE) (v : VarE) : LogAll NoObject (checkOrder sets v) := by
  unfold checkOrder
  split
  · exact .bind (.emit ⟨rfl, rfl⟩) fun _ => .pure _
  split
  · exact .bind (.emit ⟨rfl, rfl⟩) fun _ => .pure _
  split
  · exact .pure _
  split
  · exact .bind (.emit ⟨rfl, rfl⟩) fun _ => .pure _
  · exact .pure _

theorem noObject_odbcStep (fns : List OdbcFn) (e : Elem) : LogAll NoObject (odbcStep fns e) := by
  cases e with
  | empty c w => exact .pure _
  | ctx c => exact .bind (.ite (.pure _) (.emit ⟨rfl, rfl⟩)) fun _ => .bind (.ite (.pure _) (.emit ⟨rfl, rfl⟩)) fun _ => .pure _
  | var v =>
    cases fns with
    | nil => exact .bind (.ite (.emit ⟨rfl, rfl⟩) (.pure _)) fun _ => .bind (.emit ⟨rfl, rfl⟩) fun _ => .pure _
    | cons f rest =>
      refine .bind (.ite (.emit ⟨rfl, rfl⟩) (.pure _)) fun _ => .bind ?_ fun _ => .pure _
      unfold OdbcFn.add
      exact .bind (noObject_order _ _) fun ok => .ite (.bind (.ite (.bind (.ite (.emit ⟨rfl, rfl⟩) (.pure _))
        fun _ => .ite (.emit ⟨rfl, rfl⟩) (.pure _)) (.pure _)) fun _ => .pure _) (.pure _)

theorem noObject_finalizeAll : ∀ (fns : List OdbcFn) (env : FEnv), LogAll NoObject (finalizeAll env fns)
  | [], _ => .pure _
  | f :: fs, env => by
    unfold finalizeAll
    refine .bind ?_ fun _ => noObject_finalizeAll fs _
    unfold OdbcFn.finalize
    exact .ite (.ite (.raise _) (.pure _)) (.bind (.emit ⟨rfl, rfl⟩) fun _ => .pure _)

/-- Nothing but texts is shown about functions. -/
theorem odbc_no_object (fs : FS) (env : FEnv) (n : Nat) (path : Str) (content : Bytes) :
    LogAll NoObject (loadOdbc fs env n path content) := by
  have hc : Consumes (fun _ => True) NoObject (fun _ : List OdbcFn => True) odbcStep :=
    fun fns e _ _ => ⟨noObject_odbcStep fns e, fun _ _ => trivial⟩
  obtain ⟨h1, _⟩ := pipeRun_consumes (fs := fs) (S := fun _ => True) (by intros; intro i l _; trivial) (P := NoObject)
    (fun m h => ⟨fine_no_object h, h.addressless⟩) hc n (st := ⟨[openFrame path content], [], [], []⟩)
    ⟨by simp [FrameIn], by simp [FfIn], by simp [VswIn]⟩ trivial
  unfold loadOdbc
  refine .bind h1 fun o => ?_
  cases o with
  | none => exact .pure _
  | some fns => exact .bind (noObject_finalizeAll _ _) fun _ => .pure _

theorem NoObject.shows {m : Msg} (h : NoObject m) : ¬ ShowsObject m :=
  fun hs => absurd (showsObject_kind h.2 hs) (by simpa using h.1)

/-- Reading a file of functions for a program. -/
theorem readOdbc_no_object (fs : FS) (env : DEnv) (n : Nat) (arg : Option Str) (path : Str) :
    LogAll NoObject (readOdbc fs env n arg path) := by
  unfold readOdbc
  split
  · exact .pure _
  · unfold opening
    split
    · exact .pure _
    · unfold finished
      refine .bind (odbc_no_object _ _ _ _ _) fun o => ?_
      cases o <;> exact .pure _

theorem check_addressless (fs : FS) (env : DEnv) (n : Nat) (arg : Option Str) (path : Str) :
    LogAll Addressless (dialplanCheckRun fs env n arg path) := by
  unfold dialplanCheckRun andThen
  refine .bind ((readOdbc_no_object fs env n arg path).mono fun m h => h.2) fun o => ?_
  cases o with
  | error s => exact .pure _
  | ok env =>
    dsimp only
    unfold opening
    split
    · exact .pure _
    · unfold finished
      refine .bind ((placed_check fs env none n path _).mono ?_) fun o => by cases o <;> exact .pure _
      intro m hm
      rcases hm with hm | hm
      · exact hm.2.2.2.2
      · unfold Addressless
        rw [Bool.or_eq_true, List.all_eq_true]
        right
        intro q _
        rcases hm.1 with hk | hk <;> rw [hk] <;> rfl

/-! ## Texts -/

variable {p : Char → Bool} {addr addr' : V → Str}

theorem repr_plain {v : V} (h : ¬ VarObject v) : v.pyRepr p addr = v.pyRepr p addr' := by
  cases v with
  | str s => rfl
  | int n => rfl
  | none => rfl
  | lst items => exact absurd .mixed h
  | atom k n s l => exact absurd .plain h

theorem repr_list {vs : List V} (h : ∀ v ∈ vs, ¬ VarObject v) : listRepr p addr vs = listRepr p addr' vs := by
  have rest : ∀ vs : List V, (∀ v ∈ vs, ¬ VarObject v) → vs.flatMap (fun v => c! ", " ++ v.pyRepr p addr) =
      vs.flatMap fun v => c! ", " ++ v.pyRepr p addr' := by
    intro vs h
    induction vs with
    | nil => rfl
    | cons v vs ih => rw [List.flatMap_cons, List.flatMap_cons, ih fun v hv => h v (by simp [hv]), repr_plain (h v (by simp))]
  cases vs with
  | nil => rfl
  | cons v vs =>
    rw [listRepr, listRepr, repr_plain (h v (by simp)), rest vs fun v hv => h v (by simp [hv])]

theorem shown_plain {args : List (Str × Arg)} {ps : List Piece} {rs : List Rendered} (h : renderAll args ps = .ok rs)
    (h1 : ∀ name v, Piece.field name true ∈ ps → args.lookup name = some (.one v) → ¬ VarObject v)
    (h2 : ∀ name r vs, Piece.field name r ∈ ps → args.lookup name = some (.many vs) → ∀ v ∈ vs, ¬ VarObject v) :
    rs.flatMap (Rendered.shown (pyRepr p addr)) = rs.flatMap (Rendered.shown (pyRepr p addr')) := by
  induction ps generalizing rs with
  | nil => cases h; rfl
  | cons q ps ih =>
    rw [renderAll] at h
    cases hq : renderPiece args q with
    | error e => simp [hq] at h
    | ok r =>
      simp only [hq] at h
      cases hr : renderAll args ps with
      | error e => simp [hr, Except.map] at h
      | ok rs' =>
        simp only [hr, Except.map, Except.ok.injEq] at h
        subst h
        rw [List.flatMap_cons, List.flatMap_cons, ih hr (fun n v hm => h1 n v (by simp [hm])) fun n r vs hm => h2 n r vs (by simp [hm])]
        congr 1
        cases q with
        | lit s => cases hq; rfl
        | field n r0 =>
          simp only [renderPiece] at hq
          cases hl : args.lookup n with
          | none => simp [hl] at hq
          | some a =>
            simp only [hl] at hq
            cases a with
            | many vs =>
              have : r = .repr (.many vs) := by cases r0 <;> simpa using hq.symm
              subst this
              exact repr_list (h2 n r0 vs (by simp) hl)
            | one v =>
              cases r0 with
              | true =>
                simp only [if_true, Except.ok.injEq] at hq
                subst hq
                exact repr_plain (h1 n v (by simp) hl)
              | false =>
                simp only [Bool.false_eq_true, if_false] at hq
                cases hv : v.toStr with
                | error e => simp [hv, Except.map] at hq
                | ok s =>
                  simp only [hv, Except.map, Except.ok.injEq] at hq
                  subst hq
                  rfl

theorem pyLines (ignore : Str) (m : Msg) (ps : List Rendered) :
    messageLines (pyShell p addr ignore) m ps = [heading m (ps.flatMap (Rendered.shown (pyRepr p addr)))] := by
  simp [messageLines, pyShell, heading, Where.text]

theorem groups_plain {ignore : Str} {ms : List Msg} (h : ∀ m ∈ ms, ¬ ShowsObject m) :
    Props.groupsOf (pyShell p addr ignore) ms = Props.groupsOf (pyShell p addr' ignore) ms := by
  induction ms with
  | nil => rfl
  | cons m ms ih =>
    rw [Props.groupsOf, Props.groupsOf, ih fun m hm => h m (by simp [hm])]
    cases hm : m.render with
    | error e => rfl
    | ok ps =>
      dsimp only
      have := h m (by simp)
      rw [pyLines, pyLines, shown_plain (addr' := addr') hm (fun n v hp hl ho => this (.quoted hp hl ho))
        fun n r vs hp hl v hv ho => this (.listed hp hl hv ho)]
      rfl

theorem groups_texts (ignore : Str) (ms : List Msg) :
    SameButTexts (printedLines (Props.groupsOf (pyShell p addr ignore) ms)) (printedLines (Props.groupsOf (pyShell p addr' ignore) ms)) := by
  induction ms with
  | nil => exact ⟨[], [], [], rfl, rfl, rfl, rfl⟩
  | cons m ms ih =>
    rw [Props.groupsOf, Props.groupsOf]
    cases hm : m.render with
    | error e => exact ih
    | ok ps =>
      dsimp only
      rw [show (pyShell p addr' ignore).ignore = (pyShell p addr ignore).ignore from rfl]
      split
      · exact ih
      · obtain ⟨l, s, t, h1, h2, h3, h4⟩ := ih
        refine ⟨m :: l, ps.flatMap (Rendered.shown (pyRepr p addr)) :: s, ps.flatMap (Rendered.shown (pyRepr p addr')) :: t, by simp [h1], by simp [h2], ?_, ?_⟩
        · rw [List.zipWith_cons_cons, ← h3, pyLines]; rfl
        · rw [List.zipWith_cons_cons, ← h4, pyLines]; rfl

theorem program_same {α : Type} (ignore : Str) (r : Res (Except Stopped α)) (out : α → List Str) (status : Manager → α → Nat)
    (h : ∀ m ∈ r.log, ¬ ShowsObject m) :
    program (pyShell p addr ignore) r out status = program (pyShell p addr' ignore) r out status := by
  have e : ((managerAfter (pyShell p addr ignore) r.log).printed.flatMap fun q => messageLines (pyShell p addr ignore) q.1 q.2) =
      (managerAfter (pyShell p addr' ignore) r.log).printed.flatMap fun q => messageLines (pyShell p addr' ignore) q.1 q.2 := by
    rw [Props.printed_groups _ rfl, Props.printed_groups _ rfl, groups_plain h]
  unfold program
  dsimp only
  rw [e]
  rfl

theorem program_texts {α : Type} (ignore : Str) (r : Res (Except Stopped α)) (out : α → List Str) (status : Manager → α → Nat) :
    (program (pyShell p addr ignore) r out status).out = (program (pyShell p addr' ignore) r out status).out ∧
    (program (pyShell p addr ignore) r out status).fin = (program (pyShell p addr' ignore) r out status).fin ∧
    SameButTexts (program (pyShell p addr ignore) r out status).err (program (pyShell p addr' ignore) r out status).err := by
  refine ⟨?_, ?_, ?_⟩
  · unfold program; dsimp only; split <;> rfl
  · unfold program; dsimp only; split <;> rfl
  · rw [program_err, program_err, Props.printed_groups _ rfl, Props.printed_groups _ rfl]
    exact groups_texts ignore r.log

end ALint

namespace ALint.Props
open ALint ALint.Spec

/-- C108 for `dialplan-check`, in part: in two runs on the same files everything is the same, wherever
Python puts its objects, if no message shows a variable by its `repr`.  Missing: the other messages
(`C108_violated`). -/
theorem C108_same_partial (p : Char → Bool) (addr addr' : V → Str) (ignore : Str) (fs : FS) (env : DEnv) (n : Nat)
    (arg : Option Str) (path : Str) (h : ∀ m ∈ (dialplanCheckRun fs env n arg path).log, ¬ ShowsObject m) :
    dialplanCheck (pyShell p addr ignore) fs env n arg path = dialplanCheck (pyShell p addr' ignore) fs env n arg path :=
  program_same ignore _ _ _ h

/-- C108, in part: only messages of these names can show a variable by its `repr`. -/
theorem C108_kinds_partial (fs : FS) (env : DEnv) (n : Nat) (arg : Option Str) (path : Str) (m : Msg)
    (h : m ∈ (dialplanCheckRun fs env n arg path).log) (hs : ShowsObject m) :
    m.kind.name ∈ [c! "E_APP_ARG_BADOPT", c! "E_APP_ARG_DUPEOPT", c! "E_APP_ARG_IFSTYLE", c! "E_APP_ARG_PIPEDELIM",
      c! "W_APP_BALANCE", c! "W_FUNC_BALANCE", c! "E_DP_GOTO_NOCONTEXT", c! "W_DP_GOTO_CONTEXT_NOEXTEN"] := by
  have := showsObject_kind (check_addressless fs env n arg path m h) hs
  simp only [objectKinds, List.mem_cons, List.not_mem_nil, or_false] at this
  rcases this with h | h | h | h | h | h | h | h <;> rw [h] <;> decide

/-- C108 for `dialplan-check`: whatever the messages show, two runs on the same files end the same way
and print the same messages about the same lines, in the same order. -/
theorem C108_messages (p : Char → Bool) (addr addr' : V → Str) (ignore : Str) (fs : FS) (env : DEnv) (n : Nat)
    (arg : Option Str) (path : Str) :
    (dialplanCheck (pyShell p addr ignore) fs env n arg path).fin = (dialplanCheck (pyShell p addr' ignore) fs env n arg path).fin ∧
    SameButTexts (dialplanCheck (pyShell p addr ignore) fs env n arg path).err
      (dialplanCheck (pyShell p addr' ignore) fs env n arg path).err :=
  (program_texts ignore _ _ _).2

/-- C108 for `func_odbc-check`: everything is the same. -/
theorem C108_func_odbc (p : Char → Bool) (addr addr' : V → Str) (ignore : Str) (fs : FS) (env : DEnv) (n : Nat) (path : Str) :
    odbcCheck (pyShell p addr ignore) fs env n path = odbcCheck (pyShell p addr' ignore) fs env n path := by
  refine program_same ignore _ _ _ ?_
  unfold opening
  split
  · intro m hm; cases hm
  · unfold finished
    refine LogAll.bind ((odbc_no_object _ _ _ _ _).mono fun m h => h.shows) fun o => ?_
    cases o <;> exact .pure _

/-! ### Cases -/

/-- Some applications with jumps, options and conditions, and a function. -/
def showEnv : DEnv where
  lower := fun s => s.map Char.toLower
  funcs := fun s => if s = c! "hash" then some ⟨c! "HASH", c! "func_strings", .plain⟩ else none
  apps := fun s =>
    if s = c! "goto" then some ⟨c! "Goto", c! "<builtin>", .goto⟩
    else if s = c! "gotoif" then some ⟨c! "GotoIf", c! "<builtin>", .gotoIf⟩
    else if s = c! "gosub" then some ⟨c! "Gosub", c! "app_stack", .gosub⟩
    else if s = c! "set" then some ⟨c! "Set", c! "<builtin>", .set⟩
    else if s = c! "originate" then some ⟨c! "Originate", c! "app_originate", .args (some 3) [.any, .appOrExten, .any]⟩
    else if s = c! "read" then some ⟨c! "Read", c! "app_read", .args (some 1) [.any, .options (c! "sin")]⟩
    else none
  depth := 9

/-- A dialplan in which variables are shown. -/
def showFiles : FS := fun q => if q = c! "/e.conf" then some (asciiBytes (c! "[general]\n\n[globals]\n\n[a]\nexten => s,1,Goto(1|${X})
 same => n,Originate(a,${X},b)
 same => n,Read(a,s${X}s)
 same => n,GotoIf(${A},${X})
 same => n,Gosub(z,${Y}1,a${X}(b)
 same => n,Set(HASH(a${X}()=1)
 same => n,Gosub(z,1,a${X}(b))
 same => n,Gosub(a,1,a${X}(b))
")) else none

/-- The `repr` of a variable at some address. -/
def varAt (address : Str) : V → Str := fun _ => c! "<asterisklint.variable.Var object at 0x" ++ address ++ c! ">"

/-- The report on that dialplan with variables at an address. -/
def showReport (address : Str) : List Str :=
  (dialplanCheck (pyShell (fun _ => true) (varAt address) []) showFiles showEnv 99 (some []) (c! "/e.conf")).err

/-- C108 is violated: the report depends on where Python puts its objects. -/
theorem C108_violated : c! "/e.conf:6 E_APP_ARG_PIPEDELIM: the application delimiter is now the comma, not the pipe; see app 'Goto' and data <asterisklint.variable.Var object at 0x7f1>" ∈
      showReport (c! "7f1") ∧ showReport (c! "7f1") ≠ showReport (c! "7f2") := by decide +kernel

/-- C108: with each of the names of `C108_kinds_partial` there are such messages. -/
theorem C108_violated_kinds : ∀ name ∈ [c! "E_APP_ARG_BADOPT", c! "E_APP_ARG_DUPEOPT", c! "E_APP_ARG_IFSTYLE", c! "E_APP_ARG_PIPEDELIM",
      c! "W_APP_BALANCE", c! "W_FUNC_BALANCE", c! "E_DP_GOTO_NOCONTEXT", c! "W_DP_GOTO_CONTEXT_NOEXTEN"],
    ∃ l ∈ showReport (c! "7f1"), l ∉ showReport (c! "7f2") ∧ contains (c! " " ++ name ++ c! ":") l = true := by decide +kernel

/-- A dialplan with a report that is the same in every run, although there are variables in it. -/
def plainFiles : FS := fun q => if q = c! "/e.conf" then
    some (asciiBytes (c! "[a]\nexten => s,1,Goto(b,${X},1)\n same => n,Nothing(${X})\n same => n,Read(a,q)\n")) else none

def plainEnv : DEnv := { showEnv with apps := fun s => if s = c! "unknown" then some ⟨c! "Unknown", c! "unknown", .plain⟩ else showEnv.apps s }

def plainLog : List Msg := (dialplanCheckRun plainFiles plainEnv 99 (some []) (c! "/e.conf")).log

theorem plain_shows : ∀ m ∈ plainLog, ¬ ShowsObject m := by
  have key : ∀ m ∈ plainLog, m.args.all (addresslessArg m.kind) = true := by decide +kernel
  intro m hm hs
  have h := List.all_eq_true.1 (key m hm)
  cases hs with
  | quoted hp hl ho =>
    have h2 := List.all_eq_true.1 (h _ (lookup_mem hl)) _ hp
    cases ho <;> simp [Arg.isPlain] at h2
  | @listed name r vs v hp hl hv ho =>
    have h2 := List.all_eq_true.1 (h _ (lookup_mem hl)) _ hp
    cases r <;> simp [Arg.isPlain, Arg.isOne] at h2

example : (∀ addr addr', dialplanCheck (pyShell (fun _ => true) addr []) plainFiles plainEnv 99 (some []) (c! "/e.conf") =
      dialplanCheck (pyShell (fun _ => true) addr' []) plainFiles plainEnv 99 (some []) (c! "/e.conf")) ∧
    plainLog.map (·.kind.name) = [c! "E_APP_MISSING", c! "E_APP_ARG_BADOPT", c! "H_DP_GENERAL_MISPLACED",
      c! "H_DP_GLOBALS_MISPLACED", c! "E_DP_GOTO_NOCONTEXT"] :=
  ⟨fun addr addr' => C108_same_partial _ addr addr' [] plainFiles plainEnv 99 (some []) (c! "/e.conf") plain_shows, by decide +kernel⟩

end ALint.Props
