import Verif.Model.App

/-!
# Which kinds of messages may come from where
-/

namespace ALint

/-- Only messages of these kinds. -/
structure Only (p : MK → Bool) {α : Type} (x : Tr α) : Prop where
  all : ∀ m, Ev.msg m ∈ x.ev → p m.kind = true

namespace Only
variable {α β : Type} {p : MK → Bool}

theorem pure (a : α) : Only p (Tr.pure a) := ⟨by intro m hm; cases hm⟩
theorem raise (e : Exc) : Only p (Tr.raise e : Tr α) := ⟨by intro m hm; cases hm⟩
theorem lift (x : Except Exc α) : Only p (Tr.lift x) := ⟨by intro m hm; cases hm⟩

theorem bind {x : Tr α} {f : α → Tr β} (hx : Only p x) (hf : ∀ a, Only p (f a)) : Only p (Tr.bind x f) := by
  refine ⟨fun m hm => ?_⟩
  unfold Tr.bind at hm
  split at hm
  · exact hx.all m hm
  · rcases List.mem_append.1 hm with hm | hm
    · exact hx.all m hm
    · exact (hf _).all m hm

theorem ite {c : Prop} [Decidable c] {x y : Tr α} (hx : Only p x) (hy : Only p y) :
    Only p (if c then x else y) := by split <;> assumption

theorem emit (k : MK) (w : Where) (args : List (Str × Arg)) (h : p k = true) : Only p (Tr.emit (mkMsg k w args)) := by
  refine ⟨fun m hm => ?_⟩
  obtain rfl : m = mkMsg k w args := by simpa [Tr.emit] using hm
  exact h

theorem noteFunc (s : Str) : Only p (Tr.note (.func s)) := ⟨by intro m hm; simp [Tr.note] at hm⟩
theorem noteApp (s : Str) : Only p (Tr.note (.app s)) := ⟨by intro m hm; simp [Tr.note] at hm⟩
theorem noteVar (s : Str) (w : Where) : Only p (Tr.note (.var s w)) := ⟨by intro m hm; simp [Tr.note] at hm⟩

theorem mapM {f : α → Tr β} (h : ∀ a, Only p (f a)) (l : List α) : Only p (Tr.mapM f l) := by
  induction l with
  | nil => exact .pure _
  | cons a l ih => exact .bind (h a) fun _ => .bind ih fun _ => .pure _

theorem mono {q : MK → Bool} {x : Tr α} (h : Only p x) (hpq : ∀ k, p k = true → q k = true) : Only q x :=
  ⟨fun m hm => hpq _ (h.all m hm)⟩

end Only

/-- Pieces without calls. -/
macro "only" : tactic => `(tactic| repeat' (first
  | exact Only.pure _ | exact Only.raise _ | exact Only.lift _ | exact Only.emit _ _ _ rfl
  | exact Only.noteFunc _ | exact Only.noteApp _ | exact Only.noteVar _ _
  | assumption
  | refine Only.bind ?_ (fun _ => ?_)
  | refine Only.ite ?_ ?_
  | split))

/-- Messages about variables, functions and assignments. -/
def varKind : MK → Bool
  | .E_ASSIGN_EMPTY | .E_ASSIGN_NO_EQUALS | .E_FUNC_BAD_CASE | .E_FUNC_MISSING | .E_FUNC_PARENS | .E_FUNC_TAIL
  | .E_VAR_BAD_TOKENS | .E_VAR_SUBSTR_ARGS | .E_VAR_SUBSTR_START | .E_VAR_SUBSTR_LENGTH
  | .W_ASSIGN_SPACES | .W_FUNC_DYNAMIC | .E_FUNC_BAD_ARGS | .W_FUNC_BALANCE => true
  | _ => false

/-- Messages about the arguments of applications. -/
def argKind : MK → Bool
  | .E_APP_ARG_FEW | .E_APP_ARG_MANY | .E_APP_ARG_BADOPT
  | .E_APP_ARG_DUPEOPT | .E_APP_ARG_IFCONST | .E_APP_ARG_IFEMPTY | .E_APP_ARG_IFSTYLE
  | .E_APP_ARG_PIPEDELIM | .E_APP_ARG_SYNTAX | .W_APP_BALANCE => true
  | k => varKind k

section
variable (env : FEnv) (w : Where)

theorem only_getFunc (f : Str) : Only varKind (getFunc env w f) := by
  unfold getFunc; dsimp only; only

theorem only_countVar (n : Str) : Only varKind (countVar w n) := by
  unfold countVar; only

theorem only_countArg (a : Arg) : Only varKind (countArg w a) := by
  unfold countArg; split
  · exact only_countVar ..
  · only

theorem only_funcBalance (a : Arg) : Only varKind (funcBalance w a) := by
  unfold funcBalance; only

theorem only_writeFunction {call : FuncInfo → Arg → Tr Unit} (h : ∀ f a, Only varKind (call f a)) (d : V) :
    Only varKind (writeFunction env w call d) := by
  unfold writeFunction
  refine .ite (.bind (.lift _) fun parts => ?_) (.raise _)
  split
  · split
    · only
    · refine .ite ?_ (.raise _)
      dsimp only
      split
      · exact .bind (only_getFunc ..) fun _ => h _ _
      · only
  · only

theorem only_parseAssignment {call : FuncInfo → Arg → Tr Unit} (h : ∀ f a, Only varKind (call f a)) (a : Arg) :
    Only varKind (parseAssignment env w call a) := by
  have hw := only_writeFunction env w h
  unfold parseAssignment
  refine .ite (.emit _ _ _ rfl) ?_
  split
  · only
  · refine .bind (.lift _) fun parts => ?_
    split
    · refine .bind ?_ fun _ => ?_
      · only
      · exact .ite (hw _) (.pure _)
    · only

theorem only_callFunc : ∀ (n : Nat) (f : FuncInfo) (a : Arg), Only varKind (callFunc env w n f a) := by
  intro n
  induction n with
  | zero => intro f a; exact .raise _
  | succ n ih =>
    intro f a
    have hb := only_funcBalance w a
    rw [callFunc]
    split
    · exact hb
    · exact .bind (only_parseAssignment env w ih a) fun _ => hb
    · refine .bind ?_ fun _ => hb
      only
    · exact .bind hb fun _ => only_countArg ..

theorem only_callFuncTop (f : FuncInfo) (a : Arg) : Only varKind (callFuncTop env w f a) := only_callFunc ..

theorem only_splitSlice (d : V) : Only varKind (splitSlice w d) := by
  unfold splitSlice sliceStart sliceLength sliceZero
  refine .bind (.lift _) fun _ => .bind (.ite (.pure _) (.emit _ _ _ rfl)) fun _ => .bind ?_ fun _ =>
    .bind ?_ fun _ => .bind ?_ fun _ => .pure _
  all_goals only

theorem only_readFunction (d : V) : Only varKind (readFunction env w d) := by
  unfold readFunction
  refine .ite (.raise _) (.bind ?_ fun _ => .bind ?_ fun _ => ?_)
  · unfold funcArgs; dsimp only; only
  · unfold funcTail
    refine .ite (.bind (only_splitSlice ..) fun _ => ?_) (.pure _)
    only
  · split
    · only
    · exact .bind (only_getFunc ..) fun _ => .bind (only_callFuncTop ..) fun _ => .lift _
    · only

theorem only_countUnlessVar (d : V) : Only varKind (countUnlessVar w d) := by
  unfold countUnlessVar
  exact .ite (.pure _) (only_countArg ..)

theorem only_processVariable (d : V) : Only varKind (processVariable env w d) := by
  unfold processVariable processSlice
  refine .ite (only_readFunction ..) (.ite (.bind (only_splitSlice ..) fun _ => .bind (only_countUnlessVar ..) fun _ => ?_)
    (.bind (only_countUnlessVar ..) fun _ => .pure _))
  only

theorem only_parseItems : ∀ (n : Nat) (d : Str), Only varKind (parseItems env w n d) := by
  intro n
  induction n with
  | zero => intro d; exact .raise _
  | succ n ih =>
    intro d
    rw [parseItems]
    split
    · only
    · split
      · only
      · refine .bind (.ite (.bind (ih _) fun _ => .pure _) (.pure _)) fun _ => .bind ?_ fun _ =>
          .bind (ih _) fun _ => .pure _
        unfold processSubst
        exact .ite (only_processVariable ..) (.pure _)

theorem only_parseVariables (d : Str) : Only varKind (parseVariables env w d) := by
  unfold parseVariables
  exact .bind (only_parseItems ..) fun _ => .pure _

theorem only_minMaxCheck (n : Str) (a b : Option Nat) (l : List V) : Only argKind (minMaxCheck w n a b l) := by
  unfold minMaxCheck; only

theorem only_pipeCheck (n : Str) (d : V) (l : List V) : Only argKind (pipeCheck w n d l) := by
  unfold pipeCheck; only

theorem only_validateArgs (n : Str) : ∀ (i : Nat) (b : List ArgBeh) (a : List V), Only argKind (validateArgs w n i b a) := by
  intro i b
  induction b generalizing i with
  | nil => intro a; exact .pure _
  | cons b bs ih =>
    intro a
    cases a with
    | nil => exact .pure _
    | cons a as =>
      refine .bind ?_ fun _ => ih ..
      unfold validateArg; only

theorem only_jumpArgs (n : Str) (d : V) : Only argKind (jumpArgs w n d) := by
  unfold jumpArgs
  exact .bind (only_minMaxCheck ..) fun _ => .bind (only_pipeCheck ..) fun _ => .pure _

theorem only_ifSplit (n : Str) (d : V) : Only argKind (ifSplit w n d) := by
  unfold ifSplit
  refine .bind ?_ fun _ => .bind (.lift _) fun _ => .bind (.ite (.emit _ _ _ rfl) (.pure _)) fun _ => .pure _
  unfold ifParts ifMany ifFew ifOldStyle
  split
  · only
  · split
    · only
    · refine .bind ?_ fun _ => .pure _
      split <;> exact .emit _ _ _ rfl

theorem only_condSplit (n : Str) (d : V) : Only argKind (condSplit w n d) := by
  unfold condSplit
  exact .bind (only_ifSplit ..) fun _ => .bind (.ite (.emit _ _ _ rfl) (.pure _)) fun _ => .pure _

theorem only_gosubDest (n : Str) (b : Bool) (l : List V) : Only argKind (gosubDest w n b l) := by
  have h : ∀ d, Only argKind (gosubPrio w d) := by intro d; unfold gosubPrio; only
  unfold gosubDest
  split
  · only
  · exact .bind (h _) fun _ => .pure _
  · exact .bind (h _) fun _ => .pure _
  · exact .bind (h _) fun _ => .pure _
  · exact .bind (.ite (.emit _ _ _ rfl) (.pure _)) fun _ => .bind (h _) fun _ => .pure _

theorem only_appBalance (d : V) : Only argKind (appBalance w d) := by
  unfold appBalance; only

theorem argKind_of_var (k : MK) (h : varKind k = true) : argKind k = true := by
  revert h
  cases k <;> decide

/-- What an application other than `ExecIf` reports itself. -/
theorem only_callApp (inner : Option Str → Arg → Tr (Option Str)) (sp : Option Str) (app : AppInfo) (h : app.beh ≠ .execIf)
    (d : V) : Only argKind (callApp env inner sp w app d) := by
  unfold callApp
  split
  · exact .bind (only_appBalance ..) fun _ => .pure _
  · exact .bind (only_appBalance ..) fun _ => .pure _
  · exact .bind ((only_parseAssignment _ _ (only_callFuncTop env w) _).mono argKind_of_var) fun _ =>
      .bind (only_appBalance ..) fun _ => .pure _
  · unfold callArgs
    exact .bind (.bind (only_minMaxCheck ..) fun _ => .bind (only_validateArgs ..) fun _ => .bind (only_pipeCheck ..) fun _ => .pure _)
      fun _ => .pure _
  · exact .bind (only_jumpArgs ..) fun _ => .bind (.lift _) fun _ => .pure _
  · exact .bind (only_condSplit ..) fun _ => .bind (.mapM (fun _ => .lift _) _) fun _ => .pure _
  · exact .bind (only_ifSplit ..) fun _ => .pure _
  · exact .bind (only_jumpArgs ..) fun _ => .bind (only_gosubDest ..) fun _ => .pure _
  · exact .bind (only_condSplit ..) fun _ => .bind (.mapM (fun _ => only_gosubDest ..) _) fun _ => .pure _
  · rename_i hb
    exact absurd hb h

end
end ALint
