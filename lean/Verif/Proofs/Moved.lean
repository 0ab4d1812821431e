import Verif.Model.Dialplan

/-!
# The place of a line has no influence but on the places reported
-/

namespace ALint

/-- The same event at another place. -/
def Ev.moved (w : Where) : Ev → Ev
  | .msg m => .msg { m with at_ := w }
  | .var n _ => .var n w
  | e => e

/-- The same outcome, with everything reported at `w`. -/
def Tr.moved {α : Type} (w : Where) (x : Tr α) : Tr α := ⟨x.ev.map (Ev.moved w), x.val⟩

def Moved {α : Type} (w : Where) (x y : Tr α) : Prop := y = x.moved w

namespace Moved
variable {α β : Type} {w' : Where}

theorem pure (a : α) : Moved w' (Tr.pure a) (Tr.pure a) := rfl
theorem raise (e : Exc) : Moved w' (Tr.raise e : Tr α) (Tr.raise e) := rfl
theorem lift (x : Except Exc α) : Moved w' (Tr.lift x) (Tr.lift x) := rfl

theorem bind {x y : Tr α} {f g : α → Tr β} (hx : Moved w' x y) (hf : ∀ a, Moved w' (f a) (g a)) :
    Moved w' (Tr.bind x f) (Tr.bind y g) := by
  unfold Moved at hx
  subst hx
  unfold Moved Tr.moved Tr.bind
  dsimp only
  cases hv : x.val with
  | error e => rfl
  | ok a =>
    have h := hf a
    unfold Moved at h
    dsimp only
    rw [h]
    simp [Tr.moved]

theorem ite {c : Prop} [Decidable c] {x y x' y' : Tr α} (hx : Moved w' x x') (hy : Moved w' y y') :
    Moved w' (if c then x else y) (if c then x' else y') := by split <;> assumption

theorem emit (k : MK) (w : Where) (args : List (Str × Arg)) :
    Moved w' (Tr.emit (mkMsg k w args)) (Tr.emit (mkMsg k w' args)) := rfl

theorem noteFunc (s : Str) : Moved w' (Tr.note (.func s)) (Tr.note (.func s)) := rfl
theorem noteApp (s : Str) : Moved w' (Tr.note (.app s)) (Tr.note (.app s)) := rfl
theorem noteVar (s : Str) (w : Where) : Moved w' (Tr.note (.var s w)) (Tr.note (.var s w')) := rfl

theorem mapM {f g : α → Tr β} (h : ∀ a, Moved w' (f a) (g a)) (l : List α) : Moved w' (Tr.mapM f l) (Tr.mapM g l) := by
  induction l with
  | nil => exact .pure _
  | cons a l ih => exact .bind (h a) fun _ => .bind ih fun _ => .pure _

theorem catchParse {x y h k : Tr α} (hx : Moved w' x y) (hh : Moved w' h k) :
    Moved w' (x.catchParse h) (y.catchParse k) := by
  unfold Moved at hx hh
  subst hx hh
  unfold Moved Tr.catchParse Tr.moved
  dsimp only
  split
  · simp
  · rfl

end Moved

/-- Pieces without calls. -/
macro "moved" : tactic => `(tactic| repeat' (first
  | exact Moved.pure _ | exact Moved.raise _ | exact Moved.lift _ | exact Moved.emit _ _ _
  | exact Moved.noteFunc _ | exact Moved.noteApp _ | exact Moved.noteVar _ _
  | assumption
  | refine Moved.bind ?_ (fun _ => ?_)
  | refine Moved.ite ?_ ?_
  | split))

section
variable (env : FEnv) (w w' : Where)

theorem moved_getFunc (f : Str) : Moved w' (getFunc env w f) (getFunc env w' f) := by
  unfold getFunc; dsimp only; moved

theorem moved_countVar (n : Str) : Moved w' (countVar w n) (countVar w' n) := by
  unfold countVar; moved

theorem moved_countArg (a : Arg) : Moved w' (countArg w a) (countArg w' a) := by
  unfold countArg; split
  · exact moved_countVar ..
  · moved

theorem moved_funcBalance (a : Arg) : Moved w' (funcBalance w a) (funcBalance w' a) := by
  unfold funcBalance; moved

theorem moved_writeFunction {call call' : FuncInfo → Arg → Tr Unit} (h : ∀ f a, Moved w' (call f a) (call' f a)) (d : V) :
    Moved w' (writeFunction env w call d) (writeFunction env w' call' d) := by
  unfold writeFunction
  refine .ite (.bind (.lift _) fun parts => ?_) (.raise _)
  split
  · split
    · moved
    · refine .ite ?_ (.raise _)
      dsimp only
      split
      · exact .bind (moved_getFunc ..) fun _ => h _ _
      · moved
  · moved

theorem moved_parseAssignment {call call' : FuncInfo → Arg → Tr Unit} (h : ∀ f a, Moved w' (call f a) (call' f a)) (a : Arg) :
    Moved w' (parseAssignment env w call a) (parseAssignment env w' call' a) := by
  have hw := moved_writeFunction env w w' h
  unfold parseAssignment
  refine .ite (.emit ..) ?_
  split
  · moved
  · refine .bind (.lift _) fun parts => ?_
    split
    · refine .bind ?_ fun _ => ?_
      · moved
      · exact .ite (hw _) (.pure _)
    · moved

theorem moved_callFunc : ∀ (n : Nat) (f : FuncInfo) (a : Arg), Moved w' (callFunc env w n f a) (callFunc env w' n f a) := by
  intro n
  induction n with
  | zero => intro f a; exact .raise _
  | succ n ih =>
    intro f a
    have hb := moved_funcBalance w w' a
    rw [callFunc, callFunc]
    split
    · exact hb
    · exact .bind (moved_parseAssignment env w w' ih a) fun _ => hb
    · refine .bind ?_ fun _ => hb
      moved
    · exact .bind hb fun _ => moved_countArg ..

theorem moved_callFuncTop (f : FuncInfo) (a : Arg) : Moved w' (callFuncTop env w f a) (callFuncTop env w' f a) :=
  moved_callFunc ..

theorem moved_sliceStart (s l : V) : Moved w' (sliceStart w s l) (sliceStart w' s l) := by
  unfold sliceStart; moved
theorem moved_sliceLength (s l : V) : Moved w' (sliceLength w s l) (sliceLength w' s l) := by
  unfold sliceLength; moved
theorem moved_sliceZero (s l : V) : Moved w' (sliceZero w s l) (sliceZero w' s l) := by
  unfold sliceZero; moved

theorem moved_splitSlice (d : V) : Moved w' (splitSlice w d) (splitSlice w' d) := by
  unfold splitSlice
  refine .bind (.lift _) fun _ => .bind (.ite (.pure _) (.emit ..)) fun _ => .bind (moved_sliceStart ..) fun _ =>
    .bind (moved_sliceLength ..) fun _ => .bind (moved_sliceZero ..) fun _ => .pure _

theorem moved_funcTail (d t : V) : Moved w' (funcTail w d t) (funcTail w' d t) := by
  unfold funcTail
  refine .ite (.bind (moved_splitSlice ..) fun _ => ?_) (.pure _)
  moved

theorem moved_funcArgs (d : V) (i : Nat) : Moved w' (funcArgs w d i) (funcArgs w' d i) := by
  unfold funcArgs; dsimp only; moved

theorem moved_readFunction (d : V) : Moved w' (readFunction env w d) (readFunction env w' d) := by
  unfold readFunction
  refine .ite (.raise _) (.bind (moved_funcArgs ..) fun _ => .bind (moved_funcTail ..) fun _ => ?_)
  split
  · moved
  · exact .bind (moved_getFunc ..) fun _ => .bind (moved_callFuncTop ..) fun _ => .lift _
  · moved

theorem moved_countUnlessVar (d : V) : Moved w' (countUnlessVar w d) (countUnlessVar w' d) := by
  unfold countUnlessVar
  exact .ite (.pure _) (moved_countArg ..)

theorem moved_processSlice (d : V) : Moved w' (processSlice w d) (processSlice w' d) := by
  unfold processSlice
  refine .bind (moved_splitSlice ..) fun _ => .bind (moved_countUnlessVar ..) fun _ => ?_
  moved

theorem moved_processVariable (d : V) : Moved w' (processVariable env w d) (processVariable env w' d) := by
  unfold processVariable
  exact .ite (moved_readFunction ..) (.ite (moved_processSlice ..) (.bind (moved_countUnlessVar ..) fun _ => .pure _))

theorem moved_processSubst (c : Bool) (d : V) : Moved w' (processSubst env w c d) (processSubst env w' c d) := by
  unfold processSubst
  exact .ite (moved_processVariable ..) (.pure _)

theorem moved_parseItems : ∀ (n : Nat) (d : Str), Moved w' (parseItems env w n d) (parseItems env w' n d) := by
  intro n
  induction n with
  | zero => intro d; exact .raise _
  | succ n ih =>
    intro d
    rw [parseItems, parseItems]
    split
    · moved
    · split
      · moved
      · refine .bind (.ite (.bind (ih _) fun _ => .pure _) (.pure _)) fun _ => .bind (moved_processSubst ..) fun _ =>
          .bind (ih _) fun _ => .pure _

theorem moved_parseVariables (d : Str) : Moved w' (parseVariables env w d) (parseVariables env w' d) := by
  unfold parseVariables
  exact .bind (moved_parseItems ..) fun _ => .pure _

theorem moved_minMaxCheck (n : Str) (a b : Option Nat) (l : List V) : Moved w' (minMaxCheck w n a b l) (minMaxCheck w' n a b l) := by
  unfold minMaxCheck; moved

theorem moved_pipeCheck (n : Str) (d : V) (l : List V) : Moved w' (pipeCheck w n d l) (pipeCheck w' n d l) := by
  unfold pipeCheck; moved

theorem moved_validateArg (n : Str) (i : Nat) (b : ArgBeh) (a : V) : Moved w' (validateArg w n i b a) (validateArg w' n i b a) := by
  unfold validateArg; moved

theorem moved_validateArgs (n : Str) : ∀ (i : Nat) (b : List ArgBeh) (a : List V),
    Moved w' (validateArgs w n i b a) (validateArgs w' n i b a) := by
  intro i b
  induction b generalizing i with
  | nil => intro a; exact .pure _
  | cons b bs ih =>
    intro a
    cases a with
    | nil => exact .pure _
    | cons a as => exact .bind (moved_validateArg ..) fun _ => ih ..

theorem moved_callArgs (n : Str) (m : Option Nat) (b : List ArgBeh) (d : V) : Moved w' (callArgs w n m b d) (callArgs w' n m b d) := by
  unfold callArgs
  exact .bind (moved_minMaxCheck ..) fun _ => .bind (moved_validateArgs ..) fun _ => .bind (moved_pipeCheck ..) fun _ => .pure _

theorem moved_jumpArgs (n : Str) (d : V) : Moved w' (jumpArgs w n d) (jumpArgs w' n d) := by
  unfold jumpArgs
  exact .bind (moved_minMaxCheck ..) fun _ => .bind (moved_pipeCheck ..) fun _ => .pure _

theorem moved_ifParts (n : Str) (d : V) : Moved w' (ifParts w n d) (ifParts w' n d) := by
  unfold ifParts ifMany ifFew ifOldStyle
  split
  · moved
  · split
    · moved
    · refine .bind ?_ fun _ => .pure _
      split <;> exact .emit ..

theorem moved_ifSplit (n : Str) (d : V) : Moved w' (ifSplit w n d) (ifSplit w' n d) := by
  unfold ifSplit
  exact .bind (moved_ifParts ..) fun _ => .bind (.lift _) fun _ => .bind (.ite (.emit ..) (.pure _)) fun _ => .pure _

theorem moved_condSplit (n : Str) (d : V) : Moved w' (condSplit w n d) (condSplit w' n d) := by
  unfold condSplit
  exact .bind (moved_ifSplit ..) fun _ => .bind (.ite (.emit ..) (.pure _)) fun _ => .pure _

theorem moved_gosubPrio (d : V) : Moved w' (gosubPrio w d) (gosubPrio w' d) := by
  unfold gosubPrio; moved

theorem moved_gosubDest (n : Str) (b : Bool) (l : List V) : Moved w' (gosubDest w n b l) (gosubDest w' n b l) := by
  have h := moved_gosubPrio w w'
  unfold gosubDest
  split
  · moved
  · exact .bind (h _) fun _ => .pure _
  · exact .bind (h _) fun _ => .pure _
  · exact .bind (h _) fun _ => .pure _
  · exact .bind (.ite (.emit ..) (.pure _)) fun _ => .bind (h _) fun _ => .pure _

theorem moved_appBalance (d : V) : Moved w' (appBalance w d) (appBalance w' d) := by
  unfold appBalance; moved

theorem moved_execAll {f g : Option Str → Arg → Tr (Option Str)} (h : ∀ s a, Moved w' (f s a) (g s a)) (l : List Arg) :
    ∀ sp, Moved w' (execAll f sp l) (execAll g sp l) := by
  induction l with
  | nil => intro sp; exact .pure _
  | cons a l ih => intro sp; exact .bind (h ..) fun _ => ih _

theorem moved_callApp {f g : Option Str → Arg → Tr (Option Str)} (h : ∀ s a, Moved w' (f s a) (g s a)) (sp : Option Str)
    (app : AppInfo) (d : V) : Moved w' (callApp env f sp w app d) (callApp env g sp w' app d) := by
  unfold callApp
  split
  · exact .bind (moved_appBalance ..) fun _ => .pure _
  · exact .bind (moved_appBalance ..) fun _ => .pure _
  · exact .bind (moved_parseAssignment _ _ _ (moved_callFuncTop env w w') _) fun _ => .bind (moved_appBalance ..) fun _ => .pure _
  · exact .bind (moved_callArgs ..) fun _ => .pure _
  · exact .bind (moved_jumpArgs ..) fun _ => .bind (.lift _) fun _ => .pure _
  · exact .bind (moved_condSplit ..) fun _ => .bind (.mapM (fun _ => .lift _) _) fun _ => .pure _
  · exact .bind (moved_ifSplit ..) fun _ => .pure _
  · exact .bind (moved_jumpArgs ..) fun _ => .bind (moved_gosubDest ..) fun _ => .pure _
  · exact .bind (moved_condSplit ..) fun _ => .bind (.mapM (fun _ => moved_gosubDest ..) _) fun _ => .pure _
  · exact .bind (moved_condSplit ..) fun _ => .bind (moved_execAll _ h _ _) fun _ => .pure _

theorem moved_splitAppEnd (a : V) (d : Str) : Moved w' (splitAppEnd w a d) (splitAppEnd w' a d) := by
  unfold splitAppEnd
  split
  · refine .ite (.bind (.emit ..) fun _ => .pure _) (.bind ?_ fun _ => ?_)
    · moved
    · moved
  · moved

theorem moved_splitAppBare (a : V) : Moved w' (splitAppBare env w a) (splitAppBare env w' a) := by
  unfold splitAppBare
  split
  · exact .bind (.ite (.emit ..) (.pure _)) fun _ => moved_splitAppEnd ..
  · moved

theorem moved_splitAppData (a : Arg) : Moved w' (splitAppData env w a) (splitAppData env w' a) := by
  unfold splitAppData
  split
  · moved
  · refine .bind (.lift _) fun _ => ?_
    split
    · exact .bind (.lift _) fun _ => moved_splitAppEnd ..
    · exact moved_splitAppBare ..

theorem moved_parseInner (a d : Str) : Moved w' (parseInner env w a d) (parseInner env w' a d) := by
  unfold parseInner
  exact .ite (.catchParse (moved_parseVariables ..) (.bind (.emit ..) fun _ => .pure _)) (.pure _)

theorem moved_checkAvailability (a d : Str) : Moved w' (checkAvailability w a d) (checkAvailability w' a d) := by
  unfold checkAvailability; moved

theorem moved_getApp (env : AEnv) (sp : Option Str) (a : Str) : Moved w' (getApp env sp w a) (getApp env sp w' a) := by
  unfold getApp
  split
  · moved
  · exact .bind (.noteApp _) fun _ => .bind (moved_checkAvailability ..) fun _ => .pure _

theorem moved_runApp (env : AEnv) : ∀ (n : Nat) (sp : Option Str) (a : Arg), Moved w' (runApp env n sp w a) (runApp env n sp w' a) := by
  intro n
  induction n with
  | zero => intro sp a; exact .raise _
  | succ n ih =>
    intro sp a
    rw [runApp, runApp]
    refine .bind (moved_splitAppData ..) fun r => ?_
    split
    · moved
    · exact .bind (moved_getApp ..) fun _ => .bind (moved_parseInner ..) fun _ =>
        moved_callApp _ _ _ (fun _ _ => .bind (ih ..) fun _ => .pure _) _ _ _

end
end ALint
