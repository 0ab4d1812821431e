import Verif.Proofs.Uses
import Verif.Model.Dialplan

/-!
# What applications can report, and where
-/

namespace ALint
open ALint.Spec

variable {I : EvInv} {w : Where}

theorem keeps_minMax {env : FEnv} (h : Allows I w env) (name : Str) (mn mx : Option Nat) (args : List V) :
    Keeps I (minMaxCheck w name mn mx args) := by
  unfold minMaxCheck
  exact .ite (keeps_emit h _ _ (by emit_ok)) (.ite (keeps_emit h _ _ (by emit_ok)) (.pure _))

theorem keeps_pipe {env : FEnv} (h : Allows I w env) (name : Str) (data : V) (args : List V) :
    Keeps I (pipeCheck w name data args) := by
  unfold pipeCheck
  split
  · exact .ite (keeps_emit h _ _ (by emit_ok)) (.pure _)
  · exact .pure _

theorem keeps_validate {env : FEnv} (h : Allows I w env) (name : Str) (n : Nat) (b : ArgBeh) (a : V) :
    Keeps I (validateArg w name n b a) := by
  unfold validateArg
  split
  · exact .pure _
  · exact .bind (.ite (.pure _) (keeps_emit h _ _ (by emit_ok))) fun _ =>
      .ite (keeps_emit h _ _ (by emit_ok)) (.pure _)
  · exact .ite (.pure _) (keeps_emit h _ _ (by emit_ok))

theorem keeps_validateAll {env : FEnv} (h : Allows I w env) (name : Str) (n : Nat) (bs : List ArgBeh) (as : List V) :
    Keeps I (validateArgs w name n bs as) := by
  induction bs generalizing n as with
  | nil => exact .pure _
  | cons b bs ih =>
    cases as with
    | nil => exact .pure _
    | cons a as => exact .bind (keeps_validate h _ _ _ _) fun _ => ih _ _

theorem keeps_callArgs {env : FEnv} (h : Allows I w env) (name : Str) (mn : Option Nat) (bs : List ArgBeh) (data : V) :
    Keeps I (callArgs w name mn bs data) := by
  unfold callArgs
  exact .bind (keeps_minMax h _ _ _ _) fun _ => .bind (keeps_validateAll h _ _ _ _) fun _ =>
    .bind (keeps_pipe h _ _ _) fun _ => .pure _

theorem keeps_jumpArgs {env : FEnv} (h : Allows I w env) (name : Str) (data : V) : Keeps I (jumpArgs w name data) := by
  unfold jumpArgs
  exact .bind (keeps_minMax h _ _ _ _) fun _ => .bind (keeps_pipe h _ _ _) fun _ => .pure _

theorem keeps_ifParts {env : FEnv} (h : Allows I w env) (name : Str) (data : V) : Keeps I (ifParts w name data) := by
  unfold ifParts
  split
  · exact .bind (.ite (.pure _) (keeps_emit h _ _ (by emit_ok))) fun _ => .pure _
  · split
    · exact .raise _
    · refine .bind ?_ fun _ => .pure _
      split
      · exact keeps_emit h _ _ (by emit_ok)
      · exact keeps_emit h _ _ (by emit_ok)

theorem keeps_ifSplit {env : FEnv} (h : Allows I w env) (name : Str) (data : V) : Keeps I (ifSplit w name data) := by
  unfold ifSplit
  exact .bind (keeps_ifParts h _ _) fun _ => .bind (.lift _) fun _ =>
    .bind (.ite (keeps_emit h _ _ (by emit_ok)) (.pure _)) fun _ => .pure _

theorem keeps_condSplit {env : FEnv} (h : Allows I w env) (name : Str) (data : V) : Keeps I (condSplit w name data) := by
  unfold condSplit
  exact .bind (keeps_ifSplit h _ _) fun _ => .bind (.ite (keeps_emit h _ _ (by emit_ok)) (.pure _)) fun _ => .pure _

theorem keeps_gosubPrio {env : FEnv} (h : Allows I w env) (prio : V) : Keeps I (gosubPrio w prio) := by
  unfold gosubPrio
  exact .ite (.bind (.ite (.pure _) (keeps_emit h _ _ (by emit_ok))) fun _ => .pure _) (.pure _)

theorem keeps_gosubDest {env : FEnv} (h : Allows I w env) (name : Str) (warn : Bool) (args : List V) :
    Keeps I (gosubDest w name warn args) := by
  unfold gosubDest
  split
  · exact .raise _
  · exact .bind (keeps_gosubPrio h _) fun _ => .pure _
  · exact .bind (keeps_gosubPrio h _) fun _ => .pure _
  · exact .bind (keeps_gosubPrio h _) fun _ => .pure _
  · exact .bind (.ite (keeps_emit h _ _ (by emit_ok)) (.pure _)) fun _ =>
      .bind (keeps_gosubPrio h _) fun _ => .pure _

theorem keeps_mapM {α β : Type} (f : α → Tr β) (hf : ∀ a, Keeps I (f a)) (as : List α) :
    Keeps I (Tr.mapM f as) := by
  induction as with
  | nil => exact .pure _
  | cons a as ih => exact .bind (hf a) fun _ => .bind ih fun _ => .pure _

theorem keeps_appBalance {env : FEnv} (h : Allows I w env) (data : V) : Keeps I (appBalance w data) := by
  unfold appBalance
  exact .ite (.pure _) (.bind (.lift _) fun _ => keeps_emit h _ _ (by emit_ok))

theorem keeps_execAll (inner : Option Str → Arg → Tr (Option Str)) (hi : ∀ sp a, Keeps I (inner sp a))
    (sp : Option Str) (as : List Arg) : Keeps I (execAll inner sp as) := by
  induction as generalizing sp with
  | nil => exact .pure _
  | cons a as ih => exact .bind (hi _ _) fun _ => ih _

theorem keeps_callFuncTop {env : FEnv} (h : Allows I w env) (hc : ∀ n, Keeps I (countVar w n)) (s : Str)
    (f : FuncInfo) (hf : env.funcs s = some f) (a : Arg) : Keeps I (callFuncTop env w f a) :=
  keeps_callFunc h (fun _ => hc) _ s f hf a

theorem keeps_callApp {env : FEnv} (h : Allows I w env) (hc : ∀ n, Keeps I (countVar w n))
    (inner : Option Str → Arg → Tr (Option Str)) (hi : ∀ sp a, Keeps I (inner sp a)) (sp : Option Str)
    (app : AppInfo) (data : V) : Keeps I (callApp env inner sp w app data) := by
  unfold callApp
  split
  · exact .bind (keeps_appBalance h _) fun _ => .pure _
  · exact .bind (keeps_appBalance h _) fun _ => .pure _
  · exact .bind (keeps_parseAssignment h _ (fun s f a hf => keeps_callFuncTop h hc s f hf a) _)
      fun _ => .bind (keeps_appBalance h _) fun _ => .pure _
  · exact .bind (keeps_callArgs h _ _ _ _) fun _ => .pure _
  · exact .bind (keeps_jumpArgs h _ _) fun _ => .bind (.lift _) fun _ => .pure _
  · exact .bind (keeps_condSplit h _ _) fun _ => .bind (keeps_mapM _ (fun _ => .lift _) _) fun _ => .pure _
  · exact .bind (keeps_ifSplit h _ _) fun _ => .pure _
  · exact .bind (keeps_jumpArgs h _ _) fun _ => .bind (keeps_gosubDest h _ _ _) fun _ => .pure _
  · exact .bind (keeps_condSplit h _ _) fun _ =>
      .bind (keeps_mapM _ (fun _ => keeps_gosubDest h _ _ _) _) fun _ => .pure _
  · exact .bind (keeps_condSplit h _ _) fun _ => .bind (keeps_execAll _ hi _ _) fun _ => .pure _

theorem keeps_splitAppEnd {env : FEnv} (h : Allows I w env) (app : V) (data : Str) : Keeps I (splitAppEnd w app data) := by
  unfold splitAppEnd
  split
  · refine .ite (.bind (keeps_emit h _ _ (by emit_ok)) fun _ => .pure _) ?_
    exact .bind (.ite (keeps_emit h _ _ (by emit_ok)) (.pure _)) fun _ =>
      .ite (.bind (keeps_emit h _ _ (by emit_ok)) fun _ => .pure _) (.pure _)
  · exact .raise _

theorem keeps_splitAppData {env : FEnv} (h : Allows I w env) (raw : Arg) : Keeps I (splitAppData env w raw) := by
  unfold splitAppData
  split
  · exact .raise _
  · refine .bind (.lift _) fun parts => ?_
    split
    · exact .bind (.lift _) fun _ => keeps_splitAppEnd h _ _
    · unfold splitAppBare
      split
      · exact .bind (.ite (keeps_emit h _ _ (by emit_ok)) (.pure _)) fun _ => keeps_splitAppEnd h _ _
      · exact .raise _

theorem keeps_parseVariables {env : FEnv} (h : Allows I w env) (hc : ∀ n, Keeps I (countVar w n)) (s : Str) :
    Keeps I (parseVariables env w s) :=
  .bind (keeps_items h hc s) fun _ => .pure _

theorem keeps_parseInner {env : FEnv} (h : Allows I w env) (hc : ∀ n, Keeps I (countVar w n)) (app data : Str) :
    Keeps I (parseInner env w app data) := by
  unfold parseInner
  refine .ite ?_ (.pure _)
  unfold Tr.catchParse
  split
  · exact I.append _ _ (keeps_parseVariables h hc _)
      (Keeps.bind (keeps_emit h _ _ (by emit_ok)) fun _ => .pure _)
  · exact keeps_parseVariables h hc _

theorem keeps_getApp {env : AEnv} (h : Allows I w env.toFEnv) (sp : Option Str) (app : Str) :
    Keeps I (getApp env sp w app) := by
  unfold getApp
  split
  · exact .raise _
  · refine .bind (h.app _) fun _ => .bind ?_ fun _ => .pure _
    unfold checkAvailability
    exact .ite (.pure _) (.ite (keeps_emit h _ _ (by emit_ok)) (keeps_emit h _ _ (by emit_ok)))

theorem keeps_runApp {env : AEnv} (h : Allows I w env.toFEnv) (hc : ∀ n, Keeps I (countVar w n)) (depth : Nat)
    (sp : Option Str) (raw : Arg) : Keeps I (runApp env depth sp w raw) := by
  induction depth generalizing sp raw with
  | zero => exact .raise _
  | succ depth ih =>
    rw [runApp]
    refine .bind (keeps_splitAppData h _) fun r => ?_
    split
    · exact .pure _
    · exact .bind (keeps_getApp h _ _) fun _ => .bind (keeps_parseInner h hc _ _) fun _ =>
        keeps_callApp h hc _ (fun sp a => .bind (ih sp a) fun _ => .pure _) _ _ _

/-- Messages are about the text of applications, and about this line. -/
def hereInv (w : Where) : EvInv where
  P := fun evs => ∀ m, Ev.msg m ∈ evs → m.at_ = w ∧ appKind m.kind = true
  nil := by simp
  append := by
    intro a b ha hb m hm
    rcases List.mem_append.1 hm with hm | hm
    · exact ha m hm
    · exact hb m hm

theorem here_runApp (env : AEnv) (depth : Nat) (sp : Option Str) (w : Where) (raw : Arg) (m : Msg)
    (h : m ∈ evMsgs (runApp env depth sp w raw).ev) : m.at_ = w ∧ appKind m.kind = true := by
  have ha : Allows (hereInv w) w env.toFEnv :=
    ⟨by intro m h1 h2 _ _ m' h; simp at h; subst h; exact ⟨h1, h2⟩,
      keeps_get _ (by intro f m h; simp at h) (by
        intro m h1 h2 _ m' h
        simp at h
        subst h
        exact ⟨h1, by rcases h2 with h2 | h2 <;> rw [h2] <;> rfl⟩),
      by intro f m h; simp at h⟩
  have hc : ∀ n, Keeps (hereInv w) (countVar w n) := by
    intro n
    rw [countVar_eq]
    intro m hm
    by_cases hl : legalName n = true
    · simp [hl] at hm
    · simp [hl] at hm; subst hm; exact ⟨rfl, rfl⟩
  refine keeps_runApp ha hc depth sp raw m ?_
  unfold evMsgs at h
  obtain ⟨e, he, h'⟩ := List.mem_filterMap.1 h
  cases e <;> simp at h'
  exact h' ▸ he

end ALint
