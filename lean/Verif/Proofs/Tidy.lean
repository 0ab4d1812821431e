import Verif.Model.Odbc
import Verif.Model.Dialplan
import Verif.Proofs.Call
import Verif.Spec.Message

/-!
# Only the last message of a run can be one that cannot be printed
-/

namespace ALint
open Spec (Prints)

/-- All messages have a text, or the last one ended everything. -/
structure Tidy {α : Type} (x : Tr α) : Prop where
  out : (∀ m, Ev.msg m ∈ x.ev → Prints m) ∨
    ∃ pre m e, x.ev = pre ++ [Ev.msg m] ∧ (∀ m', Ev.msg m' ∈ pre → Prints m') ∧ m.render = .error e ∧ x.val = .error e

theorem render_not_parse {m : Msg} {e : Exc} (h : m.render = .error e) : e ≠ .varParseError := by
  rcases renderAll_error _ _ _ h with rfl | rfl <;> simp

namespace Tidy
variable {α β : Type}

theorem pure (a : α) : Tidy (Tr.pure a) := ⟨.inl (by intro m hm; cases hm)⟩
theorem raise (e : Exc) : Tidy (Tr.raise e : Tr α) := ⟨.inl (by intro m hm; cases hm)⟩
theorem lift (x : Except Exc α) : Tidy (Tr.lift x) := ⟨.inl (by intro m hm; cases hm)⟩
theorem noteFunc (s : Str) : Tidy (Tr.note (.func s)) := ⟨.inl (by intro m hm; simp [Tr.note] at hm)⟩
theorem noteApp (s : Str) : Tidy (Tr.note (.app s)) := ⟨.inl (by intro m hm; simp [Tr.note] at hm)⟩
theorem noteVar (s : Str) (w : Where) : Tidy (Tr.note (.var s w)) := ⟨.inl (by intro m hm; simp [Tr.note] at hm)⟩

theorem emit (m : Msg) : Tidy (Tr.emit m) := by
  cases h : m.render with
  | ok t =>
    refine ⟨.inl fun m' hm => ?_⟩
    obtain rfl : m' = m := by simpa [Tr.emit] using hm
    exact ⟨t, h⟩
  | error e => exact ⟨.inr ⟨[], m, e, rfl, by simp, h, by simp [Tr.emit, h, Except.map]⟩⟩

theorem bind {x : Tr α} {f : α → Tr β} (hx : Tidy x) (hf : ∀ a, Tidy (f a)) : Tidy (Tr.bind x f) := by
  unfold Tr.bind
  split
  · rename_i e he
    rcases hx.out with h | ⟨pre, m, e', h1, h2, h3, h4⟩
    · exact ⟨.inl h⟩
    · rw [he] at h4
      exact ⟨.inr ⟨pre, m, e', h1, h2, h3, by simpa using h4⟩⟩
  · rename_i a ha
    have hall : ∀ m, Ev.msg m ∈ x.ev → Prints m := by
      rcases hx.out with h | ⟨pre, m, e', h1, h2, h3, h4⟩
      · exact h
      · rw [ha] at h4; simp at h4
    rcases (hf a).out with h | ⟨pre, m, e', h1, h2, h3, h4⟩
    · refine ⟨.inl fun m hm => ?_⟩
      rcases List.mem_append.1 hm with hm | hm
      · exact hall m hm
      · exact h m hm
    · refine ⟨.inr ⟨x.ev ++ pre, m, e', by simp [h1], fun m' hm => ?_, h3, h4⟩⟩
      rcases List.mem_append.1 hm with hm | hm
      · exact hall m' hm
      · exact h2 m' hm

theorem ite {c : Prop} [Decidable c] {x y : Tr α} (hx : Tidy x) (hy : Tidy y) : Tidy (if c then x else y) := by
  split <;> assumption

theorem mapM {f : α → Tr β} (h : ∀ a, Tidy (f a)) (l : List α) : Tidy (Tr.mapM f l) := by
  induction l with
  | nil => exact .pure _
  | cons a l ih => exact .bind (h a) fun _ => .bind ih fun _ => .pure _

theorem catchParse {x h : Tr α} (hx : Tidy x) (hh : Tidy h) : Tidy (x.catchParse h) := by
  unfold Tr.catchParse
  split
  · rename_i he
    have hall : ∀ m, Ev.msg m ∈ x.ev → Prints m := by
      rcases hx.out with h | ⟨pre, m, e', h1, h2, h3, h4⟩
      · exact h
      · rw [he] at h4
        simp only [Except.error.injEq] at h4
        exact absurd h4.symm (render_not_parse h3)
    rcases hh.out with h | ⟨pre, m, e', h1, h2, h3, h4⟩
    · refine ⟨.inl fun m hm => ?_⟩
      rcases List.mem_append.1 hm with hm | hm
      · exact hall m hm
      · exact h m hm
    · refine ⟨.inr ⟨x.ev ++ pre, m, e', by simp [h1], fun m' hm => ?_, h3, h4⟩⟩
      rcases List.mem_append.1 hm with hm | hm
      · exact hall m' hm
      · exact h2 m' hm
  · exact hx

end Tidy

/-- Pieces without calls. -/
macro "tidy" : tactic => `(tactic| repeat' (first
  | exact Tidy.pure _ | exact Tidy.raise _ | exact Tidy.lift _ | exact Tidy.emit _
  | exact Tidy.noteFunc _ | exact Tidy.noteApp _ | exact Tidy.noteVar _ _
  | assumption
  | refine Tidy.bind ?_ (fun _ => ?_)
  | refine Tidy.ite ?_ ?_
  | split))

section
variable (env : FEnv) (w : Where)

theorem tidy_getFunc (f : Str) : Tidy (getFunc env w f) := by
  unfold getFunc; dsimp only; tidy

theorem tidy_countVar (n : Str) : Tidy (countVar w n) := by
  unfold countVar; tidy

theorem tidy_countArg (a : Arg) : Tidy (countArg w a) := by
  unfold countArg; split
  · exact tidy_countVar ..
  · tidy

theorem tidy_funcBalance (a : Arg) : Tidy (funcBalance w a) := by
  unfold funcBalance; tidy

theorem tidy_writeFunction {call : FuncInfo → Arg → Tr Unit} (h : ∀ f a, Tidy (call f a)) (d : V) :
    Tidy (writeFunction env w call d) := by
  unfold writeFunction
  refine .ite (.bind (.lift _) fun parts => ?_) (.raise _)
  split
  · split
    · tidy
    · refine .ite ?_ (.raise _)
      dsimp only
      split
      · exact .bind (tidy_getFunc ..) fun _ => h _ _
      · tidy
  · tidy

theorem tidy_parseAssignment {call : FuncInfo → Arg → Tr Unit} (h : ∀ f a, Tidy (call f a)) (a : Arg) :
    Tidy (parseAssignment env w call a) := by
  have hw := tidy_writeFunction env w h
  unfold parseAssignment
  refine .ite (.emit _) ?_
  split
  · tidy
  · refine .bind (.lift _) fun parts => ?_
    split
    · refine .bind ?_ fun _ => ?_
      · tidy
      · exact .ite (hw _) (.pure _)
    · tidy

theorem tidy_callFunc : ∀ (n : Nat) (f : FuncInfo) (a : Arg), Tidy (callFunc env w n f a) := by
  intro n
  induction n with
  | zero => intro f a; exact .raise _
  | succ n ih =>
    intro f a
    have hb := tidy_funcBalance w a
    rw [callFunc]
    split
    · exact hb
    · exact .bind (tidy_parseAssignment env w ih a) fun _ => hb
    · refine .bind ?_ fun _ => hb
      tidy
    · exact .bind hb fun _ => tidy_countArg ..

theorem tidy_callFuncTop (f : FuncInfo) (a : Arg) : Tidy (callFuncTop env w f a) := tidy_callFunc ..

theorem tidy_splitSlice (d : V) : Tidy (splitSlice w d) := by
  unfold splitSlice sliceStart sliceLength sliceZero
  refine .bind (.lift _) fun _ => .bind (.ite (.pure _) (.emit _)) fun _ => .bind ?_ fun _ =>
    .bind ?_ fun _ => .bind ?_ fun _ => .pure _
  all_goals tidy

theorem tidy_readFunction (d : V) : Tidy (readFunction env w d) := by
  unfold readFunction
  refine .ite (.raise _) (.bind ?_ fun _ => .bind ?_ fun _ => ?_)
  · unfold funcArgs; dsimp only; tidy
  · unfold funcTail
    refine .ite (.bind (tidy_splitSlice ..) fun _ => ?_) (.pure _)
    tidy
  · split
    · tidy
    · exact .bind (tidy_getFunc ..) fun _ => .bind (tidy_callFuncTop ..) fun _ => .lift _
    · tidy

theorem tidy_countUnlessVar (d : V) : Tidy (countUnlessVar w d) := by
  unfold countUnlessVar
  exact .ite (.pure _) (tidy_countArg ..)

theorem tidy_processVariable (d : V) : Tidy (processVariable env w d) := by
  unfold processVariable processSlice
  refine .ite (tidy_readFunction ..) (.ite (.bind (tidy_splitSlice ..) fun _ => .bind (tidy_countUnlessVar ..) fun _ => ?_)
    (.bind (tidy_countUnlessVar ..) fun _ => .pure _))
  tidy

theorem tidy_parseItems : ∀ (n : Nat) (d : Str), Tidy (parseItems env w n d) := by
  intro n
  induction n with
  | zero => intro d; exact .raise _
  | succ n ih =>
    intro d
    rw [parseItems]
    split
    · tidy
    · split
      · tidy
      · refine .bind (.ite (.bind (ih _) fun _ => .pure _) (.pure _)) fun _ => .bind ?_ fun _ =>
          .bind (ih _) fun _ => .pure _
        unfold processSubst
        exact .ite (tidy_processVariable ..) (.pure _)

theorem tidy_parseVariables (d : Str) : Tidy (parseVariables env w d) := by
  unfold parseVariables
  exact .bind (tidy_parseItems ..) fun _ => .pure _

theorem tidy_minMaxCheck (n : Str) (a b : Option Nat) (l : List V) : Tidy (minMaxCheck w n a b l) := by
  unfold minMaxCheck; tidy

theorem tidy_pipeCheck (n : Str) (d : V) (l : List V) : Tidy (pipeCheck w n d l) := by
  unfold pipeCheck; tidy

theorem tidy_validateArgs (n : Str) : ∀ (i : Nat) (b : List ArgBeh) (a : List V), Tidy (validateArgs w n i b a) := by
  intro i b
  induction b generalizing i with
  | nil => intro a; exact .pure _
  | cons b bs ih =>
    intro a
    cases a with
    | nil => exact .pure _
    | cons a as =>
      refine .bind ?_ fun _ => ih ..
      unfold validateArg; tidy

theorem tidy_jumpArgs (n : Str) (d : V) : Tidy (jumpArgs w n d) := by
  unfold jumpArgs
  exact .bind (tidy_minMaxCheck ..) fun _ => .bind (tidy_pipeCheck ..) fun _ => .pure _

theorem tidy_ifSplit (n : Str) (d : V) : Tidy (ifSplit w n d) := by
  unfold ifSplit
  refine .bind ?_ fun _ => .bind (.lift _) fun _ => .bind (.ite (.emit _) (.pure _)) fun _ => .pure _
  unfold ifParts
  split
  · tidy
  · split
    · tidy
    · exact .bind (.emit _) fun _ => .pure _

theorem tidy_condSplit (n : Str) (d : V) : Tidy (condSplit w n d) := by
  unfold condSplit
  exact .bind (tidy_ifSplit ..) fun _ => .bind (.ite (.emit _) (.pure _)) fun _ => .pure _

theorem tidy_gosubDest (n : Str) (b : Bool) (l : List V) : Tidy (gosubDest w n b l) := by
  have h : ∀ d, Tidy (gosubPrio w d) := by intro d; unfold gosubPrio; tidy
  unfold gosubDest
  split
  · tidy
  · exact .bind (h _) fun _ => .pure _
  · exact .bind (h _) fun _ => .pure _
  · exact .bind (h _) fun _ => .pure _
  · exact .bind (.ite (.emit _) (.pure _)) fun _ => .bind (h _) fun _ => .pure _

theorem tidy_appBalance (d : V) : Tidy (appBalance w d) := by
  unfold appBalance; tidy

theorem tidy_execAll {inner : Option Str → Arg → Tr (Option Str)} (h : ∀ sp a, Tidy (inner sp a)) :
    ∀ (l : List Arg) (sp : Option Str), Tidy (execAll inner sp l)
  | [], _ => .pure _
  | a :: l, sp => .bind (h sp a) fun sp => tidy_execAll h l sp

theorem tidy_callApp {inner : Option Str → Arg → Tr (Option Str)} (h : ∀ sp a, Tidy (inner sp a)) (sp : Option Str)
    (app : AppInfo) (d : V) : Tidy (callApp env inner sp w app d) := by
  unfold callApp
  split
  · exact .bind (tidy_appBalance ..) fun _ => .pure _
  · exact .bind (tidy_appBalance ..) fun _ => .pure _
  · exact .bind (tidy_parseAssignment _ _ (tidy_callFuncTop env w) _) fun _ =>
      .bind (tidy_appBalance ..) fun _ => .pure _
  · unfold callArgs
    exact .bind (.bind (tidy_minMaxCheck ..) fun _ => .bind (tidy_validateArgs ..) fun _ => .bind (tidy_pipeCheck ..) fun _ => .pure _)
      fun _ => .pure _
  · exact .bind (tidy_jumpArgs ..) fun _ => .bind (.lift _) fun _ => .pure _
  · exact .bind (tidy_condSplit ..) fun _ => .bind (.mapM (fun _ => .lift _) _) fun _ => .pure _
  · exact .bind (tidy_ifSplit ..) fun _ => .pure _
  · exact .bind (tidy_jumpArgs ..) fun _ => .bind (tidy_gosubDest ..) fun _ => .pure _
  · exact .bind (tidy_condSplit ..) fun _ => .bind (.mapM (fun _ => tidy_gosubDest ..) _) fun _ => .pure _
  · exact .bind (tidy_condSplit ..) fun _ => .bind (tidy_execAll h _ _) fun _ => .pure _

theorem tidy_splitAppEnd (a : V) (d : Str) : Tidy (splitAppEnd w a d) := by
  unfold splitAppEnd; dsimp only; tidy

theorem tidy_splitAppData (a : Arg) : Tidy (splitAppData env w a) := by
  unfold splitAppData
  split
  · tidy
  · refine .bind (.lift _) fun _ => ?_
    split
    · exact .bind (.lift _) fun _ => tidy_splitAppEnd ..
    · unfold splitAppBare
      split
      · exact .bind (.ite (.emit _) (.pure _)) fun _ => tidy_splitAppEnd ..
      · tidy

theorem tidy_parseInner (a d : Str) : Tidy (parseInner env w a d) := by
  unfold parseInner
  exact .ite (.catchParse (tidy_parseVariables ..) (.bind (.emit _) fun _ => .pure _)) (.pure _)

end

theorem tidy_getApp (env : AEnv) (sp : Option Str) (w : Where) (a : Str) : Tidy (getApp env sp w a) := by
  unfold getApp checkAvailability
  split
  · tidy
  · exact .bind (.noteApp _) fun _ => .bind (.ite (.pure _) (.ite (.emit _) (.emit _))) fun _ => .pure _

theorem tidy_runApp (env : AEnv) : ∀ (depth : Nat) (sp : Option Str) (w : Where) (raw : Arg), Tidy (runApp env depth sp w raw) := by
  intro depth
  induction depth with
  | zero => intro sp w raw; exact .raise _
  | succ depth ih =>
    intro sp w raw
    rw [runApp]
    refine .bind (tidy_splitAppData ..) fun r => ?_
    cases r with
    | none => exact .pure _
    | some r =>
      exact .bind (tidy_getApp ..) fun _ => .bind (tidy_parseInner ..) fun _ =>
        tidy_callApp _ _ (fun sp a => .bind (ih sp w a) fun _ => .pure _) _ _ _

/-- The same for results with a log. -/
structure TidyR {α : Type} (x : Res α) : Prop where
  out : (∀ m ∈ x.log, Prints m) ∨
    ∃ pre m e e', x.log = pre ++ [m] ∧ (∀ m' ∈ pre, Prints m') ∧ m.render = .error e ∧ x.val = .error e'

namespace TidyR
variable {α β : Type}

theorem pure (a : α) : TidyR (Res.pure a) := ⟨.inl (by intro m hm; cases hm)⟩
theorem raise (e : Exc) : TidyR (Res.raise e : Res α) := ⟨.inl (by intro m hm; cases hm)⟩
theorem lift (x : Except Exc α) : TidyR (Res.lift x) := ⟨.inl (by intro m hm; cases hm)⟩

theorem emit (m : Msg) : TidyR (Res.emit m) := by
  cases h : m.render with
  | ok t => exact ⟨.inl (by intro m' hm; obtain rfl : m' = m := by simpa [Res.emit] using hm
                            exact ⟨t, h⟩)⟩
  | error e => exact ⟨.inr ⟨[], m, e, e, rfl, by simp, h, by simp [Res.emit, h, Except.map]⟩⟩

theorem bind {x : Res α} {f : α → Res β} (hx : TidyR x) (hf : ∀ a, TidyR (f a)) : TidyR (Res.bind x f) := by
  unfold Res.bind
  split
  · rename_i e he
    rcases hx.out with h | ⟨pre, m, e', _, h1, h2, h3, h4⟩
    · exact ⟨.inl h⟩
    · exact ⟨.inr ⟨pre, m, e', e, h1, h2, h3, rfl⟩⟩
  · rename_i a ha
    have hall : ∀ m ∈ x.log, Prints m := by
      rcases hx.out with h | ⟨pre, m, e', _, h1, h2, h3, h4⟩
      · exact h
      · rw [ha] at h4; simp at h4
    rcases (hf a).out with h | ⟨pre, m, e', e'', h1, h2, h3, h4⟩
    · refine ⟨.inl fun m hm => ?_⟩
      rcases List.mem_append.1 hm with hm | hm
      · exact hall m hm
      · exact h m hm
    · refine ⟨.inr ⟨x.log ++ pre, m, e', e'', by simp [h1], fun m' hm => ?_, h3, h4⟩⟩
      rcases List.mem_append.1 hm with hm | hm
      · exact hall m' hm
      · exact h2 m' hm

theorem ite {c : Prop} [Decidable c] {x y : Res α} (hx : TidyR x) (hy : TidyR y) : TidyR (if c then x else y) := by
  split <;> assumption

theorem emitAll : ∀ ms : List Msg, TidyR (Res.emitAll ms)
  | [] => .pure _
  | m :: ms => .bind (.emit m) fun _ => emitAll ms

theorem wrap {r : Res α} (h : TidyR r) : TidyR (wrapExc r) := by
  rcases h.out with h | ⟨pre, m, e, e', h1, h2, h3, h4⟩
  · exact ⟨.inl h⟩
  · exact ⟨.inr ⟨pre, m, e, .programmingError e', h1, h2, h3, by simp [wrapExc, h4]⟩⟩

theorem feed {σ : Type} {agg : σ → Elem → Res σ} (h : ∀ s e, TidyR (agg s e)) :
    ∀ (es : List Elem) (s : σ), TidyR (feed agg s es)
  | [], _ => .pure _
  | e :: es, s => .bind (.wrap (h s e)) fun s => feed h es s

theorem toRes {x : Tr α} (h : Tidy x) : TidyR x.toRes := by
  have hm : ∀ (l : List Ev) m, m ∈ evMsgs l → Ev.msg m ∈ l := by
    intro l m hm
    unfold evMsgs at hm
    obtain ⟨e, he, h'⟩ := List.mem_filterMap.1 hm
    cases e <;> simp at h'
    exact h' ▸ he
  rcases h.out with h | ⟨pre, m, e, h1, h2, h3, h4⟩
  · exact ⟨.inl fun m hm' => h m (hm _ _ hm')⟩
  · refine ⟨.inr ⟨evMsgs pre, m, e, e, ?_, fun m' h' => h2 m' (hm _ _ h'), h3, ?_⟩⟩
    · show evMsgs x.ev = _
      rw [h1]
      simp [evMsgs]
    · show x.val.map _ = _
      rw [h4]
      rfl

/-- A run that ended well printed all its messages. -/
theorem ok {x : Res α} (h : TidyR x) {a : α} (ha : x.val = .ok a) : ∀ m ∈ x.log, Prints m := by
  rcases h.out with h | ⟨pre, m, e, e', h1, h2, h3, h4⟩
  · exact h
  · rw [ha] at h4; simp at h4

end TidyR

/-- Pieces without calls. -/
macro "tidyr" : tactic => `(tactic| repeat' (first
  | exact TidyR.pure _ | exact TidyR.raise _ | exact TidyR.lift _ | exact TidyR.emit _ | exact TidyR.emitAll _
  | assumption
  | refine TidyR.bind ?_ (fun _ => ?_)
  | refine TidyR.ite ?_ ?_
  | split))

theorem tidyr_readExten (env : DEnv) (sp : Option Str) (v : VarE) : TidyR (readExten env sp v) := by
  have hr : ∀ a, TidyR (runApp env.toAEnv env.depth sp v.at_ a).toRes := fun a => .toRes (tidy_runApp ..)
  have hp : ∀ p, TidyR (readPrio v.at_ p) := by intro p; unfold readPrio; tidyr
  have hl : ∀ l, TidyR (readLabel v.at_ l) := by intro p; unfold readLabel; tidyr
  unfold readExten
  refine .bind (.lift _) fun pr => .bind (hp _) fun prio => ?_
  cases prio with
  | none => exact .pure _
  | some prio =>
    refine .bind (hl _) fun label => ?_
    cases label with
    | none => exact .pure _
    | some label => exact .bind (.lift _) fun pat => .bind (hr _) fun r => .pure _

theorem tidyr_fromVarset (env : DEnv) (sp : Option Str) (v : VarE) : TidyR (fromVarset env sp v) := by
  have hr := tidyr_readExten env sp v
  unfold fromVarset expectArrow
  tidyr

theorem tidyr_addExt (last : Option Nat) (c : DCtx) (e : ExtLine) : TidyR (addExt last c e) := by
  unfold addExt resolvePrio storeStep cacheCheck
  dsimp only
  tidyr

theorem tidyr_dialplanStep (env : DEnv) (st : DState) (e : Elem) : TidyR (dialplanStep env st e) := by
  unfold dialplanStep
  cases e with
  | ctx c => dsimp only; unfold onContext addGeneral addGlobals; tidyr
  | var v =>
    dsimp only
    unfold onVarset
    split
    · tidyr
    · tidyr
    · tidyr
    · tidyr
    · split
      · tidyr
      · refine .bind (tidyr_fromVarset ..) fun r => .bind ?_ fun _ => .pure _
        unfold onDVar canonCheck
        split
        · tidyr
        · exact .bind (by tidyr) fun _ => .bind (tidyr_addExt ..) fun _ => .pure _
        · tidyr
  | empty c w => exact .pure _

theorem tidyr_pipeRun {σ : Type} (fs : FS) {agg : σ → Elem → Res σ} (h : ∀ s e, TidyR (agg s e)) :
    ∀ (n : Nat) (st : PState σ), TidyR (pipeRun fs agg n st) := by
  intro n
  induction n with
  | zero => intro st; exact .pure _
  | succ n ih =>
    intro st
    rw [pipeRun]
    split
    · refine .bind ?_ fun _ => .pure _
      unfold pipeEnd
      exact .bind (.emitAll _) fun _ => .bind (.emitAll _) fun _ => .feed h _ _
    · rename_i r hr
      refine .bind ?_ fun st' => ih st'
      unfold pipeStep at hr
      split at hr
      · simp at hr
      · simp only [Option.some.injEq] at hr
        subst hr
        refine .bind (.emitAll _) fun _ => ?_
        split
        · exact .raise _
        · exact .pure _
        · exact .bind (.emitAll _) fun _ => .bind (.feed h _ _) fun _ => .pure _

theorem tidyr_onComplete (dp : Dialplan) : TidyR (onComplete dp) := by
  unfold onComplete; tidyr

theorem tidyr_walkDests (dp : Dialplan) (depth : Nat) : ∀ ds, TidyR (walkDests dp depth ds)
  | [] => .pure _
  | d :: ds => .bind (by unfold walkDest; tidyr) fun _ => tidyr_walkDests dp depth ds

theorem tidyr_checkDialplan (fs : FS) (env : DEnv) (sp : Option Str) (n : Nat) (path : Str) (content : Bytes) :
    TidyR (checkDialplan fs env sp n path content) := by
  unfold checkDialplan
  refine .bind (tidyr_pipeRun fs (tidyr_dialplanStep env) _ _) fun r => ?_
  cases r with
  | none => exact .pure _
  | some st => exact .bind (tidyr_onComplete _) fun _ => .bind (tidyr_walkDests ..) fun _ => .pure _

theorem tidyr_odbcStep (fns : List OdbcFn) (e : Elem) : TidyR (odbcStep fns e) := by
  unfold odbcStep
  split
  · unfold odbcContext; tidyr
  · rename_i v
    have hc : ∀ sets, TidyR (checkOrder sets v) := by intro sets; unfold checkOrder; tidyr
    unfold odbcVarset OdbcFn.add
    refine .bind (by tidyr) fun _ => ?_
    split
    · tidyr
    · exact .bind (.bind (hc _) fun _ => by tidyr) fun _ => .pure _
  · exact .pure _

theorem tidyr_finalizeAll : ∀ (fns : List OdbcFn) (env : FEnv), TidyR (finalizeAll env fns)
  | [], _ => .pure _
  | f :: fns, env => .bind (by unfold OdbcFn.finalize; tidyr) fun env => tidyr_finalizeAll fns env

theorem tidyr_loadOdbc (fs : FS) (env : FEnv) (n : Nat) (path : Str) (content : Bytes) :
    TidyR (loadOdbc fs env n path content) := by
  unfold loadOdbc
  refine .bind (tidyr_pipeRun fs tidyr_odbcStep _ _) fun r => ?_
  cases r with
  | none => exact .pure _
  | some fns => exact .bind (tidyr_finalizeAll ..) fun _ => .pure _

end ALint
