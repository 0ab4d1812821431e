import Verif.Model.Dialplan
import Verif.Spec.Upgrade

/-!
# What is reported with more applications and functions known
-/

namespace ALint
open Spec

/-- Nothing was reported missing in the events. -/
def FoundAll (ev : List Ev) : Prop := ∀ m, Ev.msg m ∈ ev → m.kind ≠ .E_APP_MISSING ∧ m.kind ≠ .E_FUNC_MISSING

/-- If nothing is reported missing, the other outcome is the same. -/
structure Kept {α : Type} (x y : Tr α) : Prop where
  same : FoundAll x.ev → y = x

namespace Kept
variable {α β : Type}

theorem refl (x : Tr α) : Kept x x := ⟨fun _ => rfl⟩

theorem bind {x y : Tr α} {f g : α → Tr β} (hx : Kept x y) (hf : ∀ a, Kept (f a) (g a)) :
    Kept (Tr.bind x f) (Tr.bind y g) := by
  refine ⟨fun h => ?_⟩
  have h1 : FoundAll x.ev := by
    intro m hm
    refine h m ?_
    unfold Tr.bind
    split
    · exact hm
    · exact List.mem_append_left _ hm
  rw [hx.same h1]
  unfold Tr.bind at h ⊢
  cases hv : x.val with
  | error e => rfl
  | ok a =>
    simp only [hv] at h ⊢
    rw [(hf a).same fun m hm => h m (List.mem_append_right _ hm)]

theorem ite {c : Prop} [Decidable c] {x y x' y' : Tr α} (hx : Kept x x') (hy : Kept y y') :
    Kept (if c then x else y) (if c then x' else y') := by split <;> assumption

theorem catchParse {x y h : Tr α} (hx : Kept x y) : Kept (x.catchParse h) (y.catchParse h) := by
  refine ⟨fun hq => ?_⟩
  have h1 : FoundAll x.ev := by
    intro m hm
    refine hq m ?_
    unfold Tr.catchParse
    split
    · exact List.mem_append_left _ hm
    · exact hm
  rw [hx.same h1]

end Kept

section
variable {env env' : DEnv} (hk : KnowsMore env env') (hu : HasUnknown env) (w : Where)
include hk hu

theorem kept_getFunc (f : Str) : Kept (getFunc env.toFEnv w f) (getFunc env'.toFEnv w f) := by
  refine ⟨fun h => ?_⟩
  obtain ⟨u, h1, h2⟩ := hu.func
  unfold getFunc at h ⊢
  simp only [hk.lower] at h ⊢
  cases hf : env.funcs (env.lower f) with
  | some x => rw [hk.funcs _ _ hf]; rfl
  | none =>
    exfalso
    rw [hf, h1] at h
    have hne : u.name ≠ f := by
      rw [h2]
      rintro rfl
      rw [hu.lowerFunc, h1] at hf
      cases hf
    simp only [Option.none_or, if_pos hne, if_pos h2] at h
    refine (h (mkMsg .E_FUNC_MISSING w [(c! "func", .one (.str f))]) ?_).2 rfl
    unfold Tr.bind Tr.note Tr.emit Tr.pure
    dsimp only
    split <;> simp

theorem kept_writeFunction {call call' : FuncInfo → Arg → Tr Unit} (h : ∀ f a, Kept (call f a) (call' f a)) (d : V) :
    Kept (writeFunction env.toFEnv w call d) (writeFunction env'.toFEnv w call' d) := by
  unfold writeFunction
  refine .ite (.bind (.refl _) fun parts => ?_) (.refl _)
  split
  · split
    · exact .refl _
    · refine .ite ?_ (.refl _)
      dsimp only
      split
      · exact .bind (kept_getFunc hk hu ..) fun _ => h _ _
      · exact .refl _
  · exact .refl _

theorem kept_parseAssignment {call call' : FuncInfo → Arg → Tr Unit} (h : ∀ f a, Kept (call f a) (call' f a)) (a : Arg) :
    Kept (parseAssignment env.toFEnv w call a) (parseAssignment env'.toFEnv w call' a) := by
  have hw := kept_writeFunction hk hu w h
  unfold parseAssignment
  refine .ite (.refl _) ?_
  split
  · exact .refl _
  · refine .bind (.refl _) fun parts => ?_
    split
    · exact .bind (.refl _) fun _ => .ite (hw _) (.refl _)
    · exact .refl _

theorem kept_callFunc : ∀ (n : Nat) (f : FuncInfo) (a : Arg), Kept (callFunc env.toFEnv w n f a) (callFunc env'.toFEnv w n f a) := by
  intro n
  induction n with
  | zero => intro f a; exact .refl _
  | succ n ih =>
    intro f a
    rw [callFunc, callFunc]
    split
    · exact .refl _
    · exact .bind (kept_parseAssignment hk hu w ih a) fun _ => .refl _
    · exact .refl _
    · exact .refl _

theorem kept_callFuncTop (f : FuncInfo) (a : Arg) : Kept (callFuncTop env.toFEnv w f a) (callFuncTop env'.toFEnv w f a) :=
  kept_callFunc hk hu ..

theorem kept_readFunction (d : V) : Kept (readFunction env.toFEnv w d) (readFunction env'.toFEnv w d) := by
  unfold readFunction
  refine .ite (.refl _) (.bind (.refl _) fun _ => .bind (.refl _) fun _ => ?_)
  split
  · exact .refl _
  · exact .bind (kept_getFunc hk hu ..) fun _ => .bind (kept_callFuncTop hk hu ..) fun _ => .refl _
  · exact .refl _

theorem kept_processSubst (c : Bool) (d : V) : Kept (processSubst env.toFEnv w c d) (processSubst env'.toFEnv w c d) := by
  unfold processSubst processVariable
  exact .ite (.ite (kept_readFunction hk hu ..) (.refl _)) (.refl _)

theorem kept_parseItems : ∀ (n : Nat) (d : Str), Kept (parseItems env.toFEnv w n d) (parseItems env'.toFEnv w n d) := by
  intro n
  induction n with
  | zero => intro d; exact .refl _
  | succ n ih =>
    intro d
    rw [parseItems, parseItems]
    split
    · exact .refl _
    · split
      · exact .refl _
      · refine .bind (.ite (.bind (ih _) fun _ => .refl _) (.refl _)) fun _ => .bind (kept_processSubst hk hu ..) fun _ =>
          .bind (ih _) fun _ => .refl _

theorem kept_parseVariables (d : Str) : Kept (parseVariables env.toFEnv w d) (parseVariables env'.toFEnv w d) := by
  unfold parseVariables
  exact .bind (kept_parseItems hk hu ..) fun _ => .refl _

omit hk hu in
theorem kept_execAll {f g : Option Str → Arg → Tr (Option Str)} (h : ∀ s a, Kept (f s a) (g s a)) (l : List Arg) :
    ∀ sp, Kept (execAll f sp l) (execAll g sp l) := by
  induction l with
  | nil => intro sp; exact .refl _
  | cons a l ih => intro sp; exact .bind (h ..) fun _ => ih _

theorem kept_callApp {f g : Option Str → Arg → Tr (Option Str)} (h : ∀ s a, Kept (f s a) (g s a)) (sp : Option Str)
    (app : AppInfo) (d : V) : Kept (callApp env.toFEnv f sp w app d) (callApp env'.toFEnv g sp w app d) := by
  unfold callApp
  split
  · exact .refl _
  · exact .refl _
  · exact .bind (kept_parseAssignment hk hu _ (kept_callFuncTop hk hu w) _) fun _ => .refl _
  · exact .refl _
  · exact .refl _
  · exact .refl _
  · exact .refl _
  · exact .refl _
  · exact .refl _
  · exact .bind (.refl _) fun _ => .bind (kept_execAll h _ _) fun _ => .refl _

omit hu in
theorem kept_splitAppData (a : Arg) : Kept (splitAppData env.toFEnv w a) (splitAppData env'.toFEnv w a) := by
  unfold splitAppData splitAppBare
  simp only [hk.lower]
  exact .refl _

theorem kept_parseInner (a d : Str) : Kept (parseInner env.toFEnv w a d) (parseInner env'.toFEnv w a d) := by
  unfold parseInner
  exact .ite (.catchParse (kept_parseVariables hk hu ..)) (.refl _)

theorem kept_getApp (sp : Option Str) (a : Str) : Kept (getApp env.toAEnv sp w a) (getApp env'.toAEnv sp w a) := by
  refine ⟨fun h => ?_⟩
  obtain ⟨u, h1, h2, h3⟩ := hu.app
  unfold getApp at h ⊢
  simp only [hk.lower] at h ⊢
  cases hf : env.apps (env.lower a) with
  | some x => rw [hk.apps _ _ hf]; rfl
  | none =>
    exfalso
    rw [hf, h1] at h
    have hne : ¬ c! "Unknown" = a := by
      rintro rfl
      rw [hu.lowerApp, h1] at hf
      cases hf
    simp only [Option.none_or, checkAvailability, appName, if_neg h3, h2, if_neg hne, if_true] at h
    refine (h (mkMsg .E_APP_MISSING w [(c! "app", strV a)]) ?_).1 rfl
    unfold Tr.bind Tr.note Tr.emit Tr.pure
    dsimp only
    split <;> simp

theorem kept_runApp : ∀ (n : Nat) (sp : Option Str) (a : Arg), Kept (runApp env.toAEnv n sp w a) (runApp env'.toAEnv n sp w a) := by
  intro n
  induction n with
  | zero => intro sp a; exact .refl _
  | succ n ih =>
    intro sp a
    rw [runApp, runApp]
    refine .bind (kept_splitAppData hk ..) fun r => ?_
    split
    · exact .refl _
    · exact .bind (kept_getApp hk hu ..) fun _ => .bind (kept_parseInner hk hu ..) fun _ =>
        kept_callApp hk hu _ (fun _ _ => .bind (ih ..) fun _ => .refl _) _ _ _

end

/-! ## Whole files -/

/-- If nothing is reported missing, the other outcome is the same. -/
structure KeptR {α : Type} (x y : Res α) : Prop where
  same : NothingMissing x.log → y = x

namespace KeptR
variable {α β : Type}

theorem refl (x : Res α) : KeptR x x := ⟨fun _ => rfl⟩

theorem bind {x y : Res α} {f g : α → Res β} (hx : KeptR x y) (hf : ∀ a, KeptR (f a) (g a)) :
    KeptR (Res.bind x f) (Res.bind y g) := by
  refine ⟨fun h => ?_⟩
  have h1 : NothingMissing x.log := by
    intro m hm
    refine h m ?_
    unfold Res.bind
    split
    · exact hm
    · exact List.mem_append_left _ hm
  rw [hx.same h1]
  unfold Res.bind at h ⊢
  cases hv : x.val with
  | error e => rfl
  | ok a =>
    simp only [hv] at h ⊢
    rw [(hf a).same fun m hm => h m (List.mem_append_right _ hm)]

theorem ite {c : Prop} [Decidable c] {x y x' y' : Res α} (hx : KeptR x x') (hy : KeptR y y') :
    KeptR (if c then x else y) (if c then x' else y') := by split <;> assumption

theorem toRes {x y : Tr α} (h : Kept x y) : KeptR x.toRes y.toRes := by
  refine ⟨fun hq => ?_⟩
  rw [h.same ?_]
  intro m hm
  refine hq m ?_
  exact List.mem_filterMap.2 ⟨_, hm, rfl⟩

theorem feed {σ : Type} {agg agg' : σ → Elem → Res σ} (h : ∀ s e, KeptR (agg s e) (agg' s e)) :
    ∀ (es : List Elem) (s : σ), KeptR (ALint.feed agg s es) (ALint.feed agg' s es) := by
  intro es
  induction es with
  | nil => intro s; exact .refl _
  | cons e es ih => intro s; exact .bind ⟨fun hq => by rw [(h s e).same hq]⟩ fun _ => ih _

theorem pipeRun {σ : Type} (fs : FS) {agg agg' : σ → Elem → Res σ} (h : ∀ s e, KeptR (agg s e) (agg' s e)) :
    ∀ (n : Nat) (st : PState σ), KeptR (ALint.pipeRun fs agg n st) (ALint.pipeRun fs agg' n st) := by
  intro n
  induction n with
  | zero => intro st; exact .refl _
  | succ n ih =>
    intro st
    rw [ALint.pipeRun, ALint.pipeRun]
    unfold pipeStep
    cases nextLine st.frames with
    | none => exact .bind (.bind (.refl _) fun _ => .bind (.refl _) fun _ => .feed h _ _) fun _ => .refl _
    | some p =>
      refine .bind (.bind (.refl _) fun _ => ?_) fun _ => ih _
      split
      · exact .refl _
      · exact .refl _
      · exact .bind (.refl _) fun _ => .bind (.feed h _ _) fun _ => .refl _

end KeptR

section
variable {env env' : DEnv} (hk : KnowsMore env env') (hu : HasUnknown env)
include hk hu

theorem keptR_readExten (sp : Option Str) (v : VarE) : KeptR (readExten env sp v) (readExten env' sp v) := by
  unfold readExten
  refine .bind (.refl _) fun _ => .bind (.refl _) fun _ => ?_
  split
  · exact .refl _
  · refine .bind (.refl _) fun _ => ?_
    split
    · exact .refl _
    · rw [hk.depth]
      exact .bind (.refl _) fun _ => .bind (.toRes (kept_runApp hk hu ..)) fun _ => .refl _

theorem keptR_step (st : DState) (e : Elem) : KeptR (dialplanStep env st e) (dialplanStep env' st e) := by
  unfold dialplanStep
  split
  · exact .refl _
  · unfold onVarset
    split
    · exact .refl _
    · exact .refl _
    · exact .refl _
    · exact .refl _
    · split
      · exact .refl _
      · refine .bind ?_ fun _ => .refl _
        unfold fromVarset
        exact .ite (.bind (.refl _) fun _ => keptR_readExten hk hu ..) (.refl _)
  · exact .refl _

theorem keptR_check (fs : FS) (sp : Option Str) (n : Nat) (path : Str) (content : Bytes) :
    KeptR (checkDialplan fs env sp n path content) (checkDialplan fs env' sp n path content) := by
  unfold checkDialplan
  rw [hk.depth]
  exact .bind (.pipeRun fs (keptR_step hk hu) _ _) fun _ => .refl _

end
end ALint
