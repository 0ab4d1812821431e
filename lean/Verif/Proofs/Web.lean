import Verif.Model.Web
import Verif.Proofs.Located
import Verif.Proofs.DialplanList

/-!
# Lemmas about the web server
-/

namespace ALint
open ALint.Spec

/-! ## The spelling of `Background` -/

/-- An application looked up is one whose spelling is remembered. -/
def usesBackground (env : AEnv) (ev : List Ev) : Prop :=
  ∃ l a, Ev.app l ∈ ev ∧ (env.apps l).or (env.apps (c! "unknown")) = some a ∧ a.beh = .background

theorem uses_mono {env : AEnv} {ev ev' : List Ev} (h : usesBackground env ev) (hs : ∀ e ∈ ev, e ∈ ev') :
    usesBackground env ev' := by
  obtain ⟨l, a, h1, h2, h3⟩ := h
  exact ⟨l, a, hs _ h1, h2, h3⟩

theorem getApp_sp {env : AEnv} {sp : Option Str} {w : Where} {app : Str} {r : AppInfo × Option Str}
    (h : (getApp env sp w app).val = .ok r) : r.2 = sp ∨ usesBackground env (getApp env sp w app).ev := by
  unfold getApp at h ⊢
  cases ha : (env.apps (env.lower app)).or (env.apps (c! "unknown")) with
  | none => rw [ha] at h; simp [Tr.raise] at h
  | some a =>
    rw [ha] at h
    dsimp only at h ⊢
    obtain ⟨_, _, h2, h3⟩ := Tr.bind_ok h
    obtain ⟨_, _, h4, _⟩ := Tr.bind_ok h2
    simp only [Tr.pure, Except.ok.injEq] at h4
    subst h4
    by_cases hb : a.beh = .background
    · refine .inr ⟨env.lower app, a, ?_, ha, hb⟩
      rw [h3]
      simp [Tr.note]
    · exact .inl (by simp [chooseSpelling, hb])

theorem callApp_sp {env : AEnv} {inner : Option Str → Arg → Tr (Option Str)}
    (hi : ∀ sp raw sp', (inner sp raw).val = .ok sp' → sp' = sp ∨ usesBackground env (inner sp raw).ev)
    {sp : Option Str} {w : Where} {app : AppInfo} {data : V} {r : Option Str × List Jump}
    (h : (callApp env.toFEnv inner sp w app data).val = .ok r) :
    r.1 = sp ∨ usesBackground env (callApp env.toFEnv inner sp w app data).ev := by
  have hex : ∀ (as : List Arg) (sp sp' : Option Str), (execAll inner sp as).val = .ok sp' →
      sp' = sp ∨ usesBackground env (execAll inner sp as).ev := by
    intro as
    induction as with
    | nil => intro sp sp' h; simp only [execAll, Tr.pure, Except.ok.injEq] at h; exact .inl h.symm
    | cons a as ih =>
      intro sp sp' h
      rw [execAll] at h ⊢
      obtain ⟨s, h1, h2, h3⟩ := Tr.bind_ok h
      rw [h3]
      rcases hi sp a s h1 with rfl | hu
      · rcases ih s sp' h2 with rfl | hu
        · exact .inl rfl
        · exact .inr (uses_mono hu (by simp +contextual))
      · exact .inr (uses_mono hu (by simp +contextual))
  unfold callApp at h ⊢
  cases hb : app.beh <;> rw [hb] at h <;> dsimp only at h ⊢
  all_goals first
    | (obtain ⟨_, _, h2, _⟩ := Tr.bind_ok h
       first
        | (simp only [Tr.pure, Except.ok.injEq] at h2; subst h2; exact .inl rfl)
        | (obtain ⟨_, _, h2, _⟩ := Tr.bind_ok h2
           simp only [Tr.pure, Except.ok.injEq] at h2; subst h2; exact .inl rfl))
    | skip
  obtain ⟨p, _, h2, h3⟩ := Tr.bind_ok h
  obtain ⟨sp', h4, h5, h6⟩ := Tr.bind_ok h2
  simp only [Tr.pure, Except.ok.injEq] at h5
  subst h5
  rcases hex _ _ _ h4 with he | hu
  · exact .inl he
  · refine .inr ?_
    rw [h3, h6]
    exact uses_mono hu (by simp +contextual)

theorem runApp_sp (env : AEnv) : ∀ (depth : Nat) (sp : Option Str) (w : Where) (raw : Arg)
    (r : Option Str × List Jump), (runApp env depth sp w raw).val = .ok r →
    r.1 = sp ∨ usesBackground env (runApp env depth sp w raw).ev := by
  intro depth
  induction depth with
  | zero => intro sp w raw r h; simp [runApp, Tr.raise] at h
  | succ depth ih =>
    intro sp w raw r h
    rw [runApp] at h ⊢
    obtain ⟨x, h1, h2, h3⟩ := Tr.bind_ok h
    rw [h3]
    cases x with
    | none => simp only [Tr.pure, Except.ok.injEq] at h2; subst h2; exact .inl rfl
    | some x =>
      obtain ⟨app, data⟩ := x
      dsimp only at h2 ⊢
      obtain ⟨a, h4, h5, h6⟩ := Tr.bind_ok h2
      obtain ⟨d, h7, h8, h9⟩ := Tr.bind_ok h5
      rw [h6, h9]
      rcases getApp_sp h4 with he | hu
      · have := callApp_sp (env := env) (inner := fun sp raw => Tr.bind (runApp env depth sp w raw) fun r => .pure r.1)
          (fun sp raw sp' h => by
            obtain ⟨r, k1, k2, k3⟩ := Tr.bind_ok h
            simp only [Tr.pure, Except.ok.injEq] at k2
            subst k2
            rcases ih _ _ _ _ k1 with he | hu
            · exact .inl he
            · exact .inr (by rw [k3]; exact uses_mono hu (by simp +contextual))) h8
        rcases this with he' | hu
        · exact .inl (he'.trans he)
        · exact .inr (uses_mono hu (by simp +contextual))
      · exact .inr (uses_mono hu (by simp +contextual))

theorem fromVarset_sp {env : DEnv} {sp : Option Str} {v : VarE} {r : Option Str × List Ev × DVar}
    (h : (fromVarset env sp v).val = .ok r) : r.1 = sp ∨ usesBackground env.toAEnv r.2.1 := by
  have hx : ∀ r, (readExten env sp v).val = .ok r → r.1 = sp ∨ usesBackground env.toAEnv r.2.1 := by
    intro r h
    unfold readExten at h
    obtain ⟨pr, _, h, _⟩ := Res.bind_ok h
    obtain ⟨prio, _, h, _⟩ := Res.bind_ok h
    split at h
    · simp only [Res.pure_val, Except.ok.injEq] at h; subst h; exact .inl rfl
    obtain ⟨label, _, h, _⟩ := Res.bind_ok h
    split at h
    · simp only [Res.pure_val, Except.ok.injEq] at h; subst h; exact .inl rfl
    obtain ⟨pat, _, h, _⟩ := Res.bind_ok h
    obtain ⟨a, ha, h, _⟩ := Res.bind_ok h
    simp only [Res.pure_val, Except.ok.injEq] at h
    subst h
    unfold Tr.toRes at ha
    dsimp only at ha
    cases hr : (runApp env.toAEnv env.depth sp v.at_ (strV (splitApp pr.2).2)).val with
    | error e => rw [hr] at ha; simp [Except.map] at ha
    | ok b =>
      rw [hr] at ha
      simp only [Except.map, Except.ok.injEq] at ha
      subst ha
      rcases runApp_sp _ _ _ _ _ _ hr with he | ⟨l, a, h1, h2, h3⟩
      · exact .inl he
      · refine .inr ⟨l, a, ?_, h2, h3⟩
        unfold evUses
        simp [h1]
  unfold fromVarset at h
  repeat' split at h
  all_goals first
    | (obtain ⟨_, _, h, _⟩ := Res.bind_ok h
       first
        | exact hx r h
        | (simp only [Res.pure_val, Except.ok.injEq] at h; subst h; exact .inl rfl)
        | (obtain ⟨_, _, h, _⟩ := Res.bind_ok h
           simp only [Res.pure_val, Except.ok.injEq] at h; subst h; exact .inl rfl))
    | (simp only [Res.pure_val, Except.ok.injEq] at h; subst h; exact .inl rfl)

/-- The spelling is the one before, or `Background` has been used. -/
def SpInv (env : DEnv) (sp : Option Str) (st : DState) : Prop := st.sp = sp ∨ usesBackground env.toAEnv st.uses

theorem step_sp {env : DEnv} {sp : Option Str} {st st' : DState} {e : Elem} (hi : SpInv env sp st)
    (h : (dialplanStep env st e).val = .ok st') : SpInv env sp st' := by
  cases e with
  | empty _ _ => simp only [dialplanStep, Res.pure_val, Except.ok.injEq] at h; subst h; exact hi
  | ctx c =>
    simp only [dialplanStep, onContext] at h
    split at h
    · obtain ⟨_, _, h, _⟩ := Res.bind_ok h
      simp only [Res.pure_val, Except.ok.injEq] at h; subst h; exact hi
    · split at h
      · obtain ⟨_, _, h, _⟩ := Res.bind_ok h
        simp only [Res.pure_val, Except.ok.injEq] at h; subst h; exact hi
      · obtain ⟨_, _, h, _⟩ := Res.bind_ok h
        obtain ⟨_, _, h, _⟩ := Res.bind_ok h
        simp only [Res.pure_val, Except.ok.injEq] at h; subst h; exact hi
  | var v =>
    simp only [dialplanStep, onVarset] at h
    split at h
    · obtain ⟨_, _, h, _⟩ := Res.bind_ok h
      simp only [Res.pure_val, Except.ok.injEq] at h; subst h; exact hi
    · simp only [Res.pure_val, Except.ok.injEq] at h; subst h; exact hi
    · simp only [Res.pure_val, Except.ok.injEq] at h; subst h; exact hi
    · simp only [Res.pure_val, Except.ok.injEq] at h; subst h; exact hi
    · split at h
      · simp at h
      · obtain ⟨r, h1, h, _⟩ := Res.bind_ok h
        obtain ⟨_, _, h, _⟩ := Res.bind_ok h
        simp only [Res.pure_val, Except.ok.injEq] at h
        subst h
        rcases hi with hi | hi
        · rcases fromVarset_sp h1 with he | hu
          · exact .inl (he.trans hi)
          · exact .inr (uses_mono hu (by simp +contextual))
        · exact .inr (uses_mono hi (by simp +contextual))

theorem feed_keeps {σ : Type} {agg : σ → Elem → Res σ} {I : σ → Prop}
    (hs : ∀ s e s', I s → (agg s e).val = .ok s' → I s') : ∀ (es : List Elem) (s t : σ), I s →
    (feed agg s es).val = .ok t → I t := by
  intro es
  induction es with
  | nil => intro s t hi h; simp only [feed, Res.pure_val, Except.ok.injEq] at h; subst h; exact hi
  | cons e es ih =>
    intro s t hi h
    obtain ⟨s', h1, h2, _⟩ := feed_cons_ok h
    exact ih _ _ (hs _ _ _ hi h1) h2

theorem pipeStep_inv {σ : Type} {fs : FS} {agg : σ → Elem → Res σ} {I : σ → Prop}
    (hs : ∀ s e s', I s → (agg s e).val = .ok s' → I s') {st st' : PState σ} {r : Res (PState σ)} (hi : I st.agg)
    (hr : pipeStep fs agg st = some r) (h : r.val = .ok st') : I st'.agg := by
  unfold pipeStep at hr
  split at hr
  · simp at hr
  · simp only [Option.some.injEq] at hr
    subst hr
    obtain ⟨_, _, h, _⟩ := Res.bind_ok h
    split at h
    · simp at h
    · simp only [Res.pure_val, Except.ok.injEq] at h; subst h; exact hi
    · obtain ⟨_, _, h, _⟩ := Res.bind_ok h
      obtain ⟨s, h1, h, _⟩ := Res.bind_ok h
      simp only [Res.pure_val, Except.ok.injEq] at h
      subst h
      exact feed_keeps hs _ _ _ hi h1

theorem pipeEnd_inv {σ : Type} {agg : σ → Elem → Res σ} {I : σ → Prop}
    (hs : ∀ s e s', I s → (agg s e).val = .ok s' → I s') {st : PState σ} {s : σ} (hi : I st.agg)
    (h : (pipeEnd agg st).val = .ok s) : I s := by
  unfold pipeEnd at h
  obtain ⟨_, _, h, _⟩ := Res.bind_ok h
  obtain ⟨_, _, h, _⟩ := Res.bind_ok h
  exact feed_keeps hs _ _ _ hi h

theorem webRun_inv {env : DEnv} {data : Bytes} {I : DState → Prop}
    (hs : ∀ s e s', I s → (dialplanStep env s e).val = .ok s' → I s') : ∀ (n : Nat) (st : PState DState) (s : DState),
    I st.agg → (webRun data env n st).val = .ok (some s) → I s := by
  intro n
  induction n with
  | zero => intro st s _ h; simp [webRun] at h
  | succ n ih =>
    intro st s hi h
    rw [webRun] at h
    cases hp : pipeStep (webFs data) (dialplanStep env) st with
    | none =>
      rw [hp] at h
      obtain ⟨s', h1, h2, _⟩ := Res.bind_ok h
      simp only [Res.pure_val, Except.ok.injEq, Option.some.injEq] at h2
      subst h2
      exact pipeEnd_inv hs hi h1
    | some r =>
      rw [hp] at h
      obtain ⟨st', h1, h2, _⟩ := Res.bind_ok h
      split at h2
      · simp at h2
      · exact ih _ _ (pipeStep_inv hs hi hp h1) h2

theorem webCheck_sp {env : DEnv} {sp : Option Str} {n : Nat} {data : Bytes} {s : DState}
    (h : (webCheck env sp n data).val = .ok (some s)) : SpInv env sp s := by
  unfold webCheck at h
  obtain ⟨r, h1, h2, _⟩ := Res.bind_ok h
  cases r with
  | none => simp at h2
  | some st =>
    dsimp only at h2
    obtain ⟨_, _, h2, _⟩ := Res.bind_ok h2
    obtain ⟨_, _, h2, _⟩ := Res.bind_ok h2
    simp only [Res.pure_val, Except.ok.injEq, Option.some.injEq] at h2
    subst h2
    exact webRun_inv (fun _ _ _ hi hk => step_sp hi hk) n _ _ (.inl rfl) h1

/-! ## Sorting -/

theorem insertMsg_perm (m : Msg) (ms : List Msg) : (insertMsg m ms).Perm (m :: ms) := by
  induction ms with
  | nil => exact .refl _
  | cons x xs ih =>
    rw [insertMsg]
    split
    · exact (List.Perm.cons x ih).trans (.swap m x xs)
    · exact .refl _

theorem sortMsgs_perm (ms : List Msg) : (sortMsgs ms).Perm ms := by
  induction ms with
  | nil => exact .refl _
  | cons m ms ih => exact (insertMsg_perm m _).trans (.cons m ih)

theorem byClass_perm (ms : List Msg) : (byClass ms).Perm ms := by
  rw [List.perm_iff_count]
  intro m
  have key : ∀ ks : List MK, ks.Nodup → (ks.flatMap fun k => ms.filter (fun m => m.kind = k)).count m =
      if m.kind ∈ ks then ms.count m else 0 := by
    intro ks
    induction ks with
    | nil => intro _; simp
    | cons k ks ih =>
      intro hn
      rw [List.nodup_cons] at hn
      rw [List.flatMap_cons, List.count_append, ih hn.2]
      by_cases hk : m.kind = k
      · have h1 : (ms.filter (fun m => m.kind = k)).count m = ms.count m := List.count_filter (by simpa using hk)
        rw [h1]
        subst hk
        simp [hn.1]
      · have h1 : (ms.filter (fun m => m.kind = k)).count m = 0 := by
          rw [List.count_eq_zero]
          simp [hk]
        rw [h1]
        simp [hk]
  unfold byClass
  rw [key _ (nodup_eraseDups _ _ rfl)]
  by_cases hm : m ∈ ms
  · rw [if_pos]
    simpa using ⟨m, hm, rfl⟩
  · rw [List.count_eq_zero.2 hm]
    simp

theorem collect_perm (ms : List Msg) : (collectMessages ms).Perm ms := (sortMsgs_perm _).trans (byClass_perm ms)

/-- Entries in a report are in the order of lines. -/
theorem insertMsg_lines {m : Msg} {ms : List Msg} (hf : ∀ x ∈ ms, x.at_.filename = m.at_.filename)
    (h : List.Pairwise (fun a b : Msg => a.at_.lineno ≤ b.at_.lineno) ms) :
    List.Pairwise (fun a b : Msg => a.at_.lineno ≤ b.at_.lineno) (insertMsg m ms) := by
  have hirr : ∀ s : Str, strLt s s = false := by
    intro s
    induction s with
    | nil => rfl
    | cons c s ih => simp [strLt, ih]
  induction ms with
  | nil => simp [insertMsg]
  | cons x xs ih =>
    rw [insertMsg]
    have hx := hf x (by simp)
    rw [List.pairwise_cons] at h
    split
    · rename_i hlt
      rw [List.pairwise_cons]
      refine ⟨fun y hy => ?_, ih (fun y hy => hf y (by simp [hy])) h.2⟩
      rcases List.mem_cons.1 ((insertMsg_perm m xs).mem_iff.1 hy) with rfl | hy
      · simp only [keyLt, hx, hirr, Bool.false_or, beq_self_eq_true, Bool.true_and, Bool.or_eq_true,
          decide_eq_true_eq, Bool.and_eq_true, beq_iff_eq] at hlt
        omega
      · exact h.1 y hy
    · rename_i hlt
      rw [List.pairwise_cons]
      refine ⟨fun y hy => ?_, List.pairwise_cons.2 h⟩
      have : m.at_.lineno ≤ x.at_.lineno := by
        simp only [keyLt, hx, hirr, Bool.false_or, beq_self_eq_true, Bool.true_and, Bool.or_eq_true,
          decide_eq_true_eq, Bool.and_eq_true, beq_iff_eq] at hlt
        omega
      rcases List.mem_cons.1 hy with rfl | hy
      · exact this
      · exact Int.le_trans this (h.1 y hy)

theorem sortMsgs_lines {ms : List Msg} {f : Str} (hf : ∀ x ∈ ms, x.at_.filename = f) :
    List.Pairwise (fun a b : Msg => a.at_.lineno ≤ b.at_.lineno) (sortMsgs ms) := by
  induction ms with
  | nil => exact .nil
  | cons m ms ih =>
    refine insertMsg_lines (fun x hx => ?_) (ih fun x hx => hf x (by simp [hx]))
    rw [hf x (by simp [(sortMsgs_perm ms).mem_iff.1 hx]), hf m (by simp)]

theorem entries_some {ms : List Msg} {es : List Entry} (h : entries ms = some es) :
    Zips (fun m (e : Entry) => e.line = m.at_.lineno ∧ e.cls = m.kind.name ∧ m.render = .ok e.desc ∧
      m.at_.filename = webName) ms es := by
  induction ms generalizing es with
  | nil => simp only [entries, Option.some.injEq] at h; subst h; exact .nil
  | cons m ms ih =>
    rw [entries] at h
    split at h
    · simp at h
    · rename_i t ht
      split at h
      · rename_i hf
        simp only [Option.map_eq_some_iff] at h
        obtain ⟨es', h1, rfl⟩ := h
        exact .cons ⟨rfl, rfl, ht, hf⟩ (ih h1)
      · simp at h

end ALint
