import Verif.Proofs.VgDialplan

/-!
# Lemmas: a context under the `vg` command is what its last section says
-/

namespace ALint
open Spec

theorem bind_val_of_ok {α β : Type} {x : Res α} {f : α → Res β} {a : α} (h : x.val = .ok a) : (Res.bind x f).val = (f a).val := by
  rw [Res.bind_val, h]

theorem feed_val_cons {σ : Type} {agg : σ → Elem → Res σ} {s t : σ} {e : Elem} {es : List Elem} (h : (agg s e).val = .ok t) :
    (feed agg s (e :: es)).val = (feed agg t es).val := by
  rw [feed]
  exact bind_val_of_ok (by simp [wrapExc, h])

/-- Two states that agree on the current context `n`. -/
structure SameCur (n : Str) (a b : DState) : Prop where
  cur : a.cur = .ctx n
  cur' : b.cur = .ctx n
  get : a.dp.get n = b.dp.get n
  last : a.dp.lastPrio = b.dp.lastPrio
  sp : a.sp = b.sp

theorem get_withAdded {dp : Dialplan} {c : DCtx} {n : Str} {a : Added} (hc : dp.get n = some c) (ha : a.ctx.name = n) :
    (dp.withAdded a).get n = some a.ctx := by
  have := (get_put (d := a.ctx) hc ha).1
  simpa only [Dialplan.withAdded, Dialplan.get] using this

theorem addExt_name {last : Option Nat} {c : DCtx} {e : ExtLine} {a : Added} (h : (addExt last c e).val = .ok a) :
    a.ctx.name = c.name := (addCase_frame (addExt_cases h)).1

theorem sameCur_var {env : DEnv} {n : Str} {a b a' : DState} {v : VarE} (hs : SameCur n a b) (hc : ∃ c, a.dp.get n = some c)
    (h : (onVarset env a v).val = .ok a') :
    ∃ b', (onVarset env b v).val = .ok b' ∧ SameCur n a' b' ∧ ∃ c, a'.dp.get n = some c := by
  obtain ⟨c, hc⟩ := hc
  have hc' : b.dp.get n = some c := by rw [← hs.get, hc]
  have hcn : c.name = n := (get_mem hc).2
  unfold onVarset at h ⊢
  simp only [hs.cur, hs.cur', hc, hc'] at h ⊢
  obtain ⟨r, h1, h2, _⟩ := Res.bind_ok h
  obtain ⟨dp, h3, h4, _⟩ := Res.bind_ok h2
  simp only [Res.pure_val, Except.ok.injEq] at h4
  subst h4
  have key : ∃ dp', (onDVar b.dp c r.2.2).val = .ok dp' ∧ dp.get n = dp'.get n ∧ dp.lastPrio = dp'.lastPrio ∧ ∃ d, dp.get n = some d := by
    cases hr : r.2.2 with
    | nothing =>
      rw [hr] at h3
      simp only [onDVar, Res.pure_val, Except.ok.injEq] at h3 ⊢
      subst h3
      exact ⟨_, rfl, hs.get, hs.last, c, hc⟩
    | include_ name w =>
      rw [hr] at h3
      simp only [onDVar, Res.pure_val, Except.ok.injEq] at h3 ⊢
      subst h3
      have g1 := (get_put (d := { c with includes := c.includes ++ [(name, w)] }) hc hcn).1
      have g2 := (get_put (d := { c with includes := c.includes ++ [(name, w)] }) hc' hcn).1
      exact ⟨_, rfl, by rw [g1, g2], hs.last, _, g1⟩
    | ext e =>
      rw [hr] at h3
      simp only [onDVar] at h3 ⊢
      obtain ⟨_, k1, k2, _⟩ := Res.bind_ok h3
      obtain ⟨x, k3, k4, _⟩ := Res.bind_ok k2
      simp only [Res.pure_val, Except.ok.injEq] at k4
      subst k4
      have hn : x.ctx.name = n := (addExt_name k3).trans hcn
      rw [hs.last] at k3
      refine ⟨b.dp.withAdded x, ?_, ?_, rfl, _, get_withAdded hc hn⟩
      · rw [bind_val_of_ok k1, bind_val_of_ok k3]; rfl
      · rw [get_withAdded hc hn, get_withAdded hc' hn]
  obtain ⟨dp', e1, e2, e3, e4⟩ := key
  rw [hs.sp] at h1
  refine ⟨⟨dp', .ctx n, r.1, b.uses ++ r.2.1⟩, ?_, ⟨rfl, rfl, e2, e3, rfl⟩, e4⟩
  rw [bind_val_of_ok h1, bind_val_of_ok e1]; rfl

/-- No header among the elements. -/
def NoHeader (es : List Elem) : Prop := ∀ c, Elem.ctx c ∉ es

theorem sameCur_feed {env : DEnv} {n : Str} : ∀ {es : List Elem} {a b a' : DState}, NoHeader es → SameCur n a b →
    (∃ c, a.dp.get n = some c) → (feed (vgDialplanStep env) a es).val = .ok a' →
    ∃ b', (feed (dialplanStep env) b es).val = .ok b' ∧ SameCur n a' b' ∧ ∃ c, a'.dp.get n = some c := by
  intro es
  induction es with
  | nil =>
    intro a b a' _ hs hc h
    simp only [feed, Res.pure_val, Except.ok.injEq] at h ⊢
    subst h
    exact ⟨b, rfl, hs, hc⟩
  | cons e es ih =>
    intro a b a' hn hs hc h
    obtain ⟨x, h1, h2, _⟩ := feed_cons_ok h
    have hn' : NoHeader es := fun c hc => hn c (List.mem_cons_of_mem _ hc)
    cases e with
    | ctx c => exact absurd List.mem_cons_self (hn c)
    | empty q w =>
      simp only [vgDialplanStep, Res.pure_val, Except.ok.injEq] at h1
      subst h1
      obtain ⟨b', k1, k2⟩ := ih hn' hs hc h2
      refine ⟨b', ?_, k2⟩
      rw [feed_val_cons (t := b) (by rfl)]
      exact k1
    | var v =>
      obtain ⟨y, g1, g2, g3⟩ := sameCur_var hs hc (show (onVarset env a v).val = .ok x from h1)
      obtain ⟨b', k1, k2⟩ := ih hn' g2 g3 h2
      refine ⟨b', ?_, k2⟩
      rw [feed_val_cons (t := y) (by exact g1)]
      exact k1

/-- A line does not touch a context that is not the current one. -/
theorem vg_var_other {env : DEnv} {a a' : DState} {v : VarE} {n : Str} (hi : VgInv a) (hn : a.cur ≠ .ctx n)
    (h : (onVarset env a v).val = .ok a') : a'.dp.get n = a.dp.get n ∧ a'.cur = a.cur := by
  cases hcur : a.cur with
  | none =>
    simp only [onVarset, hcur] at h
    obtain ⟨_, _, h2, _⟩ := Res.bind_ok h
    simp only [Res.pure_val, Except.ok.injEq] at h2
    subst h2
    exact ⟨rfl, hcur⟩
  | general | globals =>
    simp only [onVarset, hcur, Res.pure_val, Except.ok.injEq] at h
    subst h
    exact ⟨rfl, rfl⟩
  | detached =>
    simp only [onVarset, hcur, Res.pure_val, Except.ok.injEq] at h
    subst h
    exact ⟨rfl, hcur⟩
  | ctx m =>
    obtain ⟨c, hc⟩ := hi.cur m hcur
    have hcn : c.name = m := (get_mem hc).2
    have hm : n ≠ m := fun e => hn (by rw [hcur, e])
    have put : ∀ d : DCtx, d.name = m → ({ a.dp with contexts := putCtx d a.dp.contexts } : Dialplan).get n = a.dp.get n :=
      fun d hd => (get_put hc hd).2 n hm
    unfold onVarset at h
    simp only [hcur, hc] at h
    obtain ⟨r, h1, h2, _⟩ := Res.bind_ok h
    obtain ⟨dp, h3, h4, _⟩ := Res.bind_ok h2
    simp only [Res.pure_val, Except.ok.injEq] at h4
    subst h4
    refine ⟨?_, rfl⟩
    cases hr : r.2.2 with
    | nothing =>
      rw [hr] at h3
      simp only [onDVar, Res.pure_val, Except.ok.injEq] at h3
      subst h3
      rfl
    | include_ name w =>
      rw [hr] at h3
      simp only [onDVar, Res.pure_val, Except.ok.injEq] at h3
      subst h3
      exact put _ hcn
    | ext e =>
      rw [hr] at h3
      simp only [onDVar] at h3
      obtain ⟨_, k1, k2, _⟩ := Res.bind_ok h3
      obtain ⟨x, k3, k4, _⟩ := Res.bind_ok k2
      simp only [Res.pure_val, Except.ok.injEq] at k4
      subst k4
      exact put x.ctx ((addExt_name k3).trans hcn)

/-- Elements after the section of a context, without a header of that name, leave it as it is. -/
theorem vg_feed_other {env : DEnv} {n : Str} : ∀ {es : List Elem} {a a' : DState}, VgInv a → (a.cur ≠ .ctx n ∨ ∀ v, es.head? ≠ some (.var v) ∧ ∀ b w, es.head? ≠ some (.empty b w)) →
    n ∉ headerNames es → (feed (vgDialplanStep env) a es).val = .ok a' → a'.dp.get n = a.dp.get n := by
  intro es
  induction es with
  | nil =>
    intro a a' _ _ _ h
    simp only [feed, Res.pure_val, Except.ok.injEq] at h
    rw [h]
  | cons e es ih =>
    intro a a' hi hc hn h
    obtain ⟨x, h1, h2, _⟩ := feed_cons_ok h
    have hx := (vg_step hi h1).1
    cases e with
    | empty b w =>
      have hc : a.cur ≠ .ctx n := by
        rcases hc with hc | hc
        · exact hc
        · exact absurd rfl ((hc ⟨[], [], false, false, ⟨[], 0, []⟩⟩).2 b w)
      simp only [vgDialplanStep, Res.pure_val, Except.ok.injEq] at h1
      subst h1
      exact ih hi (.inl hc) hn h2
    | var v =>
      have hc : a.cur ≠ .ctx n := by
        rcases hc with hc | hc
        · exact hc
        · exact absurd rfl (hc v).1
      obtain ⟨g1, g2⟩ := vg_var_other hi hc (show (onVarset env a v).val = .ok x from h1)
      rw [ih hx (.inl (by rw [g2]; exact hc)) hn h2, g1]
    | ctx c =>
      simp only [headerNames, List.mem_cons, not_or] at hn
      rcases vgOnContext_cases h1 with ⟨_, k2, k3⟩ | ⟨_, k2, k3⟩
      · rw [ih hx (.inl (k3 n)) hn.2 h2]
        simp only [Dialplan.get, k2]
      · rw [ih hx (.inl (by rw [k2]; exact fun e => hn.1 (by injection e with e; exact e.symm))) hn.2 h2, k3]
        exact (vg_get_fresh (dp := a.dp) (n := c.name) (d := ⟨c.name, c.at_, [], [], none, [], none⟩) rfl).2 n hn.1

theorem vg_names {env : DEnv} : ∀ {es : List Elem} {a a' : DState}, VgInv a →
    (feed (vgDialplanStep env) a es).val = .ok a' →
    a'.dp.contexts.map (·.name) =
      (a.dp.contexts.map (·.name)).filter (fun n => n ∉ (headerNames es).filter (!special ·)) ++
        lastOnes ((headerNames es).filter (!special ·)) := by
  intro es
  induction es with
  | nil =>
    intro a a' _ h
    simp only [feed, Res.pure_val, Except.ok.injEq] at h
    subst h
    simp only [headerNames, List.filter_nil, lastOnes, List.append_nil, List.not_mem_nil, not_false_eq_true, decide_true]
    exact (List.filter_eq_self.2 fun _ _ => rfl).symm
  | cons e es ih =>
    intro a a' hi h
    obtain ⟨x, h1, h2, _⟩ := feed_cons_ok h
    have hx := (vg_step hi h1).1
    have k := ih hx h2
    cases e with
    | empty b w =>
      simp only [vgDialplanStep, Res.pure_val, Except.ok.injEq] at h1
      subst h1
      exact k
    | var v =>
      rw [vg_var_names hi h1] at k
      exact k
    | ctx c =>
      rcases vgOnContext_cases h1 with ⟨k1, k2, k3⟩ | ⟨k1, k2, k3⟩
      · rw [k2] at k
        simp only [headerNames, List.filter_cons, k1, Bool.not_true, Bool.false_eq_true, if_false]
        exact k
      · have e : x.dp.contexts.map (·.name) = (a.dp.contexts.map (·.name)).filter (fun n => n ≠ c.name) ++ [c.name] := by
          rw [k3]
          simp only [List.map_append, List.map_cons, List.map_nil, List.filter_map]
          rfl
        rw [e] at k
        simp only [headerNames, List.filter_cons, k1, Bool.not_false, if_true]
        generalize (headerNames es).filter (!special ·) = hs at k ⊢
        rw [k, List.filter_append, List.append_assoc, List.filter_filter]
        congr 1
        · apply List.filter_congr
          intro m _
          by_cases h1 : m = c.name <;> by_cases h2 : m ∈ hs <;> simp [h1, h2]
        · by_cases h1 : c.name ∈ hs <;> simp [lastOnes, h1]

/-- Without headers the contexts stay the same ones. -/
theorem body_names {env : DEnv} : ∀ {es : List Elem} {a a' : DState}, NoHeader es → VgInv a →
    (feed (dialplanStep env) a es).val = .ok a' → a'.dp.contexts.map (·.name) = a.dp.contexts.map (·.name) := by
  intro es
  induction es with
  | nil =>
    intro a a' _ _ h
    simp only [feed, Res.pure_val, Except.ok.injEq] at h
    rw [h]
  | cons e es ih =>
    intro a a' hn hi h
    obtain ⟨x, h1, h2, _⟩ := feed_cons_ok h
    have hn' : NoHeader es := fun c hc => hn c (List.mem_cons_of_mem _ hc)
    cases e with
    | ctx c => exact absurd List.mem_cons_self (hn c)
    | empty q w =>
      simp only [dialplanStep, Res.pure_val, Except.ok.injEq] at h1
      subst h1
      exact ih hn' hi h2
    | var v =>
      rw [ih hn' (vg_var hi (show (onVarset env a v).val = .ok x from h1)).1 h2, vg_var_names hi h1]

end ALint
