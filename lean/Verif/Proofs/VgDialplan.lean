import Verif.Spec.Vg
import Verif.Proofs.DialplanMore

/-!
# Lemmas about contexts in the `vg` command
-/

namespace ALint
open Spec

/-- The current context is there. -/
structure VgInv (st : DState) : Prop where
  cur : ∀ n, st.cur = .ctx n → ∃ c, st.dp.get n = some c

/-- The context of that name has steps and includes only from lines at places of `P`. -/
structure From (P : Where → Prop) (n : Str) (st : DState) : Prop where
  steps : ∀ c, st.dp.get n = some c → ∀ s ∈ c.steps, P s.at_
  includes : ∀ c, st.dp.get n = some c → ∀ i ∈ c.includes, P i.2

theorem filter_find {l : List DCtx} {n : Str} :
    (l.filter (·.name ≠ n)).find? (·.name = n) = none ∧
      ∀ m, m ≠ n → (l.filter (·.name ≠ n)).find? (·.name = m) = l.find? (·.name = m) := by
  constructor
  · rw [List.find?_eq_none]
    intro x hx
    simpa using (List.mem_filter.1 hx).2
  · intro m hm
    induction l with
    | nil => rfl
    | cons c l ih =>
      by_cases h : c.name = n
      · have h' : ¬ c.name = m := fun e => hm (e.symm.trans h)
        rw [List.filter_cons_of_neg (by simpa using h), List.find?_cons_of_neg (by simpa using h')]
        exact ih
      · rw [List.filter_cons_of_pos (by simpa using h)]
        simp only [List.find?_cons, ih]

/-- A header for the `vg` command. -/
theorem vgOnContext_cases {st st' : DState} {c : CtxE} (h : (vgOnContext st c).val = .ok st') :
    (special c.name = true ∧ st'.dp.contexts = st.dp.contexts ∧ ∀ n, st'.cur ≠ .ctx n) ∨
    (special c.name = false ∧ st'.cur = .ctx c.name ∧
      st'.dp = { st.dp with
        contexts := st.dp.contexts.filter (·.name ≠ c.name) ++ [⟨c.name, c.at_, [], [], none, [], none⟩] }) := by
  unfold vgOnContext at h
  by_cases h1 : c.name = c! "general"
  · rw [if_pos h1] at h
    split at h
    · simp at h
    · have := onContext_cases h
      generalize (onContext st c).log = lg at this
      have hs : special c.name = true := by simp [special, h1]
      cases this with
      | general => exact .inl ⟨hs, rfl, by simp⟩
      | globals => exact .inl ⟨hs, rfl, by simp⟩
      | detached => exact .inl ⟨hs, rfl, by simp⟩
      | fresh ms hn => rw [hs] at hn; cases hn
      | again ms d hn => rw [hs] at hn; cases hn
  · rw [if_neg h1] at h
    by_cases h2 : c.name = c! "globals"
    · rw [if_pos h2] at h
      split at h
      · simp at h
      · have := onContext_cases h
        generalize (onContext st c).log = lg at this
        have hs : special c.name = true := by simp [special, h2]
        cases this with
        | general => exact .inl ⟨hs, rfl, by simp⟩
        | globals => exact .inl ⟨hs, rfl, by simp⟩
        | detached => exact .inl ⟨hs, rfl, by simp⟩
        | fresh ms hn => rw [hs] at hn; cases hn
        | again ms d hn => rw [hs] at hn; cases hn
    · rw [if_neg h2] at h
      have hs : special c.name = false := by simp [special, h1, h2]
      have := onContext_cases h
      generalize (onContext _ c).log = lg at this
      cases this with
      | general ms hn => exact absurd hn h1
      | globals ms hn => exact absurd hn h2
      | detached g hn => exact absurd hn h2
      | fresh ms hn hg => exact .inr ⟨hs, rfl, rfl⟩
      | again ms d hn hg =>
        unfold Dialplan.get at hg
        dsimp only at hg
        rw [filter_find.1] at hg
        cases hg

theorem vg_get_fresh {dp : Dialplan} {n : Str} {d : DCtx} (hd : d.name = n) :
    ({ dp with contexts := dp.contexts.filter (·.name ≠ n) ++ [d] } : Dialplan).get n = some d ∧
      ∀ m, m ≠ n → ({ dp with contexts := dp.contexts.filter (·.name ≠ n) ++ [d] } : Dialplan).get m = dp.get m := by
  constructor
  · unfold Dialplan.get
    dsimp only
    rw [List.find?_append, filter_find.1]
    simp [hd]
  · intro m hm
    unfold Dialplan.get
    dsimp only
    rw [List.find?_append, filter_find.2 m hm]
    have : ¬ d.name = m := fun e => hm (e.symm.trans hd)
    simp [this]

/-- A line, for any aggregator whose current context is there. -/
theorem vg_var {env : DEnv} {st st' : DState} {v : VarE} (hi : VgInv st) (h : (onVarset env st v).val = .ok st') :
    VgInv st' ∧ ∀ (P : Where → Prop) n, From P n st → From (fun w => P w ∨ w = v.at_) n st' := by
  have same : ∀ {a b : DState}, b.dp.contexts = a.dp.contexts → b.cur = a.cur → VgInv a →
      VgInv b ∧ ∀ (P : Where → Prop) n, From P n a → From (fun w => P w ∨ w = v.at_) n b := by
    intro a b h1 h2 hi
    refine ⟨⟨fun n hn => ?_⟩, fun P n hf => ⟨fun c hc s hs => .inl (hf.steps c ?_ s hs), fun c hc s hs => .inl (hf.includes c ?_ s hs)⟩⟩
    · obtain ⟨c, hc⟩ := hi.cur n (h2 ▸ hn)
      exact ⟨c, by unfold Dialplan.get at hc ⊢; rw [h1]; exact hc⟩
    · unfold Dialplan.get at hc ⊢; rw [← h1]; exact hc
    · unfold Dialplan.get at hc ⊢; rw [← h1]; exact hc
  have put : ∀ {n : Str} {c d : DCtx} {b : DState}, st.dp.get n = some c → st.cur = .ctx n → d.name = c.name → b.cur = st.cur →
      b.dp.contexts = putCtx d st.dp.contexts → (∀ s ∈ d.steps, s ∈ c.steps ∨ s.at_ = v.at_) →
      (∀ s ∈ d.includes, s ∈ c.includes ∨ s.2 = v.at_) →
      VgInv b ∧ ∀ (P : Where → Prop) n, From P n st → From (fun w => P w ∨ w = v.at_) n b := by
    intro n c d b hc hcur hd hb hk hs hinc
    obtain ⟨g1, g2⟩ := get_put (d := d) hc (hd.trans (get_mem hc).2)
    have e : ∀ m, b.dp.get m = ({ st.dp with contexts := putCtx d st.dp.contexts } : Dialplan).get m := by
      intro m; simp only [Dialplan.get, hk]
    refine ⟨⟨fun m hm => ?_⟩, fun P m hf => ⟨fun c' hc' s hs' => ?_, fun c' hc' s hs' => ?_⟩⟩
    · rw [hb, hcur] at hm
      cases hm
      exact ⟨d, by rw [e, g1]⟩
    · rw [e] at hc'
      by_cases hm : m = n
      · subst hm
        rw [g1] at hc'
        cases hc'
        exact (hs s hs').imp (hf.steps c hc s) id
      · rw [g2 m hm] at hc'
        exact .inl (hf.steps c' hc' s hs')
    · rw [e] at hc'
      by_cases hm : m = n
      · subst hm
        rw [g1] at hc'
        cases hc'
        exact (hinc s hs').imp (hf.includes c hc s) id
      · rw [g2 m hm] at hc'
        exact .inl (hf.includes c' hc' s hs')
  cases hcur : st.cur with
  | none =>
    simp only [onVarset, hcur] at h
    obtain ⟨_, _, h2, _⟩ := Res.bind_ok h
    simp only [Res.pure_val, Except.ok.injEq] at h2
    subst h2
    exact same rfl rfl hi
  | general | globals =>
    simp only [onVarset, hcur, Res.pure_val, Except.ok.injEq] at h
    subst h
    exact same (a := st) rfl (by simp [hcur]) hi
  | detached =>
    simp only [onVarset, hcur, Res.pure_val, Except.ok.injEq] at h
    subst h
    exact same rfl rfl hi
  | ctx n =>
    obtain ⟨c, hc⟩ := hi.cur n hcur
    have hl := onVarset_line hc hcur h
    generalize (onVarset env st v).log = lg at hl
    cases hl with
    | nothing sp' us _ h => exact same rfl rfl hi
    | incl hk =>
      refine put (d := { c with includes := c.includes ++ [(v.value, v.at_)] }) hc hcur rfl rfl rfl (fun s hs => .inl hs) ?_
      intro s hs
      rcases List.mem_append.1 hs with hs | hs
      · exact .inl hs
      · simp only [List.mem_singleton] at hs
        exact .inr (by rw [hs])
    | ext sp' us e a ms cs as hk hrd hcs ha =>
      have hat : e.at_ = v.at_ := by
        generalize hx : (sp', us, DVar.ext e) = x at hrd
        cases hrd with
        | hint => cases hx
        | badPrio => cases hx
        | ext => cases hx; rfl
      have hf := addCase_frame ha
      refine put (d := a.ctx) hc hcur hf.1 rfl rfl ?_ (fun s hs => .inl (hf.2.1 ▸ hs))
      intro s hs
      cases ha with
      | noPat | noPrio | dupe => exact .inl hs
      | stored =>
        rcases List.mem_append.1 hs with hs | hs
        · exact .inl hs
        · simp only [List.mem_singleton] at hs
          exact .inr (by rw [hs, hat])

theorem vg_step {env : DEnv} {st st' : DState} {el : Elem} (hi : VgInv st) (h : (vgDialplanStep env st el).val = .ok st') :
    VgInv st' ∧ ∀ (P : Where → Prop) n, From P n st → From (fun w => P w ∨ ∃ v, el = .var v ∧ w = v.at_) n st' := by
  have weaken : ∀ {P Q : Where → Prop} {n : Str} {s : DState}, (∀ w, P w → Q w) → From P n s → From Q n s :=
    fun hpq hf => ⟨fun c hc s hs => hpq _ (hf.steps c hc s hs), fun c hc s hs => hpq _ (hf.includes c hc s hs)⟩
  cases el with
  | empty b w =>
    simp only [vgDialplanStep, Res.pure_val, Except.ok.injEq] at h
    subst h
    exact ⟨hi, fun P n hf => weaken (fun w hw => .inl hw) hf⟩
  | var v =>
    obtain ⟨h1, h2⟩ := vg_var hi h
    exact ⟨h1, fun P n hf => weaken (fun w hw => hw.imp id fun e => ⟨v, rfl, e⟩) (h2 P n hf)⟩
  | ctx c =>
    rcases vgOnContext_cases h with ⟨_, h2, h3⟩ | ⟨_, h2, h3⟩
    · have e : ∀ m, st'.dp.get m = st.dp.get m := by intro m; simp only [Dialplan.get, h2]
      refine ⟨⟨fun n hn => absurd hn (h3 n)⟩, fun P n hf => ⟨fun d hd s hs => .inl (hf.steps d (e n ▸ hd) s hs),
        fun d hd s hs => .inl (hf.includes d (e n ▸ hd) s hs)⟩⟩
    · obtain ⟨g1, g2⟩ := vg_get_fresh (dp := st.dp) (n := c.name) (d := ⟨c.name, c.at_, [], [], none, [], none⟩) rfl
      rw [← h3] at g1 g2
      refine ⟨⟨fun n hn => ?_⟩, fun P n hf => ⟨fun d hd s hs => ?_, fun d hd s hs => ?_⟩⟩
      · rw [h2] at hn
        cases hn
        exact ⟨_, g1⟩
      · by_cases hn : n = c.name
        · subst hn; rw [g1] at hd; cases hd; cases hs
        · rw [g2 n hn] at hd; exact .inl (hf.steps d hd s hs)
      · by_cases hn : n = c.name
        · subst hn; rw [g1] at hd; cases hd; cases hs
        · rw [g2 n hn] at hd; exact .inl (hf.includes d hd s hs)

theorem vg_feed {env : DEnv} {es : List Elem} : ∀ {st st' : DState}, VgInv st →
    (feed (vgDialplanStep env) st es).val = .ok st' →
    VgInv st' ∧ ∀ (P : Where → Prop) n, From P n st → From (fun w => P w ∨ ∃ v, Elem.var v ∈ es ∧ w = v.at_) n st' := by
  induction es with
  | nil =>
    intro st st' hi h
    simp only [feed, Res.pure_val, Except.ok.injEq] at h
    subst h
    exact ⟨hi, fun P n hf => ⟨fun c hc s hs => .inl (hf.steps c hc s hs), fun c hc s hs => .inl (hf.includes c hc s hs)⟩⟩
  | cons e es ih =>
    intro st st' hi h
    obtain ⟨s, h1, h2, _⟩ := feed_cons_ok h
    obtain ⟨i1, i2⟩ := vg_step hi h1
    obtain ⟨j1, j2⟩ := ih i1 h2
    refine ⟨j1, fun P n hf => ?_⟩
    have k := j2 _ n (i2 P n hf)
    have conv : ∀ w, ((P w ∨ ∃ v, e = .var v ∧ w = v.at_) ∨ ∃ v, Elem.var v ∈ es ∧ w = v.at_) →
        (P w ∨ ∃ v, Elem.var v ∈ e :: es ∧ w = v.at_) := by
      rintro w ((k | ⟨v, hv, k⟩) | ⟨v, hv, k⟩)
      · exact .inl k
      · exact .inr ⟨v, by simp [hv], k⟩
      · exact .inr ⟨v, by simp [hv], k⟩
    exact ⟨fun c hc s hs => conv _ (k.steps c hc s hs), fun c hc s hs => conv _ (k.includes c hc s hs)⟩

theorem vg_var_names {env : DEnv} {st st' : DState} {v : VarE} (hi : VgInv st) (h : (onVarset env st v).val = .ok st') :
    st'.dp.contexts.map (·.name) = st.dp.contexts.map (·.name) := by
  cases hcur : st.cur with
  | none =>
    simp only [onVarset, hcur] at h
    obtain ⟨_, _, h2, _⟩ := Res.bind_ok h
    simp only [Res.pure_val, Except.ok.injEq] at h2
    rw [← h2]
  | general | globals =>
    simp only [onVarset, hcur, Res.pure_val, Except.ok.injEq] at h
    rw [← h]
  | detached =>
    simp only [onVarset, hcur, Res.pure_val, Except.ok.injEq] at h
    rw [← h]
  | ctx n =>
    obtain ⟨c, hc⟩ := hi.cur n hcur
    have hl := onVarset_line hc hcur h
    generalize (onVarset env st v).log = lg at hl
    cases hl with
    | nothing => rfl
    | incl => exact putCtx_names _ _
    | ext sp' us e a => exact putCtx_names _ _

theorem get_isSome_iff {dp : Dialplan} {n : Str} : (∃ c, dp.get n = some c) ↔ n ∈ dp.contexts.map (·.name) := by
  constructor
  · rintro ⟨c, h⟩
    obtain ⟨h1, h2⟩ := get_mem h
    exact List.mem_map.2 ⟨c, h1, h2⟩
  · intro h
    obtain ⟨c, h1, h2⟩ := List.mem_map.1 h
    unfold Dialplan.get
    cases hf : dp.contexts.find? (·.name = n) with
    | some d => exact ⟨d, rfl⟩
    | none =>
      rw [List.find?_eq_none] at hf
      exact absurd h2 (by simpa using hf c h1)

/-- A context that is there stays there. -/
theorem vg_keeps {env : DEnv} {es : List Elem} : ∀ {st st' : DState} {n : Str}, VgInv st →
    (feed (vgDialplanStep env) st es).val = .ok st' → (∃ c, st.dp.get n = some c) → ∃ d, st'.dp.get n = some d := by
  induction es with
  | nil =>
    intro st st' n hi h hc
    simp only [feed, Res.pure_val, Except.ok.injEq] at h
    exact h ▸ hc
  | cons e es ih =>
    intro st st' n hi h hc
    obtain ⟨s, h1, h2, _⟩ := feed_cons_ok h
    refine ih (vg_step hi h1).1 h2 ?_
    cases e with
    | empty b w =>
      simp only [vgDialplanStep, Res.pure_val, Except.ok.injEq] at h1
      exact h1 ▸ hc
    | var v =>
      rw [get_isSome_iff, vg_var_names hi h1, ← get_isSome_iff]
      exact hc
    | ctx c =>
      rcases vgOnContext_cases h1 with ⟨_, h2, _⟩ | ⟨_, _, h3⟩
      · rw [get_isSome_iff, h2, ← get_isSome_iff]
        exact hc
      · rw [h3]
        by_cases hn : n = c.name
        · subst hn
          exact ⟨_, (vg_get_fresh (dp := st.dp) (n := c.name) (d := ⟨c.name, c.at_, [], [], none, [], none⟩) rfl).1⟩
        · rw [(vg_get_fresh (d := ⟨c.name, c.at_, [], [], none, [], none⟩) rfl).2 n hn]
          exact hc

theorem feed_append_ok {σ : Type} {agg : σ → Elem → Res σ} {s t : σ} {a b : List Elem} (h : (feed agg s (a ++ b)).val = .ok t) :
    ∃ u, (feed agg s a).val = .ok u ∧ (feed agg u b).val = .ok t := by
  rw [feed_append] at h
  obtain ⟨u, h1, h2, _⟩ := Res.bind_ok h
  exact ⟨u, h1, h2⟩

/-- Only these names have been seen so far. -/
structure Seen (hs : List Str) (st : DState) : Prop where
  ctx : ∀ c ∈ st.dp.contexts, c.name ∈ hs
  general : st.dp.general.isSome → c! "general" ∈ hs
  globals : st.dp.globals.isSome → c! "globals" ∈ hs
  cur : (st.cur = .general → st.dp.general.isSome) ∧ (st.cur = .globals → st.dp.globals.isSome)

theorem Seen.weaken {hs hs' : List Str} {st : DState} (h : Seen hs st) (hh : ∀ n ∈ hs, n ∈ hs') : Seen hs' st :=
  ⟨fun c hc => hh _ (h.ctx c hc), fun k => hh _ (h.general k), fun k => hh _ (h.globals k), h.cur⟩

theorem Seen.names {hs : List Str} {st st' : DState} (h : Seen hs st)
    (h1 : st'.dp.contexts.map (·.name) = st.dp.contexts.map (·.name))
    (h2 : st'.dp.general.isSome = st.dp.general.isSome) (h3 : st'.dp.globals.isSome = st.dp.globals.isSome)
    (h4 : st'.cur = st.cur) : Seen hs st' := by
  refine ⟨fun c hc => ?_, fun k => h.general (h2 ▸ k), fun k => h.globals (h3 ▸ k), by rw [h4, h2, h3]; exact h.cur⟩
  have : c.name ∈ st'.dp.contexts.map (·.name) := List.mem_map.2 ⟨c, hc, rfl⟩
  rw [h1] at this
  obtain ⟨d, hd, e⟩ := List.mem_map.1 this
  exact e ▸ h.ctx d hd

theorem seen_var {env : DEnv} {st st' : DState} {v : VarE} {hs : List Str} (hi : VgInv st) (hh : Seen hs st)
    (h : (onVarset env st v).val = .ok st') : Seen hs st' := by
  cases hcur : st.cur with
  | none =>
    simp only [onVarset, hcur] at h
    obtain ⟨_, _, h2, _⟩ := Res.bind_ok h
    simp only [Res.pure_val, Except.ok.injEq] at h2
    exact h2 ▸ hh
  | general | globals =>
    simp only [onVarset, hcur, Res.pure_val, Except.ok.injEq] at h
    subst h
    exact hh.names rfl (by simp) (by simp) (by simp [hcur])
  | detached =>
    simp only [onVarset, hcur, Res.pure_val, Except.ok.injEq] at h
    exact h ▸ hh
  | ctx n =>
    obtain ⟨c, hc⟩ := hi.cur n hcur
    have hl := onVarset_line hc hcur h
    generalize (onVarset env st v).log = lg at hl
    cases hl with
    | nothing => exact hh.names rfl rfl rfl rfl
    | incl => exact hh.names (putCtx_names _ _) rfl rfl rfl
    | ext sp' us e a => exact hh.names (putCtx_names _ _) rfl rfl rfl

/-- A header of a new name is the same with and without `vg`. -/
theorem vgOnContext_new {st : DState} {c : CtxE} {hs : List Str} (hh : Seen hs st) (hn : c.name ∉ hs) :
    vgOnContext st c = onContext st c := by
  have hf : st.dp.contexts.filter (·.name ≠ c.name) = st.dp.contexts := by
    rw [List.filter_eq_self]
    intro d hd
    have := hh.ctx d hd
    simp only [ne_eq, decide_not, Bool.not_eq_true', decide_eq_false_iff_not]
    rintro e
    exact hn (e ▸ this)
  unfold vgOnContext
  by_cases h1 : c.name = c! "general"
  · rw [if_pos h1, if_neg fun k => hn (h1 ▸ hh.general k)]
  · rw [if_neg h1]
    by_cases h2 : c.name = c! "globals"
    · rw [if_pos h2, if_neg fun k => hn (h2 ▸ hh.globals k)]
    · rw [if_neg h2, hf]

theorem seen_ctx {st st' : DState} {c : CtxE} {hs : List Str} (hh : Seen hs st) (h : (onContext st c).val = .ok st') :
    Seen (c.name :: hs) st' := by
  have := onContext_cases h
  generalize (onContext st c).log = lg at this
  cases this with
  | general ms hn => exact ⟨fun d hd => by simp [hh.ctx d hd], fun _ => by simp [hn], fun k => by simp [hh.globals k], by simp⟩
  | globals ms hn => exact ⟨fun d hd => by simp [hh.ctx d hd], fun k => by simp [hh.general k], fun _ => by simp [hn], by simp⟩
  | detached g hn => exact ⟨fun d hd => by simp [hh.ctx d hd], fun k => by simp [hh.general k], fun k => by simp [hh.globals k], by simp⟩
  | fresh =>
    refine ⟨fun d hd => ?_, fun k => by simp [hh.general k], fun k => by simp [hh.globals k], by simp⟩
    rcases List.mem_append.1 hd with hd | hd
    · simp [hh.ctx d hd]
    · simp only [List.mem_singleton] at hd
      simp [hd]
  | again ms d hn hg =>
    have w : Seen (c.name :: hs) st := hh.weaken fun n hn => by simp [hn]
    have k := w.names (st' := ⟨{ st.dp with
      contexts := putCtx { d with lastPrio := none, sorted := none, at_ := c.at_ } st.dp.contexts }, st.cur, st.sp, st.uses⟩)
      (putCtx_names _ _) rfl rfl rfl
    exact ⟨k.ctx, k.general, k.globals, by simp⟩

/-- Two aggregators do the same with these elements. -/
def Same {σ : Type} (agg agg' : σ → Elem → Res σ) : σ → List Elem → Prop
  | _, [] => True
  | s, e :: es => agg s e = agg' s e ∧ ∀ s', (agg s e).val = .ok s' → Same agg agg' s' es

theorem same_symm {σ : Type} {agg agg' : σ → Elem → Res σ} {es : List Elem} : ∀ {s : σ}, Same agg agg' s es → Same agg' agg s es := by
  induction es with
  | nil => intro s _; trivial
  | cons e es ih =>
    intro s h
    exact ⟨h.1.symm, fun s' hs => ih (h.2 s' (by rw [h.1]; exact hs))⟩

theorem feed_same {σ : Type} {agg agg' : σ → Elem → Res σ} {a b : List Elem} : ∀ {s : σ}, Same agg agg' s (a ++ b) →
    feed agg s a = feed agg' s a ∧ ∀ s', (feed agg s a).val = .ok s' → Same agg agg' s' b := by
  induction a with
  | nil =>
    intro s h
    refine ⟨rfl, fun s' hs => ?_⟩
    simp only [feed, Res.pure_val, Except.ok.injEq] at hs
    exact hs ▸ h
  | cons e a ih =>
    intro s h
    obtain ⟨h1, h2⟩ := h
    unfold feed
    rw [h1]
    cases hv : (wrapExc (agg' s e)).val with
    | error x =>
      rw [Res.bind_of_error hv, Res.bind_of_error hv]
      exact ⟨rfl, by simp⟩
    | ok t =>
      rw [Res.bind_of_ok hv, Res.bind_of_ok hv]
      obtain ⟨i1, i2⟩ := ih (h2 t (by rw [h1]; exact wrapExc_ok.1 hv))
      rw [i1]
      refine ⟨rfl, fun s' hs => i2 s' ?_⟩
      rw [i1]
      exact hs

theorem Res.bind_congr {α β : Type} {x : Res α} {f g : α → Res β} (h : ∀ a, x.val = .ok a → f a = g a) :
    Res.bind x f = Res.bind x g := by
  cases hx : x.val with
  | error e => rw [Res.bind_of_error hx, Res.bind_of_error hx]
  | ok a => rw [Res.bind_of_ok hx, Res.bind_of_ok hx, h a hx]

theorem pipeRun_same {σ : Type} {fs : FS} {agg agg' : σ → Elem → Res σ} : ∀ (n : Nat) (st : PState σ) (l es : List Elem),
    (pipeRun fs collect n (st.with_ l)).val = .ok (some (l ++ es)) → Same agg agg' st.agg es →
    pipeRun fs agg n st = pipeRun fs agg' n st := by
  intro n
  induction n with
  | zero => intros; rfl
  | succ n ih =>
    intro st l es h hs
    rw [pipeRun] at h
    cases hn : nextLine st.frames with
    | none =>
      have hc : ∀ {τ : Type} (a : τ → Elem → Res τ) (x : τ), pipeStep fs a (st.with_ x) = none := by
        intro τ a x
        unfold pipeStep
        simp [PState.with_, hn]
      rw [hc] at h
      obtain ⟨o, h1, h2, _⟩ := Res.bind_ok h
      simp only [Res.pure_val, Except.ok.injEq, Option.some.injEq] at h2
      subst h2
      unfold pipeEnd at h1
      obtain ⟨_, _, h5, _⟩ := Res.bind_ok h1
      obtain ⟨_, _, h8, _⟩ := Res.bind_ok h5
      simp only [feed_collect, Res.pure_val, Except.ok.injEq] at h8
      have he : es = (vswEnd st.vsw).1 := (List.append_cancel_left h8).symm
      have e1 := (feed_same (b := []) (s := st.agg) (a := es) (by simpa using hs)).1
      have q1 := hc agg st.agg
      have q2 := hc agg' st.agg
      unfold pipeRun
      rw [show st.with_ st.agg = st from rfl] at q1 q2
      rw [q1, q2]
      unfold pipeEnd
      dsimp only
      rw [← he, e1]
    | some p =>
      obtain ⟨w, frames⟩ := p
      have step : ∀ {τ : Type} (a : τ → Elem → Res τ) (x : τ), pipeStep fs a (st.with_ x) =
          some (Res.bind (Res.emitAll (lineStep fs st.ff frames w).1) fun _ =>
            match (lineStep fs st.ff frames w).2 with
            | .error e => Res.raise e
            | .ok (r, none) => Res.pure ⟨r.frames, r.ff, st.vsw, x⟩
            | .ok (r, some e) =>
              Res.bind (Res.emitAll (vswStep st.vsw e).2.2) fun _ =>
                Res.bind (feed a x (vswStep st.vsw e).2.1) fun s => Res.pure ⟨r.frames, r.ff, (vswStep st.vsw e).1, s⟩) := by
        intro τ a x
        unfold pipeStep
        simp only [PState.with_, hn]
        rfl
      have q1 := step agg st.agg
      have q2 := step agg' st.agg
      rw [show st.with_ st.agg = st from rfl] at q1 q2
      rw [step] at h
      unfold pipeRun
      rw [q1, q2]
      dsimp only at h ⊢
      obtain ⟨st', h1, h2, _⟩ := Res.bind_ok h
      obtain ⟨_, h3, h4, _⟩ := Res.bind_ok h1
      rw [Res.bind_assoc, Res.bind_assoc]
      refine Res.bind_congr fun _ _ => ?_
      cases hl : (lineStep fs st.ff frames w).2 with
      | error e => simp [hl] at h4
      | ok q =>
        obtain ⟨r, oe⟩ := q
        cases oe with
        | none =>
          simp only [hl, Res.pure_val, Except.ok.injEq] at h4
          subst h4
          dsimp only
          rw [Res.pure_bind, Res.pure_bind]
          exact ih ⟨r.frames, r.ff, st.vsw, st.agg⟩ l es (by simpa [PState.with_] using h2) hs
        | some e =>
          simp only [hl] at h4
          obtain ⟨_, _, h6, _⟩ := Res.bind_ok h4
          rw [feed_collect] at h6
          simp only [Res.pure_bind, Res.pure_val, Except.ok.injEq] at h6
          subst h6
          simp only [Res.bind_assoc, Res.pure_bind]
          refine Res.bind_congr fun _ _ => ?_
          obtain ⟨es2, h7, _⟩ := pipeRun_feed fs agg n ⟨r.frames, r.ff, (vswStep st.vsw e).1, st.agg⟩
            (l ++ (vswStep st.vsw e).2.1) _ h2
          have he : es = (vswStep st.vsw e).2.1 ++ es2 := by
            rw [List.append_assoc] at h7
            exact List.append_cancel_left h7
          subst he
          obtain ⟨f1, f2⟩ := feed_same hs
          rw [← f1]
          exact Res.bind_congr fun t ht => ih ⟨r.frames, r.ff, (vswStep st.vsw e).1, t⟩ (l ++ (vswStep st.vsw e).2.1) es2
            (by simpa [PState.with_] using h2) (f2 t ht)

/-- Without repeated names nothing is different. -/
theorem vg_same_nodup {env : DEnv} {es : List Elem} : ∀ {st : DState} {hs : List Str}, VgInv st → Seen hs st →
    (headerNames es).Nodup → (∀ n ∈ headerNames es, n ∉ hs) → Same (vgDialplanStep env) (dialplanStep env) st es := by
  induction es with
  | nil => intros; trivial
  | cons e es ih =>
    intro st hs hi hh hd hn
    have e1 : vgDialplanStep env st e = dialplanStep env st e := by
      cases e with
      | ctx c => exact vgOnContext_new hh (hn c.name (by simp [headerNames]))
      | var v => rfl
      | empty b w => rfl
    refine ⟨e1, fun s hv => ?_⟩
    have hi' : VgInv s := (vg_step hi hv).1
    rw [e1] at hv
    cases e with
    | ctx c =>
      simp only [headerNames, List.nodup_cons] at hd
      refine ih hi' (seen_ctx hh hv) hd.2 fun n hn' => ?_
      simp only [List.mem_cons, not_or]
      exact ⟨fun k => hd.1 (k ▸ hn'), hn n (by simp [headerNames, hn'])⟩
    | var v => exact ih hi' (seen_var hi hh hv) hd hn
    | empty b w =>
      simp only [dialplanStep, Res.pure_val, Except.ok.injEq] at hv
      exact ih hi' (hv ▸ hh) hd hn

end ALint
