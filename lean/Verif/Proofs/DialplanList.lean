import Verif.Proofs.DialplanMore
import Verif.Proofs.PatternOrder

/-!
# Listing a context
-/

namespace ALint
open ALint.Spec
open Pattern (Values patLt)

theorem insertPat_perm (p : Values) (l : List Values) : (insertPat p l).Perm (p :: l) := by
  induction l with
  | nil => exact .refl _
  | cons q qs ih =>
    unfold insertPat
    split
    · exact .refl _
    · exact (ih.cons q).trans (.swap p q qs)

theorem sortPats_perm (l : List Values) : (sortPats l).Perm l := by
  induction l with
  | nil => exact .refl _
  | cons q qs ih => exact (insertPat_perm q _).trans (ih.cons q)

theorem insertPat_sorted {p : Values} {l : List Values} (h : l.Pairwise fun a b => patLt a b = true) (hp : p ∉ l) :
    (insertPat p l).Pairwise fun a b => patLt a b = true := by
  induction l with
  | nil => simp [insertPat]
  | cons q qs ih =>
    rw [List.pairwise_cons] at h
    unfold insertPat
    split
    · rename_i hlt
      rw [List.pairwise_cons]
      refine ⟨fun x hx => ?_, by rw [List.pairwise_cons]; exact h⟩
      rcases List.mem_cons.1 hx with rfl | hx
      · exact hlt
      · exact Pattern.patLt_STO.trans _ _ _ hlt (h.1 x hx)
    · rename_i hlt
      rw [List.pairwise_cons]
      refine ⟨fun x hx => ?_, ih h.2 (fun hh => hp (by simp [hh]))⟩
      rcases List.mem_cons.1 ((insertPat_perm p qs).mem_iff.1 hx) with rfl | hx
      · rcases Pattern.patLt_STO.total x q (fun h1 => hp (by simp [h1])) with h1 | h1
        · exact absurd h1 hlt
        · exact h1
      · exact h.1 x hx

theorem sortPats_sorted {l : List Values} (h : l.Nodup) : (sortPats l).Pairwise fun a b => patLt a b = true := by
  induction l with
  | nil => exact .nil
  | cons q qs ih =>
    rw [List.nodup_cons] at h
    exact insertPat_sorted (ih h.2) fun hh => h.1 ((sortPats_perm qs).mem_iff.1 hh)

theorem nodup_eraseDups {α : Type} [BEq α] [LawfulBEq α] (n : Nat) : ∀ l : List α, l.length = n → l.eraseDups.Nodup := by
  induction n using Nat.strongRecOn with
  | ind n ih =>
    intro l hl
    cases l with
    | nil => simp
    | cons a as =>
      rw [List.eraseDups_cons, List.nodup_cons]
      constructor
      · rw [List.mem_eraseDups]; simp
      · refine ih _ ?_ _ rfl
        have := List.length_filter_le (fun b => !b == a) as
        simp at hl
        omega

theorem sortedPatterns_sorted (steps : List Step) :
    (sortedPatterns steps).Pairwise fun a b => patLt a b = true :=
  sortPats_sorted (nodup_eraseDups _ _ rfl)

theorem sortedPatterns_mem (steps : List Step) (p : Values) :
    p ∈ sortedPatterns steps ↔ ∃ s ∈ steps, s.pat = p := by
  unfold sortedPatterns
  rw [(sortPats_perm _).mem_iff, List.mem_eraseDups, List.mem_map]

/-- The remembered patterns are the current ones. -/
theorem getSorted_fresh {c : DCtx} (h : c.sorted = none ∨ c.sorted = some (sortedPatterns c.steps)) :
    c.getSorted.1 = sortedPatterns c.steps := by
  unfold DCtx.getSorted
  rcases h with h | h <;> rw [h]

theorem byPattern_fresh {c : DCtx} (h : c.sorted = none ∨ c.sorted = some (sortedPatterns c.steps)) :
    c.byPattern.1 = (sortedPatterns c.steps).flatMap fun p => c.steps.filter (·.pat = p) := by
  unfold DCtx.byPattern
  dsimp only
  rw [getSorted_fresh h]

theorem groups_perm (steps : List Step) (ps : List Values) (hn : ps.Nodup) :
    (ps.flatMap fun p => steps.filter (·.pat = p)).Perm (steps.filter fun s => s.pat ∈ ps) := by
  induction ps with
  | nil =>
    have : (steps.filter fun s => decide (s.pat ∈ ([] : List Values))) = [] := by simp
    rw [this]; exact .refl _
  | cons p ps ih =>
    rw [List.nodup_cons] at hn
    simp only [List.flatMap_cons]
    refine ((ih hn.2).append_left _).trans ?_
    have key : ∀ l : List Step, (l.filter (fun s => decide (s.pat = p)) ++ l.filter fun s => decide (s.pat ∈ ps)).Perm
        (l.filter fun s => decide (s.pat ∈ p :: ps)) := by
      intro l
      induction l with
      | nil => exact .refl _
      | cons s l ih2 =>
        by_cases h1 : s.pat = p
        · have h2 : s.pat ∉ ps := h1 ▸ hn.1
          rw [List.filter_cons_of_pos (by simpa using h1), List.filter_cons_of_neg (by simpa using h2),
            List.filter_cons_of_pos (by simp [h1])]
          exact ih2.cons s
        · by_cases h2 : s.pat ∈ ps
          · rw [List.filter_cons_of_neg (by simpa using h1), List.filter_cons_of_pos (by simpa using h2),
              List.filter_cons_of_pos (by simp [h2])]
            exact List.perm_middle.trans (ih2.cons s)
          · rw [List.filter_cons_of_neg (by simpa using h1), List.filter_cons_of_neg (by simpa using h2),
              List.filter_cons_of_neg (by simp [h1, h2])]
            exact ih2
    exact key steps

theorem groups_ordered (steps : List Step) {ps : List Values} (h : ps.Pairwise fun a b => patLt a b = true) :
    (ps.flatMap fun p => steps.filter (·.pat = p)).Pairwise fun s t => s.pat = t.pat ∨ patLt s.pat t.pat = true := by
  induction ps with
  | nil => exact .nil
  | cons p ps ih =>
    rw [List.pairwise_cons] at h
    rw [List.flatMap_cons, List.pairwise_append]
    refine ⟨?_, ih h.2, ?_⟩
    · rw [List.pairwise_iff_forall_sublist]
      intro s t hs
      have h1 : s ∈ steps.filter (·.pat = p) := hs.subset (by simp)
      have h2 : t ∈ steps.filter (·.pat = p) := hs.subset (by simp)
      simp only [List.mem_filter, decide_eq_true_eq] at h1 h2
      exact .inl (h1.2.trans h2.2.symm)
    · intro s hs t ht
      simp only [List.mem_filter, decide_eq_true_eq] at hs
      obtain ⟨q, hq, ht⟩ := List.mem_flatMap.1 ht
      simp only [List.mem_filter, decide_eq_true_eq] at ht
      rw [hs.2, ht.2]
      exact .inr (h.1 q hq)

theorem filter_group (steps : List Step) (p q : Values) :
    (steps.filter (·.pat = p)).filter (·.pat = q) = if p = q then steps.filter (·.pat = q) else [] := by
  rw [List.filter_filter]
  split
  · rename_i h; subst h
    congr 1; funext s; simp
  · rename_i h
    rw [List.filter_eq_nil_iff]
    intro s _ hs
    simp only [Bool.and_eq_true, decide_eq_true_eq] at hs
    exact h (hs.2.symm.trans hs.1)

theorem groups_stable (steps : List Step) {ps : List Values} (hn : ps.Nodup) (q : Values) :
    (ps.flatMap fun p => steps.filter (·.pat = p)).filter (·.pat = q) =
      if q ∈ ps then steps.filter (·.pat = q) else [] := by
  induction ps with
  | nil => simp
  | cons p ps ih =>
    rw [List.nodup_cons] at hn
    rw [List.flatMap_cons, List.filter_append, ih hn.2, filter_group]
    by_cases h : p = q
    · subst h; simp [hn.1]
    · simp only [h, if_false, List.nil_append, List.mem_cons]
      by_cases hq : q ∈ ps
      · simp [hq]
      · have : q ≠ p := fun hh => h hh.symm
        simp [hq, this]

theorem nodup_sortedPatterns (steps : List Step) : (sortedPatterns steps).Nodup := by
  refine (sortedPatterns_sorted steps).imp ?_
  intro a b h hab
  subst hab
  exact Pattern.patLt_STO.ne h rfl

theorem listing_of {c : DCtx} (h : c.sorted = none ∨ c.sorted = some (sortedPatterns c.steps)) :
    Listing c.steps c.byPattern.1 := by
  rw [byPattern_fresh h]
  refine ⟨?_, groups_ordered _ (sortedPatterns_sorted _), fun q => ?_⟩
  · refine (groups_perm _ _ (nodup_sortedPatterns _)).trans ?_
    have : (c.steps.filter fun s => decide (s.pat ∈ sortedPatterns c.steps)) = c.steps := by
      rw [List.filter_eq_self]
      intro s hs
      simpa using (sortedPatterns_mem _ _).2 ⟨s, hs, rfl⟩
    rw [this]
  · rw [groups_stable _ (nodup_sortedPatterns _)]
    by_cases hq : q ∈ sortedPatterns c.steps
    · rw [if_pos hq]
    · rw [if_neg hq]
      symm
      rw [List.filter_eq_nil_iff]
      intro s hs he
      exact hq ((sortedPatterns_mem _ _).2 ⟨s, hs, by simpa using he⟩)

theorem built_sorted {c : DCtx} (h : Built c) : c.sorted = none ∨ c.sorted = some (sortedPatterns c.steps) := by
  induction h with
  | new name w => exact .inl rfl
  | add c last e a hb ha ih =>
    have := addExt_cases ha
    generalize (addExt last c e).log = lg at this
    cases this <;> exact .inl rfl
  | again c o c' hb hu ih =>
    unfold updateCtx at hu
    split at hu
    · cases hu
    · split at hu
      · cases hu
      · simp only [Except.ok.injEq] at hu
        subst hu
        exact .inl rfl
  | incl c is hb ih => exact ih
  | list c hb ih =>
    unfold DCtx.byPattern DCtx.getSorted
    dsimp only
    rcases ih with h | h
    · rw [h]; exact .inr rfl
    · rw [h]; exact .inr h

/-! ## Groups numbered 1, 2, 3, … -/

/-- What makes a priority acceptable without complaint. -/
theorem resolvePrio_quiet {last : Option Nat} {c : DCtx} {raw : Str} {pat : Values} {e : ExtLine} {n : Nat}
    {ms : List Msg} (hr : resolvePrio last c raw pat e = ⟨ms, .ok (some n)⟩)
    (hq : ∀ m ∈ ms, m.kind ≠ .W_DP_PRIO_BADORDER) :
    n = 1 ∨ (∃ s, lastOf c.steps pat = some s ∧ (s.prio + 1 = n ∨ s.prio = n)) ∨
    (∃ s m, c.steps.getLast? = some s ∧ s.pat = pat ∧ c.lastPrio ≠ none ∧ last = some m ∧ n = m + 1) := by
  unfold resolvePrio at hr
  cases hp : e.prio with
  | none =>
    rw [hp] at hr
    simp only at hr
    split at hr
    · have := congrArg Res.val hr
      obtain ⟨_, _, h2, _⟩ := Res.bind_ok this
      simp at h2
    · rename_i hl
      have hv := congrArg Res.val hr
      have hlg := congrArg Res.log hr
      simp only at hlg hv
      obtain ⟨bad, h1, h2, h3⟩ := Res.bind_ok hv
      obtain ⟨_, h4, h5, h6⟩ := Res.bind_ok h2
      simp only [Res.pure_val, Except.ok.injEq, Option.some.injEq] at h5
      right; right
      cases bad with
      | true =>
        exfalso
        rw [h3, h6] at hlg
        apply hq (badOrder e.at_ raw (strV (c! "<unset>")))
        · rw [← hlg]; simp
        · rfl
      | false =>
        simp only [Res.lift_val] at h1
        unfold outOfOrder at h1
        split at h1
        · simp at h1
        · rename_i hcl
          cases hs : c.steps.getLast? with
          | none => rw [hs] at h1; simp at h1
          | some s =>
            rw [hs] at h1
            simp at h1
            refine ⟨s, last.getD 0, rfl, h1, ?_, ?_, h5.symm⟩
            · intro hh; rw [hh] at hcl; simp at hcl
            · cases last with
              | none => simp at hl
              | some m => rfl
  | some k =>
    rw [hp] at hr
    simp only at hr
    split at hr
    · have := congrArg Res.val hr
      obtain ⟨_, _, h2, _⟩ := Res.bind_ok this
      simp at h2
    · split at hr
      · right; left
        cases hl : lastOf c.steps pat with
        | none =>
          rw [hl] at hr
          simp only at hr
          exfalso
          have := congrArg Res.log hr
          simp only at this
          apply hq (badOrder e.at_ raw (natV k))
          · rw [← this]; simp only [Res.bind, Res.emit]; split <;> simp
          · rfl
        | some prev =>
          rw [hl] at hr
          simp only at hr
          split at hr
          · exfalso
            have := congrArg Res.log hr
            simp only at this
            apply hq (badOrder e.at_ raw (natV k))
            · rw [← this]; simp only [Res.bind, Res.emit]; split <;> simp
            · rfl
          · rename_i hn
            have := congrArg Res.val hr
            simp only [Res.pure_val, Except.ok.injEq, Option.some.injEq] at this
            subst this
            refine ⟨prev, rfl, ?_⟩
            by_cases h1 : prev.prio + 1 = k
            · exact .inl h1
            · by_cases h2 : prev.prio = k
              · exact .inr h2
              · exact absurd ⟨h1, h2⟩ hn
      · rename_i hk
        have := congrArg Res.val hr
        simp only [Res.pure_val, Except.ok.injEq, Option.some.injEq] at this
        left; omega

theorem getLast_filter {α : Type} {l : List α} {p : α → Bool} {s : α} (h : l.getLast? = some s) (hp : p s = true) :
    (l.filter p).getLast? = some s := by
  obtain ⟨ys, rfl⟩ := List.getLast?_eq_some_iff.1 h
  rw [List.filter_append]
  simp [hp]

theorem range_last {g : List Step} (hg : g.map (·.prio) = List.range' 1 g.length) {s : Step}
    (hs : g.getLast? = some s) : s.prio = g.length := by
  obtain ⟨ys, rfl⟩ := List.getLast?_eq_some_iff.1 hs
  rw [List.length_append, List.length_singleton, List.map_append, List.range'_concat] at hg
  have := List.append_inj_right' hg (by simp)
  simp at this
  simp [this]; omega

/-- The priorities of every extension are 1, 2, 3, …. -/
structure Numbered (st : DState) : Prop where
  groups : ∀ n p, ((stepsOf st.dp n).filter (·.pat = p)).map (·.prio) =
    List.range' 1 ((stepsOf st.dp n).filter (·.pat = p)).length
  cur : ∀ n c m, st.cur = .ctx n → st.dp.get n = some c → c.lastPrio = some m →
    st.dp.lastPrio = some m ∧ ∃ s, c.steps.getLast? = some s ∧ s.prio = m

theorem Numbered.init (sp : Option Str) : Numbered (.init sp) where
  groups := by simp [stepsOf, DState.init, Dialplan.init, Dialplan.get]
  cur := by simp [DState.init]

theorem Numbered.same {st st' : DState} (hN : Numbered st) (hs : ∀ n, stepsOf st'.dp n = stepsOf st.dp n)
    (hc : ∀ n c m, st'.cur = .ctx n → st'.dp.get n = some c → c.lastPrio = some m →
      st'.dp.lastPrio = some m ∧ ∃ s, c.steps.getLast? = some s ∧ s.prio = m) : Numbered st' :=
  ⟨fun n p => by rw [hs]; exact hN.groups n p, hc⟩

theorem stepsOf_get {dp : Dialplan} {n : Str} {c : DCtx} (h : dp.get n = some c) : stepsOf dp n = c.steps := by
  simp [stepsOf, h]

theorem add_numbered {st st' : DState} {c : DCtx} {n : Str} {e : ExtLine} {a : Added} {as : List Msg}
    (hi : DpInv st) (hN : Numbered st) (hcur : st.cur = .ctx n) (hc : st.dp.get n = some c)
    (ha : AddCase st.dp.lastPrio c e a as) (hdp : st'.dp = st.dp.withAdded a) (hcur' : st'.cur = st.cur)
    (hq : ∀ m ∈ as, m.kind ≠ .W_DP_PRIO_BADORDER ∧ m.kind ≠ .E_DP_PRIO_DUPE) : Numbered st' := by
  obtain ⟨g1, g2, g3⟩ := stepsOf_added hc (addCase_frame ha).1
  have hci := hi.ctxs c (get_mem hc).1
  have other : ∀ m, m ≠ n → stepsOf st'.dp m = stepsOf st.dp m := by
    intro m hm; unfold stepsOf; rw [hdp, g3 m hm]
  have self : stepsOf st'.dp n = a.ctx.steps := by rw [hdp]; exact g1
  have hs : stepsOf st.dp n = c.steps := stepsOf_get hc
  have keep : a.ctx.steps = c.steps → a.ctx.lastPrio = c.lastPrio → a.last = st.dp.lastPrio → Numbered st' := by
    intro e1 e2 e3
    refine hN.same (fun m => ?_) ?_
    · by_cases hm : m = n
      · subst hm; rw [self, e1, hs]
      · exact other m hm
    · intro m d k h1 h2 h3
      rw [hcur', hcur] at h1
      cases h1
      rw [hdp, g2] at h2
      simp only [Option.some.injEq] at h2
      subst h2
      rw [e2] at h3
      rw [hdp, e1]
      show a.last = _ ∧ _
      rw [e3]
      exact hN.cur n c k hcur hc h3
  cases ha with
  | noPat | noPrio => exact keep rfl rfl rfl
  | dupe raw pat ms k prev hp hr hd =>
    exact absurd rfl (hq (dupeMsg e.at_ k prev) (by simp)).2
  | stored raw pat ms k label' ls ds pc lms hp hr hd hpc hlc hl hj =>
    have hfree : ∀ t ∈ c.steps, t.pat = pat → t.prio ≠ k := by
      intro t ht h1 h2
      have := (hci.prios (Pattern.canonical pat) k t.at_).2 ⟨t, ht, by rw [h1], h2, rfl⟩
      rw [hd] at this; simp at this
    have hg : (c.steps.filter (·.pat = pat)).map (·.prio) = List.range' 1 (c.steps.filter (·.pat = pat)).length := by
      have := hN.groups n pat
      rw [hs] at this; exact this
    have hk : k = (c.steps.filter (·.pat = pat)).length + 1 := by
      have hlastOf : ∀ s, lastOf c.steps pat = some s → s.prio = (c.steps.filter (·.pat = pat)).length :=
        fun s h => range_last hg h
      rcases resolvePrio_quiet hr (fun m hm => (hq m (by simp [hm])).1) with h1 | ⟨s, h1, h2⟩ | ⟨s, m, h1, h2, h3, h4, h5⟩
      · subst h1
        by_cases hnil : c.steps.filter (·.pat = pat) = []
        · simp [hnil]
        · exfalso
          have hpos : 0 < (c.steps.filter (·.pat = pat)).length := List.length_pos_iff.2 hnil
          have : 1 ∈ (c.steps.filter (·.pat = pat)).map (·.prio) := by
            rw [hg, List.mem_range'_1]; omega
          obtain ⟨t, ht, ht1⟩ := List.mem_map.1 this
          simp only [List.mem_filter, decide_eq_true_eq] at ht
          exact hfree t ht.1 ht.2 ht1
      · have := hlastOf s h1
        rcases h2 with h2 | h2
        · omega
        · exfalso
          have hmem := List.mem_of_getLast? h1
          simp only [List.mem_filter, decide_eq_true_eq] at hmem
          exact hfree s hmem.1 hmem.2 h2
      · have hsl : lastOf c.steps pat = some s := getLast_filter h1 (by simpa using h2)
        have hlen := hlastOf s hsl
        obtain ⟨m', hm'⟩ := Option.ne_none_iff_exists'.1 h3
        obtain ⟨h6, s', h7, h8⟩ := hN.cur n c m' hcur hc hm'
        rw [h1] at h7
        simp only [Option.some.injEq] at h7
        subst h7
        rw [h4] at h6
        simp only [Option.some.injEq] at h6
        omega
    refine ⟨fun m p => ?_, ?_⟩
    · by_cases hm : m = n
      · subst hm
        rw [self]
        simp only [List.filter_append]
        by_cases hpp : pat = p
        · subst hpp
          simp only [List.map_append, List.length_append]
          simp
          rw [hg, List.range'_concat, hk, Nat.add_comm]
          simp
        · have := hN.groups m p
          rw [hs] at this
          simpa [hpp] using this
      · rw [other m hm]; exact hN.groups m p
    · intro m d j h1 h2 h3
      rw [hcur', hcur] at h1
      cases h1
      rw [hdp, g2] at h2
      simp only [Option.some.injEq] at h2
      subst h2
      simp only [Option.some.injEq] at h3
      subst h3
      refine ⟨by rw [hdp]; rfl, ?_⟩
      simp

theorem step_numbered {env : DEnv} {st st' : DState} {el : Elem} {log : List Msg} (hi : DpInv st) (hN : Numbered st)
    (h : dialplanStep env st el = ⟨log, .ok st'⟩)
    (hq : ∀ m ∈ log, m.kind ≠ .W_DP_PRIO_BADORDER ∧ m.kind ≠ .E_DP_PRIO_DUPE) : Numbered st' := by
  have hv := congrArg Res.val h
  have hl := congrArg Res.log h
  simp only at hv hl
  rcases step_cases' hi hv with hqt | ⟨v, n, c, sp', us, e, ms, a, as, rfl, hcur, hsl, hc, hr, ha, hdp, hcur', _, has⟩
  · refine hN.same hqt.steps ?_
    cases el with
    | empty b w =>
      simp only [dialplanStep, Res.pure_val, Except.ok.injEq] at hv
      exact hv ▸ hN.cur
    | ctx c =>
      have := onContext_cases hv
      generalize (onContext st c).log = lg at this
      intro n d m h1 h2 h3
      cases this with
      | general | globals | detached => simp at h1
      | fresh ms hn hg hm =>
        simp only [Cur.ctx.injEq] at h1
        subst h1
        simp only [Dialplan.get, List.find?_append] at h2
        unfold Dialplan.get at hg
        simp [hg] at h2
        subst h2
        simp at h3
      | again ms d' hn hg hc hm =>
        simp only [Cur.ctx.injEq] at h1
        subst h1
        obtain ⟨g1, _⟩ := get_put (d := { d' with lastPrio := none, sorted := none, at_ := c.at_ }) hg (get_mem hg).2
        rw [g1] at h2
        simp only [Option.some.injEq] at h2
        subst h2
        simp at h3
    | var v =>
      intro n d m h1 h2 h3
      cases hcur : st.cur with
      | none =>
        simp only [dialplanStep, onVarset, hcur] at hv
        obtain ⟨_, _, h4, _⟩ := Res.bind_ok hv
        simp only [Res.pure_val, Except.ok.injEq] at h4
        subst h4
        exact hN.cur n d m h1 h2 h3
      | general | globals =>
        simp only [dialplanStep, onVarset, hcur, Res.pure_val, Except.ok.injEq] at hv
        subst hv
        cases h1
      | detached =>
        simp only [dialplanStep, onVarset, hcur, Res.pure_val, Except.ok.injEq] at hv
        subst hv
        rw [hcur] at h1; cases h1
      | ctx k =>
        obtain ⟨c, hc, hlc⟩ := onVarset_cases hi hcur hv
        generalize hlg : (onVarset env st v).log = lg at hlc
        cases hlc with
        | nothing sp' us _ h => exact hN.cur n d m h1 h2 h3
        | incl hk =>
          simp only [hcur, Cur.ctx.injEq] at h1
          subst h1
          obtain ⟨g1, _⟩ := get_put (d := { c with includes := c.includes ++ [(v.value, v.at_)] }) hc (get_mem hc).2
          rw [g1] at h2
          simp only [Option.some.injEq] at h2
          subst h2
          exact hN.cur _ c m hcur hc h3
        | ext sp' us e a ms cs as hk hrd hcs ha =>
          refine (add_numbered (st' := ⟨st.dp.withAdded a, st.cur, sp', st.uses ++ us⟩) hi hN hcur hc ha rfl rfl fun x hx => hq x ?_).cur n d m h1 h2 h3
          rw [← hl, show (dialplanStep env st (.var v)).log = _ from hlg]
          simp [hx]
  · exact add_numbered hi hN hcur hc ha hdp hcur' fun m hm => hq m (hl ▸ has m hm)

theorem feed_numbered {env : DEnv} {st st' : DState} {es : List Elem} {log : List Msg} (hi : DpInv st) (hN : Numbered st)
    (h : feed (dialplanStep env) st es = ⟨log, .ok st'⟩)
    (hq : ∀ m ∈ log, m.kind ≠ .W_DP_PRIO_BADORDER ∧ m.kind ≠ .E_DP_PRIO_DUPE) : Numbered st' := by
  induction es generalizing st log with
  | nil =>
    have := congrArg Res.val h
    simp only [feed, Res.pure_val, Except.ok.injEq] at this
    exact this ▸ hN
  | cons e es ih =>
    obtain ⟨s, h1, h2, h3⟩ := feed_cons_ok (congrArg Res.val h)
    have hl := congrArg Res.log h
    simp only at hl
    rw [h3] at hl
    have e1 : dialplanStep env st e = ⟨(dialplanStep env st e).log, .ok s⟩ := by rw [← h1]
    have e2 : feed (dialplanStep env) s es = ⟨(feed (dialplanStep env) s es).log, .ok st'⟩ := by rw [← h2]
    refine ih (step_inv hi h1) (step_numbered hi hN e1 fun m hm => hq m ?_) e2 fun m hm => hq m ?_
    · rw [← hl]; simp [hm]
    · rw [← hl]; simp [hm]

end ALint
