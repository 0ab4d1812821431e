import Verif.Proofs.DialplanState
import Verif.Spec.Dialplan

/-!
# Whole dialplans
-/

namespace ALint
open ALint.Spec
open Pattern (Values)

/-! ## Headers -/

inductive HeaderCase (st : DState) (c : CtxE) : DState → List Msg → Prop
  | general (ms : List Msg) (hn : c.name = c! "general") (hg : st.dp.general = none)
      (hm : ∀ m ∈ ms, m = mkMsg .H_DP_GENERAL_MISPLACED c.at_ []) :
      HeaderCase st c ⟨{ st.dp with general := some (c, []) }, .general, st.sp, st.uses⟩ ms
  | globals (ms : List Msg) (hn : c.name = c! "globals") (hg : st.dp.globals = none)
      (hm : ∀ m ∈ ms, m = mkMsg .H_DP_GLOBALS_MISPLACED c.at_ []) :
      HeaderCase st c ⟨{ st.dp with globals := some (c, []) }, .globals, st.sp, st.uses⟩ ms
  | detached (g : CtxE × List VarE) (hn : c.name = c! "globals") (hg : st.dp.globals = some g) :
      HeaderCase st c ⟨st.dp, .detached, st.sp, st.uses⟩ [⟨.E_DP_GLOBALS_DUPE, c.at_, [], some g.1.at_⟩]
  | fresh (ms : List Msg) (hn : special c.name = false) (hg : st.dp.get c.name = none)
      (hm : ∀ m ∈ ms, m = mkMsg .I_NOTIMPL_TEMPLATES c.at_ []) :
      HeaderCase st c
        ⟨{ st.dp with contexts := st.dp.contexts ++ [⟨c.name, c.at_, [], [], none, [], none⟩] },
          .ctx c.name, st.sp, st.uses⟩ ms
  | again (ms : List Msg) (d : DCtx) (hn : special c.name = false) (hg : st.dp.get c.name = some d)
      (hc : c.comment = false)
      (hm : ∀ m ∈ ms, m = mkMsg .I_NOTIMPL_TEMPLATES c.at_ []) :
      HeaderCase st c
        ⟨{ st.dp with
            contexts := putCtx { d with lastPrio := none, sorted := none, at_ := c.at_ } st.dp.contexts },
          .ctx c.name, st.sp, st.uses⟩ ms

theorem onContext_cases {st st' : DState} {c : CtxE} (h : (onContext st c).val = .ok st') :
    HeaderCase st c st' (onContext st c).log := by
  unfold onContext at h ⊢
  by_cases h1 : c.name = c! "general"
  · rw [if_pos h1] at h ⊢
    obtain ⟨dp, h2, h3, h4⟩ := Res.bind_ok h
    simp only [Res.pure_val, Except.ok.injEq] at h3
    subst h3
    rw [h4]
    simp only [Res.pure_log, List.append_nil]
    unfold addGeneral at h2 ⊢
    cases hg : st.dp.general with
    | some g =>
      simp only [hg] at h2
      obtain ⟨_, _, h5, _⟩ := Res.bind_ok h2
      simp at h5
    | none =>
      simp only [hg] at h2 ⊢
      obtain ⟨_, _, h5, h6⟩ := Res.bind_ok h2
      simp only [Res.pure_val, Except.ok.injEq] at h5
      subst h5
      rw [h6]
      refine .general _ h1 hg fun m hm => ?_
      simp only [Res.pure_log, List.append_nil] at hm
      split at hm
      · simpa using hm
      · simp at hm
  · rw [if_neg h1] at h ⊢
    by_cases h1' : c.name = c! "globals"
    · rw [if_pos h1'] at h ⊢
      obtain ⟨⟨dp, cur⟩, h2, h3, h4⟩ := Res.bind_ok h
      simp only [Res.pure_val, Except.ok.injEq] at h3
      subst h3
      rw [h4]
      simp only [Res.pure_log, List.append_nil]
      unfold addGlobals at h2 ⊢
      cases hg : st.dp.globals with
      | some g =>
        simp only [hg] at h2 ⊢
        obtain ⟨_, _, h5, h6⟩ := Res.bind_ok h2
        simp only [Res.pure_val, Except.ok.injEq, Prod.mk.injEq] at h5
        obtain ⟨rfl, rfl⟩ := h5
        rw [h6]
        exact .detached g h1' hg
      | none =>
        simp only [hg] at h2 ⊢
        obtain ⟨_, _, h5, h6⟩ := Res.bind_ok h2
        simp only [Res.pure_val, Except.ok.injEq, Prod.mk.injEq] at h5
        obtain ⟨rfl, rfl⟩ := h5
        rw [h6]
        refine .globals _ h1' hg fun m hm => ?_
        simp only [Res.pure_log, List.append_nil] at hm
        split at hm
        · simpa using hm
        · simp at hm
    · rw [if_neg h1'] at h ⊢
      have hs : special c.name = false := by simp [special, h1, h1']
      obtain ⟨_, _, h2, h3⟩ := Res.bind_ok h
      obtain ⟨dp, h4, h5, h6⟩ := Res.bind_ok h2
      simp only [Res.pure_val, Except.ok.injEq] at h5
      subst h5
      rw [h3, h6]
      simp only [Res.lift_val] at h4
      have hm : ∀ m ∈ (if c.templates.isEmpty = true then Res.pure ()
          else Res.emit (mkMsg .I_NOTIMPL_TEMPLATES c.at_ [])).log, m = mkMsg .I_NOTIMPL_TEMPLATES c.at_ [] := by
        intro m hm
        split at hm
        · simp at hm
        · simpa using hm
      simp only [Res.lift_log, Res.pure_log, List.append_nil]
      unfold onDialplanContext at h4
      cases hg : st.dp.get c.name with
      | none =>
        simp only [hg, Except.ok.injEq] at h4
        subst h4
        exact .fresh _ hs hg hm
      | some d =>
        simp only [hg] at h4
        unfold updateCtx at h4
        cases hc : c.comment with
        | true => simp [hc] at h4
        | false =>
          by_cases ht : c.templates.isEmpty
          · simp only [hc, ht, Bool.not_true, Bool.false_eq_true, if_false, Except.ok.injEq] at h4
            subst h4
            exact .again _ d hs hg hc hm
          · simp [hc, ht] at h4

/-! ## The invariant is kept -/

theorem ctxInv_again {d : DCtx} {w : Where} (h : CtxInv d) :
    CtxInv { d with lastPrio := none, sorted := none, at_ := w } :=
  ⟨h.prios, h.labels, h.unique, h.uniqueLabel, h.positive, by simp, .inl rfl, h.keys⟩

theorem ctxInv_includes {d : DCtx} {i : List (Str × Where)} (h : CtxInv d) :
    CtxInv { d with includes := i } :=
  ⟨h.prios, h.labels, h.unique, h.uniqueLabel, h.positive, h.last, h.sorted, h.keys⟩

/-- Replacing a context by one with the same name and steps. -/
theorem put_inv {st : DState} {c d : DCtx} {cur : Cur} {sp : Option Str} {us : List Ev}
    (hi : DpInv st) (hc : st.dp.get c.name = some c) (hn : d.name = c.name) (hs : d.steps = c.steps)
    (hd : CtxInv d) (hcur : ∀ n, cur = .ctx n → ∃ c, st.dp.get n = some c) :
    DpInv ⟨{ st.dp with contexts := putCtx d st.dp.contexts }, cur, sp, us⟩ := by
  have := withAdded_inv (st := ⟨st.dp, cur, st.sp, st.uses⟩) (c := c) (a := ⟨d, st.dp.lastPrio, [], []⟩)
    (sp := sp) (us := us) ⟨hi.names, hi.ctxs, hi.labels, hcur⟩ hc hn hd (.inl ⟨hs, rfl⟩)
  simpa [Dialplan.withAdded] using this

theorem onContext_inv {st st' : DState} {c : CtxE} {ms : List Msg} (hi : DpInv st)
    (h : HeaderCase st c st' ms) : DpInv st' := by
  cases h with
  | general ms hn hg hm => exact ⟨hi.names, hi.ctxs, hi.labels, by simp⟩
  | globals ms hn hg hm => exact ⟨hi.names, hi.ctxs, hi.labels, by simp⟩
  | detached g hn hg => exact ⟨hi.names, hi.ctxs, hi.labels, by simp⟩
  | again ms d hn hg hc hm =>
    obtain ⟨hmem, hname⟩ := get_mem hg
    refine put_inv hi (c := d) (by rw [hname]; exact hg) rfl rfl (ctxInv_again (hi.ctxs d hmem)) ?_
    intro n h
    simp at h
    subst h
    exact ⟨d, hg⟩
  | fresh ms hn hg hm =>
    refine ⟨?_, ?_, ?_, ?_⟩
    · simp only [List.map_append, List.map_cons, List.map_nil]
      refine List.nodup_append.2 ⟨hi.names, by simp, ?_⟩
      intro a ha b hb e
      simp at hb
      subst hb
      subst e
      obtain ⟨d, hd, he⟩ := List.mem_map.1 ha
      unfold Dialplan.get at hg
      rw [List.find?_eq_none] at hg
      exact hg d hd (by simp [he])
    · intro d hd
      rcases List.mem_append.1 hd with hd | hd
      · exact hi.ctxs d hd
      · simp at hd; subst hd; exact CtxInv.fresh _ _
    · intro l
      rw [hi.labels]
      constructor
      · rintro ⟨d, hd, h⟩
        exact ⟨d, List.mem_append_left _ hd, h⟩
      · rintro ⟨d, hd, s, hs, h⟩
        rcases List.mem_append.1 hd with hd | hd
        · exact ⟨d, hd, s, hs, h⟩
        · simp at hd; subst hd; simp at hs
    · intro n h
      simp at h
      subst h
      unfold Dialplan.get at hg ⊢
      simp [List.find?_append, hg]

theorem line_inv {env : DEnv} {st st' : DState} {v : VarE} {c : DCtx} {n : Str} {ms : List Msg} (hi : DpInv st)
    (hc : st.dp.get n = some c) (h : LineCase env st v c st' ms) : DpInv st' := by
  obtain ⟨hmem, rfl⟩ := get_mem hc
  cases h with
  | nothing sp' us ms h => exact ⟨hi.names, hi.ctxs, hi.labels, hi.cur⟩
  | incl hk => exact put_inv hi hc rfl rfl (ctxInv_includes (hi.ctxs c hmem)) hi.cur
  | ext sp' us e a ms cs as hk h hcs ha =>
    exact withAdded_inv hi hc (addCase_frame ha).1 (addCase_inv ha (hi.ctxs c hmem)) (addCase_steps ha)

theorem step_inv {env : DEnv} {st st' : DState} {el : Elem} (hi : DpInv st)
    (h : (dialplanStep env st el).val = .ok st') : DpInv st' := by
  cases el with
  | ctx c => exact onContext_inv hi (onContext_cases h)
  | empty b w =>
    simp only [dialplanStep, Res.pure_val, Except.ok.injEq] at h
    exact h ▸ hi
  | var v =>
    cases hcur : st.cur with
    | ctx n =>
      obtain ⟨c, hc, hl⟩ := onVarset_cases hi hcur h
      exact line_inv hi hc hl
    | none =>
      simp only [dialplanStep, onVarset, hcur] at h
      obtain ⟨_, _, h2, _⟩ := Res.bind_ok h
      simp only [Res.pure_val, Except.ok.injEq] at h2
      exact h2 ▸ hi
    | general =>
      simp only [dialplanStep, onVarset, hcur, Res.pure_val, Except.ok.injEq] at h
      subst h
      exact ⟨hi.names, hi.ctxs, hi.labels, by simp⟩
    | globals =>
      simp only [dialplanStep, onVarset, hcur, Res.pure_val, Except.ok.injEq] at h
      subst h
      exact ⟨hi.names, hi.ctxs, hi.labels, by simp⟩
    | detached =>
      simp only [dialplanStep, onVarset, hcur, Res.pure_val, Except.ok.injEq] at h
      exact h ▸ hi

theorem feed_dpInv {env : DEnv} {st st' : DState} {es : List Elem} (hi : DpInv st)
    (h : (feed (dialplanStep env) st es).val = .ok st') : DpInv st' :=
  feed_inv DpInv (fun _ _ _ hs h => step_inv hs h) es st st' hi h

/-- Every dialplan read satisfies the invariant. -/
theorem read_inv {env : DEnv} {sp : Option Str} {st : DState} {es : List Elem}
    (h : (feed (dialplanStep env) (.init sp) es).val = .ok st) : DpInv st :=
  feed_dpInv (DpInv.init sp) h

/-- What `dialplan-check` has at the end is what it read. -/
theorem check_read {fs : FS} {env : DEnv} {sp : Option Str} {n : Nat} {path : Str} {content : Bytes}
    {st : DState} (h : (checkDialplan fs env sp n path content).val = .ok (some st)) :
    ∃ es, (feed (dialplanStep env) (.init sp) es).val = .ok st ∧
      (pipeRun fs collect n ⟨[openFrame path content], [], [], []⟩).val = .ok (some es) ∧
      List.Sublist (feed (dialplanStep env) (.init sp) es).log (checkDialplan fs env sp n path content).log := by
  unfold checkDialplan at h ⊢
  obtain ⟨r, h1, h2, h3⟩ := Res.bind_ok h
  cases r with
  | none => simp at h2
  | some s =>
    simp only at h2
    obtain ⟨_, _, h4, _⟩ := Res.bind_ok h2
    obtain ⟨_, _, h5, _⟩ := Res.bind_ok h4
    simp only [Res.pure_val, Except.ok.injEq, Option.some.injEq] at h5
    subst h5
    obtain ⟨es, g1, g2, g3⟩ := pipeRun_collect fs (dialplanStep env) n _ _ h1
    refine ⟨es, g1, by simpa [PState.with_] using g2 [], ?_⟩
    rw [h3]
    exact g3.trans (List.sublist_append_left _ _)

end ALint
