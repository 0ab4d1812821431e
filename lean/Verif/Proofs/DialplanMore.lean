import Verif.Proofs.DialplanText

/-!
# Further invariants of dialplans: texts of patterns, the last priority, steps are kept
-/

namespace ALint
open ALint.Spec
open Pattern (Values)

/-- The steps of the context of that name (none without the context). -/
def stepsOf (dp : Dialplan) (n : Str) : List Step := ((dp.get n).map (·.steps)).getD []

/-- Nothing happened to steps, jumps and labels. -/
structure Quiet (st st' : DState) : Prop where
  steps : ∀ n, stepsOf st'.dp n = stepsOf st.dp n
  last : st'.dp.lastPrio = st.dp.lastPrio
  dests : st'.dp.dests = st.dp.dests
  labels : st'.dp.allLabels = st.dp.allLabels
  names : ∀ n, (st.dp.get n).isSome → (st'.dp.get n).isSome

theorem Quiet.refl (st : DState) : Quiet st st := ⟨fun _ => rfl, rfl, rfl, rfl, fun _ h => h⟩

theorem Quiet.of_dp {st st' : DState} (h1 : st'.dp.contexts = st.dp.contexts)
    (h2 : st'.dp.lastPrio = st.dp.lastPrio) (h3 : st'.dp.dests = st.dp.dests)
    (h4 : st'.dp.allLabels = st.dp.allLabels) : Quiet st st' :=
  ⟨fun n => by simp only [stepsOf, Dialplan.get, h1], h2, h3, h4, fun n h => by
    simp only [Dialplan.get, h1]; exact h⟩

theorem Quiet.put {st st' : DState} {n : Str} {c d : DCtx} (hc : st.dp.get n = some c) (hd : d.name = n)
    (hs : d.steps = c.steps) (h1 : st'.dp.contexts = putCtx d st.dp.contexts)
    (h2 : st'.dp.lastPrio = st.dp.lastPrio) (h3 : st'.dp.dests = st.dp.dests)
    (h4 : st'.dp.allLabels = st.dp.allLabels) : Quiet st st' := by
  obtain ⟨g1, g2⟩ := get_put hc hd
  have e : ∀ m, st'.dp.get m = ({ st.dp with contexts := putCtx d st.dp.contexts } : Dialplan).get m := by
    intro m; simp only [Dialplan.get, h1]
  refine ⟨fun m => ?_, h2, h3, h4, fun m hm => ?_⟩
  · unfold stepsOf
    rw [e]
    by_cases hmn : m = n
    · subst hmn; rw [g1, hc]; simp [hs]
    · rw [g2 m hmn]
  · rw [e]
    by_cases hmn : m = n
    · subst hmn; rw [g1]; rfl
    · rw [g2 m hmn]; exact hm

/-- Every element is quiet, or a line handed to `add`. -/
theorem step_cases' {env : DEnv} {st st' : DState} {el : Elem} (hi : DpInv st)
    (h : (dialplanStep env st el).val = .ok st') :
    Quiet st st' ∨ ∃ v n c sp' us e ms a as, el = .var v ∧ st.cur = .ctx n ∧ stepLine v = true ∧
      st.dp.get n = some c ∧
      ReadCase env st.sp v (sp', us, .ext e) ms ∧ AddCase st.dp.lastPrio c e a as ∧
      st'.dp = st.dp.withAdded a ∧ st'.cur = st.cur ∧ st'.uses = st.uses ++ us ∧
      (∀ m ∈ as, m ∈ (dialplanStep env st el).log) := by
  cases el with
  | empty b w =>
    simp only [dialplanStep, Res.pure_val, Except.ok.injEq] at h
    exact .inl (h ▸ .refl st)
  | ctx c =>
    left
    have := onContext_cases h
    generalize (onContext st c).log = lg at this
    cases this with
    | general | globals | detached => exact .of_dp rfl rfl rfl rfl
    | fresh ms hn hg hm =>
      refine ⟨fun n => ?_, rfl, rfl, rfl, fun n hn' => ?_⟩
      · simp only [stepsOf, Dialplan.get, List.find?_append]
        by_cases hcn : c.name = n
        · subst hcn
          unfold Dialplan.get at hg
          simp [hg]
        · simp [hcn]
      · simp only [Dialplan.get, List.find?_append] at hn' ⊢
        obtain ⟨d, hd⟩ := Option.isSome_iff_exists.1 hn'
        rw [hd]; rfl
    | again ms d hn hg hc hm =>
      exact .put hg (d := { d with lastPrio := none, sorted := none, at_ := c.at_ }) (get_mem hg).2 rfl rfl rfl rfl rfl
  | var v =>
    cases hcur : st.cur with
    | none =>
      simp only [dialplanStep, onVarset, hcur] at h
      obtain ⟨_, _, h2, _⟩ := Res.bind_ok h
      simp only [Res.pure_val, Except.ok.injEq] at h2
      exact .inl (h2 ▸ .refl st)
    | general | globals =>
      simp only [dialplanStep, onVarset, hcur, Res.pure_val, Except.ok.injEq] at h
      subst h
      exact .inl (.of_dp rfl rfl rfl rfl)
    | detached =>
      simp only [dialplanStep, onVarset, hcur, Res.pure_val, Except.ok.injEq] at h
      exact .inl (h ▸ .refl st)
    | ctx n =>
      obtain ⟨c, hc, hl⟩ := onVarset_cases hi hcur h
      generalize hlg : (onVarset env st v).log = lg at hl
      cases hl with
      | nothing sp' us _ h => exact .inl (.of_dp rfl rfl rfl rfl)
      | incl hk =>
        exact .inl (.put hc (d := { c with includes := c.includes ++ [(v.value, v.at_)] }) (get_mem hc).2
          rfl rfl rfl rfl rfl)
      | ext sp' us e a ms cs as hk hrd hcs ha =>
        refine .inr ⟨v, n, c, sp', us, e, ms, a, as, rfl, rfl, ?_, hc, hrd, ha, rfl, hcur, rfl, fun m hm => ?_⟩
        · rcases hk with h | h <;> simp [stepLine, h]
        · rw [show (dialplanStep env st (.var v)).log = _ from hlg]; simp [hm]

theorem step_cases {env : DEnv} {st st' : DState} {el : Elem} (hi : DpInv st)
    (h : (dialplanStep env st el).val = .ok st') :
    Quiet st st' ∨ ∃ v n c sp' us e ms a as, el = .var v ∧ st.cur = .ctx n ∧ stepLine v = true ∧
      st.dp.get n = some c ∧
      ReadCase env st.sp v (sp', us, .ext e) ms ∧ AddCase st.dp.lastPrio c e a as ∧
      st'.dp = st.dp.withAdded a := by
  rcases step_cases' hi h with h | ⟨v, n, c, sp', us, e, ms, a, as, h1, h2, h3, h4, h5, h6, h7, _⟩
  · exact .inl h
  · exact .inr ⟨v, n, c, sp', us, e, ms, a, as, h1, h2, h3, h4, h5, h6, h7⟩

theorem stepsOf_added {dp : Dialplan} {n : Str} {c : DCtx} {a : Added} (hc : dp.get n = some c)
    (hn : a.ctx.name = c.name) :
    stepsOf (dp.withAdded a) n = a.ctx.steps ∧ (dp.withAdded a).get n = some a.ctx ∧
    ∀ m, m ≠ n → (dp.withAdded a).get m = dp.get m := by
  obtain ⟨g1, g2⟩ := get_put (d := a.ctx) hc (hn.trans (get_mem hc).2)
  have e : ∀ m, (dp.withAdded a).get m = ({ dp with contexts := putCtx a.ctx dp.contexts } : Dialplan).get m :=
    fun _ => rfl
  refine ⟨by simp only [stepsOf, e, g1]; rfl, by rw [e, g1], fun m hm => by rw [e, g2 m hm]⟩

/-- The steps stay a prefix. -/
theorem step_kept {env : DEnv} {st st' : DState} {el : Elem} (hi : DpInv st)
    (h : (dialplanStep env st el).val = .ok st') (n : Str) : stepsOf st.dp n <+: stepsOf st'.dp n := by
  rcases step_cases hi h with hq | ⟨v, m, c, sp', us, e, ms, a, as, rfl, hcur, hsl, hc, hr, ha, hdp⟩
  · rw [hq.steps]; exact List.prefix_rfl
  · obtain ⟨g1, g2, g3⟩ := stepsOf_added hc (addCase_frame ha).1
    rw [hdp]
    by_cases hm : n = m
    · subst hm
      have : stepsOf st.dp n = c.steps := by simp [stepsOf, hc]
      rw [g1, this]
      rcases addCase_steps ha with ⟨h, _⟩ | ⟨s, h, _⟩
      · rw [h]; exact List.prefix_rfl
      · rw [h]; exact List.prefix_append _ _
    · unfold stepsOf
      rw [g3 n hm]; exact List.prefix_rfl

theorem feed_kept {env : DEnv} {st st' : DState} {es : List Elem} (hi : DpInv st)
    (h : (feed (dialplanStep env) st es).val = .ok st') (n : Str) : stepsOf st.dp n <+: stepsOf st'.dp n := by
  induction es generalizing st with
  | nil =>
    simp only [feed, Res.pure_val, Except.ok.injEq] at h
    rw [h]; exact List.prefix_rfl
  | cons e es ih =>
    obtain ⟨s, h1, h2, _⟩ := feed_cons_ok h
    exact (step_kept hi h1 n).trans (ih (step_inv hi h1) h2)

/-- Patterns belong to their texts; the last priority. -/
structure MoreInv (st : DState) : Prop where
  text : ∀ n, ∀ s ∈ stepsOf st.dp n, Pattern.parse s.raw = .ok s.pat
  last : (st.dp.lastPrio = none ∧ ∀ n, stepsOf st.dp n = []) ∨
    ∃ m, 1 ≤ m ∧ st.dp.lastPrio = some m ∧ ∃ n, stepsOf st.dp n ≠ []

theorem MoreInv.init (sp : Option Str) : MoreInv (.init sp) where
  text := by simp [stepsOf, DState.init, Dialplan.init, Dialplan.get]
  last := .inl ⟨rfl, by simp [stepsOf, DState.init, Dialplan.init, Dialplan.get]⟩

theorem readPattern_some {x : Option Str} {raw : Str} {pat : Values} (h : readPattern x = .ok (some (raw, pat))) :
    x = some raw ∧ Pattern.parse raw = .ok pat := by
  cases x with
  | none => simp [readPattern] at h
  | some r =>
    simp only [readPattern] at h
    cases hp : Pattern.parse r with
    | error e => simp [hp] at h
    | ok v =>
      simp [hp] at h
      obtain ⟨rfl, rfl⟩ := h
      exact ⟨rfl, hp⟩

theorem prio_pos {last : Option Nat} {e : ExtLine} {n : Nat} (h : PrioCase last e n) : 1 ≤ n := by
  cases h <;> omega

theorem cached_step {c : DCtx} (hi : CtxInv c) {key : Str} {n : Nat} {w : Where}
    (h : cachedPrio c key n = some w) : ∃ s ∈ c.steps, Pattern.canonical s.pat = key ∧ s.prio = n ∧ s.at_ = w :=
  (hi.prios key n w).1 h

theorem step_more {env : DEnv} {st st' : DState} {el : Elem} (hi : DpInv st) (hm : MoreInv st)
    (h : (dialplanStep env st el).val = .ok st') : MoreInv st' := by
  rcases step_cases hi h with hq | ⟨v, m, c, sp', us, e, ms, a, as, rfl, hcur, hsl, hc, hr, ha, hdp⟩
  · refine ⟨fun n => by rw [hq.steps]; exact hm.text n, ?_⟩
    rcases hm.last with ⟨h1, h2⟩ | ⟨k, h0, h1, n, h2⟩
    · exact .inl ⟨hq.last.trans h1, fun n => by rw [hq.steps]; exact h2 n⟩
    · exact .inr ⟨k, h0, hq.last.trans h1, n, by rw [hq.steps]; exact h2⟩
  · obtain ⟨g1, g2, g3⟩ := stepsOf_added hc (addCase_frame ha).1
    have hs : stepsOf st.dp m = c.steps := by simp [stepsOf, hc]
    have hpat : ∀ raw pat, resolvePat c e = some (raw, pat) → Pattern.parse raw = .ok pat := by
      intro raw pat hp
      unfold resolvePat at hp
      cases hep : e.pat with
      | some x =>
        rw [hep] at hp
        simp only [Option.some.injEq] at hp
        subst hp
        cases hr with
        | ext p r pat' prio label _ jumps _ _ hs hp hl hpat hrun =>
          simp only at hep
          subst hep
          exact (readPattern_some hpat).2
      | none =>
        rw [hep] at hp
        simp only [Option.map_eq_some_iff] at hp
        obtain ⟨s, h1, h2⟩ := hp
        simp only [Prod.mk.injEq] at h2
        rw [← h2.1, ← h2.2]
        exact hm.text m s (by rw [hs]; exact List.mem_of_getLast? h1)
    have other : ∀ n, n ≠ m → stepsOf st'.dp n = stepsOf st.dp n := by
      intro n hn; unfold stepsOf; rw [hdp, g3 n hn]
    have self : stepsOf st'.dp m = a.ctx.steps := by rw [hdp]; exact g1
    have hlast : st'.dp.lastPrio = a.last := by rw [hdp]; rfl
    have keep : a.ctx.steps = c.steps → a.last = st.dp.lastPrio → MoreInv st' := by
      intro e1 e2
      have hsame : ∀ n, stepsOf st'.dp n = stepsOf st.dp n := by
        intro n
        by_cases hn : n = m
        · subst hn; rw [self, e1, hs]
        · exact other n hn
      refine ⟨fun n => by rw [hsame]; exact hm.text n, ?_⟩
      rcases hm.last with ⟨h1, h2⟩ | ⟨k, h0, h1, n, h2⟩
      · exact .inl ⟨by rw [hlast, e2, h1], fun n => by rw [hsame]; exact h2 n⟩
      · exact .inr ⟨k, h0, by rw [hlast, e2, h1], n, by rw [hsame]; exact h2⟩
    cases ha with
    | noPat | noPrio => exact keep rfl rfl
    | dupe raw pat ms n prev hp hr' hd =>
      have hsame : ∀ n, stepsOf st'.dp n = stepsOf st.dp n := by
        intro n
        by_cases hn : n = m
        · subst hn; rw [self, hs]
        · exact other n hn
      refine ⟨fun n => by rw [hsame]; exact hm.text n, .inr ⟨n, ?_, hlast, m, ?_⟩⟩
      · exact prio_pos (resolvePrio_some (congrArg Res.val hr'))
      · obtain ⟨s, h1, _⟩ := cached_step (hi.ctxs c (get_mem hc).1) hd
        rw [hsame, hs]
        exact List.ne_nil_of_mem h1
    | stored raw pat ms n label' ls ds pc lms hp hr' hd hpc hlc hl hj =>
      refine ⟨fun k s hk => ?_, .inr ⟨n, ?_, hlast, m, by rw [self]; simp⟩⟩
      · by_cases hkm : k = m
        · subst hkm
          rw [self] at hk
          rcases List.mem_append.1 hk with hk | hk
          · exact hm.text k s (by rw [hs]; exact hk)
          · simp at hk; subst hk; exact hpat raw pat hp
        · rw [other k hkm] at hk; exact hm.text k s hk
      · exact prio_pos (resolvePrio_some (congrArg Res.val hr'))

theorem feed_more {env : DEnv} {st st' : DState} {es : List Elem} (hi : DpInv st) (hm : MoreInv st)
    (h : (feed (dialplanStep env) st es).val = .ok st') : MoreInv st' := by
  induction es generalizing st with
  | nil =>
    simp only [feed, Res.pure_val, Except.ok.injEq] at h
    exact h ▸ hm
  | cons e es ih =>
    obtain ⟨s, h1, h2, _⟩ := feed_cons_ok h
    exact ih (step_inv hi h1) (step_more hi hm h1) h2

/-! ## Outcome of a line, in terms of steps -/

/-- At most one message about the order of priorities. -/
def OrderMsgs (w : Where) (ms : List Msg) : Prop := ms = [] ∨ ∃ m, ms = [m] ∧ m.kind = .W_DP_PRIO_BADORDER ∧ m.at_ = w

/-- What happens to the label: kept or, if an earlier step of the extension has it, reported
and wiped. -/
inductive LabelOutcome (steps : List Step) (pat : Values) (label : Option Str) (w : Where) :
    Option Str → List Msg → Prop
  | kept (h : ∀ l, label = some l → l ≠ [] →
      ∀ t ∈ steps, Pattern.canonical t.pat = Pattern.canonical pat → ¬ Labelled t l) :
      LabelOutcome steps pat label w label []
  | dupe (l : Str) (t : Step) (hl : label = some l) (hm : t ∈ steps)
      (he : Pattern.canonical t.pat = Pattern.canonical pat) (ht : Labelled t l) :
      LabelOutcome steps pat label w (some []) [⟨.E_DP_LABEL_DUPE, w, [(c! "label", strV l)], some t.at_⟩]

inductive Outcome (last : Option Nat) (c : DCtx) (e : ExtLine) (raw : Str) (pat : Values) (a : Added) : List Msg → Prop
  | refused (ms : List Msg) (h : PrioBad last raw e ms) (hs : a.ctx.steps = c.steps) (hl : a.last = last) :
      Outcome last c e raw pat a ms
  | dupe (ms : List Msg) (n : Nat) (t : Step) (h : PrioCase last e n) (ho : OrderMsgs e.at_ ms) (hm : t ∈ c.steps)
      (he : Pattern.canonical t.pat = Pattern.canonical pat) (hn : t.prio = n)
      (hs : a.ctx.steps = c.steps) (hl : a.last = some n) :
      Outcome last c e raw pat a (ms ++ [⟨.E_DP_PRIO_DUPE, e.at_, [(c! "prio", natV n)], some t.at_⟩])
  | stored (ms lms : List Msg) (n : Nat) (label' : Option Str) (h : PrioCase last e n) (ho : OrderMsgs e.at_ ms)
      (hno : ∀ t ∈ c.steps, Pattern.canonical t.pat = Pattern.canonical pat → t.prio ≠ n)
      (hlab : LabelOutcome c.steps pat e.label e.at_ label' lms)
      (hs : a.ctx.steps = c.steps ++ [⟨raw, pat, n, label', e.app, e.comment, e.at_⟩]) (hl : a.last = some n) :
      Outcome last c e raw pat a (ms ++ lms)

theorem realLabel_iff {x : Option Str} {l : Str} : realLabel x = some l ↔ l ≠ [] ∧ x = some l := by
  cases x with
  | none => simp [realLabel]
  | some s =>
    cases s with
    | nil =>
      simp only [realLabel, Option.some.injEq]
      constructor
      · intro h; simp at h
      · rintro ⟨h1, h2⟩; exact absurd h2.symm h1
    | cons a b =>
      simp only [realLabel, Option.some.injEq]
      constructor
      · rintro rfl; simp
      · exact fun h => h.2

theorem orderMsgs_of {last : Option Nat} {c : DCtx} {raw : Str} {pat : Values} {e : ExtLine} {n : Nat} {ms : List Msg}
    (hr : resolvePrio last c raw pat e = ⟨ms, .ok (some n)⟩) : OrderMsgs e.at_ ms := by
  have := resolvePrio_log (congrArg Res.val hr)
  rw [hr] at this
  rcases this with h | ⟨p, h⟩
  · exact .inl h
  · exact .inr ⟨_, h, rfl, rfl⟩

theorem outcome_of {last : Option Nat} {c : DCtx} {e : ExtLine} {a : Added} {ms : List Msg} {raw : Str} {pat : Values}
    (hi : CtxInv c) (ha : AddCase last c e a ms) (hp : resolvePat c e = some (raw, pat)) :
    Outcome last c e raw pat a ms := by
  cases ha with
  | noPat hp' => rw [hp'] at hp; simp at hp
  | noPrio raw' pat' ms hp' hr =>
    rw [hp'] at hp
    simp only [Option.some.injEq, Prod.mk.injEq] at hp
    obtain ⟨rfl, rfl⟩ := hp
    have := resolvePrio_none (congrArg Res.val hr)
    rw [hr] at this
    exact .refused _ this rfl rfl
  | dupe raw' pat' ms n prev hp' hr hd =>
    rw [hp'] at hp
    simp only [Option.some.injEq, Prod.mk.injEq] at hp
    obtain ⟨rfl, rfl⟩ := hp
    obtain ⟨t, h1, h2, h3, h4⟩ := (hi.prios _ _ _).1 hd
    subst h4
    exact .dupe ms n t (resolvePrio_some (congrArg Res.val hr)) (orderMsgs_of hr) h1 h2 h3 rfl rfl
  | stored raw' pat' ms n label' ls ds pc lms hp' hr hd hpc hlc hl hj =>
    rw [hp'] at hp
    simp only [Option.some.injEq, Prod.mk.injEq] at hp
    obtain ⟨rfl, rfl⟩ := hp
    refine .stored ms lms n label' (resolvePrio_some (congrArg Res.val hr)) (orderMsgs_of hr) ?_ ?_ rfl rfl
    · intro t h1 h2 h3
      rw [(hi.prios _ _ t.at_).2 ⟨t, h1, h2, h3, rfl⟩] at hd
      simp at hd
    · cases hl with
      | plain h =>
        refine .kept fun l h1 h2 => ?_
        rw [realLabel_iff.2 ⟨h2, h1⟩] at h
        simp at h
      | new l h hc =>
        refine .kept fun l' h1 h2 t ht he hL => ?_
        rw [realLabel_iff.2 ⟨h2, h1⟩] at h
        simp only [Option.some.injEq] at h
        subst h
        rw [(hi.labels _ _ t.at_).2 ⟨t, ht, he, realLabel_iff.2 hL, rfl⟩] at hc
        simp at hc
      | dupe l prev h hc =>
        obtain ⟨t, h1, h2, h3, h4⟩ := (hi.labels _ _ _).1 hc
        subst h4
        exact .dupe l t (realLabel_iff.1 h).2 h1 h2 (realLabel_iff.1 h3)

/-- A line with these parts: what happens, with the messages of `add` behind some others. -/
theorem text_outcome {env : DEnv} {st st' : DState} {v : VarE} {n : Str} {p : Parts} {log : List Msg}
    {c : DCtx} {pat : Values} (hi : DpInv st) (hcur : st.cur = .ctx n) (hc : st.dp.get n = some c)
    (ht : StepText v p) (hp : patternFor c.steps p.exten = some pat) (h : Then env st (.var v) log st') :
    ∃ raw e a pre as, Outcome st.dp.lastPrio c e raw pat a as ∧
      e.prio = p.prio ∧ e.label = p.label ∧ e.app = p.app ∧ e.comment = v.comment ∧ e.at_ = v.at_ ∧
      (∀ r, p.exten = some r → raw = r) ∧
      st'.dp = st.dp.withAdded a ∧ a.ctx.name = c.name ∧ log = pre ++ as ∧
      ∀ m ∈ pre, addKind m.kind = false ∧ dropKind m.kind = false := by
  obtain ⟨c', pat', jumps, a, pre, as, hc', hpat, ha, hdp, _, hlog, hpre⟩ := text_add hi hcur ht h
  rw [hc] at hc'
  simp only [Option.some.injEq] at hc'
  subst hc'
  obtain ⟨raw, h1, h2⟩ : ∃ raw, resolvePat c ⟨pat', p.prio, p.label, p.app, jumps, v.comment, v.at_⟩ = some (raw, pat) ∧
      ∀ r, p.exten = some r → raw = r := by
    unfold resolvePat
    cases hx : p.exten with
    | none =>
      rw [hx] at hpat hp
      simp only [readPattern, Except.ok.injEq] at hpat
      subst hpat
      simp only [patternFor, Option.map_eq_some_iff] at hp
      obtain ⟨s, h1, h2⟩ := hp
      exact ⟨s.raw, by simp [h1, h2], by simp⟩
    | some r =>
      rw [hx] at hpat hp
      simp only [readPattern] at hpat
      simp only [patternFor] at hp
      cases hpp : Pattern.parse r with
      | error e => rw [hpp] at hp; simp [Except.toOption] at hp
      | ok vv =>
        rw [hpp] at hp hpat
        simp [Except.toOption] at hp hpat
        subst hp
        subst hpat
        exact ⟨r, rfl, by simp⟩
  exact ⟨raw, _, a, pre, as, outcome_of (hi.ctxs c (get_mem hc).1) ha h1, rfl, rfl, rfl, rfl, rfl, h2, hdp,
    (addCase_frame ha).1, hlog, hpre⟩

theorem orderMsgs_drops {w : Where} {ms : List Msg} (h : OrderMsgs w ms) : drops ms = [] := by
  rcases h with rfl | ⟨m, rfl, h, _⟩
  · rfl
  · exact drops_nil fun x hx => by simp at hx; subst hx; rw [h]; rfl

theorem labelOutcome_drops {steps : List Step} {pat : Values} {label label' : Option Str} {w : Where} {ms : List Msg}
    (h : LabelOutcome steps pat label w label' ms) : drops ms = [] := by
  cases h <;> rfl

end ALint
