import Verif.Props.Dialplan
import Verif.Proofs.Lookup

/-!
# C53–C55: jump destinations
-/

namespace ALint.Props
open ALint ALint.Spec

/-! ## C53 -/

/-- C53: a look-up that ends gives a step if and only if there is one, and what it gives is one. -/
theorem C53_exact (env : DEnv) (sp : Option Str) (es : List Elem) (log : List Msg) (st : DState)
    (h : After env sp es log st) (depth : Nat) (ctx exten : Str) (prio : Arg) (r : Option Step)
    (hr : matchPattern st.dp depth ctx exten prio = .ok r) :
    (∀ s, r = some s → Findable st.dp ctx exten prio s) ∧
    (r = none → ∀ s, ¬ Findable st.dp ctx exten prio s) := by
  constructor
  · rintro s rfl
    exact lookup_sound (after_inv h).2.1 depth ctx exten prio s hr
  · rintro rfl s
    exact lookup_none (after_inv h).2.1 depth ctx exten prio hr s

/-- C53: if the context itself has a step for the extension and the priority, such a step of
the context is found, and of these one with the first pattern in the order of patterns. -/
theorem C53_here (env : DEnv) (sp : Option Str) (es : List Elem) (log : List Msg) (st : DState)
    (h : After env sp es log st) (depth : Nat) (ctx exten : Str) (prio : Arg) (hp : Prio prio) (c : DCtx)
    (hc : st.dp.get ctx = some c) (s : Step) (hs : s ∈ c.steps) (hx : Dials s.raw exten) (hf : Fits prio s) :
    ∃ t ∈ c.steps, matchPattern st.dp (depth + 1) ctx exten prio = .ok (some t) ∧
      Dials t.raw exten ∧ Fits prio t ∧ (t.pat = s.pat ∨ Pattern.patLt t.pat s.pat = true) := by
  have htext : ∀ u ∈ c.steps, Pattern.parse u.raw = .ok u.pat := fun u hu =>
    (after_inv h).2.1.text ctx u (by rw [stepsOf_get hc]; exact hu)
  obtain ⟨e, he, _⟩ := id hx
  obtain ⟨r, hr⟩ := matchHere_ok hp he c.steps (sortedPatterns c.steps)
  have hmx := (dials_iff (htext s hs) exten).2 hx
  have hmf := prioFits_true.2 hf
  have hmem := (sortedPatterns_mem c.steps s.pat).2 ⟨s, hs, rfl⟩
  cases r with
  | none => exact absurd hmf (matchHere_none hr s hs hmem hmx)
  | some t =>
    obtain ⟨p1, p2, hps, h1, h2, h3, h4⟩ := matchHere_some hr
    refine ⟨t, h1, ?_, (dials_iff (htext t h1) exten).1 h2, prioFits_true.1 h3, ?_⟩
    · unfold matchPattern
      rw [hc]
      simp only [hr]
    · have hnot : s.pat ∉ p1 := fun hh => h4 s hs hh ⟨hmx, hmf⟩
      have hsort := sortedPatterns_sorted c.steps
      rw [hps] at hmem hsort
      rcases List.mem_append.1 hmem with hh | hh
      · exact absurd hh hnot
      · rcases List.mem_cons.1 hh with hh | hh
        · exact .inl hh.symm
        · exact .inr ((List.pairwise_cons.1 (List.pairwise_append.1 hsort).2.1).1 _ hh)

-- `b` includes `a`, which has the label `top` for `_X-X`
example : (matchPattern demoState.dp 5 (c! "b") (c! "12") (.one (.str (c! "top")))).toOption.join.map (·.at_.lineno) = some 4 ∧
    (matchPattern demoState.dp 5 (c! "b") (c! "12") (.one (.int 7))).toOption.join.map (·.at_.lineno) = none := by decide
example : Dials (c! "_X-X") (c! "12") := by
  refine (dials_iff (raw := c! "_X-X") rfl _).1 ?_
  decide

/-! ## C54 -/

/-- Two contexts that include each other, and a jump. -/
def circular : List Elem := [demoHead 1 (c! "a"), demoInclude 2 (c! "b"), demoExten 3 (c! "s,1,Goto(9,1)"),
  demoHead 4 (c! "b"), demoInclude 5 (c! "a")]

/-- C54 as stated is violated: with these lines the look-up of the jump fails at every depth. -/
theorem C54_violated_cycle : ∃ (es : List Elem) (log : List Msg) (st : DState) (d : Dest),
    After demoEnv none es log st ∧ d ∈ st.dp.dests ∧
    ∀ depth, (walkDest st.dp depth d).val = .error .recursionError := by
  let r := feed (dialplanStep demoEnv) (.init none) circular
  let st := (r.val.toOption).getD (.init none)
  refine ⟨circular, r.log, st, ⟨.str (c! "a"), .str (c! "9"), .one (.int 1), demoW 3⟩, ?_, ?_, fun depth => ?_⟩
  · have h : r.val.toOption.isSome = true := by decide
    unfold After
    cases hx : r.val with
    | error e => rw [hx] at h; simp [Except.toOption] at h
    | ok s =>
      have : st = s := by simp [st, hx, Except.toOption]
      rw [this, ← hx]
  · decide
  · have key : ∀ a : Str, (a = c! "a" ∨ a = c! "b") →
        matchPattern st.dp depth a (c! "9") (.one (.int 1)) = .error .recursionError := by
      refine lookup_loop (fun a => a = c! "a" ∨ a = c! "b") ?_ depth
      intro a ha
      have hb : ∀ a : Str, (a = c! "a" ∨ a = c! "b") → ((st.dp.get a).any fun c =>
          decide ((matchHere c.steps (c! "9") (.one (.int 1)) (sortedPatterns c.steps)).toOption = some none) &&
          (c.includes.head?.any fun i => decide (i.1 = c! "a" ∨ i.1 = c! "b"))) = true := by
        rintro a (rfl | rfl) <;> decide
      have := hb a ha
      cases hg : st.dp.get a with
      | none => rw [hg] at this; simp at this
      | some c =>
        rw [hg] at this
        simp only [Option.any_some, Bool.and_eq_true, decide_eq_true_eq] at this
        obtain ⟨h1, h2⟩ := this
        cases hi : c.includes with
        | nil => rw [hi] at h2; simp at h2
        | cons i is =>
          rw [hi] at h2
          simp at h2
          refine ⟨c, i, is, rfl, ?_, hi, h2⟩
          cases hm : matchHere c.steps (c! "9") (.one (.int 1)) (sortedPatterns c.steps) with
          | error e => rw [hm] at h1; simp [Except.toOption] at h1
          | ok x => rw [hm] at h1; simp [Except.toOption] at h1; rw [h1]
    have hw : walkDest st.dp depth ⟨.str (c! "a"), .str (c! "9"), .one (.int 1), demoW 3⟩ =
        .bind (.lift (matchPattern st.dp depth (c! "a") (c! "9") (.one (.int 1)))) fun r =>
            match r with
            | some _ => .pure ()
            | none => .emit (mkMsg .W_DP_GOTO_CONTEXT_NOEXTEN (demoW 3) (destArgs ⟨.str (c! "a"), .str (c! "9"), .one (.int 1), demoW 3⟩ (c! "prio"))) := by
      rfl
    rw [hw, key _ (.inl rfl)]
    rfl

/-- C54, the part that holds: if no context includes itself, directly or over others, every
look-up ends, with a depth of calls that depends on the number of contexts only. -/
theorem C54_acyclic_partial (env : DEnv) (sp : Option Str) (es : List Elem) (log : List Msg) (st : DState)
    (_h : After env sp es log st) (hacy : ∀ a b, Includes st.dp a b → ¬ Reaches st.dp b a)
    (ctx exten : Str) (prio : Arg) :
    ∃ r, r ≠ .error .recursionError ∧
      ∀ depth, st.dp.contexts.length + 2 ≤ depth → matchPattern st.dp depth ctx exten prio = r := by
  have hno : ∀ a, ¬ Below st.dp a a := by
    have key : ∀ {a b}, Below st.dp a b → ∃ x, Includes st.dp a x ∧ Reaches st.dp x b := by
      intro a b h
      induction h with
      | one h => exact ⟨_, h, .self⟩
      | more _ h2 ih => obtain ⟨x, h3, h4⟩ := ih; exact ⟨x, h3, .incl h4 h2⟩
    intro a ha
    obtain ⟨x, h1, h2⟩ := key ha
    exact hacy a x h1 h2
  have := lookup_depth hno (st.dp.contexts.length + 2) [] ctx exten prio .nil (by simp) (by simp)
    (by split <;> simp)
  exact ⟨_, this, fun depth hd => lookup_mono_le hd ctx exten prio this⟩

-- `demo` has an include and no cycle
example : ∀ a b, Includes demoState.dp a b → ¬ Reaches demoState.dp b a := by
  have key : ∀ a b, Includes demoState.dp a b → a = c! "b" ∧ b = c! "a" := by
    rintro a b ⟨c, i, h1, h2, h3, h4⟩
    have hall : (demoState.dp.contexts.all fun c => c.includes.all fun i => decide (c.name = c! "b" ∧ i.1 = c! "a")) = true := by
      decide
    rw [List.all_eq_true] at hall
    have := hall c (get_mem h1).1
    rw [List.all_eq_true] at this
    have := of_decide_eq_true (this i h2)
    exact ⟨(get_mem h1).2.symm.trans this.1, h3.symm.trans this.2⟩
  intro a b h hr
  obtain ⟨rfl, rfl⟩ := key a b h
  rcases reaches_cases hr with h1 | ⟨x, h1, _⟩
  · exact absurd h1 (by decide)
  · have := (key _ _ h1).1
    exact absurd this (by decide)

/-! ## C55 -/

/-- C55: at most one report for a destination, at the line of the jump. -/
theorem C55_at_most_one (dp : Dialplan) (depth : Nat) (d : Dest) :
    (walkDest dp depth d).log.length ≤ 1 ∧
    ∀ m ∈ (walkDest dp depth d).log, m.at_ = d.at_ ∧ jumpKind m.kind = true := by
  have one : ∀ m : Msg, m.at_ = d.at_ → jumpKind m.kind = true →
      (Res.emit m).log.length ≤ 1 ∧ ∀ x ∈ (Res.emit m).log, x.at_ = d.at_ ∧ jumpKind x.kind = true := by
    intro m h1 h2
    simp only [Res.emit_log, List.length_singleton, Nat.le_refl, true_and]
    intro x hx
    rw [List.mem_singleton] at hx
    subst hx; exact ⟨h1, h2⟩
  have nothing : ∀ r : Res Unit, r.log = [] → r.log.length ≤ 1 ∧ ∀ x ∈ r.log, x.at_ = d.at_ ∧ jumpKind x.kind = true := by
    intro r h; rw [h]; simp
  unfold walkDest
  split
  · split
    · split
      · exact nothing _ rfl
      · exact one _ rfl rfl
    · exact nothing _ rfl
  · split
    · exact one _ rfl rfl
    · split
      · split
        · split
          · exact nothing _ rfl
          · exact one _ rfl rfl
        · exact nothing _ rfl
      · split
        · generalize matchPattern dp depth _ _ d.prio = r
          cases r with
          | error e => exact nothing _ rfl
          | ok r =>
            cases r with
            | some s => exact nothing _ rfl
            | none =>
              simp only [Res.lift, Res.bind]
              exact one (mkMsg .W_DP_GOTO_CONTEXT_NOEXTEN d.at_ (destArgs d (c! "prio"))) rfl rfl
        · exact nothing _ rfl

/-- A destination for which nothing but the text of a report can fail: nothing is reported if
and only if it is there as far as it is known. -/
theorem walk_exact (env : DEnv) (sp : Option Str) (es : List Elem) (log : List Msg) (st : DState)
    (h : After env sp es log st) (depth : Nat) (d : Dest)
    (hv : ∀ e, (walkDest st.dp depth d).val = .error e → (walkDest st.dp depth d).log ≠ []) :
    (walkDest st.dp depth d).log = [] ↔ JumpOk st.dp d := by
  have hk := (C50_known env sp es log st h)
  unfold walkDest at hv ⊢
  by_cases hvar : d.context.isVar = true
  · rw [if_pos hvar] at hv ⊢
    have hno : ∀ {P : Prop}, (JumpOk st.dp d → P) ↔ ((∀ l, d.prio = .one (.str l) →
        ∃ c ∈ st.dp.contexts, ∃ s ∈ c.steps, Labelled s l) → P) := by
      intro P
      constructor
      · intro hh h1; exact hh (.anyContext hvar h1)
      · intro hh h1
        cases h1 with
        | anyContext _ h1 => exact hh h1
        | anyExten name c hc => rw [hc] at hvar; simp [V.isVar] at hvar
        | step name x c s hc => rw [hc] at hvar; simp [V.isVar] at hvar
    cases hp : prioText d.prio with
    | none =>
      simp only [Res.pure_log, true_iff]
      refine .anyContext hvar fun l hl => ?_
      rw [hl] at hp; simp [prioText] at hp
    | some l =>
      have hpl : d.prio = .one (.str l) := by
        unfold prioText at hp
        split at hp
        · simp at hp; subst hp; assumption
        · cases hp
      simp only
      by_cases hlab : st.dp.hasLabel l = true
      · rw [if_pos hlab]
        simp only [Res.pure_log, true_iff]
        refine .anyContext hvar fun l' hl' => ?_
        rw [hpl] at hl'
        simp only [Arg.one.injEq, V.str.injEq] at hl'
        subst hl'
        exact ((hk l).1).1 hlab
      · rw [if_neg hlab]
        simp only [Res.emit_log, List.cons_ne_nil, false_iff]
        exact hno.2 fun hh => hlab (((hk l).1).2 (hh l hpl))
  · rw [if_neg hvar] at hv ⊢
    cases hctx : d.context with
    | str name =>
      rw [hctx] at hv
      simp only at hv ⊢
      cases hg : st.dp.get name with
      | none =>
        simp only [Res.emit_log, List.cons_ne_nil, false_iff]
        intro hh
        cases hh with
        | anyContext h1 _ => exact hvar h1
        | anyExten n c hc hg' =>
          rw [hctx] at hc; cases hc; rw [hg] at hg'; cases hg'
        | step n x c s hc hg' =>
          rw [hctx] at hc; cases hc; rw [hg] at hg'; cases hg'
      | some c =>
        rw [hg] at hv
        have hcm := get_mem hg
        simp only at hv ⊢
        by_cases hxv : d.exten.isVar = true
        · rw [if_pos hxv] at hv ⊢
          cases hp : prioText d.prio with
          | none =>
            simp only [Res.pure_log, true_iff]
            refine .anyExten name c hctx hg hxv fun l hl => ?_
            rw [hl] at hp; simp [prioText] at hp
          | some l =>
            have hpl : d.prio = .one (.str l) := by
              unfold prioText at hp
              split at hp
              · simp at hp; subst hp; assumption
              · cases hp
            simp only
            by_cases hlab : c.hasLabel l = true
            · rw [if_pos hlab]
              simp only [Res.pure_log, true_iff]
              refine .anyExten name c hctx hg hxv fun l' hl' => ?_
              rw [hpl] at hl'
              simp only [Arg.one.injEq, V.str.injEq] at hl'
              subst hl'
              exact ((hk l).2 c hcm.1).1 hlab
            · rw [if_neg hlab]
              simp only [Res.emit_log, List.cons_ne_nil, false_iff]
              intro hh
              cases hh with
              | anyContext h1 _ => exact hvar h1
              | anyExten n c' hc hg' _ hl' =>
                rw [hctx] at hc; cases hc; rw [hg] at hg'; cases hg'
                exact hlab (((hk l).2 c hcm.1).2 (hl' l hpl))
              | step n x c' s hc hg' hx => rw [hx] at hxv; simp [V.isVar] at hxv
        · rw [if_neg hxv] at hv ⊢
          cases hx : d.exten with
          | str x =>
            rw [hx] at hv
            simp only at hv ⊢
            rw [hcm.2] at hv ⊢
            cases hm : matchPattern st.dp depth name x d.prio with
            | error e => rw [hm] at hv; exact absurd rfl (hv e rfl)
            | ok r =>
              obtain ⟨hs1, hs2⟩ := C53_exact env sp es log st h depth name x d.prio r hm
              cases r with
              | some s =>
                simp only [Res.lift, Res.bind, Res.pure_log, List.append_nil, true_iff]
                exact .step name x c s hctx hg hx (hs1 s rfl)
              | none =>
                simp only [Res.lift, Res.bind, Res.emit_log, List.nil_append, List.cons_ne_nil, false_iff]
                intro hh
                cases hh with
                | anyContext h1 _ => exact hvar h1
                | anyExten n c' hc hg' h1 _ => exact hxv h1
                | step n x' c' s hc hg' hx' hs =>
                  rw [hctx] at hc; cases hc
                  rw [hx] at hx'; cases hx'
                  exact hs2 rfl s hs
          | _ => rw [hx] at hv; exact absurd rfl (hv _ rfl)
    | _ =>
      simp only [Res.emit_log, List.cons_ne_nil, false_iff]
      intro hh
      cases hh with
      | anyContext h1 _ => exact hvar h1
      | anyExten n c hc => rw [hctx] at hc; cases hc
      | step n x c s hc => rw [hctx] at hc; cases hc

/-- C55: nothing is reported if and only if the destination is there as far as it is known. -/
theorem C55_exact (env : DEnv) (sp : Option Str) (es : List Elem) (log : List Msg) (st : DState)
    (h : After env sp es log st) (depth : Nat) (d : Dest) (ms : List Msg)
    (hw : walkDest st.dp depth d = ⟨ms, .ok ()⟩) : ms = [] ↔ JumpOk st.dp d := by
  have := walk_exact env sp es log st h depth d (by rw [hw]; intro e he; cases he)
  rw [hw] at this
  exact this

/-- C55: context and extension depend on variables and the priority is a number: no report. -/
theorem C55_unknown (dp : Dialplan) (depth : Nat) (d : Dest) (hc : d.context.isVar = true) (n : Int)
    (hp : d.prio = .one (.int n)) : walkDest dp depth d = .pure () := by
  unfold walkDest
  rw [if_pos hc, hp]
  rfl

/-- C55: the walk reports, for the recorded destinations in order, nothing or one thing each. -/
theorem C55_walk (env : DEnv) (sp : Option Str) (es : List Elem) (log : List Msg) (st : DState)
    (h : After env sp es log st) (depth : Nat) (ms : List Msg)
    (hw : walkDests st.dp depth st.dp.dests = ⟨ms, .ok ()⟩) :
    ∃ parts : List (List Msg), ms = parts.flatten ∧
      Zips (fun d part => part.length ≤ 1 ∧ (part = [] ↔ JumpOk st.dp d) ∧
        ∀ m ∈ part, m.at_ = d.at_ ∧ jumpKind m.kind = true) st.dp.dests parts := by
  have key : ∀ (ds : List Dest) (ms : List Msg), walkDests st.dp depth ds = ⟨ms, .ok ()⟩ →
      ∃ parts : List (List Msg), ms = parts.flatten ∧
        Zips (fun d part => part.length ≤ 1 ∧ (part = [] ↔ JumpOk st.dp d) ∧
          ∀ m ∈ part, m.at_ = d.at_ ∧ jumpKind m.kind = true) ds parts := by
    intro ds
    induction ds with
    | nil =>
      intro ms hw
      have := congrArg Res.log hw
      simp [walkDests] at this
      subst this
      exact ⟨[], rfl, .nil⟩
    | cons d ds ih =>
      intro ms hw
      have hv := congrArg Res.val hw
      have hl := congrArg Res.log hw
      simp only [walkDests] at hv hl
      obtain ⟨u, h1, h2, h3⟩ := Res.bind_ok hv
      rw [h3] at hl
      obtain ⟨parts, h4, h5⟩ := ih (walkDests st.dp depth ds).log (by rw [← h2])
      refine ⟨(walkDest st.dp depth d).log :: parts, ?_, .cons ?_ h5⟩
      · rw [← hl, h4]; rfl
      · obtain ⟨g1, g2⟩ := C55_at_most_one st.dp depth d
        exact ⟨g1, C55_exact env sp es log st h depth d _ (by rw [← h1]), g2⟩
  exact key _ _ hw

-- the jump of line 5 of `demo` is to the label `top`, which its extension has
example : demoState.dp.dests.map (fun d => (d.context, d.exten, d.prio)) =
    [(.str (c! "a"), .str (c! "00"), .one (.str (c! "top")))] ∧
    (walkDests demoState.dp 9 demoState.dp.dests).log = [] := by decide

end ALint.Props
