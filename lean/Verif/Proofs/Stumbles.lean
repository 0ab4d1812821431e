import Verif.Proofs.TroubleFile
import Verif.Spec.Stumbles

/-!
# Where looking up a jump ends with an internal error
-/

namespace ALint
open ALint.Spec
open Pattern (Values)

/-! ## What fails in one context -/

theorem latin1_none {x : Str} (h : latin1? (x.filter (· ≠ '-')) = none) : ∃ c ∈ x, 256 ≤ c.toNat := by
  induction x with
  | nil => simp [latin1?] at h
  | cons c cs ih =>
    by_cases hc : c = '-'
    · subst hc
      simp only [ne_eq, not_true_eq_false, decide_false, Bool.false_eq_true, not_false_eq_true, List.filter_cons_of_neg] at h
      obtain ⟨d, hd, h⟩ := ih h
      exact ⟨d, by simp [hd], h⟩
    · rw [List.filter_cons_of_pos (by simpa using hc)] at h
      by_cases hl : c.toNat < 256
      · simp only [latin1?, hl, if_true] at h
        have : latin1? (cs.filter (· ≠ '-')) = none := by
          cases hx : latin1? (cs.filter (· ≠ '-')) with
          | none => rfl
          | some b => rw [hx] at h; simp at h
        obtain ⟨d, hd, h⟩ := ih this
        exact ⟨d, by simp [hd], h⟩
      · exact ⟨c, by simp, by omega⟩

theorem latin1_bytes {x : Str} {b : List Nat} (h : latin1? x = some b) : ∀ c ∈ x, c.toNat < 256 := by
  induction x generalizing b with
  | nil => simp
  | cons c cs ih =>
    rw [latin1?] at h
    by_cases hl : c.toNat < 256
    · rw [if_pos hl] at h
      cases hx : latin1? cs with
      | none => rw [hx] at h; simp at h
      | some b' =>
        intro d hd
        rcases List.mem_cons.1 hd with rfl | hd
        · exact hl
        · exact ih hx d hd
    · rw [if_neg hl] at h; simp at h

theorem latin1_some_iff {x : Str} : (∃ b, latin1? (x.filter (· ≠ '-')) = some b) ↔ ¬ ∃ c ∈ x, 256 ≤ c.toNat := by
  constructor
  · rintro ⟨b, hb⟩ ⟨c, hc, h⟩
    by_cases hd : c = '-'
    · subst hd; revert h; decide
    · have := latin1_bytes hb c (List.mem_filter.2 ⟨hc, by simpa using hd⟩)
      omega
  · intro h
    cases hb : latin1? (x.filter (· ≠ '-')) with
    | none => exact absurd (latin1_none hb) h
    | some b => exact ⟨b, rfl⟩

theorem not_prio_error {prio : Arg} (h : ¬ Prio prio) (s : Step) : prioFits prio s = .error .attributeError := by
  unfold prioFits
  split
  · exact absurd (.inl ⟨_, rfl⟩) h
  · exact absurd (.inr (.inl ⟨_, rfl⟩)) h
  · exact absurd (.inr (.inr ⟨_, rfl, rfl⟩)) h
  · exact absurd (.inr (.inr ⟨_, rfl, rfl⟩)) h
  · rfl

theorem not_prio_fits {prio : Arg} (h : ¬ Prio prio) (s : Step) : ¬ Fits prio s := by
  rw [← prioFits_true, not_prio_error h]
  simp

/-- Within a context the search fails with the two errors as they are described. -/
theorem here_error {st : DState} (hm : MoreInv st) {ctx : Str} {c : DCtx} (hc : st.dp.get ctx = some c) {exten : Str}
    {prio : Arg} {ps : List Values} (hps : ∀ p ∈ ps, ∃ s ∈ c.steps, s.pat = p) {e : Exc}
    (h : matchHere c.steps exten prio ps = .error e) :
    ∃ s ∈ c.steps, (∃ ch ∈ exten, 256 ≤ ch.toNat) ∨ (Dials s.raw exten ∧ ¬ Prio prio) := by
  induction ps with
  | nil => simp [matchHere] at h
  | cons p ps ih =>
    obtain ⟨s, hs, hsp⟩ := hps p (by simp)
    have ih := ih fun q hq => hps q (by simp [hq])
    unfold matchHere at h
    cases hme : Pattern.matchesExtension p exten with
    | none =>
      refine ⟨s, hs, .inl (latin1_none ?_)⟩
      unfold Pattern.matchesExtension at hme
      split at hme <;> first | assumption | simp at hme
    | some b =>
      rw [hme] at h
      cases b with
      | false => exact ih h
      | true =>
        simp only at h
        cases hf : firstFit prio (c.steps.filter (·.pat = p)) with
        | error e' =>
          refine ⟨s, hs, .inr ⟨(dials_iff (hm.text ctx s (by rw [stepsOf_get hc]; exact hs)) exten).1 (by rw [hsp]; exact hme), ?_⟩⟩
          intro hp
          obtain ⟨r, hr⟩ := firstFit_ok hp (c.steps.filter (·.pat = p))
          rw [hr] at hf; cases hf
        | ok r =>
          rw [hf] at h
          cases r with
          | some t => simp at h
          | none => exact ih h

theorem here_latin1 {steps : List Step} {exten : Str} {prio : Arg} (hl : ∃ ch ∈ exten, 256 ≤ ch.toNat)
    {ps : List Values} (hps : ps ≠ []) : ∃ e, matchHere steps exten prio ps = .error e := by
  cases ps with
  | nil => exact absurd rfl hps
  | cons p ps =>
    have : latin1? (exten.filter (· ≠ '-')) = none := by
      cases hb : latin1? (exten.filter (· ≠ '-')) with
      | none => rfl
      | some b => exact absurd hl (latin1_some_iff.1 ⟨b, hb⟩)
    refine ⟨.unicodeEncodeError, ?_⟩
    unfold matchHere
    simp only [Pattern.matchesExtension, this]

theorem here_not_prio {st : DState} (hm : MoreInv st) {ctx : Str} {c : DCtx} (hc : st.dp.get ctx = some c) {exten : Str}
    {prio : Arg} (hp : ¬ Prio prio) {s : Step} (hs : s ∈ c.steps) (hd : Dials s.raw exten) {ps : List Values}
    (hps : s.pat ∈ ps) : ∃ e, matchHere c.steps exten prio ps = .error e := by
  induction ps with
  | nil => simp at hps
  | cons p ps ih =>
    unfold matchHere
    cases hme : Pattern.matchesExtension p exten with
    | none => exact ⟨_, rfl⟩
    | some b =>
      cases b with
      | false =>
        refine ih ?_
        rcases List.mem_cons.1 hps with rfl | h
        · rw [(dials_iff (hm.text ctx s (by rw [stepsOf_get hc]; exact hs)) exten).2 hd] at hme
          cases hme
        · exact h
      | true =>
        dsimp only
        cases hf : c.steps.filter (·.pat = p) with
        | nil =>
          rw [firstFit]
          refine ih ?_
          rcases List.mem_cons.1 hps with rfl | h
          · have : s ∈ c.steps.filter (·.pat = s.pat) := by simp [hs]
            rw [hf] at this; simp at this
          · exact h
        | cons t ts =>
          rw [firstFit, not_prio_error hp t]
          exact ⟨_, rfl⟩

/-! ## Circles -/

variable {st : DState} {exten : Str} {prio : Arg}

theorem comesTo_head {dp : Dialplan} {a b c : Str} (h1 : GoesOn dp exten prio a b) (h2 : ComesTo dp exten prio b c) :
    ComesTo dp exten prio a c := by
  induction h2 with
  | self => exact .on .self h1
  | on _ h ih => exact .on ih h

theorem comesTo_trans {dp : Dialplan} {a b c : Str} (h1 : ComesTo dp exten prio a b) (h2 : ComesTo dp exten prio b c) :
    ComesTo dp exten prio a c := by
  induction h2 with
  | self => exact h1
  | on _ h ih => exact .on ih h

theorem comesTo_cases {dp : Dialplan} {a c : Str} (h : ComesTo dp exten prio a c) :
    a = c ∨ ∃ b, GoesOn dp exten prio a b ∧ ComesTo dp exten prio b c := by
  induction h with
  | self => exact .inl rfl
  | on h1 h2 ih =>
    rcases ih with rfl | ⟨b, h3, h4⟩
    · exact .inr ⟨_, h2, .self⟩
    · exact .inr ⟨b, h3, .on h4 h2⟩

theorem goesOn_includes {dp : Dialplan} {a b : Str} (h : GoesOn dp exten prio a b) : Includes dp a b := by
  obtain ⟨c, pre, i, post, h1, _, h3, h4, h5, _⟩ := h
  exact ⟨c, i, h1, by rw [h3]; simp, h4, h5⟩

theorem comesTo_reaches {dp : Dialplan} {a b : Str} (h : ComesTo dp exten prio a b) : Reaches dp a b := by
  induction h with
  | self => exact .self
  | on _ h ih => exact .incl ih (goesOn_includes h)

/-- A circle is one for some included context too. -/
theorem circles_next {dp : Dialplan} {a : Str} (h : Circles dp a exten prio) :
    ∃ b, GoesOn dp exten prio a b ∧ Circles dp b exten prio := by
  obtain ⟨x, y, h1, h2, h3⟩ := h
  rcases comesTo_cases h1 with rfl | ⟨b, h4, h5⟩
  · exact ⟨y, h2, a, y, h3, h2, h3⟩
  · exact ⟨b, h4, x, y, h5, h2, h3⟩

theorem firstOf_stuck {α : Type} {f : α → Except Exc (Option Step)} {pre : List α} {i : α} {post : List α}
    (hpre : ∀ j ∈ pre, ∀ s, f j ≠ .ok (some s)) (hi : ∃ e, f i = .error e) : ∃ e, firstOf f (pre ++ i :: post) = .error e := by
  induction pre with
  | nil =>
    obtain ⟨e, he⟩ := hi
    exact ⟨e, by simp [firstOf, he]⟩
  | cons j pre ih =>
    rw [List.cons_append, firstOf]
    cases hj : f j with
    | error e => exact ⟨e, rfl⟩
    | ok r =>
      cases r with
      | some s => exact absurd hj (hpre j (by simp) s)
      | none => exact ih fun k hk => hpre k (by simp [hk])

/-- Where nothing of the context is taken, one included context that fails will do. -/
theorem lookup_stuck (hm : MoreInv st) {depth : Nat} {a b : Str} (hg : GoesOn st.dp exten prio a b)
    (hb : ∃ e, matchPattern st.dp depth b exten prio = .error e) : ∃ e, matchPattern st.dp (depth + 1) a exten prio = .error e := by
  obtain ⟨c, pre, i, post, h1, h2, h3, h4, h5, h6⟩ := hg
  unfold matchPattern
  rw [h1]
  dsimp only
  cases hh : matchHere c.steps exten prio (sortedPatterns c.steps) with
  | error e => exact ⟨e, rfl⟩
  | ok r =>
    cases r with
    | some s =>
      exfalso
      obtain ⟨_, _, _, k1, k2, k3, _⟩ := matchHere_some hh
      exact h2 s k1 ⟨(dials_iff (hm.text a s (by rw [stepsOf_get h1]; exact k1)) exten).1 k2, prioFits_true.1 k3⟩
    | none =>
      dsimp only
      obtain ⟨e, he⟩ := firstOf_stuck
        (f := fun i => matchIf (st.dp.get i.1).isSome (matchPattern st.dp depth i.1 exten prio)) (pre := pre) (i := i)
        (post := post)
        (fun j hj s hs => by
          unfold matchIf at hs
          split at hs
          · exact h6 j hj s (lookup_sound hm _ _ _ _ _ hs)
          · simp at hs)
        (by
          subst h4
          dsimp only [matchIf]
          rw [h5]
          exact hb)
      rw [h3, he]
      exact ⟨e, rfl⟩

theorem lookup_circles (hm : MoreInv st) (depth : Nat) {a : Str} (h : Circles st.dp a exten prio) :
    ∃ e, matchPattern st.dp depth a exten prio = .error e := by
  induction depth generalizing a with
  | zero => exact ⟨_, rfl⟩
  | succ depth ih =>
    obtain ⟨b, h1, h2⟩ := circles_next h
    exact lookup_stuck hm h1 (ih h2)

/-- A context that fails by itself is come to, if it is reached and nothing can be found
without reaching such a context. -/
theorem lookup_reached (hm : MoreInv st) (K : DCtx → Prop)
    (hK : ∀ ctx c, st.dp.get ctx = some c → K c → ∃ e, matchHere c.steps exten prio (sortedPatterns c.steps) = .error e)
    (hno : ∀ ctx c, st.dp.get ctx = some c → ∀ s ∈ c.steps, ¬ (Dials s.raw exten ∧ Fits prio s))
    (hfind : ∀ ctx s, Findable st.dp ctx exten prio s → ∃ c, st.dp.get c.name = some c ∧ Reaches st.dp ctx c.name ∧ K c)
    (depth : Nat) {ctx : Str} {c : DCtx} (hc : st.dp.get c.name = some c) (hr : Reaches st.dp ctx c.name) (hk : K c) :
    ∃ e, matchPattern st.dp depth ctx exten prio = .error e := by
  induction depth generalizing ctx c with
  | zero => exact ⟨_, rfl⟩
  | succ depth ih =>
    unfold matchPattern
    rcases reaches_cases hr with rfl | ⟨b, ⟨d, i, h1, h2, h3, h4⟩, hr'⟩
    · rw [hc]
      obtain ⟨e, he⟩ := hK _ _ hc hk
      exact ⟨e, by simp [he]⟩
    · rw [h1]
      dsimp only
      cases hh : matchHere d.steps exten prio (sortedPatterns d.steps) with
      | error e => exact ⟨e, rfl⟩
      | ok r =>
        cases r with
        | some s =>
          exfalso
          obtain ⟨_, _, _, k1, k2, k3, _⟩ := matchHere_some hh
          exact hno _ _ h1 s k1 ⟨(dials_iff (hm.text ctx s (by rw [stepsOf_get h1]; exact k1)) exten).1 k2, prioFits_true.1 k3⟩
        | none =>
          dsimp only
          obtain ⟨pre, post, hsplit⟩ := List.append_of_mem h2
          obtain ⟨e, he⟩ := firstOf_stuck
            (f := fun i => matchIf (st.dp.get i.1).isSome (matchPattern st.dp depth i.1 exten prio)) (pre := pre) (i := i)
            (post := post)
            (fun j hj s hs => by
              unfold matchIf at hs
              split at hs
              · obtain ⟨c', k1, k2, k3⟩ := hfind _ s (lookup_sound hm _ _ _ _ _ hs)
                obtain ⟨e, he⟩ := ih k1 k2 k3
                rw [he] at hs; cases hs
              · simp at hs)
            (by
              subst h3
              dsimp only [matchIf]
              rw [h4]
              exact ih hc hr' hk)
          rw [hsplit, he]
          exact ⟨e, rfl⟩

/-! ## No circle, no end of the stack -/

/-- Connected over at least one step of a relation. -/
inductive Chain (R : Str → Str → Prop) (a : Str) : Str → Prop
  | one {b : Str} : R a b → Chain R a b
  | more {b c : Str} : Chain R a b → R b c → Chain R a c

/-- The search for `i` along includes that are steps of a relation without circles. -/
theorem lookup_i_depth {dp : Dialplan} {R : Str → Str → Prop} (hacy : ∀ a, ¬ Chain R a a) (depth : Nat) (path : List Str)
    (ctx : Str) (hn : path.Nodup) (hin : ∀ a ∈ path, a ∈ dp.contexts.map (·.name))
    (hp : ∀ a ∈ path, Chain R a ctx) (hR : ∀ a b, Reaches dp ctx a → Includes dp a b → R a b)
    (hd : dp.contexts.length + 1 ≤ depth + path.length) :
    matchPattern dp depth ctx (c! "i") (.one (.int 1)) ≠ .error .recursionError := by
  induction depth generalizing path ctx with
  | zero =>
    exfalso
    have := nodup_le hn hin
    simp at this
    omega
  | succ depth ih =>
    intro h
    unfold matchPattern at h
    cases hc : dp.get ctx with
    | none => rw [hc] at h; simp at h
    | some c =>
      rw [hc] at h
      simp only at h
      have hctx : ctx ∈ dp.contexts.map (·.name) := List.mem_map.2 ⟨c, (get_mem hc).1, (get_mem hc).2⟩
      have hnot : ctx ∉ path := fun hh => hacy ctx (hp ctx hh)
      cases hh : matchHere c.steps (c! "i") (.one (.int 1)) (sortedPatterns c.steps) with
      | error e =>
        rw [hh] at h
        simp at h
        subst h
        rcases matchHere_error hh with h | h <;> cases h
      | ok r =>
        rw [hh] at h
        cases r with
        | some t => simp at h
        | none =>
          simp only at h
          cases hf : firstOf (fun i => matchIf (dp.get i.1).isSome (matchPattern dp depth i.1 (c! "i") (.one (.int 1)))) c.includes with
          | error e =>
            rw [hf] at h
            simp at h
            subst h
            obtain ⟨i, hi, h1⟩ := firstOf_error hf
            unfold matchIf at h1
            split at h1
            · rename_i hsome
              have hinc : Includes dp ctx i.1 := ⟨c, i, hc, hi, rfl, hsome⟩
              refine ih (ctx :: path) i.1 (List.nodup_cons.2 ⟨hnot, hn⟩) ?_ ?_ ?_ ?_ h1
              · intro a ha
                rcases List.mem_cons.1 ha with rfl | ha
                · exact hctx
                · exact hin a ha
              · intro a ha
                rcases List.mem_cons.1 ha with rfl | ha
                · exact .one (hR _ _ .self hinc)
                · exact .more (hp a ha) (hR _ _ .self hinc)
              · intro a b ha hb
                exact hR a b (reaches_head hinc ha) hb
              · simp only [List.length_cons]; omega
            · simp at h1
          | ok r =>
            rw [hf] at h
            cases r with
            | some t => simp at h
            | none => simp at h

theorem firstOf_error_split {α : Type} {f : α → Except Exc (Option Step)} {l : List α} {e : Exc}
    (h : firstOf f l = .error e) : ∃ pre i post, l = pre ++ i :: post ∧ f i = .error e ∧ ∀ j ∈ pre, f j = .ok none := by
  induction l with
  | nil => simp [firstOf] at h
  | cons a as ih =>
    unfold firstOf at h
    cases hf : f a with
    | error e' => rw [hf] at h; simp at h; subst h; exact ⟨[], a, as, rfl, hf, by simp⟩
    | ok r =>
      rw [hf] at h
      cases r with
      | some t => simp at h
      | none =>
        obtain ⟨pre, i, post, rfl, h1, h2⟩ := ih h
        refine ⟨a :: pre, i, post, rfl, h1, ?_⟩
        intro j hj
        rcases List.mem_cons.1 hj with rfl | hj
        · exact hf
        · exact h2 j hj

theorem passed_of_none (hm : MoreInv st) {ctx : Str} {c : DCtx} (hc : st.dp.get ctx = some c)
    (h : matchHere c.steps exten prio (sortedPatterns c.steps) = .ok none) : Passed c exten prio := by
  rintro s hs ⟨h1, h2⟩
  exact matchHere_none h s hs ((sortedPatterns_mem _ _).2 ⟨s, hs, rfl⟩)
    ((dials_iff (hm.text ctx s (by rw [stepsOf_get hc]; exact hs)) exten).2 h1) (prioFits_true.2 h2)

/-- Where nothing can be found, all includes are gone along. -/
theorem goesOn_of_none {dp : Dialplan} {ctx : Str}
    (h : ∀ c s, dp.get c.name = some c → Reaches dp ctx c.name → s ∈ c.steps → ¬ (Dials s.raw exten ∧ Fits prio s))
    (hi : ∀ a b s, Reaches dp ctx a → Includes dp a b → ¬ Findable dp b exten prio s)
    {a b : Str} (ha : Reaches dp ctx a) (hb : Includes dp a b) : GoesOn dp exten prio a b := by
  obtain ⟨c, i, h1, h2, h3, h4⟩ := hb
  obtain ⟨pre, post, hs⟩ := List.append_of_mem h2
  have hn := (get_mem h1).2
  refine ⟨c, pre, i, post, h1, fun s hs' => h c s (by rw [hn]; exact h1) (by rw [hn]; exact ha) hs', hs, h3, h4, ?_⟩
  intro j hj s hf
  by_cases hj' : (dp.get j.1).isSome
  · exact hi a j.1 s ha ⟨c, j, h1, by rw [hs]; simp [hj], rfl, hj'⟩ hf
  · obtain ⟨d, k1, k2, _⟩ := hf
    rcases reaches_cases k2 with hh | ⟨_, ⟨_, _, hh, _⟩, _⟩
    · rw [hh, k1] at hj'; simp at hj'
    · rw [hh] at hj'; simp at hj'

/-- A search that does not go in circles has no more levels than there are contexts, and two. -/
theorem lookup_no_circle (hm : MoreInv st) {R : Str → Str → Prop} (hacy : ∀ a, ¬ Chain R a a) {ctx0 : Str}
    (hR : ∀ a b, ComesTo st.dp exten prio ctx0 a → GoesOn st.dp exten prio a b → R a b)
    (depth : Nat) (path : List Str) (ctx : Str) (h0 : ComesTo st.dp exten prio ctx0 ctx)
    (hn : path.Nodup) (hin : ∀ a ∈ path, a ∈ st.dp.contexts.map (·.name))
    (hp : ∀ a ∈ path, Chain R a ctx)
    (hd : st.dp.contexts.length + 2 ≤ depth + path.length) :
    matchPattern st.dp depth ctx exten prio ≠ .error .recursionError := by
  induction depth generalizing path ctx with
  | zero =>
    exfalso
    have := nodup_le hn hin
    simp at this
    omega
  | succ depth ih =>
    intro h
    unfold matchPattern at h
    cases hc : st.dp.get ctx with
    | none => rw [hc] at h; simp at h
    | some c =>
      rw [hc] at h
      simp only at h
      have hctx : ctx ∈ st.dp.contexts.map (·.name) := List.mem_map.2 ⟨c, (get_mem hc).1, (get_mem hc).2⟩
      have hnot : ctx ∉ path := fun hh => hacy ctx (hp ctx hh)
      cases hh : matchHere c.steps exten prio (sortedPatterns c.steps) with
      | error e =>
        rw [hh] at h
        simp at h
        subst h
        rcases matchHere_error hh with h | h <;> cases h
      | ok r =>
        rw [hh] at h
        cases r with
        | some t => simp at h
        | none =>
          have hpass := passed_of_none hm hc hh
          simp only at h
          cases hf : firstOf (fun i => matchIf (st.dp.get i.1).isSome (matchPattern st.dp depth i.1 exten prio)) c.includes with
          | error e =>
            rw [hf] at h
            simp at h
            subst h
            obtain ⟨pre, i, post, hs, h1, hpre⟩ := firstOf_error_split hf
            unfold matchIf at h1
            split at h1
            · rename_i hsome
              have hgo : GoesOn st.dp exten prio ctx i.1 := by
                refine ⟨c, pre, i, post, hc, hpass, hs, rfl, hsome, fun j hj s hfi => ?_⟩
                have := hpre j hj
                unfold matchIf at this
                split at this
                · exact lookup_none hm _ _ _ _ this s hfi
                · rename_i hj'
                  obtain ⟨d, k1, k2, _⟩ := hfi
                  rcases reaches_cases k2 with hh | ⟨_, ⟨_, _, hh, _⟩, _⟩
                  · rw [hh, k1] at hj'; simp at hj'
                  · rw [hh] at hj'; simp at hj'
              refine ih (ctx :: path) i.1 (.on h0 hgo) (List.nodup_cons.2 ⟨hnot, hn⟩) ?_ ?_ ?_ h1
              · intro a ha
                rcases List.mem_cons.1 ha with rfl | ha
                · exact hctx
                · exact hin a ha
              · intro a ha
                rcases List.mem_cons.1 ha with rfl | ha
                · exact .one (hR _ _ h0 hgo)
                · exact .more (hp a ha) (hR _ _ h0 hgo)
              · simp only [List.length_cons]; omega
            · simp at h1
          | ok r =>
            rw [hf] at h
            cases r with
            | some t => simp at h
            | none =>
              simp only at h
              split at h
              · split at h
                · -- nothing is found in the included contexts
                  have hnone : ∀ b, Includes st.dp ctx b → ∀ s, ¬ Findable st.dp b exten (.one (.int ‹_›)) s := by
                    rintro b ⟨c', i, k1, k2, k3, k4⟩ s
                    rw [hc] at k1
                    cases k1
                    subst k3
                    have := firstOf_none hf i k2
                    rw [k4] at this
                    exact lookup_none hm _ _ _ _ this s
                  have hgo : ∀ a b, Reaches st.dp ctx a → Includes st.dp a b → GoesOn st.dp exten (.one (.int ‹_›)) a b := by
                    intro a b ha hb
                    refine goesOn_of_none (ctx := ctx) ?_ ?_ ha hb
                    · intro d s hd hrd hs hfit
                      rcases reaches_cases hrd with hh | ⟨x, hx, hrx⟩
                      · rw [← hh, hc] at hd
                        cases hd
                        exact hpass s hs hfit
                      · exact hnone x hx s ⟨d, hd, hrx, hs, .inl hfit⟩
                    · rintro a' b' s ha' hb' ⟨d, hd, hrd, hs, hfit⟩
                      rcases reaches_cases ha' with rfl | ⟨x, hx, hrx⟩
                      · exact hnone b' hb' s ⟨d, hd, hrd, hs, hfit⟩
                      · refine hnone x hx s ⟨d, hd, ?_, hs, hfit⟩
                        have : ∀ {p q r}, Reaches st.dp p q → Reaches st.dp q r → Reaches st.dp p r := by
                          intro p q r h1 h2
                          induction h2 with
                          | self => exact h1
                          | incl _ h ih => exact .incl ih h
                        exact this (.incl hrx hb') hrd
                  have hcomes : ∀ a, Reaches st.dp ctx a → ComesTo st.dp exten (.one (.int ‹_›)) ctx a := by
                    intro a ha
                    induction ha with
                    | self => exact .self
                    | incl h1 h2 ih => exact .on ih (hgo _ _ h1 h2)
                  refine lookup_i_depth hacy depth path ctx hn hin hp ?_ (by omega) h
                  intro a b ha hb
                  exact hR a b (comesTo_trans h0 (hcomes a ha)) (hgo a b ha hb)
                · simp at h
              · simp at h

theorem lookup_recursion (hm : MoreInv st) {depth : Nat} {ctx : Str} (hd : st.dp.contexts.length + 2 ≤ depth)
    (h : matchPattern st.dp depth ctx exten prio = .error .recursionError) : Circles st.dp ctx exten prio := by
  refine Classical.byContradiction fun hno => ?_
  refine lookup_no_circle hm (R := fun a b => ComesTo st.dp exten prio ctx a ∧ GoesOn st.dp exten prio a b) (ctx0 := ctx) ?_
    (fun a b h1 h2 => ⟨h1, h2⟩) depth [] ctx .self List.nodup_nil (by simp) (by simp) (by simpa using hd) h
  intro a ha
  have key : ∀ {a b}, Chain (fun a b => ComesTo st.dp exten prio ctx a ∧ GoesOn st.dp exten prio a b) a b →
      ∃ x, ComesTo st.dp exten prio ctx a ∧ GoesOn st.dp exten prio a x ∧ ComesTo st.dp exten prio x b := by
    intro a b h
    induction h with
    | one h => exact ⟨_, h.1, h.2, .self⟩
    | more _ h ih =>
      obtain ⟨x, h1, h2, h3⟩ := ih
      exact ⟨x, h1, h2, .on h3 h.2⟩
  obtain ⟨x, h1, h2, h3⟩ := key ha
  exact hno ⟨a, x, h1, h2, h3⟩

/-- What the errors of a search are due to. -/
theorem lookup_error (hm : MoreInv st) (depth : Nat) {ctx : Str} {e : Exc}
    (h : matchPattern st.dp depth ctx exten prio = .error e) :
    e = .recursionError ∨
    ∃ c s, st.dp.get c.name = some c ∧ Reaches st.dp ctx c.name ∧ s ∈ c.steps ∧
      ((∃ ch ∈ exten, 256 ≤ ch.toNat) ∨ (Dials s.raw exten ∧ ¬ Prio prio)) := by
  induction depth generalizing ctx exten prio with
  | zero => simp only [matchPattern, Except.error.injEq] at h; exact .inl h.symm
  | succ depth ih =>
    unfold matchPattern at h
    cases hc : st.dp.get ctx with
    | none => simp [hc] at h
    | some c =>
      rw [hc] at h
      dsimp only at h
      have hn := (get_mem hc).2
      cases hh : matchHere c.steps exten prio (sortedPatterns c.steps) with
      | error e' =>
        right
        obtain ⟨s, h1, h2⟩ := here_error hm hc (fun p hp => by
          obtain ⟨s, k1, k2⟩ := (sortedPatterns_mem _ _).1 hp
          exact ⟨s, k1, k2⟩) hh
        exact ⟨c, s, by rw [hn]; exact hc, by rw [hn]; exact .self, h1, h2⟩
      | ok r =>
        rw [hh] at h
        cases r with
        | some s => simp at h
        | none =>
          dsimp only at h
          cases hf : firstOf (fun i => matchIf (st.dp.get i.1).isSome (matchPattern st.dp depth i.1 exten prio)) c.includes with
          | error e' =>
            rw [hf] at h
            simp only [Except.error.injEq] at h
            subst h
            obtain ⟨i, hi, h1⟩ := firstOf_error hf
            unfold matchIf at h1
            split at h1
            · rename_i hsome
              rcases ih h1 with h2 | ⟨d, s, k1, k2, k3⟩
              · exact .inl h2
              · exact .inr ⟨d, s, k1, reaches_head ⟨c, i, hc, hi, rfl, hsome⟩ k2, k3⟩
            · simp at h1
          | ok r =>
            rw [hf] at h
            cases r with
            | some s => simp at h
            | none =>
              dsimp only at h
              split at h
              · split at h
                · exact .inl (matchPattern_error (.inl ⟨1, rfl⟩) depth ctx (c! "i") (b := [105]) (by decide) e h)
                · simp at h
              · simp at h

/-- A search ends with an internal error exactly where the specification says. -/
theorem lookup_fails (hm : MoreInv st) {depth : Nat} {ctx : Str} (hd : st.dp.contexts.length + 2 ≤ depth) :
    (∃ e, matchPattern st.dp depth ctx exten prio = .error e) ↔ SearchFails st.dp ctx exten prio := by
  constructor
  · rintro ⟨e, he⟩
    rcases lookup_error hm depth he with rfl | ⟨c, s, h1, h2, h3, h4 | ⟨h4, h5⟩⟩
    · exact .circle (lookup_recursion hm hd he)
    · exact .latin1 c s h1 h2 h3 h4
    · exact .prio c s h1 h2 h3 h4 h5
  · rintro (h | ⟨c, s, h1, h2, h3, h4⟩ | ⟨c, s, h1, h2, h3, h4, h5⟩)
    · exact lookup_circles hm depth h
    · refine lookup_reached hm (fun c => c.steps ≠ []) ?_ ?_ ?_ depth h1 h2 (List.ne_nil_of_mem h3)
      · intro _ c' _ hk
        refine here_latin1 h4 ?_
        obtain ⟨t, ts, ht⟩ := List.exists_cons_of_ne_nil hk
        exact List.ne_nil_of_mem ((sortedPatterns_mem c'.steps t.pat).2 ⟨t, by simp [ht], rfl⟩)
      · rintro _ c' _ s' _ ⟨⟨b, hb, _⟩, _⟩
        exact latin1_some_iff.1 ⟨b, hb⟩ h4
      · rintro a s' ⟨c', k1, k2, k3, _⟩
        exact ⟨c', k1, k2, List.ne_nil_of_mem k3⟩
    · refine lookup_reached hm (fun c => ∃ s ∈ c.steps, Dials s.raw exten) ?_ ?_ ?_ depth h1 h2 ⟨s, h3, h4⟩
      · rintro a c' ha ⟨s', k1, k2⟩
        exact here_not_prio hm ha h5 k1 k2 ((sortedPatterns_mem _ _).2 ⟨s', k1, rfl⟩)
      · rintro _ c' _ s' _ ⟨_, hf⟩
        exact not_prio_fits h5 s' hf
      · rintro a s' ⟨c', k1, k2, k3, ⟨_, k4⟩ | ⟨⟨n, hn⟩, _⟩⟩
        · exact absurd k4 (not_prio_fits h5 s')
        · exact absurd (.inl ⟨n, hn⟩) h5

end ALint
