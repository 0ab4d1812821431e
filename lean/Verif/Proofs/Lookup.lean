import Verif.Proofs.DialplanList
import Verif.Props.Pattern
import Verif.Spec.Lookup
import Verif.Spec.App

/-!
# Looking up jump destinations
-/

namespace ALint
open ALint.Spec
open Pattern (Values patLt)

theorem dials_iff {raw : Str} {v : Values} (hv : Pattern.parse raw = .ok v) (exten : Str) :
    Pattern.matchesExtension v exten = some true ↔ Dials raw exten := by
  cases hl : latin1? (exten.filter (· ≠ '-')) with
  | none =>
    constructor
    · intro h; simp only [Pattern.matchesExtension, hl] at h; cases h
    · rintro ⟨e, he, _⟩; rw [hl] at he; cases he
  | some e =>
    cases raw with
    | nil => simp [Pattern.parse] at hv
    | cons c p =>
      by_cases hc : c = '_'
      · subst hc
        rw [Props.C25_pattern_partial p v hv exten e hl]
        constructor
        · rintro ⟨e', h1, h2⟩; exact ⟨e, hl, e', h1, .inl rfl, h2⟩
        · rintro ⟨e2, h0, e', h1, _, h2⟩
          rw [hl] at h0; cases h0
          exact ⟨e', h1, h2⟩
      · rw [Props.C25_literal c p hc v hv exten e hl]
        constructor
        · intro h; exact ⟨e, hl, e, List.prefix_refl e, .inr rfl, h⟩
        · rintro ⟨e2, h0, e', h1, h2, h3⟩
          rw [hl] at h0; cases h0
          rcases h2 with h2 | h2
          · simp at h2; exact absurd h2 hc
          · rw [← h2]; exact h3

theorem prioFits_true {prio : Arg} {s : Step} : prioFits prio s = .ok true ↔ Fits prio s := by
  unfold Fits
  constructor
  · intro h
    unfold prioFits at h
    split at h
    · exact .inl ⟨_, rfl, by simpa using h⟩
    · exact .inr (.inl ⟨_, rfl, by simpa using h⟩)
    · exact .inr (.inr ⟨_, rfl, rfl, by simpa using h⟩)
    · exact .inr (.inr ⟨_, rfl, rfl, by simpa using h⟩)
    · cases h
  · rintro (⟨n, rfl, h⟩ | ⟨l, rfl, h⟩ | ⟨v, rfl, hv, h⟩)
    · simp [prioFits, h]
    · simp [prioFits, h]
    · cases v with
      | lst items => simp [prioFits]; exact h
      | atom k n a b => simp [prioFits]; exact h
      | _ => simp [V.isVar] at hv

theorem prioFits_ok {prio : Arg} (h : Prio prio) (s : Step) : ∃ b, prioFits prio s = .ok b := by
  rcases h with ⟨n, rfl⟩ | ⟨l, rfl⟩ | ⟨v, rfl, hv⟩
  · exact ⟨_, rfl⟩
  · exact ⟨_, rfl⟩
  · cases v with
    | lst items => exact ⟨_, rfl⟩
    | atom k n a b => exact ⟨_, rfl⟩
    | _ => simp [V.isVar] at hv

theorem firstFit_some {prio : Arg} {steps : List Step} {s : Step} (h : firstFit prio steps = .ok (some s)) :
    s ∈ steps ∧ prioFits prio s = .ok true := by
  induction steps with
  | nil => simp [firstFit] at h
  | cons t ts ih =>
    unfold firstFit at h
    cases hf : prioFits prio t with
    | error e => rw [hf] at h; simp at h
    | ok b =>
      rw [hf] at h
      cases b with
      | true => simp at h; subst h; exact ⟨by simp, hf⟩
      | false => obtain ⟨h1, h2⟩ := ih h; exact ⟨by simp [h1], h2⟩

theorem firstFit_none {prio : Arg} {steps : List Step} (h : firstFit prio steps = .ok none) :
    ∀ s ∈ steps, prioFits prio s = .ok false := by
  induction steps with
  | nil => simp
  | cons t ts ih =>
    unfold firstFit at h
    cases hf : prioFits prio t with
    | error e => rw [hf] at h; simp at h
    | ok b =>
      rw [hf] at h
      cases b with
      | true => simp at h
      | false =>
        intro s hs
        rcases List.mem_cons.1 hs with rfl | hs
        · exact hf
        · exact ih h s hs

theorem firstFit_ok {prio : Arg} (hp : Prio prio) (steps : List Step) : ∃ r, firstFit prio steps = .ok r := by
  induction steps with
  | nil => exact ⟨_, rfl⟩
  | cons t ts ih =>
    obtain ⟨b, hb⟩ := prioFits_ok hp t
    unfold firstFit
    rw [hb]
    cases b with
    | true => exact ⟨_, rfl⟩
    | false => exact ih

theorem firstFit_error {prio : Arg} {steps : List Step} {e : Exc} (h : firstFit prio steps = .error e) :
    e = .attributeError := by
  induction steps with
  | nil => simp [firstFit] at h
  | cons t ts ih =>
    unfold firstFit at h
    cases hf : prioFits prio t with
    | error e' =>
      rw [hf] at h
      simp at h; subst h
      unfold prioFits at hf
      split at hf <;> simp at hf
      exact hf.symm
    | ok b =>
      rw [hf] at h
      cases b with
      | true => simp at h
      | false => exact ih h

theorem matchHere_some {steps : List Step} {exten : Str} {prio : Arg} {ps : List Values} {s : Step}
    (h : matchHere steps exten prio ps = .ok (some s)) :
    ∃ p1 p2, ps = p1 ++ s.pat :: p2 ∧ s ∈ steps ∧ Pattern.matchesExtension s.pat exten = some true ∧
      prioFits prio s = .ok true ∧
      ∀ t ∈ steps, t.pat ∈ p1 → ¬ (Pattern.matchesExtension t.pat exten = some true ∧ prioFits prio t = .ok true) := by
  induction ps with
  | nil => simp [matchHere] at h
  | cons p ps ih =>
    unfold matchHere at h
    have skip : (∀ t ∈ steps, t.pat = p → ¬ (Pattern.matchesExtension t.pat exten = some true ∧ prioFits prio t = .ok true)) →
        matchHere steps exten prio ps = .ok (some s) → ∃ p1 p2, p :: ps = p1 ++ s.pat :: p2 ∧ s ∈ steps ∧
          Pattern.matchesExtension s.pat exten = some true ∧ prioFits prio s = .ok true ∧
          ∀ t ∈ steps, t.pat ∈ p1 → ¬ (Pattern.matchesExtension t.pat exten = some true ∧ prioFits prio t = .ok true) := by
      intro hno h
      obtain ⟨p1, p2, rfl, h1, h2, h3, h4⟩ := ih h
      refine ⟨p :: p1, p2, rfl, h1, h2, h3, fun t ht htp => ?_⟩
      rcases List.mem_cons.1 htp with htp | htp
      · exact hno t ht htp
      · exact h4 t ht htp
    cases hm : Pattern.matchesExtension p exten with
    | none => rw [hm] at h; simp at h
    | some b =>
      rw [hm] at h
      cases b with
      | false =>
        refine skip (fun t _ htp hh => ?_) h
        rw [htp, hm] at hh; simp at hh
      | true =>
        simp only at h
        cases hf : firstFit prio (steps.filter (·.pat = p)) with
        | error e => rw [hf] at h; simp at h
        | ok r =>
          rw [hf] at h
          cases r with
          | some t =>
            simp at h
            subst h
            obtain ⟨h1, h2⟩ := firstFit_some hf
            simp only [List.mem_filter, decide_eq_true_eq] at h1
            exact ⟨[], ps, by simp [h1.2], h1.1, by rw [h1.2]; exact hm, h2, by simp⟩
          | none =>
            refine skip (fun t ht htp hh => ?_) h
            have := firstFit_none hf t (by simpa using ⟨ht, htp⟩)
            rw [this] at hh; simp at hh

theorem matchHere_none {steps : List Step} {exten : Str} {prio : Arg} {ps : List Values}
    (h : matchHere steps exten prio ps = .ok none) :
    ∀ s ∈ steps, s.pat ∈ ps → Pattern.matchesExtension s.pat exten = some true → prioFits prio s ≠ .ok true := by
  induction ps with
  | nil => simp
  | cons p ps ih =>
    unfold matchHere at h
    intro s hs hp hx
    cases hm : Pattern.matchesExtension p exten with
    | none => rw [hm] at h; simp at h
    | some b =>
      rw [hm] at h
      cases b with
      | false =>
        rcases List.mem_cons.1 hp with hp | hp
        · rw [hp, hm] at hx; simp at hx
        · exact ih h s hs hp hx
      | true =>
        simp only at h
        cases hf : firstFit prio (steps.filter (·.pat = p)) with
        | error e => rw [hf] at h; simp at h
        | ok r =>
          rw [hf] at h
          cases r with
          | some t => simp at h
          | none =>
            rcases List.mem_cons.1 hp with hp | hp
            · have := firstFit_none hf s (by simpa using ⟨hs, hp⟩)
              rw [this]; simp
            · exact ih h s hs hp hx

theorem matchHere_ok {exten : Str} {prio : Arg} (hp : Prio prio) {e : List Nat}
    (he : latin1? (exten.filter (· ≠ '-')) = some e) (steps : List Step) (ps : List Values) :
    ∃ r, matchHere steps exten prio ps = .ok r := by
  induction ps with
  | nil => exact ⟨_, rfl⟩
  | cons p ps ih =>
    unfold matchHere
    have hm : Pattern.matchesExtension p exten = some (Pattern.matchItems p.items e) := by
      simp only [Pattern.matchesExtension, he]
    rw [hm]
    cases Pattern.matchItems p.items e with
    | false => exact ih
    | true =>
      obtain ⟨r, hr⟩ := firstFit_ok hp (steps.filter (·.pat = p))
      simp only [hr]
      cases r with
      | some t => exact ⟨_, rfl⟩
      | none => exact ih

theorem matchHere_error {steps : List Step} {exten : Str} {prio : Arg} {ps : List Values} {e : Exc}
    (h : matchHere steps exten prio ps = .error e) : e = .unicodeEncodeError ∨ e = .attributeError := by
  induction ps with
  | nil => simp [matchHere] at h
  | cons p ps ih =>
    unfold matchHere at h
    cases hm : Pattern.matchesExtension p exten with
    | none => rw [hm] at h; simp at h; exact .inl h.symm
    | some b =>
      rw [hm] at h
      cases b with
      | false => exact ih h
      | true =>
        simp only at h
        cases hf : firstFit prio (steps.filter (·.pat = p)) with
        | error e' => rw [hf] at h; simp at h; subst h; exact .inr (firstFit_error hf)
        | ok r =>
          rw [hf] at h
          cases r with
          | some t => simp at h
          | none => exact ih h

theorem firstOf_some {α : Type} {f : α → Except Exc (Option Step)} {l : List α} {s : Step}
    (h : firstOf f l = .ok (some s)) : ∃ a ∈ l, f a = .ok (some s) := by
  induction l with
  | nil => simp [firstOf] at h
  | cons a as ih =>
    unfold firstOf at h
    cases hf : f a with
    | error e => rw [hf] at h; simp at h
    | ok r =>
      rw [hf] at h
      cases r with
      | some t => simp at h; subst h; exact ⟨a, by simp, hf⟩
      | none => obtain ⟨b, hb, h⟩ := ih h; exact ⟨b, by simp [hb], h⟩

theorem firstOf_none {α : Type} {f : α → Except Exc (Option Step)} {l : List α}
    (h : firstOf f l = .ok none) : ∀ a ∈ l, f a = .ok none := by
  induction l with
  | nil => simp
  | cons a as ih =>
    unfold firstOf at h
    cases hf : f a with
    | error e => rw [hf] at h; simp at h
    | ok r =>
      rw [hf] at h
      cases r with
      | some t => simp at h
      | none =>
        intro b hb
        rcases List.mem_cons.1 hb with rfl | hb
        · exact hf
        · exact ih h b hb

theorem firstOf_error {α : Type} {f : α → Except Exc (Option Step)} {l : List α} {e : Exc}
    (h : firstOf f l = .error e) : ∃ a ∈ l, f a = .error e := by
  induction l with
  | nil => simp [firstOf] at h
  | cons a as ih =>
    unfold firstOf at h
    cases hf : f a with
    | error e' => rw [hf] at h; simp at h; subst h; exact ⟨a, by simp, hf⟩
    | ok r =>
      rw [hf] at h
      cases r with
      | some t => simp at h
      | none => obtain ⟨b, hb, h⟩ := ih h; exact ⟨b, by simp [hb], h⟩

theorem firstOf_congr {α : Type} {f g : α → Except Exc (Option Step)} {l : List α} (h : ∀ a ∈ l, f a = g a) :
    firstOf f l = firstOf g l := by
  induction l with
  | nil => rfl
  | cons a as ih =>
    unfold firstOf
    rw [h a (by simp), ih fun b hb => h b (by simp [hb])]

theorem reaches_head {dp : Dialplan} {a b c : Str} (h1 : Includes dp a b) (h2 : Reaches dp b c) : Reaches dp a c := by
  induction h2 with
  | self => exact .incl .self h1
  | incl _ h ih => exact .incl ih h

theorem reaches_cases {dp : Dialplan} {a c : Str} (h : Reaches dp a c) :
    a = c ∨ ∃ b, Includes dp a b ∧ Reaches dp b c := by
  induction h with
  | self => exact .inl rfl
  | incl h1 h2 ih =>
    rcases ih with rfl | ⟨b, h3, h4⟩
    · exact .inr ⟨_, h2, .self⟩
    · exact .inr ⟨b, h3, .incl h4 h2⟩

/-- Soundness. -/
theorem lookup_sound {st : DState} (hm : MoreInv st) (depth : Nat) (ctx exten : Str) (prio : Arg)
    (s : Step) (h : matchPattern st.dp depth ctx exten prio = .ok (some s)) : Findable st.dp ctx exten prio s := by
  induction depth generalizing ctx exten prio with
  | zero => simp [matchPattern] at h
  | succ depth ih =>
    unfold matchPattern at h
    cases hc : st.dp.get ctx with
    | none => rw [hc] at h; simp at h
    | some c =>
      rw [hc] at h
      simp only at h
      have hn := (get_mem hc).2
      cases hh : matchHere c.steps exten prio (sortedPatterns c.steps) with
      | error e => rw [hh] at h; simp at h
      | ok r =>
        rw [hh] at h
        cases r with
        | some t =>
          simp at h
          subst h
          obtain ⟨_, _, _, h1, h2, h3, _⟩ := matchHere_some hh
          refine ⟨c, by rw [hn]; exact hc, by rw [hn]; exact .self, h1, .inl ⟨?_, prioFits_true.1 h3⟩⟩
          exact (dials_iff (hm.text ctx t (by rw [stepsOf_get hc]; exact h1)) exten).1 h2
        | none =>
          simp only at h
          cases hf : firstOf (fun i => matchIf (st.dp.get i.1).isSome (matchPattern st.dp depth i.1 exten prio)) c.includes with
          | error e => rw [hf] at h; simp at h
          | ok r =>
            rw [hf] at h
            cases r with
            | some t =>
              simp at h
              subst h
              obtain ⟨i, hi', h1⟩ := firstOf_some hf
              unfold matchIf at h1
              split at h1
              · rename_i hsome
                obtain ⟨d, hd, hr, hs, hfit⟩ := ih _ _ _ h1
                exact ⟨d, hd, reaches_head ⟨c, i, hc, hi', rfl, hsome⟩ hr, hs, hfit⟩
              · simp at h1
            | none =>
              simp only at h
              split at h
              · rename_i hne
                split at h
                · rename_i n
                  obtain ⟨d, hd, hr, hs, hfit⟩ := ih _ _ _ h
                  refine ⟨d, hd, hr, hs, .inr ⟨⟨n, rfl⟩, hne, ?_⟩⟩
                  rcases hfit with ⟨h1, h2⟩ | ⟨_, h1, _⟩
                  · refine ⟨h1, ?_⟩
                    rcases h2 with ⟨k, hk, h3⟩ | ⟨l, hk, _⟩ | ⟨v, hk, hv, _⟩
                    · simp at hk; omega
                    · simp at hk
                    · simp at hk; subst hk; simp [V.isVar] at hv
                  · exact absurd rfl h1
                · simp at h
              · simp at h

/-- Completeness: nothing is found only if there is nothing. -/
theorem lookup_none {st : DState} (hm : MoreInv st) (depth : Nat) (ctx exten : Str) (prio : Arg)
    (h : matchPattern st.dp depth ctx exten prio = .ok none) (s : Step) : ¬ Findable st.dp ctx exten prio s := by
  induction depth generalizing ctx exten prio with
  | zero => simp [matchPattern] at h
  | succ depth ih =>
    rintro ⟨d, hd, hr, hs, hfit⟩
    unfold matchPattern at h
    cases hc : st.dp.get ctx with
    | none =>
      rcases reaches_cases hr with rfl | ⟨b, ⟨c, i, hg, _⟩, _⟩
      · rw [hc] at hd; cases hd
      · rw [hc] at hg; cases hg
    | some c =>
      rw [hc] at h
      simp only at h
      cases hh : matchHere c.steps exten prio (sortedPatterns c.steps) with
      | error e => rw [hh] at h; simp at h
      | ok r =>
        rw [hh] at h
        cases r with
        | some t => simp at h
        | none =>
          simp only at h
          cases hf : firstOf (fun i => matchIf (st.dp.get i.1).isSome (matchPattern st.dp depth i.1 exten prio)) c.includes with
          | error e => rw [hf] at h; simp at h
          | ok r =>
            rw [hf] at h
            cases r with
            | some t => simp at h
            | none =>
              simp only at h
              rcases hfit with ⟨hx, hp⟩ | ⟨⟨n, hn⟩, hne, hx, hp⟩
              · rcases reaches_cases hr with hcd | ⟨b, ⟨c', i, hg, hi, hib, hsome⟩, hr'⟩
                · rw [← hcd, hc] at hd
                  simp only [Option.some.injEq] at hd
                  subst hd
                  refine matchHere_none hh s hs ((sortedPatterns_mem _ _).2 ⟨s, hs, rfl⟩) ?_ (prioFits_true.2 hp)
                  exact (dials_iff (hm.text ctx s (by rw [stepsOf_get hc]; exact hs)) exten).2 hx
                · rw [hc] at hg
                  simp only [Option.some.injEq] at hg
                  subst hg
                  subst hib
                  have := firstOf_none hf i hi
                  rw [hsome] at this
                  exact ih _ _ _ this ⟨d, hd, hr', hs, .inl ⟨hx, hp⟩⟩
              · subst hn
                rw [if_pos hne] at h
                exact ih _ _ _ h ⟨d, hd, hr, hs, .inl ⟨hx, .inl ⟨1, rfl, by simp [hp]⟩⟩⟩

/-- A cycle of includes without a match. -/
theorem lookup_loop {dp : Dialplan} {exten : Str} {prio : Arg} (P : Str → Prop)
    (hP : ∀ a, P a → ∃ c i is, dp.get a = some c ∧ matchHere c.steps exten prio (sortedPatterns c.steps) = .ok none ∧
      c.includes = i :: is ∧ P i.1) (depth : Nat) (a : Str) (ha : P a) :
    matchPattern dp depth a exten prio = .error .recursionError := by
  induction depth generalizing a with
  | zero => rfl
  | succ depth ih =>
    obtain ⟨c, i, is, h1, h2, h3, h4⟩ := hP a ha
    obtain ⟨c', _, _, h5, _⟩ := hP i.1 h4
    unfold matchPattern
    rw [h1]
    simp only [h2, h3, firstOf, matchIf, h5, Option.isSome_some, if_true, ih i.1 h4]

/-- Included over at least one step. -/
inductive Below (dp : Dialplan) (a : Str) : Str → Prop
  | one {b : Str} : Includes dp a b → Below dp a b
  | more {b c : Str} : Below dp a b → Includes dp b c → Below dp a c

theorem nodup_le {α : Type} [DecidableEq α] {l m : List α} (hn : l.Nodup) (h : ∀ a ∈ l, a ∈ m) : l.length ≤ m.length := by
  induction l generalizing m with
  | nil => simp
  | cons a l ih =>
    rw [List.nodup_cons] at hn
    have := ih (m := m.erase a) hn.2 (fun b hb => by
      rw [List.mem_erase_of_ne]
      · exact h b (by simp [hb])
      · rintro rfl; exact hn.1 hb)
    have h2 := List.length_erase_of_mem (h a (by simp))
    have h3 : 0 < m.length := List.length_pos_of_mem (h a (by simp))
    simp only [List.length_cons]
    omega

/-- Without a cycle there are no more levels than contexts. -/
theorem lookup_depth {dp : Dialplan} (hacy : ∀ a, ¬ Below dp a a) (depth : Nat) (path : List Str) (ctx exten : Str)
    (prio : Arg) (hn : path.Nodup) (hin : ∀ a ∈ path, a ∈ dp.contexts.map (·.name))
    (hp : ∀ a ∈ path, Below dp a ctx)
    (hd : dp.contexts.length + (if exten = c! "i" then 1 else 2) ≤ depth + path.length) :
    matchPattern dp depth ctx exten prio ≠ .error .recursionError := by
  induction depth generalizing path ctx exten prio with
  | zero =>
    exfalso
    have := nodup_le hn hin
    simp at this
    split at hd <;> omega
  | succ depth ih =>
    intro h
    unfold matchPattern at h
    cases hc : dp.get ctx with
    | none => rw [hc] at h; simp at h
    | some c =>
      rw [hc] at h
      simp only at h
      have hctx : ctx ∈ dp.contexts.map (·.name) := List.mem_map.2 ⟨c, (get_mem hc).1, (get_mem hc).2⟩
      have hnot : ctx ∉ path := fun hh => hacy ctx (hp ctx hh)
      cases hh : matchHere c.steps exten prio (sortedPatterns c.steps) with
      | error e =>
        rw [hh] at h
        simp at h
        subst h
        rcases matchHere_error hh with h | h <;> cases h
      | ok r =>
        rw [hh] at h
        cases r with
        | some t => simp at h
        | none =>
          simp only at h
          cases hf : firstOf (fun i => matchIf (dp.get i.1).isSome (matchPattern dp depth i.1 exten prio)) c.includes with
          | error e =>
            rw [hf] at h
            simp at h
            subst h
            obtain ⟨i, hi, h1⟩ := firstOf_error hf
            unfold matchIf at h1
            split at h1
            · rename_i hsome
              have hinc : Includes dp ctx i.1 := ⟨c, i, hc, hi, rfl, hsome⟩
              refine ih (ctx :: path) i.1 exten prio (List.nodup_cons.2 ⟨hnot, hn⟩) ?_ ?_ ?_ h1
              · intro a ha
                rcases List.mem_cons.1 ha with rfl | ha
                · exact hctx
                · exact hin a ha
              · intro a ha
                rcases List.mem_cons.1 ha with rfl | ha
                · exact .one hinc
                · exact .more (hp a ha) hinc
              · simp only [List.length_cons]; omega
            · simp at h1
          | ok r =>
            rw [hf] at h
            cases r with
            | some t => simp at h
            | none =>
              simp only at h
              split at h
              · rename_i hne
                split at h
                · refine ih path ctx (c! "i") _ hn hin hp ?_ h
                  rw [if_neg hne] at hd
                  simp only [if_true]; omega
                · simp at h
              · simp at h

theorem firstOf_mono {α : Type} {f g : α → Except Exc (Option Step)} {l : List α}
    (hfg : ∀ a ∈ l, f a ≠ .error .recursionError → g a = f a) (h : firstOf f l ≠ .error .recursionError) :
    firstOf g l = firstOf f l := by
  induction l with
  | nil => rfl
  | cons a as ih =>
    unfold firstOf at h ⊢
    have hfa : f a ≠ .error .recursionError := by
      intro hh; rw [hh] at h; exact h rfl
    rw [hfg a (by simp) hfa]
    cases hf : f a with
    | error e => rfl
    | ok r =>
      rw [hf] at h
      cases r with
      | some t => rfl
      | none => exact ih (fun b hb => hfg b (by simp [hb])) h

/-- Once deep enough, the depth does not matter. -/
theorem lookup_mono {dp : Dialplan} (depth : Nat) (ctx exten : Str) (prio : Arg)
    (h : matchPattern dp depth ctx exten prio ≠ .error .recursionError) :
    matchPattern dp (depth + 1) ctx exten prio = matchPattern dp depth ctx exten prio := by
  induction depth generalizing ctx exten prio with
  | zero => exact absurd rfl h
  | succ depth ih =>
    unfold matchPattern at h
    conv => lhs; unfold matchPattern
    conv => rhs; unfold matchPattern
    cases hc : dp.get ctx with
    | none => rfl
    | some c =>
      rw [hc] at h
      simp only at h ⊢
      cases hh : matchHere c.steps exten prio (sortedPatterns c.steps) with
      | error e => rfl
      | ok r =>
        rw [hh] at h
        cases r with
        | some t => rfl
        | none =>
          simp only at h ⊢
          have hfo := firstOf_mono (f := fun i => matchIf (dp.get i.1).isSome (matchPattern dp depth i.1 exten prio))
            (g := fun i => matchIf (dp.get i.1).isSome (matchPattern dp (depth + 1) i.1 exten prio)) (l := c.includes)
            (fun i _ hi => by
              unfold matchIf at hi ⊢
              split
              · rename_i hs
                rw [if_pos hs] at hi
                exact ih _ _ _ hi
              · rfl)
            (fun hf => h (by rw [hf]))
          rw [hfo]
          cases hf : firstOf (fun i => matchIf (dp.get i.1).isSome (matchPattern dp depth i.1 exten prio)) c.includes with
          | error e => rfl
          | ok r =>
            rw [hf] at h
            cases r with
            | some t => rfl
            | none =>
              simp only at h ⊢
              split
              · rename_i hne
                rw [if_pos hne] at h
                split
                · exact ih _ _ _ h
                · rfl
              · rfl

theorem lookup_mono_le {dp : Dialplan} {d d' : Nat} (hd : d ≤ d') (ctx exten : Str) (prio : Arg)
    (h : matchPattern dp d ctx exten prio ≠ .error .recursionError) :
    matchPattern dp d' ctx exten prio = matchPattern dp d ctx exten prio := by
  induction hd with
  | refl => rfl
  | step _ ih => rw [lookup_mono _ _ _ _ (by rw [ih]; exact h), ih]

end ALint
