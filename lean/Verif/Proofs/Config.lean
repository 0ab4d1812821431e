import Verif.Spec.Config
import Verif.Proofs.Str

namespace ALint
open ALint.Spec

theorem mem_takeWhile' {p : Char → Bool} {s : Str} {c : Char} (h : c ∈ s.takeWhile p) : p c = true := by
  induction s with
  | nil => simp at h
  | cons x xs ih =>
    by_cases hx : p x
    · rw [List.takeWhile_cons_of_pos hx] at h
      rcases List.mem_cons.1 h with rfl | h
      · exact hx
      · exact ih h
    · rw [List.takeWhile_cons_of_neg hx] at h; simp at h

theorem noLead_iff (s : Str) : NoLead s ↔ ∀ c, s.head? = some c → isSpace c = false := by
  cases s with
  | nil => simp [NoLead]
  | cons x xs => simp [NoLead]

theorem noTrail_iff (s : Str) : NoTrail s ↔ ∀ c, s.getLast? = some c → isSpace c = false := by
  constructor
  · intro h c hc
    obtain ⟨r, rfl⟩ := List.getLast?_eq_some_iff.1 hc
    exact h r c rfl
  · rintro h r c rfl
    exact h c (by simp)

theorem takeWhile_append_stop (p : Char → Bool) (a b : Str) (ha : ∀ c ∈ a, p c = true)
    (hb : ∀ c, b.head? = some c → p c = false) : (a ++ b).takeWhile p = a := by
  induction a with
  | nil =>
    cases b with
    | nil => rfl
    | cons x xs => simp [hb x rfl]
  | cons x xs ih => simp [ha x (by simp), ih (fun c hc => ha c (by simp [hc]))]

theorem strip_bracket (indent r : Str) (h : Spaces indent) :
    lstripP isSpace (indent ++ '[' :: r) = '[' :: r :=
  lstripP_append _ _ _ h (by simp; decide)

theorem takeWhile_bracket (indent r : Str) (h : Spaces indent) :
    (indent ++ '[' :: r).takeWhile isSpace = indent :=
  takeWhile_append_stop _ _ _ h (by simp; decide)

/-- Undoing `lstripP`. -/
theorem lstrip_eq {data x : Str} (h : lstripP isSpace data = x) :
    data = data.takeWhile isSpace ++ x ∧ Spaces (data.takeWhile isSpace) := by
  subst h
  refine ⟨(List.takeWhile_append_dropWhile).symm, fun c hc => ?_⟩
  exact mem_takeWhile' hc

theorem reHeader_iff (data : Str) (i n t : Str) :
    reHeader data = some (.header i n t) ↔ IsHeader data i n ∧ t = [] := by
  constructor
  · intro h
    simp only [reHeader] at h
    split at h
    · rename_i r hr
      obtain ⟨e, hsp⟩ := lstrip_eq hr
      split at h
      · rename_i name hs
        obtain ⟨rfl, hn⟩ := splitOnce_some hs
        simp at h
        obtain ⟨rfl, rfl, rfl⟩ := h
        exact ⟨⟨by rw [List.append_assoc]; exact e, hsp, hn⟩, rfl⟩
      · simp at h
    · simp at h
  · rintro ⟨⟨rfl, h2, h3⟩, rfl⟩
    simp only [reHeader, List.append_assoc, List.cons_append]
    rw [strip_bracket _ _ h2]
    simp only [splitOnce_append h3, takeWhile_bracket _ _ h2]

theorem reHeader_form (data : Str) (r : Reading) (h : reHeader data = some r) :
    ∃ i n t, r = .header i n t := by
  simp only [reHeader] at h
  split at h
  · split at h
    · simp at h; exact ⟨_, _, _, h.symm⟩
    · simp at h
  · simp at h

theorem reTemplate_iff (data : Str) (i n t : Str) :
    reTemplate data = some (.header i n t) ↔ ∃ c, IsTemplate data i n c ∧ t = [c] := by
  constructor
  · intro h
    simp only [reTemplate] at h
    split at h
    · rename_i r hr
      obtain ⟨e, hsp⟩ := lstrip_eq hr
      split at h
      · rename_i name tail hs
        obtain ⟨rfl, hn⟩ := splitOnce_some hs
        split at h
        · rename_i c ht
          obtain ⟨e2, hsp2⟩ := lstrip_eq ht
          split at h
          · simp at h
          · rename_i hc
            simp at h
            obtain ⟨rfl, rfl, rfl⟩ := h
            refine ⟨c, ⟨⟨_, hsp2, ?_⟩, hsp, hn, by simpa using hc⟩, rfl⟩
            conv => lhs; rw [e]
            conv => lhs; rw [e2]
            simp
        · simp at h
      · simp at h
    · simp at h
  · rintro ⟨c, ⟨⟨gap, hg, rfl⟩, h2, h3, h4⟩, rfl⟩
    simp only [reTemplate, List.append_assoc, List.cons_append]
    rw [strip_bracket _ _ h2]
    simp only [splitOnce_append h3, takeWhile_bracket _ _ h2]
    rw [lstripP_append isSpace gap _ hg (by simp; decide)]
    simp [h4.1, h4.2]

theorem reTemplate_form (data : Str) (r : Reading) (h : reTemplate data = some r) :
    ∃ i n t, r = .header i n t := by
  simp only [reTemplate] at h
  split at h
  · split at h
    · split at h
      · split at h
        · simp at h
        · simp at h; exact ⟨_, _, _, h.symm⟩
      · simp at h
    · simp at h
  · simp at h

/-- The assignment part shared by the two expressions. -/
theorem assign_parts (p : Str) : ∃ s1, p = rstripP isSpace p ++ s1 ∧ Spaces s1 ∧
    NoTrail (rstripP isSpace p) ∧ p.drop (rstripP isSpace p).length = s1 := by
  obtain ⟨s1, h1, h2, h3⟩ := rstripP_spec isSpace p
  refine ⟨s1, h1, h2, (noTrail_iff _).2 h3, ?_⟩
  conv => lhs; rw [h1]
  have : rstripP isSpace (rstripP isSpace p ++ s1) = rstripP isSpace p := by rw [← h1]
  rw [this]; simp

theorem value_parts (q : Str) : q = q.takeWhile isSpace ++ q.dropWhile isSpace ∧
    Spaces (q.takeWhile isSpace) ∧ NoLead (q.dropWhile isSpace) := by
  obtain ⟨pre, h1, h2, h3⟩ := lstripP_spec isSpace q
  refine ⟨List.takeWhile_append_dropWhile.symm, fun c hc => mem_takeWhile' hc, (noLead_iff _).2 h3⟩

theorem eq_not_space : isSpace '=' = false := by decide
theorem gt_not_space : isSpace '>' = false := by decide

theorem eq_not_mem_spaces {s : Str} (h : Spaces s) : '=' ∉ s := by
  intro hm
  have := h _ hm
  rw [eq_not_space] at this
  simp at this

theorem reArrow_iff (data k sep v : Str) :
    reArrow data = some (.assign k sep v) ↔ IsAssign data k sep v true := by
  constructor
  · intro h
    simp only [reArrow] at h
    split at h
    · rename_i p q hs
      obtain ⟨rfl, hp⟩ := splitOnce_some hs
      obtain ⟨s1, a1, a2, a3, a4⟩ := assign_parts p
      obtain ⟨b1, b2, b3⟩ := value_parts q
      simp at h
      obtain ⟨rfl, rfl, rfl⟩ := h
      refine ⟨⟨s1, q.takeWhile isSpace, a2, b2, by rw [a4]; simp, ?_, by simp⟩, ?_, a3, b3⟩
      · rw [a4]
        conv => lhs; rw [a1, b1]
        simp
      · intro hm
        apply hp
        rw [a1]; simp [hm]
    · simp at h
  · rintro ⟨⟨s1, s2, h1, h2, rfl, rfl, _⟩, hk, ke, vs⟩
    have e : k ++ (s1 ++ (if true then c! "=>" else c! "=") ++ s2) ++ v = (k ++ s1) ++ '=' :: ('>' :: (s2 ++ v)) := by
      simp
    rw [e]
    simp only [reArrow]
    rw [splitOnce_append (by simp [hk, eq_not_mem_spaces h1])]
    simp only
    rw [rstripP_append isSpace k s1 h1 ((noTrail_iff _).1 ke),
      takeWhile_append_stop isSpace s2 v h2 ((noLead_iff _).1 vs)]
    have : (s2 ++ v).dropWhile isSpace = v := lstripP_append isSpace s2 v h2 ((noLead_iff _).1 vs)
    rw [this]
    simp

theorem reArrow_form (data : Str) (r : Reading) (h : reArrow data = some r) :
    ∃ i n t, r = .assign i n t := by
  simp only [reArrow] at h
  split at h
  · simp at h; exact ⟨_, _, _, h.symm⟩
  · simp at h

theorem reEquals_form (data : Str) (r : Reading) (h : reEquals data = some r) :
    ∃ i n t, r = .assign i n t := by
  simp only [reEquals] at h
  split at h
  · simp at h; exact ⟨_, _, _, h.symm⟩
  · simp at h

theorem reArrow_none {data p q : Str} (h : splitOnce '=' data = some (p, q)) :
    reArrow data = none ↔ q.head? ≠ some '>' := by
  simp only [reArrow, h]
  cases q with
  | nil => simp
  | cons x q =>
    by_cases hx : x = '>'
    · subst hx; simp
    · simp only [List.head?_cons, Option.some.injEq, ne_eq, hx, not_false_eq_true, iff_true]
      split
      · rename_i heq; simp at heq; exact absurd heq.2.1 hx
      · rfl

theorem reEquals_iff (data k sep v : Str) :
    (reArrow data = none ∧ reEquals data = some (.assign k sep v)) ↔ IsAssign data k sep v false := by
  constructor
  · rintro ⟨h0, h⟩
    simp only [reEquals] at h
    split at h
    · rename_i p q hs
      rw [reArrow_none hs] at h0
      obtain ⟨rfl, hp⟩ := splitOnce_some hs
      obtain ⟨s1, a1, a2, a3, a4⟩ := assign_parts p
      obtain ⟨b1, b2, b3⟩ := value_parts q
      simp at h
      obtain ⟨rfl, rfl, rfl⟩ := h
      refine ⟨⟨s1, q.takeWhile isSpace, a2, b2, by rw [a4]; simp, ?_, ?_⟩, ?_, a3, b3⟩
      · rw [a4]
        conv => lhs; rw [a1, b1]
        simp
      · intro _ hq
        rw [hq, List.nil_append] at b1
        rw [← b1]; exact h0
      · intro hm
        apply hp
        rw [a1]; simp [hm]
    · simp at h
  · rintro ⟨⟨s1, s2, h1, h2, rfl, rfl, h5⟩, hk, ke, vs⟩
    have e : k ++ (s1 ++ (if false then c! "=>" else c! "=") ++ s2) ++ v = (k ++ s1) ++ '=' :: (s2 ++ v) := by
      simp
    have e' : k ++ (s1 ++ (if (false : Bool) = true then c! "=>" else c! "=") ++ s2) ++ v = (k ++ s1) ++ '=' :: (s2 ++ v) := by
      simp
    rw [e']
    have hs := splitOnce_append (c := '=') (a := k ++ s1) (b := s2 ++ v) (by simp [hk, eq_not_mem_spaces h1])
    constructor
    · rw [reArrow_none hs]
      cases s2 with
      | nil => exact h5 rfl rfl
      | cons x xs =>
        simp
        rintro rfl
        have := h2 '>' (by simp)
        rw [gt_not_space] at this; simp at this
    · simp only [reEquals, hs]
      rw [rstripP_append isSpace k s1 h1 ((noTrail_iff _).1 ke),
        takeWhile_append_stop isSpace s2 v h2 ((noLead_iff _).1 vs)]
      have : (s2 ++ v).dropWhile isSpace = v := lstripP_append isSpace s2 v h2 ((noLead_iff _).1 vs)
      rw [this]
      simp

theorem header_none_iff (data : Str) :
    (reTemplate data = none ∧ reHeader data = none) ↔ ¬ SomeHeader data := by
  constructor
  · rintro ⟨h1, h2⟩ (⟨i, n, h⟩ | ⟨i, n, c, h⟩)
    · rw [(reHeader_iff data i n []).2 ⟨h, rfl⟩] at h2; simp at h2
    · rw [(reTemplate_iff data i n [c]).2 ⟨c, h, rfl⟩] at h1; simp at h1
  · intro h
    constructor
    · cases hr : reTemplate data with
      | none => rfl
      | some r =>
        obtain ⟨i, n, t, rfl⟩ := reTemplate_form data r hr
        obtain ⟨c, h', _⟩ := (reTemplate_iff _ _ _ _).1 hr
        exact absurd (.inr ⟨i, n, c, h'⟩) h
    · cases hr : reHeader data with
      | none => rfl
      | some r =>
        obtain ⟨i, n, t, rfl⟩ := reHeader_form data r hr
        exact absurd (.inl ⟨i, n, ((reHeader_iff _ _ _ _).1 hr).1⟩) h

theorem template_not_header {data i n c i' n'} (h : IsTemplate data i n c) : ¬ IsHeader data i' n' := by
  intro h'
  obtain ⟨⟨gap, _, e⟩, _, _, _⟩ := h
  have e' := h'.shape
  rw [e] at e'
  have e2 : (i ++ '[' :: n ++ ']' :: gap ++ ['(', c]) ++ [')'] = (i' ++ '[' :: n') ++ [']'] := by
    rw [← e']; simp
  have := congrArg List.getLast? e2
  rw [List.getLast?_concat, List.getLast?_concat] at this
  simp at this

/-- The reading of a line, case by case. -/
theorem readLine_header (data i n t : Str) :
    readLine data = some (.header i n t) ↔
      (IsHeader data i n ∧ t = []) ∨ ∃ c, IsTemplate data i n c ∧ t = [c] := by
  simp only [readLine]
  rw [← reHeader_iff, ← reTemplate_iff]
  cases h1 : reTemplate data with
  | some r =>
    obtain ⟨i', n', t', rfl⟩ := reTemplate_form data r h1
    obtain ⟨c, hc, _⟩ := (reTemplate_iff _ _ _ _).1 h1
    constructor
    · intro h; exact .inr h
    · rintro (h | h)
      · exact absurd ((reHeader_iff _ _ _ _).1 h).1 (template_not_header hc)
      · exact h
  | none =>
    cases h2 : reHeader data with
    | some r => simp [Option.orElse]
    | none =>
      simp only [Option.orElse]
      constructor
      · intro h
        cases h3 : reArrow data with
        | some r =>
          obtain ⟨a, b, c, rfl⟩ := reArrow_form data r h3
          rw [h3] at h; simp at h
        | none =>
          rw [h3] at h
          cases h4 : reEquals data with
          | some r =>
            obtain ⟨a, b, c, rfl⟩ := reEquals_form data r h4
            rw [h4] at h; simp at h
          | none =>
            rw [h4] at h
            simp only [reBlank] at h
            split at h <;> simp at h
      · rintro (h | h) <;> simp at h

theorem readLine_assign (data k sep v : Str) :
    readLine data = some (.assign k sep v) ↔
      ¬ SomeHeader data ∧ (IsAssign data k sep v true ∨ IsAssign data k sep v false) := by
  rw [← header_none_iff, ← reArrow_iff, ← reEquals_iff]
  simp only [readLine]
  cases h1 : reTemplate data with
  | some r =>
    obtain ⟨i', n', t', rfl⟩ := reTemplate_form data r h1
    simp [Option.orElse]
  | none =>
    cases h2 : reHeader data with
    | some r =>
      obtain ⟨i', n', t', rfl⟩ := reHeader_form data r h2
      simp [Option.orElse]
    | none =>
      simp only [Option.orElse, and_self, true_and]
      cases h3 : reArrow data with
      | some r => simp
      | none =>
        simp only [true_and, reduceCtorEq, false_or]
        cases h4 : reEquals data with
        | some r => simp
        | none =>
          simp only [reBlank]
          split <;> simp

theorem reEquals_none (data : Str) : reEquals data = none ↔ '=' ∉ data := by
  rw [← splitOnce_none_iff]
  simp only [reEquals]
  cases splitOnce '=' data <;> simp

theorem someHeader_not_spaces {data : Str} (h : SomeHeader data) : ¬ Spaces data := by
  intro hs
  have : '[' ∈ data := by
    rcases h with ⟨i, n, h⟩ | ⟨i, n, c, ⟨gap, _, h⟩, _⟩
    · rw [h.shape]; simp
    · rw [h]; simp
  have := hs _ this
  exact absurd this (by decide)

theorem readLine_blank (data : Str) : readLine data = some .blank ↔ Spaces data := by
  simp only [readLine]
  constructor
  · intro h
    cases h1 : reTemplate data with
    | some r => obtain ⟨i', n', t', rfl⟩ := reTemplate_form data r h1; rw [h1] at h; simp [Option.orElse] at h
    | none =>
      cases h2 : reHeader data with
      | some r => obtain ⟨i', n', t', rfl⟩ := reHeader_form data r h2; rw [h1, h2] at h; simp [Option.orElse] at h
      | none =>
        cases h3 : reArrow data with
        | some r => obtain ⟨i', n', t', rfl⟩ := reArrow_form data r h3; rw [h1, h2, h3] at h; simp [Option.orElse] at h
        | none =>
          cases h4 : reEquals data with
          | some r => obtain ⟨i', n', t', rfl⟩ := reEquals_form data r h4; rw [h1, h2, h3, h4] at h; simp [Option.orElse] at h
          | none =>
            rw [h1, h2, h3, h4] at h
            simp only [Option.orElse, reBlank] at h
            split at h
            · rename_i ha; simpa [Spaces] using ha
            · simp at h
  · intro h
    obtain ⟨h1, h2⟩ := (header_none_iff data).2 (fun hh => someHeader_not_spaces hh h)
    have h4 := (reEquals_none data).2 (eq_not_mem_spaces h)
    have h3 : reArrow data = none := by
      simp only [reArrow, splitOnce_none (eq_not_mem_spaces h)]
    rw [h1, h2, h3, h4]
    have : data.all isSpace = true := by simpa [Spaces] using h
    simp [Option.orElse, reBlank, this]

theorem readLine_none (data : Str) :
    readLine data = none ↔ ¬ SomeHeader data ∧ '=' ∉ data ∧ ¬ Spaces data := by
  rw [← header_none_iff, ← reEquals_none]
  have hsp : ¬ Spaces data ↔ reBlank data = none := by
    simp only [reBlank]
    have : data.all isSpace = true ↔ Spaces data := by simp [Spaces]
    by_cases h : data.all isSpace = true
    · simp [h, this.1 h]
    · rw [if_neg h]; simp; exact fun h' => h (this.2 h')
  rw [hsp]
  simp only [readLine]
  cases h1 : reTemplate data with
  | some r => simp [Option.orElse]
  | none =>
    cases h2 : reHeader data with
    | some r => simp [Option.orElse]
    | none =>
      cases h4 : reEquals data with
      | some r =>
        cases h3 : reArrow data <;> simp [Option.orElse]
      | none =>
        have h3 : reArrow data = none := by
          simp only [reArrow, splitOnce_none ((reEquals_none data).1 h4)]
        simp [Option.orElse, h3]

end ALint
