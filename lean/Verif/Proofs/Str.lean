import Verif.Py.Str

namespace ALint

theorem splitOnce_some {c : Char} {s a b : Str} (h : splitOnce c s = some (a, b)) :
    s = a ++ c :: b ∧ c ∉ a := by
  induction s generalizing a b with
  | nil => simp [splitOnce] at h
  | cons x xs ih =>
    simp only [splitOnce] at h
    split at h
    · rename_i hx; simp at h; obtain ⟨rfl, rfl⟩ := h; simp [hx]
    · split at h
      · simp at h
      · rename_i hx _ a' b' hs
        simp at h; obtain ⟨rfl, rfl⟩ := h
        obtain ⟨h1, h2⟩ := ih hs
        subst h1
        simp only [List.cons_append, List.mem_cons, not_or, true_and]
        exact ⟨fun h => hx h.symm, h2⟩

theorem splitOnce_append {c : Char} {a b : Str} (h : c ∉ a) :
    splitOnce c (a ++ c :: b) = some (a, b) := by
  induction a with
  | nil => simp [splitOnce]
  | cons x xs ih => simp at h; simp [splitOnce, ih h.2, Ne.symm h.1]

theorem splitAll_ne_nil (c : Char) (s : Str) : splitAll c s ≠ [] := by
  induction s with
  | nil => simp [splitAll]
  | cons x xs ih =>
    simp only [splitAll]
    split
    · simp
    · split <;> simp

theorem joinWith_splitAll (c : Char) (s : Str) : joinWith c (splitAll c s) = s := by
  induction s with
  | nil => rfl
  | cons x xs ih =>
    simp only [splitAll]
    split
    · rename_i h; subst h
      cases hs : splitAll x xs with
      | nil => exact absurd hs (splitAll_ne_nil _ _)
      | cons p ps => rw [hs] at ih; simp [joinWith, ih]
    · split
      · rename_i hs; exact absurd hs (splitAll_ne_nil _ _)
      · rename_i p ps hs
        rw [hs] at ih
        cases ps with
        | nil => simp [joinWith] at ih ⊢; exact ih
        | cons q qs => simp [joinWith] at ih ⊢; exact ih

theorem splitAll_no (c : Char) (s : Str) (h : c ∉ s) : splitAll c s = [s] := by
  induction s with
  | nil => rfl
  | cons x xs ih =>
    simp at h
    simp [splitAll, ih h.2, Ne.symm h.1]

theorem splitAll_append (c : Char) (a b : Str) (h : c ∉ a) :
    splitAll c (a ++ c :: b) = a :: splitAll c b := by
  induction a with
  | nil => simp [splitAll]
  | cons x xs ih =>
    simp at h
    simp [splitAll, ih h.2, Ne.symm h.1]

theorem splitAll_joinWith (c : Char) (ps : List Str) (hne : ps ≠ []) (h : ∀ p ∈ ps, c ∉ p) :
    splitAll c (joinWith c ps) = ps := by
  induction ps with
  | nil => exact absurd rfl hne
  | cons p ps ih =>
    cases ps with
    | nil => simpa [joinWith] using splitAll_no c p (h p (by simp))
    | cons q qs =>
      rw [joinWith, splitAll_append c p _ (h p (by simp)), ih (by simp) (fun r hr => h r (by simp_all))]

theorem splitAll_mem (c : Char) (s : Str) : ∀ p ∈ splitAll c s, c ∉ p := by
  induction s with
  | nil => simp [splitAll]
  | cons x xs ih =>
    simp only [splitAll]
    split
    · simp; exact ih
    · rename_i hx
      split
      · simp; exact fun h => hx h.symm
      · rename_i p ps hs
        rw [hs] at ih
        intro q hq
        rcases List.mem_cons.1 hq with rfl | hq
        · simp only [List.mem_cons, not_or]
          exact ⟨fun h => hx h.symm, ih p (by simp)⟩
        · exact ih q (by simp [hq])

theorem splitOnce_none {c : Char} {s : Str} (h : c ∉ s) : splitOnce c s = none := by
  induction s with
  | nil => rfl
  | cons x xs ih => simp at h; simp [splitOnce, ih h.2, Ne.symm h.1]

theorem splitOnce_none_iff {c : Char} {s : Str} : splitOnce c s = none ↔ c ∉ s := by
  constructor
  · intro h hm
    obtain ⟨a, b, rfl, ha⟩ : ∃ a b, s = a ++ c :: b ∧ c ∉ a := by
      have : ∀ (s : Str), c ∈ s → ∃ a b, s = a ++ c :: b ∧ c ∉ a := by
        intro s
        induction s with
        | nil => simp
        | cons x xs ih =>
          intro hm
          by_cases hx : x = c
          · exact ⟨[], xs, by simp [hx], by simp⟩
          · obtain ⟨a, b, h1, h2⟩ := ih (by simpa [Ne.symm hx] using hm)
            exact ⟨x :: a, b, by simp [h1], by simp [h2, Ne.symm hx]⟩
      exact this s hm
    rw [splitOnce_append ha] at h
    simp at h
  · exact splitOnce_none

theorem lstripP_spec (p : Char → Bool) (s : Str) :
    ∃ pre, s = pre ++ lstripP p s ∧ (∀ c ∈ pre, p c = true) ∧
      ∀ c, (lstripP p s).head? = some c → p c = false := by
  induction s with
  | nil => exact ⟨[], rfl, by simp, by simp [lstripP]⟩
  | cons x xs ih =>
    simp only [lstripP] at ih ⊢
    by_cases hx : p x
    · obtain ⟨pre, h1, h2, h3⟩ := ih
      rw [List.dropWhile_cons_of_pos hx]
      exact ⟨x :: pre, by rw [List.cons_append, ← h1],
        by simp only [List.mem_cons, forall_eq_or_imp]; exact ⟨hx, h2⟩, h3⟩
    · rw [List.dropWhile_cons_of_neg hx]
      exact ⟨[], rfl, by simp, by simpa using hx⟩

theorem lstripP_append (p : Char → Bool) (pre s : Str) (h : ∀ c ∈ pre, p c = true)
    (h' : ∀ c, s.head? = some c → p c = false) : lstripP p (pre ++ s) = s := by
  induction pre with
  | nil =>
    cases s with
    | nil => rfl
    | cons x xs => simp [lstripP, List.dropWhile_cons_of_neg, h' x rfl]
  | cons x xs ih =>
    rw [lstripP, List.cons_append, List.dropWhile_cons_of_pos (h x (by simp))]
    exact ih (fun c hc => h c (by simp [hc]))

theorem rstripP_spec (p : Char → Bool) (s : Str) :
    ∃ post, s = rstripP p s ++ post ∧ (∀ c ∈ post, p c = true) ∧
      ∀ c, (rstripP p s).getLast? = some c → p c = false := by
  obtain ⟨pre, h1, h2, h3⟩ := lstripP_spec p s.reverse
  refine ⟨pre.reverse, ?_, by simpa using h2, ?_⟩
  · have := congrArg List.reverse h1
    simpa [rstripP, lstripP] using this
  · intro c hc
    apply h3
    simpa [rstripP, lstripP] using hc

theorem rstripP_append (p : Char → Bool) (s post : Str) (h : ∀ c ∈ post, p c = true)
    (h' : ∀ c, s.getLast? = some c → p c = false) : rstripP p (s ++ post) = s := by
  have := lstripP_append p post.reverse s.reverse (by simpa using h) (by simpa using h')
  simp only [rstripP, List.reverse_append]
  rw [show (post.reverse ++ s.reverse).dropWhile p = s.reverse from this, List.reverse_reverse]

theorem rstripP_self (p : Char → Bool) (s : Str) (h' : ∀ c, s.getLast? = some c → p c = false) :
    rstripP p s = s := by
  have := rstripP_append p s [] (by simp) h'
  simpa using this

theorem lstripP_self (p : Char → Bool) (s : Str) (h' : ∀ c, s.head? = some c → p c = false) :
    lstripP p s = s := lstripP_append p [] s (by simp) h'

end ALint
