import Verif.Py.Sort

/-!
# Sorting: lemmas
-/

namespace ALint

theorem strLt_irrefl (s : Str) : strLt s s = false := by
  induction s with
  | nil => rfl
  | cons c s ih => simp [strLt, ih]

theorem strLt_total {a b : Str} (h : strLt a b = false) (h' : strLt b a = false) : a = b := by
  induction a generalizing b with
  | nil => cases b with
    | nil => rfl
    | cons => simp [strLt] at h
  | cons x a ih => cases b with
    | nil => simp [strLt] at h'
    | cons y b =>
      simp only [strLt, Bool.or_eq_false_iff, decide_eq_false_iff_not, Bool.and_eq_false_iff, beq_eq_false_iff_ne] at h h'
      have hxy : x = y := by
        have : x.toNat = y.toNat := by omega
        exact Char.toNat_inj.1 this
      subst hxy
      rw [ih (by simpa using h.2) (by simpa using h'.2)]

theorem strLt_neg {a b c : Str} (h : strLt a c = true) : strLt a b = true ∨ strLt b c = true := by
  induction a generalizing b c with
  | nil => cases b with
    | nil => exact .inr h
    | cons => exact .inl rfl
  | cons x a ih => cases c with
    | nil => simp [strLt] at h
    | cons z c => cases b with
      | nil => exact .inr rfl
      | cons y b =>
        simp only [strLt, Bool.or_eq_true, decide_eq_true_eq, Bool.and_eq_true, beq_iff_eq] at h ⊢
        rcases h with h | ⟨rfl, h⟩
        · by_cases h1 : x.toNat < y.toNat
          · exact .inl (.inl h1)
          · right; left; omega
        · by_cases h1 : x = y
          · subst h1
            rcases ih (b := b) h with h | h
            · exact .inl (.inr ⟨rfl, h⟩)
            · exact .inr (.inr ⟨rfl, h⟩)
          · have : x.toNat ≠ y.toNat := fun he => h1 (Char.toNat_inj.1 he)
            by_cases h2 : x.toNat < y.toNat
            · exact .inl (.inl h2)
            · right; left; omega

theorem strLt_asymm {a b : Str} (h : strLt a b = true) : strLt b a = false := by
  induction a generalizing b with
  | nil => cases b <;> simp [strLt]
  | cons x a ih => cases b with
    | nil => simp [strLt] at h
    | cons y b =>
      simp only [strLt, Bool.or_eq_true, decide_eq_true_eq, Bool.and_eq_true, beq_iff_eq] at h
      simp only [strLt, Bool.or_eq_false_iff, decide_eq_false_iff_not, Bool.and_eq_false_iff, beq_eq_false_iff_ne]
      rcases h with h | ⟨rfl, h⟩
      · exact ⟨by omega, .inl fun he => by rw [he] at h; omega⟩
      · exact ⟨by omega, .inr (ih h)⟩

/-- A comparison of keys. -/
structure Weak {α : Type} (lt : α → α → Bool) : Prop where
  asymm : ∀ a b, lt a b = true → lt b a = false
  neg : ∀ a b c, lt a c = true → lt a b = true ∨ lt b c = true

theorem Weak.irrefl {α : Type} {lt : α → α → Bool} (h : Weak lt) (a : α) : lt a a = false := by
  cases hx : lt a a with
  | false => rfl
  | true => rw [h.asymm a a hx] at hx; exact absurd hx (by simp)

theorem Weak.trans {α : Type} {lt : α → α → Bool} (h : Weak lt) {a b c : α} (h1 : lt a b = true) (h2 : lt b c = true) :
    lt a c = true := by
  rcases h.neg a c b h1 with h3 | h3
  · exact h3
  · rw [h.asymm _ _ h2] at h3; exact absurd h3 (by simp)

theorem strLt_weak : Weak strLt := ⟨fun _ _ => strLt_asymm, fun _ _ _ => strLt_neg⟩

theorem weak_key {α β : Type} {lt : β → β → Bool} (h : Weak lt) (key : α → β) : Weak (fun a b => lt (key a) (key b)) :=
  ⟨fun _ _ => h.asymm _ _, fun _ _ _ => h.neg _ _ _⟩

theorem insertBy_perm {α : Type} (lt : α → α → Bool) (a : α) (l : List α) : (insertBy lt a l).Perm (a :: l) := by
  induction l with
  | nil => exact .refl _
  | cons x xs ih =>
    rw [insertBy]
    split
    · exact (List.Perm.cons x ih).trans (.swap a x xs)
    · exact .refl _

theorem sortBy_perm {α : Type} (lt : α → α → Bool) (l : List α) : (sortBy lt l).Perm l := by
  induction l with
  | nil => exact .refl _
  | cons a l ih => exact (insertBy_perm lt a _).trans (.cons a ih)

theorem mem_sortBy {α : Type} {lt : α → α → Bool} {l : List α} {a : α} : a ∈ sortBy lt l ↔ a ∈ l :=
  (sortBy_perm lt l).mem_iff

theorem nodup_sortBy {α : Type} {lt : α → α → Bool} {l : List α} : (sortBy lt l).Nodup ↔ l.Nodup :=
  (sortBy_perm lt l).nodup_iff

/-- No later element is smaller. -/
def Ascending {α : Type} (lt : α → α → Bool) (l : List α) : Prop := List.Pairwise (fun a b => lt b a = false) l

theorem insertBy_ascending {α : Type} {lt : α → α → Bool} (hw : Weak lt) (a : α) {l : List α} (h : Ascending lt l) :
    Ascending lt (insertBy lt a l) := by
  induction l with
  | nil => simp [insertBy, Ascending]
  | cons x xs ih =>
    rw [insertBy]
    unfold Ascending at h ih ⊢
    rw [List.pairwise_cons] at h
    split
    · rename_i hx
      rw [List.pairwise_cons]
      refine ⟨fun y hy => ?_, ih h.2⟩
      rcases List.mem_cons.1 ((insertBy_perm lt a xs).mem_iff.1 hy) with rfl | hy
      · exact hw.asymm _ _ hx
      · exact h.1 y hy
    · rename_i hx
      rw [List.pairwise_cons]
      refine ⟨fun y hy => ?_, List.pairwise_cons.2 h⟩
      rcases List.mem_cons.1 hy with rfl | hy
      · simpa using hx
      · have h1 := h.1 y hy
        cases hy : lt y a with
        | false => rfl
        | true =>
          rcases hw.neg y x a hy with h2 | h2
          · rw [h1] at h2; exact absurd h2 (by simp)
          · exact absurd h2 hx

theorem sortBy_ascending {α : Type} {lt : α → α → Bool} (hw : Weak lt) (l : List α) : Ascending lt (sortBy lt l) := by
  induction l with
  | nil => exact .nil
  | cons a l ih => exact insertBy_ascending hw a ih

/-- There is one ascending order of different keys. -/
theorem ascending_unique {α : Type} {lt : α → α → Bool} {l m : List α} (hp : l.Perm m)
    (hd : ∀ a ∈ l, ∀ b ∈ l, lt a b = false → lt b a = false → a = b) (hl : Ascending lt l) (hm : Ascending lt m) :
    l = m := by
  induction l generalizing m with
  | nil => exact (List.Perm.nil_eq hp)
  | cons a l ih =>
    cases m with
    | nil => exact absurd hp.symm.nil_eq (by simp)
    | cons b m =>
      have hab : a = b := by
        have h1 : b ∈ a :: l := hp.mem_iff.2 (by simp)
        have h2 : a ∈ b :: m := hp.mem_iff.1 (by simp)
        unfold Ascending at hl hm
        rw [List.pairwise_cons] at hl hm
        rcases List.mem_cons.1 h1 with h1 | h1
        · exact h1.symm
        · rcases List.mem_cons.1 h2 with h2 | h2
          · exact h2
          · exact hd a (by simp) b (by simp [h1]) (hm.1 a h2) (hl.1 b h1)
      subst hab
      rw [ih (List.perm_cons a |>.1 hp) (fun x hx y hy => hd x (by simp [hx]) y (by simp [hy]))
        (List.pairwise_cons.1 hl).2 (List.pairwise_cons.1 hm).2]

theorem sortBy_congr {α : Type} {lt : α → α → Bool} (hw : Weak lt) {l m : List α} (hp : l.Perm m)
    (hd : ∀ a ∈ l, ∀ b ∈ l, lt a b = false → lt b a = false → a = b) : sortBy lt l = sortBy lt m :=
  ascending_unique ((sortBy_perm lt l).trans (hp.trans (sortBy_perm lt m).symm))
    (fun a ha b hb => hd a (mem_sortBy.1 ha) b (mem_sortBy.1 hb)) (sortBy_ascending hw l) (sortBy_ascending hw m)

end ALint
