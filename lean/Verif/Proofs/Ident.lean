import Verif.Model.Ident
import Verif.Spec.Ident
import Verif.Proofs.Sort
import Verif.Proofs.DialplanList

/-!
# Similar identifiers: lemmas
-/

namespace ALint
open Spec

/-! ## Distance -/

theorem Edits.symm {n : Nat} {a b : Str} (h : Edits n a b) : Edits n b a := by
  induction h with
  | nil => exact .nil
  | keep x _ ih => exact .keep x ih
  | replace x y _ ih => exact .replace y x ih
  | drop x _ ih => exact .add x ih
  | add y _ ih => exact .drop y ih

theorem Distance.symm {n : Nat} {a b : Str} (h : Distance n a b) : Distance n b a :=
  ⟨Edits.symm h.1, fun m hm => h.2 m (Edits.symm hm)⟩

theorem Distance.unique {n m : Nat} {a b : Str} (h : Distance n a b) (h' : Distance m a b) : n = m :=
  Nat.le_antisymm (h.2 m h'.1) (h'.2 n h.1)

theorem edits_refl (a : Str) : Edits 0 a a := by
  induction a with
  | nil => exact .nil
  | cons x a ih => exact .keep x ih

theorem edits_zero {a b : Str} (h : Edits 0 a b) : a = b := by
  generalize hn : 0 = n at h
  induction h with
  | nil => rfl
  | keep x _ ih => rw [ih hn]
  | replace => exact absurd hn (by simp)
  | drop => exact absurd hn (by simp)
  | add => exact absurd hn (by simp)

theorem distance_zero {n : Nat} {a b : Str} (h : Distance n a b) : n = 0 ↔ a = b := by
  refine ⟨fun hn => ?_, fun hab => ?_⟩
  · subst hn; exact edits_zero h.1
  · subst hab
    exact Nat.le_zero.1 (h.2 0 (edits_refl a))

/-- One row of the table of distances. -/
def levRow (f : Str → Nat) (x : Char) (n : Nat) : Str → Nat
  | [] => n + 1
  | y :: b => min (min (f (y :: b) + 1) (levRow f x n b + 1)) (f b + if x = y then 0 else 1)

/-- A way to compute the distance. -/
def lev : Str → Str → Nat
  | [] => fun b => b.length
  | x :: a => fun b => levRow (lev a) x a.length b

theorem lev_nil (a : Str) : lev a [] = a.length := by cases a <;> simp [lev, levRow]

theorem lev_le {n : Nat} {a b : Str} (h : Edits n a b) : lev a b ≤ n := by
  induction h with
  | nil => simp [lev]
  | @keep n a b x _ ih =>
    simp only [lev, levRow, if_true]
    omega
  | @replace n a b x y _ ih =>
    simp only [lev, levRow]
    split <;> omega
  | @drop n a b x _ ih =>
    cases b with
    | nil => rw [lev_nil] at ih ⊢; simp only [List.length_cons]; omega
    | cons y b =>
      simp only [lev, levRow]
      split <;> omega
  | @add n a b y _ ih =>
    cases a with
    | nil => simp only [lev, List.length_cons] at ih ⊢; omega
    | cons x a =>
      simp only [lev, levRow] at ih ⊢
      split <;> omega

theorem edits_nil (b : Str) : Edits b.length [] b := by
  induction b with
  | nil => exact .nil
  | cons y b ih => exact .add y ih

theorem lev_edits (a b : Str) : Edits (lev a b) a b := by
  induction a generalizing b with
  | nil => exact edits_nil b
  | cons x a iha =>
    induction b with
    | nil => rw [lev_nil]; exact Edits.symm (edits_nil (x :: a))
    | cons y b ihb =>
      simp only [lev, levRow]
      have h1 : Edits (lev a (y :: b) + 1) (x :: a) (y :: b) := .drop x (iha (y :: b))
      have h2 : Edits (levRow (lev a) x a.length b + 1) (x :: a) (y :: b) := .add y ihb
      have h3 : Edits (lev a b + if x = y then 0 else 1) (x :: a) (y :: b) := by
        split
        · rename_i hxy; subst hxy; exact .keep x (iha b)
        · exact .replace x y (iha b)
      rcases Nat.le_total (min (lev a (y :: b) + 1) (levRow (lev a) x a.length b + 1)) (lev a b + if x = y then 0 else 1) with h | h
      · rw [Nat.min_eq_left h]
        rcases Nat.le_total (lev a (y :: b) + 1) (levRow (lev a) x a.length b + 1) with h | h
        · rw [Nat.min_eq_left h]; exact h1
        · rw [Nat.min_eq_right h]; exact h2
      · rw [Nat.min_eq_right h]; exact h3

theorem lev_distance (a b : Str) : Distance (lev a b) a b := ⟨lev_edits a b, fun _ h => lev_le h⟩

/-! ## The tests on a pair -/

theorem isArgName_iff (a : Str) : isArgName a = true ↔ ArgName a := by
  unfold isArgName ArgName isDigitS
  simp only [Bool.and_eq_true, Bool.not_eq_true', List.isEmpty_eq_false_iff, ne_eq, List.all_eq_true,
    List.isPrefixOf_iff_prefix]
  constructor
  · rintro ⟨⟨d, rfl⟩, h1, h2⟩
    simp only [List.cons_append, List.nil_append, List.drop_succ_cons, List.drop_zero] at h1 h2
    exact ⟨d, h1, h2, rfl⟩
  · rintro ⟨d, h1, h2, rfl⟩
    exact ⟨⟨d, rfl⟩, by simpa using h1, by simpa using h2⟩

theorem tooClose_iff {env : IEnv} (hd : ∀ a b, Distance (env.dist a b) a b) (a b : Str) :
    tooClose env a b = true ↔ Alike env.lower a b ∧ ¬ Exempt env.lower env.isUpper env.isLower a b := by
  have h0 := distance_zero (hd (env.lower a) (env.lower b))
  have hA : Alike env.lower a b ↔ env.dist (env.lower a) (env.lower b) ≤ 2 ∧
      env.dist (env.lower a) (env.lower b) + 1 < a.length ∧ env.dist (env.lower a) (env.lower b) + 1 < b.length := by
    constructor
    · rintro ⟨n, h1, h2⟩
      rw [Distance.unique (hd _ _) h1]; exact h2
    · intro h; exact ⟨_, hd _ _, h⟩
  rw [hA]
  unfold tooClose Exempt
  simp only [← isArgName_iff, ← h0]
  by_cases h1 : env.dist (env.lower a) (env.lower b) = 0 ∧
      ((env.isUpper a = true ∧ env.isLower b = true) ∨ (env.isLower a = true ∧ env.isUpper b = true))
  · have : (env.dist (env.lower a) (env.lower b) == 0 && ((env.isUpper a && env.isLower b) || (env.isLower a && env.isUpper b))) = true := by
      simpa using h1
    simp only [this, if_true]
    simp [h1]
  · have : (env.dist (env.lower a) (env.lower b) == 0 && ((env.isUpper a && env.isLower b) || (env.isLower a && env.isUpper b))) = false := by
      rw [Bool.eq_false_iff]
      intro h; exact h1 (by simpa using h)
    simp only [this]
    by_cases h2 : isArgName a = true ∧ isArgName b = true
    · simp [h2]
    · have h3 : (isArgName a && isArgName b) = false := by
        rw [Bool.eq_false_iff]
        intro h; exact h2 (by simpa using h)
      simp only [h3, h1, h2]
      simp [and_assoc]

theorem alike_symm {lower : Str → Str} {a b : Str} (h : Alike lower a b) : Alike lower b a := by
  obtain ⟨n, h1, h2, h3, h4⟩ := h
  exact ⟨n, Distance.symm h1, h2, h4, h3⟩

theorem exempt_symm {lower : Str → Str} {u l : Str → Bool} {a b : Str} (h : Exempt lower u l a b) :
    Exempt lower u l b a := by
  rcases h with ⟨h1, h2 | h2⟩ | h
  · exact .inl ⟨h1.symm, .inr ⟨h2.2, h2.1⟩⟩
  · exact .inl ⟨h1.symm, .inl ⟨h2.2, h2.1⟩⟩
  · exact .inr ⟨h.2, h.1⟩

theorem beside_symm {before : Str → Str → Bool} {ids : List Str} {a b : Str} (h : Beside before ids a b) :
    Beside before ids b a := fun c hc => ⟨(h c hc).2, (h c hc).1⟩

/-! ## The loop -/

theorem scan_some (env : IEnv) (p : Str) (l : List Str) (a b : Str) :
    (a, b) ∈ scanIds env (some p) l ↔ (∃ l1 l2, p :: l = l1 ++ a :: b :: l2) ∧ a ≠ [] ∧ tooClose env a b = true := by
  induction l generalizing p with
  | nil =>
    simp only [scanIds, List.not_mem_nil, false_iff]
    rintro ⟨⟨l1, l2, h⟩, _⟩
    have := congrArg List.length h
    simp at this
    omega
  | cons x l ih =>
    rw [scanIds, List.mem_append, ih]
    constructor
    · rintro (h | ⟨⟨l1, l2, h⟩, h'⟩)
      · cases p with
        | nil => simp [closeTo] at h
        | cons c p =>
          simp only [closeTo] at h
          split at h
          · simp only [List.mem_singleton, Prod.mk.injEq] at h
            obtain ⟨rfl, rfl⟩ := h
            exact ⟨⟨[], l, rfl⟩, by simp, by assumption⟩
          · simp at h
      · exact ⟨⟨p :: l1, l2, by rw [h]; rfl⟩, h'⟩
    · rintro ⟨⟨l1, l2, h⟩, h1, h2⟩
      cases l1 with
      | nil =>
        left
        simp only [List.nil_append, List.cons.injEq] at h
        obtain ⟨rfl, rfl, _⟩ := h
        cases p with
        | nil => exact absurd rfl h1
        | cons c p => simp [closeTo, h2]
      | cons y l1 =>
        right
        simp only [List.cons_append, List.cons.injEq] at h
        exact ⟨⟨l1, l2, h.2⟩, h1, h2⟩

theorem scan_iff (env : IEnv) (l : List Str) (a b : Str) :
    (a, b) ∈ scanIds env none l ↔ (∃ l1 l2, l = l1 ++ a :: b :: l2) ∧ a ≠ [] ∧ tooClose env a b = true := by
  cases l with
  | nil => simp [scanIds]
  | cons x l =>
    rw [scanIds]
    simp only [closeTo, List.nil_append]
    exact scan_some env x l a b

/-! ## Neighbours -/

theorem adjacent_beside {lt : Str → Str → Bool} (hw : Weak lt) {l l1 l2 : List Str} {a b : Str}
    (hl : Ascending lt l) (h : l = l1 ++ a :: b :: l2) : Beside lt l a b := by
  subst h
  unfold Ascending at hl
  rw [List.pairwise_append, List.pairwise_cons, List.pairwise_cons] at hl
  obtain ⟨_, ⟨h2, h3, _⟩, h5⟩ := hl
  intro c hc
  constructor
  · rintro ⟨k1, k2⟩
    simp only [List.mem_append, List.mem_cons] at hc
    rcases hc with hc | rfl | rfl | hc
    · rw [h5 c hc a (by simp)] at k1; exact absurd k1 (by simp)
    · rw [hw.irrefl] at k1; exact absurd k1 (by simp)
    · rw [hw.irrefl] at k2; exact absurd k2 (by simp)
    · rw [h3 c hc] at k2; exact absurd k2 (by simp)
  · rintro ⟨k1, k2⟩
    have := hw.trans k1 k2
    rw [h2 b (by simp)] at this
    exact absurd this (by simp)

theorem beside_adjacent {lt : Str → Str → Bool} {l : List Str} {a b : Str}
    (hl : Ascending lt l) (hn : l.Nodup) (hd : ∀ x ∈ l, ∀ y ∈ l, lt x y = false → lt y x = false → x = y)
    (ha : a ∈ l) (hb : b ∈ l) (hab : lt a b = true) (h : Beside lt l a b) : ∃ l1 l2, l = l1 ++ a :: b :: l2 := by
  obtain ⟨l1, r, rfl⟩ := List.append_of_mem ha
  unfold Ascending at hl
  rw [List.pairwise_append, List.pairwise_cons] at hl
  obtain ⟨_, ⟨h2, h3⟩, h5⟩ := hl
  rw [List.nodup_append, List.nodup_cons] at hn
  obtain ⟨_, ⟨n2, n3⟩, n4⟩ := hn
  simp only [List.mem_append, List.mem_cons] at hb
  rcases hb with hb | rfl | hb
  · rw [h5 b hb a (by simp)] at hab; exact absurd hab (by simp)
  · exact absurd ⟨hab, hab⟩ (h b (by simp)).1
  · cases r with
    | nil => simp at hb
    | cons c r =>
      rcases List.mem_cons.1 hb with rfl | hb
      · exact ⟨l1, r, rfl⟩
      · exfalso
        have hca : c ≠ a := fun he => n2 (by simp [he])
        have hcb : c ≠ b := fun he => (List.nodup_cons.1 n3).1 (by rw [he]; exact hb)
        have k1 : lt c a = false := h2 c (by simp)
        have k2 : lt b c = false := (List.pairwise_cons.1 h3).1 b hb
        have m1 : lt a c = true := by
          cases hx : lt a c with
          | true => rfl
          | false => exact absurd (hd c (by simp) a (by simp) k1 hx) hca
        have m2 : lt c b = true := by
          cases hx : lt c b with
          | true => rfl
          | false => exact absurd (hd c (by simp) b (by simp [hb]) hx k2) hcb
        exact (h c (by simp)).1 ⟨m1, m2⟩

/-! ## The lines -/

theorem mem_similarKeys {pairs : List (Str × Str)} {x : Str} :
    x ∈ similarKeys pairs ↔ ∃ y, (x, y) ∈ pairs ∨ (y, x) ∈ pairs := by
  unfold similarKeys
  simp only [List.mem_eraseDups, List.mem_flatMap, List.mem_cons, List.not_mem_nil, or_false]
  constructor
  · rintro ⟨⟨p, q⟩, h, rfl | rfl⟩
    · exact ⟨q, .inl h⟩
    · exact ⟨p, .inr h⟩
  · rintro ⟨y, h | h⟩
    · exact ⟨_, h, .inl rfl⟩
    · exact ⟨_, h, .inr rfl⟩

theorem mem_similarTo {pairs : List (Str × Str)} {x y : Str} :
    y ∈ similarTo pairs x ↔ (x, y) ∈ pairs ∨ (y, x) ∈ pairs := by
  unfold similarTo
  simp only [List.mem_eraseDups, List.mem_flatMap, List.mem_append]
  constructor
  · rintro ⟨⟨p, q⟩, h, h1 | h1⟩
    · split at h1
      · rename_i hx
        simp only at hx h1
        subst hx
        simp only [List.mem_singleton] at h1
        subst h1
        exact .inl h
      · simp at h1
    · split at h1
      · rename_i hx
        simp only at hx h1
        subst hx
        simp only [List.mem_singleton] at h1
        subst h1
        exact .inr h
      · simp at h1
  · rintro (h | h)
    · exact ⟨_, h, .inl (by simp)⟩
    · exact ⟨_, h, .inr (by simp)⟩

/-- Who is listed with whom. -/
theorem listed_iff (env : IEnv) (ids : List Str) (a b : Str) :
    (∃ bs, (a, bs) ∈ similarLines env ids ∧ b ∈ bs) ↔
      (a, b) ∈ similarPairs env ids ∨ (b, a) ∈ similarPairs env ids := by
  unfold similarLines
  constructor
  · rintro ⟨bs, h, hb⟩
    simp only [List.mem_map, Prod.mk.injEq] at h
    obtain ⟨k, _, rfl, rfl⟩ := h
    exact mem_similarTo.1 (mem_sortBy.1 hb)
  · intro h
    refine ⟨_, List.mem_map.2 ⟨a, mem_sortBy.2 (mem_similarKeys.2 ⟨b, h⟩), rfl⟩, mem_sortBy.2 (mem_similarTo.2 h)⟩

theorem nameLt_weak (env : IEnv) : Weak (nameLt env) := weak_key strLt_weak env.lower

theorem lenLt_weak (env : IEnv) : Weak (lenLt env) := by
  constructor
  · intro a b h
    simp only [lenLt, Bool.or_eq_true, decide_eq_true_eq, Bool.and_eq_true, beq_iff_eq] at h
    simp only [lenLt, Bool.or_eq_false_iff, decide_eq_false_iff_not, Bool.and_eq_false_iff, beq_eq_false_iff_ne]
    rcases h with h | ⟨h1, h2⟩
    · exact ⟨by omega, .inl (by omega)⟩
    · exact ⟨by omega, .inr (strLt_asymm h2)⟩
  · intro a b c h
    simp only [lenLt, Bool.or_eq_true, decide_eq_true_eq, Bool.and_eq_true, beq_iff_eq] at h ⊢
    rcases h with h | ⟨h1, h2⟩
    · by_cases h3 : a.length < b.length
      · exact .inl (.inl h3)
      · right; left; omega
    · by_cases h3 : a.length = b.length
      · rcases strLt_neg (b := env.lower b) h2 with h4 | h4
        · exact .inl (.inr ⟨h3, h4⟩)
        · exact .inr (.inr ⟨by omega, h4⟩)
      · by_cases h5 : a.length < b.length
        · exact .inl (.inl h5)
        · right; left; omega

theorem nameLt_total {env : IEnv} {a b : Str} (h : nameLt env a b = false) (h' : nameLt env b a = false) :
    env.lower a = env.lower b := strLt_total h h'

theorem lenLt_total {env : IEnv} {a b : Str} (h : lenLt env a b = false) (h' : lenLt env b a = false) :
    env.lower a = env.lower b := by
  simp only [lenLt, Bool.or_eq_false_iff, decide_eq_false_iff_not, Bool.and_eq_false_iff, beq_eq_false_iff_ne] at h h'
  have : a.length = b.length := by omega
  refine strLt_total ?_ ?_
  · rcases h.2 with h | h
    · exact absurd this h
    · exact h
  · rcases h'.2 with h | h
    · exact absurd this.symm h
    · exact h

end ALint
