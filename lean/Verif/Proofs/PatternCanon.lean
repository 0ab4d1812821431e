import Verif.Proofs.Pattern

namespace ALint.Pattern
open ALint.Spec

/-! ### ranges of a set with gaps -/

/-- The bytes covered by a range. -/
def span : Nat × Option Nat → List Nat
  | (a, none) => [a]
  | (a, some b) => List.range' a (b - a + 1)

theorem runLen_spec (base i : Nat) (xs : List Nat) :
    runLen base i xs ≤ xs.length ∧
    xs.take (runLen base i xs) = List.range' (base + i) (runLen base i xs) := by
  induction xs generalizing i with
  | nil => simp [runLen]
  | cons x xs ih =>
    simp only [runLen]
    split
    · rename_i h
      obtain ⟨h1, h2⟩ := ih (i + 1)
      refine ⟨by simp; exact h1, ?_⟩
      rw [List.take_succ_cons, h2, h, List.range'_succ]
      rfl
    · simp

theorem getRangesFuel_spec (n : Nat) (l : List Nat) (hn : l.length ≤ n) :
    (getRangesFuel n l).flatMap span = l ∧
    ∀ r ∈ getRangesFuel n l, ∀ b, r.2 = some b → r.1 + 2 ≤ b := by
  induction n generalizing l with
  | zero =>
    have : l = [] := List.eq_nil_of_length_eq_zero (by omega)
    subst this; simp [getRangesFuel]
  | succ n ih =>
    cases l with
    | nil => simp [getRangesFuel]
    | cons b bs =>
      simp only [List.length_cons] at hn
      obtain ⟨h1, h2⟩ := runLen_spec b 1 bs
      simp only [getRangesFuel]
      split
      · rename_i hi
        obtain ⟨ih1, ih2⟩ := ih (bs.drop (runLen b 1 bs)) (by simp; omega)
        constructor
        · simp only [List.flatMap_cons, ih1, span]
          rw [show b + runLen b 1 bs - b + 1 = runLen b 1 bs + 1 by omega, List.range'_succ,
            ← h2, List.cons_append, List.take_append_drop]
        · intro r hr c hc
          rcases List.mem_cons.1 hr with rfl | hr
          · simp at hc; simp; omega
          · exact ih2 r hr c hc
      · obtain ⟨ih1, ih2⟩ := ih bs (by omega)
        constructor
        · simp [ih1, span]
        · intro r hr c hc
          rcases List.mem_cons.1 hr with rfl | hr
          · simp at hc
          · exact ih2 r hr c hc

theorem mem_insertKey {r s : Nat × Option Nat} {l : List (Nat × Option Nat)} :
    s ∈ insertKey r l ↔ s = r ∨ s ∈ l := by
  induction l with
  | nil => simp [insertKey]
  | cons t l ih =>
    simp only [insertKey]
    split
    · simp
    · simp only [List.mem_cons, ih]
      constructor
      · rintro (h | h | h) <;> simp [h]
      · rintro (h | h | h) <;> simp [h]

theorem mem_sortRanges {s : Nat × Option Nat} {l : List (Nat × Option Nat)} :
    s ∈ sortRanges l ↔ s ∈ l := by
  induction l with
  | nil => simp [sortRanges]
  | cons t l ih => simp [sortRanges, mem_insertKey, ih]

/-- `inSet` of a text whose first character does not start a range. -/
theorem inSet_cons {a : Nat} {m : List Nat} (h : m = [] ∨ m = [0x2d] ∨ ∃ x xs, m = x :: xs ∧ x ≠ 0x2d)
    (c : Nat) : inSet (a :: m) c = (c == a || inSet m c) := by
  rcases h with rfl | rfl | ⟨x, xs, rfl, hx⟩
  · simp [inSet]
  · simp [inSet]
  · cases xs with
    | nil => simp [inSet]
    | cons y ys => simp [inSet, hx]

theorem inSet_render (rs : List (Nat × Option Nat)) (tail : List Nat)
    (ht : tail = [] ∨ tail = [0x2d])
    (hr : ∀ r ∈ rs, 0x2d ∉ span r ∧ ∀ b, r.2 = some b → r.1 + 2 ≤ b) (c : Nat) :
    (inSet (rs.flatMap renderRange ++ tail) c = true ↔ (∃ r ∈ rs, c ∈ span r) ∨ c ∈ tail) ∧
    (rs.flatMap renderRange ++ tail = [] ∨ rs.flatMap renderRange ++ tail = [0x2d] ∨
      ∃ x xs, rs.flatMap renderRange ++ tail = x :: xs ∧ x ≠ 0x2d) := by
  induction rs with
  | nil =>
    rcases ht with rfl | rfl <;> simp [inSet]
  | cons r rs ih =>
    obtain ⟨ih1, ih2⟩ := ih (fun r h => hr r (by simp [h]))
    obtain ⟨hd, hb⟩ := hr r (by simp)
    obtain ⟨a, o⟩ := r
    have hex : (∃ r ∈ (a, o) :: rs, c ∈ span r) ↔ c ∈ span (a, o) ∨ ∃ r ∈ rs, c ∈ span r := by
      simp
    rw [hex]
    cases o with
    | none =>
      have ha : a ≠ 0x2d := by intro h; subst h; simp [span] at hd
      simp only [List.flatMap_cons, renderRange, List.cons_append, List.nil_append]
      refine ⟨?_, Or.inr (Or.inr ⟨a, _, rfl, ha⟩)⟩
      rw [inSet_cons ih2, Bool.or_eq_true, ih1]
      simp [span, or_assoc]
    | some b =>
      have hab := hb b rfl
      simp only at hab
      have ha : a ≠ 0x2d := by
        intro h; subst h; apply hd; simp only [span, List.mem_range'_1]; omega
      simp only [List.flatMap_cons, renderRange]
      split
      · rename_i h3
        have hb2 : b = a + 2 := by omega
        subst hb2
        have ha1 : a + 1 ≠ 0x2d := by
          intro h; apply hd; simp only [span, List.mem_range'_1]; omega
        have ha2 : a + 2 ≠ 0x2d := by
          intro h; apply hd; simp only [span, List.mem_range'_1]; omega
        have hrng : (List.range (a + 2 - a + 1)).map (a + ·) = [a, a + 1, a + 2] := by
          rw [show a + 2 - a + 1 = 3 by omega]; rfl
        rw [hrng]
        simp only [List.cons_append, List.nil_append]
        refine ⟨?_, Or.inr (Or.inr ⟨a, _, rfl, ha⟩)⟩
        rw [inSet_cons (Or.inr (Or.inr ⟨_, _, rfl, ha1⟩)),
          inSet_cons (Or.inr (Or.inr ⟨_, _, rfl, ha2⟩)), inSet_cons ih2]
        simp only [Bool.or_eq_true, ih1, beq_iff_eq, span, List.mem_range'_1]
        constructor
        · rintro (h | h | h | h | h)
          · left; left; omega
          · left; left; omega
          · left; left; omega
          · left; right; exact h
          · right; exact h
        · rintro ((h | h) | h)
          · have : c = a ∨ c = a + 1 ∨ c = a + 2 := by omega
            rcases this with h | h | h <;> simp [h]
          · simp [h]
          · simp [h]
      · simp only [List.cons_append, List.nil_append]
        refine ⟨?_, Or.inr (Or.inr ⟨a, _, rfl, ha⟩)⟩
        simp only [inSet, if_true, Bool.or_eq_true, ih1, between, decide_eq_true_eq, span,
          List.mem_range'_1]
        rw [or_assoc]
        apply or_congr_left
        omega

/-- A bracketed set in front of a pattern text. -/
theorem parseBytes_bracket (inner rest : List Nat) (h : 0x5d ∉ inner) :
    parseBytes (0x5b :: (inner ++ 0x5d :: rest)) =
      if members (inSet inner) = [] then .error .indexError
      else (parseBytes rest).map (mkItem (members (inSet inner)) :: ·) := by
  rw [parseBytes_cons]
  simp only [splitBracket_append h, parseRangeList_eq]
  by_cases hm : members (inSet inner) = [] <;> simp [hm]

theorem members_congr {S T : Nat → Bool} (h : ∀ c, S c = true ↔ T c = true) : members S = members T := by
  have : S = T := by funext c; rw [Bool.eq_iff_iff]; exact h c
  rw [this]

theorem members_of_list {l : List Nat} (hs : l.Pairwise (· < ·)) (hb : ∀ b ∈ l, b < 256) :
    members (fun c => l.contains c) = l := by
  have h1 := members_sorted (fun c => l.contains c)
  have hperm : (members (fun c => l.contains c)).Perm l := by
    rw [List.perm_ext_iff_of_nodup]
    · intro a; rw [mem_members]; simp; exact fun h => hb a h
    · exact h1.imp (fun h => Nat.ne_of_lt h)
    · exact hs.imp (fun h => Nat.ne_of_lt h)
  exact hperm.eq_of_pairwise (fun a b _ _ h1 h2 => by omega) h1 hs

/-- The canonical text of an item: one ordinary character or a bracketed set, with
the same meaning. -/
theorem canonItem_shape (f : Nat) (o : List Nat) (hs : (f :: o).Pairwise (· < ·))
    (hb : ∀ b ∈ f :: o, b < 128) (h5b : f :: o ≠ [0x5b]) (h5d : o ≠ [] → 0x5d ∉ f :: o) :
    (∃ b, canonItem (mkItem (f :: o)) = [b] ∧ b < 128 ∧ b ≠ 0x2d ∧ b ≠ 0x5b ∧
      (b = 0x5d → f :: o = [0x5d]) ∧
      ∀ rest, parseBytes (b :: rest) = (parseBytes rest).map (mkItem (f :: o) :: ·)) ∨
    (∃ inner, canonItem (mkItem (f :: o)) = 0x5b :: (inner ++ [0x5d]) ∧ 0x5d ∉ inner ∧
      inner ≠ [] ∧ (∀ x ∈ inner, x < 128) ∧ ∀ c, inSet inner c = true ↔ c ∈ f :: o) := by
  have hf : f < 128 := hb f (by simp)
  have hl := length_le_of_sorted f o hs (n := 127) (fun b h => by have := hb b h; omega)
  rcases mkItem_cases f o hs (by omega) with ⟨he, ho, hgap⟩ | ⟨he, hr⟩
  · -- a set with gaps
    have hne : o ≠ [] := by intro h; simp [h] at ho
    have h5 := h5d hne
    rw [he, ← he]
    have hrender : canonItem (mkItem (f :: o)) = addRange (f :: o) := by rw [he, canonItem]
    rw [hrender]
    unfold addRange
    simp only
    generalize hbs1 : (if (f :: o).contains 0x2d then (f :: o).erase 0x2d else f :: o) = bs1
    have hnd : (f :: o).Nodup := hs.imp (fun h => Nat.ne_of_lt h)
    have hbs1mem : ∀ c, c ∈ bs1 ↔ c ∈ f :: o ∧ c ≠ 0x2d := by
      intro c; subst hbs1
      split
      · rw [hnd.mem_erase_iff]; exact and_comm
      · rename_i h
        simp only [List.contains_iff_mem] at h
        constructor
        · intro hc; refine ⟨hc, ?_⟩; rintro rfl; exact h hc
        · exact fun h => h.1
    have hbs15d : bs1.contains 0x5d = false := by
      rw [Bool.eq_false_iff]; intro h
      exact h5 ((hbs1mem _).1 (by simpa using h)).1
    simp only [hbs15d, Bool.false_eq_true, if_false, List.append_nil]
    generalize htail : (if (f :: o).contains 0x2d then [0x2d] else []) = tail
    have ht : tail = [] ∨ tail = [0x2d] := by subst htail; split <;> simp
    have htmem : ∀ c, c ∈ tail ↔ c = 0x2d ∧ c ∈ f :: o := by
      intro c; subst htail
      split
      · rename_i h
        simp only [List.contains_iff_mem] at h
        constructor
        · intro hc; simp at hc; subst hc; exact ⟨rfl, h⟩
        · intro hc; simp [hc.1]
      · rename_i h
        simp only [List.contains_iff_mem] at h
        constructor
        · intro hc; simp at hc
        · rintro ⟨rfl, hc⟩; exact absurd hc h
    obtain ⟨hg1, hg2⟩ := getRangesFuel_spec bs1.length bs1 (Nat.le_refl _)
    have hspan : ∀ r ∈ sortRanges (getRanges bs1), ∀ c ∈ span r, c ∈ bs1 := by
      intro r hr c hc
      rw [← hg1]
      exact List.mem_flatMap.2 ⟨r, mem_sortRanges.1 hr, hc⟩
    have hcond : ∀ r ∈ sortRanges (getRanges bs1),
        0x2d ∉ span r ∧ ∀ b, r.2 = some b → r.1 + 2 ≤ b := by
      intro r hr
      exact ⟨fun h => ((hbs1mem _).1 (hspan r hr _ h)).2 rfl, hg2 r (mem_sortRanges.1 hr)⟩
    have hset := fun c => (inSet_render (sortRanges (getRanges bs1)) tail ht hcond c).1
    have hin : ∀ x ∈ (sortRanges (getRanges bs1)).flatMap renderRange ++ tail, x = 0x2d ∨ x ∈ f :: o := by
      intro x hx
      rcases List.mem_append.1 hx with hx | hx
      · obtain ⟨r, hr, hx⟩ := List.mem_flatMap.1 hx
        have hsp := hspan r hr
        have hc2 := (hcond r hr).2
        obtain ⟨a, ob⟩ := r
        cases ob with
        | none =>
          simp [renderRange] at hx; subst hx
          exact Or.inr ((hbs1mem _).1 (hsp x (by simp [span]))).1
        | some b =>
          have := hc2 b rfl
          simp only at this
          simp only [renderRange] at hx
          split at hx
          · simp only [List.mem_map, List.mem_range] at hx
            obtain ⟨i, hi, rfl⟩ := hx
            exact Or.inr ((hbs1mem _).1 (hsp _ (by simp only [span, List.mem_range'_1]; omega))).1
          · simp at hx
            rcases hx with rfl | rfl | rfl
            · exact Or.inr ((hbs1mem _).1 (hsp _ (by simp only [span, List.mem_range'_1]; omega))).1
            · exact Or.inl rfl
            · exact Or.inr ((hbs1mem _).1 (hsp _ (by simp only [span, List.mem_range'_1]; omega))).1
      · exact Or.inl ((htmem x).1 hx).1
    right
    refine ⟨(sortRanges (getRanges bs1)).flatMap renderRange ++ tail, by simp,
      (by intro h; rcases hin _ h with h | h
          · simp at h
          · exact h5 h), ?_,
      (by intro x hx; rcases hin _ hx with h | h
          · omega
          · exact hb x h),
      (by
        intro c
        rw [hset]
        constructor
        · rintro (⟨r, hr, hc⟩ | hc)
          · exact ((hbs1mem _).1 (hspan r hr c hc)).1
          · exact ((htmem c).1 hc).2
        · intro hc
          by_cases h2d : c = 0x2d
          · exact Or.inr ((htmem c).2 ⟨h2d, hc⟩)
          · left
            have : c ∈ bs1 := (hbs1mem c).2 ⟨hc, h2d⟩
            rw [← hg1] at this
            obtain ⟨r, hr, hc⟩ := List.mem_flatMap.1 this
            exact ⟨r, mem_sortRanges.2 hr, hc⟩)⟩
    intro hnil
    have := mt (hset f).2 (by rw [hnil]; simp [inSet])
    apply this
    by_cases h2d : f = 0x2d
    · exact Or.inr ((htmem f).2 ⟨h2d, by simp⟩)
    · left
      have : f ∈ bs1 := (hbs1mem f).2 ⟨by simp, h2d⟩
      rw [← hg1] at this
      obtain ⟨r, hr, hc⟩ := List.mem_flatMap.1 this
      exact ⟨r, mem_sortRanges.2 hr, hc⟩
  · -- a contiguous run
    rw [he, ← he]
    have hmemr : ∀ c, c ∈ f :: o ↔ f ≤ c ∧ c < f + (o.length + 1) := by
      intro c; rw [hr, List.mem_range'_1]
    have hmod : ((o.length + 1) * 256 + f) % 256 = f := by omega
    rw [show canonItem (mkItem (f :: o)) = canonItem ((o.length + 1) * 256 + f, none) by rw [he]]
    simp only [canonItem, and_ff, hmod]
    by_cases hone : o = []
    · subst hone
      have hspec : special f = true → f ≠ 0x5d := by rintro h rfl; simp [special] at h
      simp only [List.length_nil, Nat.zero_add, Nat.one_mul]
      rw [if_pos (by omega)]
      split
      · rename_i hsp
        exact Or.inr ⟨[f], rfl, by simpa using Ne.symm (hspec hsp), by simp, by simpa using hf,
          by intro c; simp [inSet]⟩
      · rename_i hsp
        simp only [special, List.contains_iff_mem] at hsp
        simp at hsp
        have : f ≠ 0x5b := by intro h; subst h; exact h5b rfl
        refine Or.inl ⟨f, rfl, hf, hsp.2.1, this, fun h => by rw [h], fun rest => ?_⟩
        rw [parseBytes_cons]
        simp only [hsp, this, if_false, or_self]
        rw [mkItem_single f (by omega)]
    · have hlen : 0 < o.length := List.length_pos_iff.2 hone
      have h5 := h5d hone
      rw [if_neg (by omega)]
      cases hc : common ((o.length + 1) * 256 + f) with
      | some b =>
        simp only [common] at hc
        left
        refine ⟨b, rfl, ?_⟩
        split at hc
        · simp at hc; subst hc; rename_i h; rw [he, h]; simp [parseBytes_cons]
        split at hc
        · simp at hc; subst hc; rename_i h; rw [he, h]; simp [parseBytes_cons]
        split at hc
        · simp at hc; subst hc; rename_i h; rw [he, h]; simp [parseBytes_cons]
        split at hc
        · omega
        split at hc
        · omega
        · simp at hc
      | none =>
        have hlenm : (((o.length + 1) * 256 + f) &&& 0xff00) >>> 8 = o.length + 1 := by
          rw [Nat.shiftRight_and_distrib, shr8]
          rw [show ((o.length + 1) * 256 + f) / 256 = o.length + 1 by omega]
          rw [show (0xff00 >>> 8) = 0xff by rfl, and_ff]
          omega
        simp only [hlenm]
        have nmem : ∀ x, f ≤ x → x < f + (o.length + 1) → x ≠ 0x5d := by
          rintro x h1 h2 rfl; exact h5 ((hmemr _).2 ⟨h1, h2⟩)
        split
        · rename_i h2
          refine Or.inr ⟨[f, f + 1], rfl, ?_, by simp, by simp; omega, ?_⟩
          · have := nmem f (by omega) (by omega)
            have := nmem (f + 1) (by omega) (by omega)
            simp; omega
          · intro c; rw [hmemr]; simp [inSet]; omega
        · split
          · rename_i h2 h3
            refine Or.inr ⟨[f, f + 1, f + 2], rfl, ?_, by simp, by simp; omega, ?_⟩
            · have := nmem f (by omega) (by omega)
              have := nmem (f + 1) (by omega) (by omega)
              have := nmem (f + 2) (by omega) (by omega)
              simp; omega
            · intro c; rw [hmemr]
              simp only [inSet]
              split
              · simp [between]; omega
              · simp; omega
          · rename_i h2 h3
            refine Or.inr ⟨[f, 0x2d, f + (o.length + 1) - 1], rfl, ?_, by simp, by simp; omega, ?_⟩
            · have := nmem f (by omega) (by omega)
              have := nmem (f + o.length) (by omega) (by omega)
              simp; omega
            · intro c; rw [hmemr]; simp [inSet, between]; omega

/-- The canonical text of an item reads back as the item. -/
theorem parseBytes_canonItem (f : Nat) (o : List Nat) (hs : (f :: o).Pairwise (· < ·))
    (hb : ∀ b ∈ f :: o, b < 128) (h5b : f :: o ≠ [0x5b]) (h5d : o ≠ [] → 0x5d ∉ f :: o)
    (rest : List Nat) :
    parseBytes (canonItem (mkItem (f :: o)) ++ rest) =
      (parseBytes rest).map (mkItem (f :: o) :: ·) := by
  have hmem : members (fun c => (f :: o).contains c) = f :: o :=
    members_of_list hs (fun b h => by have := hb b h; omega)
  rcases canonItem_shape f o hs hb h5b h5d with ⟨b, h1, _, _, _, _, h2⟩ | ⟨inner, h1, h2, _, _, h3⟩
  · rw [h1]; exact h2 rest
  · have hm : members (inSet inner) = f :: o := by
      rw [← hmem]; apply members_congr; intro c; rw [h3]; simp
    rw [h1]
    have := parseBytes_bracket inner rest h2
    rw [hm] at this
    simpa using this

end ALint.Pattern
