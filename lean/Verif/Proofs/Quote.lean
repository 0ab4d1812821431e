import Verif.Model.Repr
import Verif.Props.OneLine

/-!
# Reading the `repr` of a text
-/

namespace ALint
open Spec

/-- The value of a hexadecimal digit. -/
def digitOfHex (c : Char) : Nat := if c.toNat < 58 then c.toNat - 48 else c.toNat - 87

theorem digitOfHex_digit {d : Nat} (h : d < 16) : digitOfHex (hexDigit d) = d := by
  have : d = 0 ∨ d = 1 ∨ d = 2 ∨ d = 3 ∨ d = 4 ∨ d = 5 ∨ d = 6 ∨ d = 7 ∨ d = 8 ∨ d = 9 ∨ d = 10 ∨ d = 11 ∨ d = 12 ∨ d = 13 ∨
    d = 14 ∨ d = 15 := by omega
  rcases this with rfl | rfl | rfl | rfl | rfl | rfl | rfl | rfl | rfl | rfl | rfl | rfl | rfl | rfl | rfl | rfl <;> rfl

def hexNumber : Str → Nat := List.foldl (fun v c => v * 16 + digitOfHex c) 0

theorem hexDigits_length (k n : Nat) : (hexDigits k n).length = k := by
  induction k generalizing n with
  | zero => rfl
  | succ k ih => simp [hexDigits, ih]

theorem hexNumber_digits {k n : Nat} (h : n < 16 ^ k) : hexNumber (hexDigits k n) = n := by
  induction k generalizing n with
  | zero => simp at h; subst h; rfl
  | succ k ih =>
    have h1 := ih (n := n / 16) (by rw [Nat.pow_succ] at h; omega)
    unfold hexNumber at h1 ⊢
    rw [hexDigits, List.foldl_append, h1, List.foldl_cons, List.foldl_nil, digitOfHex_digit (by omega)]
    omega

/-- The character written at the start of a text, and the rest. -/
def readChar : Str → Option (Char × Str)
  | '\\' :: 't' :: r => some ('\t', r)
  | '\\' :: 'n' :: r => some ('\n', r)
  | '\\' :: 'r' :: r => some ('\r', r)
  | '\\' :: 'x' :: r => some (Char.ofNat (hexNumber (r.take 2)), r.drop 2)
  | '\\' :: 'u' :: r => some (Char.ofNat (hexNumber (r.take 4)), r.drop 4)
  | '\\' :: 'U' :: r => some (Char.ofNat (hexNumber (r.take 8)), r.drop 8)
  | '\\' :: c :: r => some (c, r)
  | c :: r => some (c, r)
  | [] => none

theorem readHex (k : Nat) (c : Char) (r : Str) (h : c.toNat < 16 ^ k) :
    Char.ofNat (hexNumber ((hexDigits k c.toNat ++ r).take k)) = c ∧ (hexDigits k c.toNat ++ r).drop k = r := by
  have h1 : (hexDigits k c.toNat ++ r).take k = hexDigits k c.toNat := List.take_left' (hexDigits_length _ _)
  have h2 : (hexDigits k c.toNat ++ r).drop k = r := List.drop_left' (hexDigits_length _ _)
  exact ⟨by rw [h1, hexNumber_digits h, Char.ofNat_toNat], h2⟩

theorem char_small (c : Char) : c.toNat < 1114112 := by
  have := c.valid
  unfold UInt32.isValidChar Nat.isValidChar at this
  show c.val.toNat < 1114112
  omega

/-- Every character can be read back. -/
theorem readChar_repr (p : Char → Bool) (q c : Char) (hq : q = '\'' ∨ q = '"') (r : Str) :
    readChar (charRepr p q c ++ r) = some (c, r) := by
  unfold charRepr
  split
  · rename_i h
    rcases h with rfl | rfl
    · rfl
    · rcases hq with rfl | rfl <;> rfl
  split
  · rename_i h; subst h; rfl
  split
  · rename_i h; subst h; rfl
  split
  · rename_i h; subst h; rfl
  have hx : ∀ k, c.toNat < 16 ^ k → Char.ofNat (hexNumber ((hexDigits k c.toNat ++ r).take k)) = c ∧
      (hexDigits k c.toNat ++ r).drop k = r := fun k h => readHex k c r h
  split
  · rename_i h
    obtain ⟨h1, h2⟩ := hx 2 (by omega)
    show some (Char.ofNat (hexNumber ((hexDigits 2 c.toNat ++ r).take 2)), (hexDigits 2 c.toNat ++ r).drop 2) = _
    rw [h1, h2]
  split
  · rename_i h0 _ _ _ _ _
    have hb : c ≠ '\\' := fun h => h0 (.inl h)
    show readChar (c :: r) = _
    unfold readChar
    split <;> first | (rename_i h; simp only [List.cons.injEq] at h; exact absurd h.1 hb) | skip
    · rename_i h; simp only [List.cons.injEq] at h; rw [h.1, h.2]
    · rename_i h; cases h
  split
  · rename_i h
    obtain ⟨h1, h2⟩ := hx 2 (by omega)
    show some (Char.ofNat (hexNumber ((hexDigits 2 c.toNat ++ r).take 2)), (hexDigits 2 c.toNat ++ r).drop 2) = _
    rw [h1, h2]
  split
  · rename_i h
    obtain ⟨h1, h2⟩ := hx 4 (by omega)
    show some (Char.ofNat (hexNumber ((hexDigits 4 c.toNat ++ r).take 4)), (hexDigits 4 c.toNat ++ r).drop 4) = _
    rw [h1, h2]
  · have := char_small c
    obtain ⟨h1, h2⟩ := hx 8 (by omega)
    show some (Char.ofNat (hexNumber ((hexDigits 8 c.toNat ++ r).take 8)), (hexDigits 8 c.toNat ++ r).drop 8) = _
    rw [h1, h2]

/-- No character is written so that it starts with the quote. -/
theorem charRepr_start (p : Char → Bool) (q c : Char) (hq : q = '\'' ∨ q = '"') : ∃ d r, charRepr p q c = d :: r ∧ d ≠ q := by
  have hb : '\\' ≠ q := by rcases hq with rfl | rfl <;> decide
  unfold charRepr
  split
  · exact ⟨_, _, rfl, hb⟩
  rename_i h0
  split
  · exact ⟨_, _, rfl, hb⟩
  split
  · exact ⟨_, _, rfl, hb⟩
  split
  · exact ⟨_, _, rfl, hb⟩
  split
  · exact ⟨_, _, rfl, hb⟩
  split
  · exact ⟨_, _, rfl, fun h => h0 (.inr h)⟩
  split
  · exact ⟨_, _, rfl, hb⟩
  split <;> exact ⟨_, _, rfl, hb⟩

theorem quoteFor_two (s : Str) : quoteFor s = '\'' ∨ quoteFor s = '"' := by
  unfold quoteFor; split <;> simp

/-- The characters between quotes. -/
theorem between_inj {p p' : Char → Bool} {q : Char} (hq : q = '\'' ∨ q = '"') {s t r r' : Str}
    (h : s.flatMap (charRepr p q) ++ q :: r = t.flatMap (charRepr p' q) ++ q :: r') : s = t ∧ r = r' := by
  induction s generalizing t with
  | nil =>
    cases t with
    | nil => simpa using h
    | cons d t =>
      obtain ⟨e, x, h1, h2⟩ := charRepr_start p' q d hq
      rw [List.flatMap_cons, h1] at h
      simp only [List.flatMap_nil, List.nil_append, List.cons_append, List.cons.injEq] at h
      exact absurd h.1.symm h2
  | cons c s ih =>
    cases t with
    | nil =>
      obtain ⟨e, x, h1, h2⟩ := charRepr_start p q c hq
      rw [List.flatMap_cons, h1] at h
      simp only [List.flatMap_nil, List.nil_append, List.cons_append, List.cons.injEq] at h
      exact absurd h.1 h2
    | cons d t =>
      rw [List.flatMap_cons, List.flatMap_cons, List.append_assoc, List.append_assoc] at h
      have := congrArg readChar h
      rw [readChar_repr p q c hq, readChar_repr p' q d hq] at this
      simp only [Option.some.injEq, Prod.mk.injEq] at this
      obtain ⟨h1, h2⟩ := ih this.2
      exact ⟨by rw [this.1, h1], h2⟩

/-- A text can be read from its `repr`, whatever stands behind it. -/
theorem strRepr_inj {p p' : Char → Bool} {s t r r' : Str} (h : strRepr p s ++ r = strRepr p' t ++ r') : s = t ∧ r = r' := by
  unfold strRepr at h
  simp only [List.cons_append, List.append_assoc, List.cons.injEq] at h
  obtain ⟨h1, h2⟩ := h
  rw [← h1] at h2
  exact between_inj (quoteFor_two s) h2

/-- What stands behind a number. -/
def NoDigit (r : Str) : Prop := ∀ c, r.head? = some c → c.toNat < 48 ∨ 57 < c.toNat

theorem digits_cut {a b r r' : Str} (ha : ∀ c ∈ a, 48 ≤ c.toNat ∧ c.toNat ≤ 57) (hb : ∀ c ∈ b, 48 ≤ c.toNat ∧ c.toNat ≤ 57)
    (hr : NoDigit r) (hr' : NoDigit r') (h : a ++ r = b ++ r') : a = b ∧ r = r' := by
  induction a generalizing b with
  | nil =>
    cases b with
    | nil => exact ⟨rfl, h⟩
    | cons c b =>
      have := hr c (by rw [show r = c :: (b ++ r') from h]; rfl)
      have := hb c (by simp)
      omega
  | cons c a ih =>
    cases b with
    | nil =>
      have := hr' c (by rw [show r' = c :: (a ++ r) from h.symm]; rfl)
      have := ha c (by simp)
      omega
    | cons d b =>
      simp only [List.cons_append, List.cons.injEq] at h
      obtain ⟨h1, h2⟩ := ih (b := b) (fun c hc => ha c (by simp [hc])) (fun c hc => hb c (by simp [hc])) h.2
      exact ⟨by rw [h.1, h1], h2⟩

theorem natStr_ne (n : Nat) : natStr n ≠ [] := by
  unfold natStr
  rw [decDigits]
  split <;> simp

theorem intStr_cut {a b : Int} {r r' : Str} (hr : NoDigit r) (hr' : NoDigit r') (h : intStr a ++ r = intStr b ++ r') :
    a = b ∧ r = r' := by
  have dig : ∀ n : Nat, ∀ c ∈ natStr n, 48 ≤ c.toNat ∧ c.toNat ≤ 57 := fun n c hc => digits_chars c hc
  have minus : ∀ n : Nat, ∀ x y : Str, natStr n ++ x ≠ '-' :: y := by
    intro n x y hxy
    cases hn : natStr n with
    | nil => exact natStr_ne n hn
    | cons c d =>
      rw [hn] at hxy
      simp only [List.cons_append, List.cons.injEq] at hxy
      have := dig n c (by rw [hn]; simp)
      rw [hxy.1] at this
      exact absurd this.1 (by decide)
  cases a with
  | ofNat a =>
    cases b with
    | ofNat b =>
      obtain ⟨h1, h2⟩ := digits_cut (dig a) (dig b) hr hr' h
      exact ⟨by rw [natStr_inj h1], h2⟩
    | negSucc b => exact absurd h (minus a _ _)
  | negSucc a =>
    cases b with
    | ofNat b => exact absurd h.symm (minus b _ _)
    | negSucc b =>
      have h' : natStr (a + 1) ++ r = natStr (b + 1) ++ r' := by simpa [intStr] using h
      obtain ⟨h1, h2⟩ := digits_cut (dig _) (dig _) hr hr' h'
      have := natStr_inj h1
      exact ⟨by congr 1; omega, h2⟩

/-- A text, a number or `None`. -/
def PlainV (v : V) : Prop := (∃ s, v = .str s) ∨ (∃ n, v = .int n) ∨ v = .none

/-- How the `repr` of such a value starts. -/
theorem intStr_head (n : Int) : ∃ c r, intStr n = c :: r ∧ (c = '-' ∨ (48 ≤ c.toNat ∧ c.toNat ≤ 57)) := by
  cases n with
  | ofNat n =>
    cases hn : natStr n with
    | nil => exact absurd hn (natStr_ne n)
    | cons c r => exact ⟨c, r, hn, .inr (digits_chars c (show c ∈ natStr n by rw [hn]; simp))⟩
  | negSucc n => exact ⟨_, _, rfl, .inl rfl⟩

theorem plain_cut {p p' : Char → Bool} {addr addr' : V → Str} {v v' : V} (hv : PlainV v) (hv' : PlainV v') {r r' : Str}
    (hr : NoDigit r) (hr' : NoDigit r') (h : v.pyRepr p addr ++ r = v'.pyRepr p' addr' ++ r') : v = v' ∧ r = r' := by
  have si : ∀ (p : Char → Bool) (s : Str) (n : Int) (x y : Str), strRepr p s ++ x ≠ intStr n ++ y := by
    intro p s n x y hxy
    obtain ⟨c, z, h1, h2⟩ := intStr_head n
    rw [h1] at hxy
    simp only [strRepr, List.cons_append, List.cons.injEq] at hxy
    rw [← hxy.1] at h2
    rcases quoteFor_two s with hq | hq <;> rw [hq] at h2 <;> revert h2 <;> decide
  have sn : ∀ (p : Char → Bool) (s x y : Str), strRepr p s ++ x ≠ c! "None" ++ y := by
    intro p s x y hxy
    simp only [strRepr, List.cons_append, List.cons.injEq] at hxy
    rcases quoteFor_two s with hq | hq <;> rw [hq] at hxy <;> exact absurd hxy.1 (by decide)
  have inn : ∀ (n : Int) (x y : Str), intStr n ++ x ≠ c! "None" ++ y := by
    intro n x y hxy
    obtain ⟨c, z, h1, h2⟩ := intStr_head n
    rw [h1] at hxy
    simp only [List.cons_append, List.cons.injEq] at hxy
    rw [hxy.1] at h2
    revert h2; decide
  rcases hv with ⟨s, rfl⟩ | ⟨n, rfl⟩ | rfl <;> rcases hv' with ⟨s', rfl⟩ | ⟨n', rfl⟩ | rfl
  · obtain ⟨h1, h2⟩ := strRepr_inj h; exact ⟨by rw [h1], h2⟩
  · exact absurd h (si _ _ _ _ _)
  · exact absurd h (sn _ _ _ _)
  · exact absurd h.symm (si _ _ _ _ _)
  · obtain ⟨h1, h2⟩ := intStr_cut hr hr' h; exact ⟨by rw [h1], h2⟩
  · exact absurd h (inn _ _ _)
  · exact absurd h.symm (sn _ _ _ _)
  · exact absurd h.symm (inn _ _ _)
  · exact ⟨rfl, List.append_cancel_left h⟩

end ALint
