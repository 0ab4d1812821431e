import Verif.Model.Command
import Verif.Spec.Shown

/-!
# The line shown below a message: proofs
-/

namespace ALint
open Spec

theorem hexDigits_get {i : Nat} (h : i < 16) : hexDigits[i]? = some (hexDigit i) := by
  have : ∀ i : Fin 16, hexDigits[i.val]? = some (hexDigit i.val) := by decide
  exact this ⟨i, h⟩

theorem hexDigits_lt {i : Nat} {a : Char} (h : hexDigits[i]? = some a) : i < 16 ∧ a = hexDigit i := by
  obtain ⟨hi, _⟩ := List.getElem?_eq_some_iff.1 h
  have hi : i < 16 := hi
  rw [hexDigits_get hi] at h
  exact ⟨hi, (Option.some.inj h).symm⟩

theorem ascii_toNat {n : Nat} (h : n < 128) : (Char.ofNat n).toNat = n := by
  have : ∀ i : Fin 128, (Char.ofNat i.val).toNat = i.val := by decide
  exact this ⟨n, h⟩

theorem ofNat_charToNat (c : Char) : Char.ofNat c.toNat = c := Char.ofNat_toNat c

theorem char_le_iff (a b : Char) : a ≤ b ↔ a.toNat ≤ b.toNat := Iff.rfl

theorem byteShown_byteRepr {q : Char} {b : Nat} (hb : b < 256) :
    ByteShown q b (byteRepr q.toNat b) := by
  unfold byteRepr
  split
  · rename_i h
    rcases h with rfl | rfl
    · exact .special (c := '\\') (.inl rfl)
    · rw [ofNat_charToNat]; exact .special (.inr rfl)
  · rename_i h1
    have h92 : b ≠ 92 := fun h => h1 (.inl h)
    have hqn : b ≠ q.toNat := fun h => h1 (.inr h)
    split
    · rename_i h; subst h; exact .tab
    split
    · rename_i h; subst h; exact .lf
    split
    · rename_i h; subst h; exact .cr
    rename_i h9 h10 h13
    split
    · rename_i h
      have he : b = b / 16 * 16 + b % 16 := by omega
      conv => arg 2; rw [he]
      refine .hex (hexDigits_get (by omega)) (hexDigits_get (by omega)) (by omega) ?_
      rw [← he]
      simp [h9, h10, h13]
    · rename_i h
      have hn : b < 128 := by omega
      have he : (Char.ofNat b).toNat = b := ascii_toNat hn
      conv => arg 2; rw [← he]
      refine .plain ?_ ?_ ?_ ?_
      · rw [char_le_iff, he]; show 32 ≤ b; omega
      · rw [char_le_iff, he]; show b ≤ 126; omega
      · intro hc; rw [hc] at he; exact h92 he.symm
      · intro hc; rw [hc] at he; exact hqn he.symm

theorem byteShown_only {q : Char} (hq : q = '\'' ∨ q = '"') {b : Nat} {s : Str} (h : ByteShown q b s) :
    s = byteRepr q.toNat b ∧ b < 256 := by
  cases h with
  | tab => rcases hq with rfl | rfl <;> decide
  | lf => rcases hq with rfl | rfl <;> decide
  | cr => rcases hq with rfl | rfl <;> decide
  | special h =>
    rcases h with rfl | rfl
    · rcases hq with rfl | rfl <;> decide
    · rcases hq with rfl | rfl <;> decide
  | @plain c h1 h2 h3 h4 =>
    have h1 : 32 ≤ c.toNat := h1
    have h2 : c.toNat ≤ 126 := h2
    have n3 : c.toNat ≠ 92 := fun h => h3 (Char.toNat_inj.1 h)
    have n4 : c.toNat ≠ q.toNat := fun h => h4 (Char.toNat_inj.1 h)
    refine ⟨?_, by omega⟩
    unfold byteRepr
    rw [if_neg (by omega), if_neg (by omega), if_neg (by omega), if_neg (by omega), if_neg (by omega), ofNat_charToNat]
  | @hex i j a b h1 h2 h3 h4 =>
    obtain ⟨hi, rfl⟩ := hexDigits_lt h1
    obtain ⟨hj, rfl⟩ := hexDigits_lt h2
    refine ⟨?_, by omega⟩
    simp only [List.mem_cons, List.not_mem_nil, or_false, not_or] at h4
    have hqv : q.toNat = 39 ∨ q.toNat = 34 := by rcases hq with rfl | rfl <;> decide
    unfold byteRepr
    rw [if_neg (by omega), if_neg (by omega), if_neg (by omega), if_neg (by omega), if_pos (by omega)]
    congr <;> omega

theorem quote_char {bs : Bytes} {q : Char} (h : QuoteFor bs q) : q = '\'' ∨ q = '"' := by
  cases h
  · exact .inr rfl
  · exact .inl rfl

theorem bytesShown_repr {q : Char} : ∀ {bs : Bytes}, IsBytes bs →
    BytesShown q bs (bs.flatMap (byteRepr q.toNat))
  | [], _ => .nil
  | b :: bs, h => .cons (byteShown_byteRepr (h b (by simp))) (bytesShown_repr fun x hx => h x (by simp [hx]))

theorem bytesShown_only {q : Char} (hq : q = '\'' ∨ q = '"') {bs : Bytes} {t : Str} (h : BytesShown q bs t) :
    t = bs.flatMap (byteRepr q.toNat) ∧ IsBytes bs := by
  induction h with
  | nil => exact ⟨rfl, by simp [IsBytes]⟩
  | cons h1 _ ih =>
    obtain ⟨rfl, hb⟩ := byteShown_only hq h1
    refine ⟨by rw [List.flatMap_cons, ih.1], ?_⟩
    intro x hx
    rcases List.mem_cons.1 hx with rfl | hx
    · exact hb
    · exact ih.2 x hx

/-- The quote picked by the model. -/
def quoteOf (bs : Bytes) : Nat := if bs.contains 39 && !bs.contains 34 then 34 else 39

theorem quoteFor_of (bs : Bytes) : QuoteFor bs (Char.ofNat (quoteOf bs)) := by
  unfold quoteOf
  split
  · rename_i h
    simp only [Bool.and_eq_true, Bool.not_eq_true', List.contains_eq_mem, decide_eq_true_eq,
      decide_eq_false_iff_not] at h
    exact .double h.1 h.2
  · rename_i h
    refine .single ?_
    by_cases h1 : 39 ∈ bs
    · right
      exact Decidable.byContradiction fun h2 => h (by
        have h2 : 34 ∉ bs := h2
        simp [h1, h2])
    · exact .inl h1

theorem quoteFor_only {bs : Bytes} {q : Char} (h : QuoteFor bs q) : q = Char.ofNat (quoteOf bs) := by
  have h39 : '\''.toNat = 39 := rfl
  have h34 : '"'.toNat = 34 := rfl
  cases h with
  | double h1 h2 =>
    rw [h39] at h1; rw [h34] at h2
    simp [quoteOf, h1, h2]
  | single h =>
    rw [h39, h34] at h
    have : (bs.contains 39 && !bs.contains 34) = false := by
      rcases h with h | h <;> simp [h]
    rw [quoteOf, this]; rfl

theorem quotedBytes_repr {bs : Bytes} (h : IsBytes bs) : QuotedBytes bs ((bytesRepr bs).drop 1) := by
  have hq := quoteFor_of bs
  have := QuotedBytes.mk hq (bytesShown_repr h)
  have hv : (Char.ofNat (quoteOf bs)).toNat = quoteOf bs := by
    unfold quoteOf; split <;> rfl
  rw [hv] at this
  exact this

theorem quotedBytes_only {bs : Bytes} {t : Str} (h : QuotedBytes bs t) : t = (bytesRepr bs).drop 1 ∧ IsBytes bs := by
  cases h with
  | mk hq hb =>
    obtain ⟨rfl, h2⟩ := bytesShown_only (quote_char hq) hb
    refine ⟨?_, h2⟩
    rw [quoteFor_only hq]
    have hv : (Char.ofNat (quoteOf bs)).toNat = quoteOf bs := by
      unfold quoteOf; split <;> rfl
    rw [hv]
    rfl

theorem bytesRepr_length (bs : Bytes) : (bytesRepr bs).length = ((bytesRepr bs).drop 1).length + 1 := by
  simp [bytesRepr]

theorem shownLine_iff {bs : Bytes} (h : IsBytes bs) (t : Str) : ShownLine bs t ↔ t = shownLine bs := by
  have hl := bytesRepr_length bs
  constructor
  · intro hs
    cases hs with
    | whole hq hn =>
      obtain ⟨rfl, _⟩ := quotedBytes_only hq
      unfold shownLine
      rw [if_neg (by omega)]
    | cut hq hn =>
      obtain ⟨rfl, _⟩ := quotedBytes_only hq
      unfold shownLine
      rw [if_pos (by omega)]
  · rintro rfl
    unfold shownLine
    dsimp only
    split
    · exact .cut (quotedBytes_repr h) (by omega)
    · exact .whole (quotedBytes_repr h) (by omega)

/-! ## Reading back -/

/-- The value of a digit. -/
def hexValue (c : Char) : Nat := if c.toNat < 58 then c.toNat - 48 else c.toNat - 87

/-- The first byte of a literal, and the rest. -/
def readByte : Str → Nat × Str
  | '\\' :: 'x' :: a :: b :: t => (hexValue a * 16 + hexValue b, t)
  | '\\' :: 't' :: t => (9, t)
  | '\\' :: 'n' :: t => (10, t)
  | '\\' :: 'r' :: t => (13, t)
  | '\\' :: c :: t => (c.toNat, t)
  | c :: t => (c.toNat, t)
  | [] => (0, [])

theorem hexValue_digit {i : Nat} (h : i < 16) : hexValue (hexDigit i) = i := by
  have : ∀ i : Fin 16, hexValue (hexDigit i.val) = i.val := by decide
  exact this ⟨i, h⟩

theorem readByte_shown {q : Char} (hq : q = '\'' ∨ q = '"') {b : Nat} {s : Str} (h : ByteShown q b s) (t : Str) :
    readByte (s ++ t) = (b, t) := by
  cases h with
  | tab => rfl
  | lf => rfl
  | cr => rfl
  | special h =>
    rcases h with rfl | rfl
    · simp [readByte]
    · rcases hq with rfl | rfl <;> simp [readByte]
  | plain h1 h2 h3 h4 =>
    simp only [List.cons_append, List.nil_append]
    unfold readByte
    split <;> simp_all
  | hex h1 h2 h3 h4 =>
    obtain ⟨hi, rfl⟩ := hexDigits_lt h1
    obtain ⟨hj, rfl⟩ := hexDigits_lt h2
    simp only [List.cons_append, List.nil_append, readByte]
    rw [hexValue_digit hi, hexValue_digit hj]

theorem byteShown_ne {q : Char} {b : Nat} {s : Str} (h : ByteShown q b s) : s ≠ [] := by
  cases h <;> simp

theorem bytesShown_inj {q : Char} (hq : q = '\'' ∨ q = '"') {a : Bytes} {t : Str} (h : BytesShown q a t) :
    ∀ {b : Bytes}, BytesShown q b t → a = b := by
  induction h with
  | nil =>
    intro b hb
    generalize ht : ([] : Str) = t at hb
    cases hb with
    | nil => rfl
    | cons h1 h2 => exact absurd (List.append_eq_nil_iff.1 ht.symm).1 (byteShown_ne h1)
  | @cons x bs s t h1 _ ih =>
    intro b hb
    generalize ht : s ++ t = u at hb
    cases hb with
    | nil => exact absurd (List.append_eq_nil_iff.1 ht).1 (byteShown_ne h1)
    | cons g1 g2 =>
      have e1 := readByte_shown hq h1 t
      rw [ht, readByte_shown hq g1] at e1
      obtain ⟨rfl, rfl⟩ := Prod.mk.inj e1
      rw [ih g2]

theorem quotedBytes_inj {a b : Bytes} {t : Str} (h : QuotedBytes a t) (h' : QuotedBytes b t) : a = b := by
  cases h with
  | @mk q body h1 h2 =>
    generalize ht : [q] ++ body ++ [q] = u at h'
    cases h' with
    | @mk q' body' g1 g2 =>
      simp only [List.cons_append, List.nil_append, List.cons.injEq] at ht
      obtain ⟨rfl, ht⟩ := ht
      rw [List.append_cancel_right ht] at h2
      exact bytesShown_inj (quote_char g1) h2 g2

theorem byteShown_printable {q : Char} (hq : q = '\'' ∨ q = '"') {b : Nat} {s : Str} (h : ByteShown q b s) :
    ∀ c ∈ s, ' ' ≤ c ∧ c ≤ '~' := by
  have hh : ∀ i : Fin 16, ' ' ≤ hexDigit i.val ∧ hexDigit i.val ≤ '~' := by decide
  cases h with
  | tab => decide
  | lf => decide
  | cr => decide
  | special h =>
    rcases h with rfl | rfl
    · decide
    · rcases hq with rfl | rfl <;> decide
  | plain h1 h2 h3 h4 => simp only [List.mem_singleton, forall_eq]; exact ⟨h1, h2⟩
  | hex h1 h2 h3 h4 =>
    obtain ⟨hi, rfl⟩ := hexDigits_lt h1
    obtain ⟨hj, rfl⟩ := hexDigits_lt h2
    simp only [List.mem_cons, List.not_mem_nil, or_false, forall_eq_or_imp, forall_eq]
    exact ⟨by decide, by decide, hh ⟨_, hi⟩, hh ⟨_, hj⟩⟩

theorem bytesShown_printable {q : Char} (hq : q = '\'' ∨ q = '"') {bs : Bytes} {t : Str} (h : BytesShown q bs t) :
    ∀ c ∈ t, ' ' ≤ c ∧ c ≤ '~' := by
  induction h with
  | nil => simp
  | cons h1 _ ih =>
    intro c hc
    rcases List.mem_append.1 hc with hc | hc
    · exact byteShown_printable hq h1 c hc
    · exact ih c hc

theorem quotedBytes_printable {bs : Bytes} {t : Str} (h : QuotedBytes bs t) : ∀ c ∈ t, ' ' ≤ c ∧ c ≤ '~' := by
  cases h with
  | @mk q body h1 h2 =>
    have hq := quote_char h1
    have : ' ' ≤ q ∧ q ≤ '~' := by rcases hq with rfl | rfl <;> decide
    intro c hc
    simp only [List.cons_append, List.nil_append, List.mem_cons, List.mem_append, List.not_mem_nil, or_false] at hc
    rcases hc with rfl | hc | rfl
    · exact this
    · exact bytesShown_printable hq h2 c hc
    · exact this

end ALint
