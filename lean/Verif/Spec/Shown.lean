import Verif.Model.File

/-!
# How a line is shown below a message: what is meant

A line is shown as Python writes a `bytes` object, without the `b`.
-/

namespace ALint.Spec
open ALint

/-- The numbers are bytes. -/
def IsBytes (bs : Bytes) : Prop := ∀ b ∈ bs, b < 256

/-- The digits with their values. -/
def hexDigits : Str := c! "0123456789abcdef"

/-- One byte between quotes `q`: a backslash and the quote with a backslash, three more with a
letter, other printable characters as they are, and what is left by two hexadecimal digits. -/
inductive ByteShown (q : Char) : Nat → Str → Prop where
  | tab : ByteShown q 9 (c! "\\t")
  | lf : ByteShown q 10 (c! "\\n")
  | cr : ByteShown q 13 (c! "\\r")
  | special {c : Char} : c = '\\' ∨ c = q → ByteShown q c.toNat ['\\', c]
  | plain {c : Char} : ' ' ≤ c → c ≤ '~' → c ≠ '\\' → c ≠ q → ByteShown q c.toNat [c]
  | hex {i j : Nat} {a b : Char} : hexDigits[i]? = some a → hexDigits[j]? = some b →
      i * 16 + j < 32 ∨ 127 ≤ i * 16 + j → i * 16 + j ∉ [9, 10, 13] → ByteShown q (i * 16 + j) ['\\', 'x', a, b]

/-- Bytes one after the other. -/
inductive BytesShown (q : Char) : Bytes → Str → Prop where
  | nil : BytesShown q [] []
  | cons {b bs s t} : ByteShown q b s → BytesShown q bs t → BytesShown q (b :: bs) (s ++ t)

/-- The quotes are single ones, unless there are some among the bytes and no double ones. -/
inductive QuoteFor (bs : Bytes) : Char → Prop where
  | double : '\''.toNat ∈ bs → '"'.toNat ∉ bs → QuoteFor bs '"'
  | single : '\''.toNat ∉ bs ∨ '"'.toNat ∈ bs → QuoteFor bs '\''

/-- The bytes between quotes. -/
inductive QuotedBytes (bs : Bytes) : Str → Prop where
  | mk {q body} : QuoteFor bs q → BytesShown q bs body → QuotedBytes bs ([q] ++ body ++ [q])

/-- What is shown: all of it up to 63 characters, and otherwise the first 63 of them. -/
inductive ShownLine (bs : Bytes) : Str → Prop where
  | whole {t} : QuotedBytes bs t → t.length ≤ 63 → ShownLine bs t
  | cut {t} : QuotedBytes bs t → 63 < t.length → ShownLine bs (t.take 63 ++ c! "...")

end ALint.Spec
