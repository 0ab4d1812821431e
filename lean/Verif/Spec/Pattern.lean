import Verif.Py.Str

/-!
# What an Asterisk extension pattern means (specification)

Written from the description in pattern.py:32-51 and the Asterisk manual,
without reference to the model.  Texts are byte lists (ASCII codes).
-/

namespace ALint.Spec

/-- What one position of a pattern accepts: one character of a set, one or more
arbitrary characters (`.`), zero or more arbitrary characters (`!`). -/
inductive Tok where
  | one (S : Nat → Bool)
  | dot
  | bang

/-- Characters `a` to `b` inclusive. -/
def between (a b : Nat) (c : Nat) : Bool := decide (a ≤ c ∧ c ≤ b)

/-- The characters denoted by the text between `[` and `]`: `x-y` is the range
between `x` and `y` (in either order), anything else stands for itself. -/
def inSet : List Nat → Nat → Bool
  | [], _ => false
  | [a], c => c == a
  | [a, b], c => c == a || c == b
  | a :: d :: b :: rest, c =>
    if d = 0x2d then between (min a b) (max a b) c || inSet rest c
    else c == a || inSet (d :: b :: rest) c

/-- `Reads p ts`: the pattern text `p` (without the leading underscore) consists
of the tokens `ts`. -/
inductive Reads : List Nat → List Tok → Prop
  | nil : Reads [] []
  /-- dashes are ignored -/
  | dash {p ts} : Reads p ts → Reads (0x2d :: p) ts
  /-- `X`, `x`: 0-9 -/
  | x {b p ts} : b = 0x58 ∨ b = 0x78 → Reads p ts → Reads (b :: p) (.one (between 0x30 0x39) :: ts)
  /-- `Z`, `z`: 1-9 -/
  | z {b p ts} : b = 0x5a ∨ b = 0x7a → Reads p ts → Reads (b :: p) (.one (between 0x31 0x39) :: ts)
  /-- `N`, `n`: 2-9 -/
  | n {b p ts} : b = 0x4e ∨ b = 0x6e → Reads p ts → Reads (b :: p) (.one (between 0x32 0x39) :: ts)
  | dot {p ts} : Reads p ts → Reads (0x2e :: p) (.dot :: ts)
  | bang {p ts} : Reads p ts → Reads (0x21 :: p) (.bang :: ts)
  /-- `[...]`: a non-empty set, up to the first `]` -/
  | set {inner p ts} : 0x5d ∉ inner → inner ≠ [] → Reads p ts →
      Reads (0x5b :: (inner ++ 0x5d :: p)) (.one (inSet inner) :: ts)
  /-- any other character stands for itself -/
  | lit {b p ts} : b ∉ [0x2d, 0x58, 0x78, 0x5a, 0x7a, 0x4e, 0x6e, 0x2e, 0x21, 0x5b] →
      Reads p ts → Reads (b :: p) (.one (· == b) :: ts)

/-- The dialled strings (dashes removed) described by a token list; `.` and `!`
swallow the rest. -/
inductive Lang : List Tok → List Nat → Prop
  | nil : Lang [] []
  | one {S c ts e} : S c = true → Lang ts e → Lang (.one S :: ts) (c :: e)
  | dot {ts e} : e ≠ [] → Lang (.dot :: ts) e
  | bang {ts e} : Lang (.bang :: ts) e

/-- The strings described by the extension text of a dialplan line: a text
starting with an underscore is a pattern, any other text stands for itself. -/
def Describes (raw : Str) (e : List Nat) : Prop :=
  match raw with
  | '_' :: p => ∃ ts, Reads (utf8 p) ts ∧ Lang ts e
  | p => e = (utf8 p).filter (· ≠ 0x2d)

/-- How many characters a set contains. -/
def card (S : Nat → Bool) : Nat := ((List.range 256).filter S).length

/-- A set token that is a single character. -/
def Tok.isSingle : Tok → Prop
  | .one S => card S = 1
  | _ => False

/-- A set that the canonical spelling can express: ASCII only, `]` only on its
own (outside brackets), `[` only together with other characters. -/
def Tok.writable : Tok → Prop
  | .one S => (∀ c, S c = true → c < 128) ∧ (S 0x5d = true → card S = 1) ∧
      (S 0x5b = true → card S ≠ 1)
  | _ => True

/-- No square brackets. -/
def Tok.bracketless : Tok → Prop
  | .one S => S 0x5b = false ∧ S 0x5d = false
  | _ => True

/-- Extension texts that the canonical spelling can express: the sets are
`writable`, and a text that amounts to a plain extension (all positions are single
characters) is not empty, has no dash and does not start with an underscore. -/
def Expressible (raw : Str) : Prop :=
  match raw with
  | '_' :: p => ∃ ts, Reads (utf8 p) ts ∧ (∀ t ∈ ts, t.writable) ∧
      ((∀ t ∈ ts, t.isSingle) → ts ≠ [] ∧ (∀ S, Tok.one S ∈ ts → S 0x2d = false) ∧
        (∀ S, ts.head? = some (.one S) → S 0x5f = false))
  | p => (∀ c ∈ p, c.toNat < 128) ∧ ∃ c cs, p.filter (· ≠ '-') = c :: cs ∧ c ≠ '_'

/-- Extension texts in which no position matches a square bracket. -/
def Bracketless (raw : Str) : Prop :=
  match raw with
  | '_' :: p => ∃ ts, Reads (utf8 p) ts ∧ ∀ t ∈ ts, t.bracketless
  | p => '[' ∉ p ∧ ']' ∉ p

end ALint.Spec

namespace ALint.Spec

/-- Every `[` opens a non-empty set that is closed by `]`. -/
inductive WellBracketed : List Nat → Prop
  | nil : WellBracketed []
  | char {b p} : b ≠ 0x5b → WellBracketed p → WellBracketed (b :: p)
  | set {inner p} : 0x5d ∉ inner → inner ≠ [] → WellBracketed p →
      WellBracketed (0x5b :: (inner ++ 0x5d :: p))

/-- Sorting rank of what comes next in a pattern: a set by its size, then `.`,
then `!`, then the end of the pattern. -/
def rank : List Tok → Nat
  | .one S :: _ => card S
  | .dot :: _ => 1000
  | .bang :: _ => 1001
  | [] => 1002

/-- No set has the dash as its first character. -/
def DashNotFirst (ts : List Tok) : Prop :=
  ∀ S, Tok.one S ∈ ts → S 0x2d = true → ∃ c, c < 0x2d ∧ S c = true

end ALint.Spec
