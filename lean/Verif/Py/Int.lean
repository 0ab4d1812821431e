import Verif.Py.Value

/-!
# `str.isdigit`, `int(str)`

The tables are those of Unicode 14 (Python 3.11).  The limit of 4300 digits that
recent Python versions put on `int(str)` is not modelled.
-/

namespace ALint

/-- The decimal zeros: ten consecutive code points from each of them are the decimal
digits of a script. -/
def decimalZeros : List Nat := [48, 1632, 1776, 1984, 2406, 2534, 2662, 2790, 2918, 3046, 3174,
  3302, 3430, 3558, 3664, 3792, 3872, 4160, 4240, 6112, 6160, 6470, 6608, 6784, 6800, 6992, 7088,
  7232, 7248, 42528, 43216, 43264, 43472, 43504, 43600, 44016, 65296, 66720, 68912, 69734, 69872,
  69942, 70096, 70384, 70736, 70864, 71248, 71360, 71472, 71904, 72016, 72784, 73040, 73120, 92768,
  92864, 93008, 120782, 120792, 120802, 120812, 120822, 123200, 123632, 125264, 130032]

/-- Characters for which `isdigit()` holds but which `int` rejects (superscripts,
circled digits and the like). -/
def digitOnly : List (Nat × Nat) := [(178, 179), (185, 185), (4969, 4977), (6618, 6618),
  (8304, 8304), (8308, 8313), (8320, 8329), (9312, 9320), (9332, 9340), (9352, 9360), (9450, 9450),
  (9461, 9469), (9471, 9471), (10102, 10110), (10112, 10120), (10122, 10130), (68160, 68163),
  (69216, 69224), (69714, 69722), (127232, 127242)]

/-- The value of a decimal digit. -/
def decVal? (c : Char) : Option Nat :=
  (decimalZeros.find? (fun z => z ≤ c.toNat && c.toNat < z + 10)).map (fun z => c.toNat - z)

def isDigitOnly (c : Char) : Bool := digitOnly.any (fun r => r.1 ≤ c.toNat && c.toNat ≤ r.2)

/-- `c.isdigit()`. -/
def isDigitC (c : Char) : Bool := (decVal? c).isSome || isDigitOnly c

/-- `s.isdigit()`. -/
def isDigitS (s : Str) : Bool := !s.isEmpty && s.all isDigitC

/-- The value of a sequence of decimal digits. -/
def decNat : Nat → Str → Option Nat
  | acc, [] => some acc
  | acc, c :: cs =>
    match decVal? c with
    | some d => decNat (10 * acc + d) cs
    | none => none

/-- `int(s)` for `s` with `s.isdigit()` or `s[0] == '-' and s[1:].isdigit()`. -/
def pyInt (s : Str) : Except Exc Int :=
  match s with
  | '-' :: t =>
    match decNat 0 t with
    | some n => .ok (-(n : Int))
    | none => .error .valueError
  | t =>
    match decNat 0 t with
    | some n => .ok n
    | none => .error .valueError

/-- `s and (s.isdigit() or (s[0] == '-' and s[1:].isdigit()))`, varfun.py:400-402. -/
def looksInt : Str → Bool
  | '-' :: t => isDigitS t
  | t => isDigitS t

example : pyInt (c! "-120") = .ok (-120) := by decide
example : looksInt (c! "²") = true ∧ pyInt (c! "²") = .error .valueError := by decide

end ALint
