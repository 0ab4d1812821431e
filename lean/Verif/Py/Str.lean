/-!
# Python strings and bytes

A Python `str` is a finite sequence of code points; the strings handled by
asterisklint come from decoding files, so they never contain surrogates and
`List Char` is an exact representation.  `bytes` is `List Nat` with every
element below 256.  The functions below are the Python built-ins used by the
modelled code.
-/

namespace ALint

/-- A Python `str`. -/
abbrev Str := List Char

/-- `c! "abc"` is the list literal `['a', 'b', 'c']` (kernel-reducible, unlike
`String.toList`). -/
syntax "c!" str : term

open Lean in
macro_rules
  | `(c! $s:str) => do
    let cs := s.getString.toList.map (fun c => Syntax.mkCharLit c)
    let arr : TSyntaxArray `term := cs.toArray.map (fun c => ⟨c⟩)
    `(([ $arr,* ] : List Char))

/-- `str.isspace()` for one character; also the class `\s` of `re` and the
default set of `str.strip()`. -/
def isSpace (c : Char) : Bool :=
  let n := c.toNat
  (9 ≤ n && n ≤ 13) || (0x1c ≤ n && n ≤ 0x20) || n == 0x85 || n == 0xa0 ||
  n == 0x1680 || (0x2000 ≤ n && n ≤ 0x200a) || n == 0x2028 || n == 0x2029 ||
  n == 0x202f || n == 0x205f || n == 0x3000

/-- Membership in the two-character string `' \t'`. -/
def isBlank (c : Char) : Bool := c == ' ' || c == '\t'

/-- `s.lstrip(...)` for a character class. -/
def lstripP (p : Char → Bool) (s : Str) : Str := s.dropWhile p

/-- `s.rstrip(...)` for a character class. -/
def rstripP (p : Char → Bool) (s : Str) : Str := (s.reverse.dropWhile p).reverse

/-- `s.strip(...)` for a character class. -/
def stripP (p : Char → Bool) (s : Str) : Str := lstripP p (rstripP p s)

/-- `s.split(c, 1)` for a one-character separator: `none` if `c` does not occur
(Python returns the one-element list), else the text before and after the first
occurrence. -/
def splitOnce (c : Char) : Str → Option (Str × Str)
  | [] => none
  | x :: xs =>
    if x = c then some ([], xs)
    else match splitOnce c xs with
      | none => none
      | some (a, b) => some (x :: a, b)

/-- `s.split(c)` for a one-character separator. -/
def splitAll (c : Char) : Str → List Str
  | [] => [[]]
  | x :: xs =>
    if x = c then [] :: splitAll c xs
    else match splitAll c xs with
      | [] => [[x]]
      | p :: ps => (x :: p) :: ps

/-- `c.join(parts)` for a one-character separator. -/
def joinWith (c : Char) : List Str → Str
  | [] => []
  | [p] => p
  | p :: q :: ps => p ++ c :: joinWith c (q :: ps)

/-- `sub in s`. -/
def contains (sub : Str) : Str → Bool
  | [] => sub.isPrefixOf []
  | c :: cs => sub.isPrefixOf (c :: cs) || contains sub cs

/-- `bytes(s, 'utf-8')`. -/
def utf8 (s : Str) : List Nat :=
  s.flatMap fun c => (String.utf8EncodeChar c).map UInt8.toNat

/-- `s.encode('latin1')`; `none` is `UnicodeEncodeError`. -/
def latin1? : Str → Option (List Nat)
  | [] => some []
  | c :: cs =>
    if c.toNat < 256 then
      match latin1? cs with
      | some bs => some (c.toNat :: bs)
      | none => none
    else none

/-- `bytes(...).decode('latin1')`. -/
def latin1Decode (bs : List Nat) : Str := bs.map Char.ofNat

end ALint
