import Verif.Py.Str

/-!
# Model of `asterisklint/pattern.py`

`Pattern.values` is a Python tuple `(kind, item, item, ...)` in which an item is
`(num,)` or `(num, bytes)`.
-/

namespace ALint.Pattern

/-- An item of `Pattern.values`: `(num,)` is `(num, none)`, `(num, bytes)` is
`(num, some bytes)`.  pattern.py:82-106. -/
abbrev Item := Nat × Option (List Nat)

/-- `Pattern.values`: first element (`NOT_A_PATTERN = 0`, `IS_A_PATTERN = 1`,
pattern.py:70-71) and the rest. -/
structure Values where
  kind : Nat
  items : List Item
deriving DecidableEq, Repr

/-- Exceptions leaving `Pattern.parse`.  Code: pattern.py:110-197. -/
inductive Err where
  /-- `tuple(-1, ...)` for the empty text, pattern.py:113 -/
  | typeError
  /-- `raw.index(0x5d)` without `]`, pattern.py:143: `list.index` raises
  `ValueError`, which the handler for `IndexError` does not catch -/
  | valueError
  /-- `usedlist[0]` for the empty set `[]`, pattern.py:189 -/
  | indexError
deriving DecidableEq, Repr

/-- `range(a, b + 1)`.  Code: pattern.py:171. -/
def byteRange (a b : Nat) : List Nat := (List.range (b + 1 - a)).map (a + ·)

/-- The loop filling `usedlist`, pattern.py:164-178. -/
def usedList : List Nat → List Nat
  | a :: d :: b :: rest =>
    if d = 0x2d then
      (if a > b then byteRange b a else byteRange a b) ++ usedList rest
    else
      a :: usedList (d :: b :: rest)
  | l => l

/-- `list(set(usedlist))` followed by `.sort()`, pattern.py:181-188, for a list
of bytes: the bytes occurring in it, ascending, without repetition. -/
def sortedSet (used : List Nat) : List Nat :=
  (List.range 256).filter (fun b => used.contains b)

/-- `Pattern.parse_range_list`, pattern.py:159-197. -/
def parseRangeList (raw : List Nat) : Except Err Item :=
  match sortedSet (usedList raw) with
  | [] => .error .indexError
  | first :: others =>
    let used := first :: others
    let num := (used.length * 0x100) ||| first
    if used.length > 1 ∧ used.getLast (by simp [used]) - first ≠ used.length - 1 then
      .ok (num, some used)
    else
      .ok (num, none)

/-- `raw[0:raw.index(0x5d)]` and `raw[raw.index(0x5d)+1:]`, pattern.py:143-149. -/
def splitBracket : List Nat → Option (List Nat × List Nat)
  | [] => none
  | b :: bs =>
    if b = 0x5d then some ([], bs)
    else match splitBracket bs with
      | none => none
      | some (inner, rest) => some (b :: inner, rest)

/-- `Pattern.parse_pattern` after the conversion to bytes, pattern.py:126-156.
The fuel bounds the number of loop rounds; every round consumes at least one
byte, so `raw.length` suffices (`parseBytes`). -/
def parseBytesFuel : Nat → List Nat → Except Err (List Item)
  | _, [] => .ok [(0x30000, none)]
  | 0, _ :: _ => .ok []
  | fuel + 1, num :: raw =>
    if num = 0x2d then
      parseBytesFuel fuel raw
    else if num = 0x58 ∨ num = 0x78 then
      (parseBytesFuel fuel raw).map ((0xa30, none) :: ·)
    else if num = 0x5a ∨ num = 0x7a then
      (parseBytesFuel fuel raw).map ((0x931, none) :: ·)
    else if num = 0x4e ∨ num = 0x6e then
      (parseBytesFuel fuel raw).map ((0x832, none) :: ·)
    else if num = 0x2e then
      (parseBytesFuel fuel raw).map ((0x18000, none) :: ·)
    else if num = 0x21 then
      (parseBytesFuel fuel raw).map ((0x28000, none) :: ·)
    else if num = 0x5b then
      match splitBracket raw with
      | none => .error .valueError
      | some (inner, rest) =>
        match parseRangeList inner with
        | .error e => .error e
        | .ok item => (parseBytesFuel fuel rest).map (item :: ·)
    else
      (parseBytesFuel fuel raw).map ((0x100 + num, none) :: ·)

/-- The loop of `Pattern.parse_pattern`, pattern.py:127-156; every round consumes a byte. -/
def parseBytes (raw : List Nat) : Except Err (List Item) :=
  parseBytesFuel raw.length raw

/-- `Pattern.parse_pattern`, pattern.py:123-156. -/
def parsePattern (raw : Str) : Except Err (List Item) := parseBytes (utf8 raw)

/-- `Pattern.parse`, pattern.py:110-120. -/
def parse (raw : Str) : Except Err Values :=
  match raw with
  | [] => .error .typeError
  | c :: cs =>
    if c = '_' then
      match parsePattern cs with
      | .ok items => .ok ⟨1, items⟩
      | .error e => .error e
    else
      .ok ⟨0, ((utf8 (c :: cs)).filter (· ≠ 0x2d)).map (fun b => (0x100 + b, none))⟩

/-! ## Canonical spelling -/

/-- The dictionary `common`, pattern.py:232-238. -/
def common (num : Nat) : Option Nat :=
  if num = 0xa30 then some 0x58
  else if num = 0x931 then some 0x5a
  else if num = 0x832 then some 0x4e
  else if num = 0x18000 then some 0x2e
  else if num = 0x28000 then some 0x21
  else none

/-- The set `special`, pattern.py:239-240. -/
def special (b : Nat) : Bool :=
  [0x21, 0x2d, 0x2e, 0x4e, 0x58, 0x5a, 0x6e, 0x78, 0x7a].contains b

/-- The inner loop of `_canonical_pattern_get_ranges` (pattern.py:305-309):
number of leading elements `x0, x1, ...` of the list with `xi - base = i`,
counted from index `i`.  Python compares `binstr[i] - binstr[0] != i` over the
integers; `xi = base + i` is the same without truncation. -/
def runLen (base : Nat) : Nat → List Nat → Nat
  | _, [] => 0
  | i, x :: xs => if x = base + i then runLen base (i + 1) xs + 1 else 0

/-- `_canonical_pattern_get_ranges`, pattern.py:301-316: a range is either one
byte or `(first, last)`.  The loop value `i` at line 311 is the index of the last
element of the run when the list has at least three elements and 0 otherwise; the
pair is emitted iff that index is at least 2.  Fuel = number of rounds, at most
the length of the list. -/
def getRangesFuel : Nat → List Nat → List (Nat × Option Nat)
  | _, [] => []
  | 0, _ :: _ => []
  | fuel + 1, b :: bs =>
    let i := runLen b 1 bs
    if 2 ≤ i then
      (b, some (b + i)) :: getRangesFuel fuel (bs.drop i)
    else
      (b, none) :: getRangesFuel fuel bs

/-- `_canonical_pattern_get_ranges`, pattern.py:301-316; every round consumes a byte. -/
def getRanges (bs : List Nat) : List (Nat × Option Nat) := getRangesFuel bs.length bs

/-- `_canonical_pattern_range_sort`, pattern.py:319-325. -/
def rangeKey (r : Nat × Option Nat) : Nat :=
  if (0x30 ≤ r.1 ∧ r.1 ≤ 0x39) ∨ (0x41 ≤ r.1 ∧ r.1 ≤ 0x5a) ∨ (0x61 ≤ r.1 ∧ r.1 ≤ 0x7a)
  then r.1 else r.1 + 0x100

/-- Insertion before the first element with a larger key (stable).
Code: `ranges.sort(key=...)`, pattern.py:286. -/
def insertKey (r : Nat × Option Nat) : List (Nat × Option Nat) → List (Nat × Option Nat)
  | [] => [r]
  | s :: ss => if rangeKey r ≤ rangeKey s then r :: s :: ss else s :: insertKey r ss

/-- `ranges.sort(key=...)`, pattern.py:286 (a stable sort). -/
def sortRanges : List (Nat × Option Nat) → List (Nat × Option Nat)
  | [] => []
  | r :: rs => insertKey r (sortRanges rs)

/-- The body of the loop pattern.py:287-296. -/
def renderRange : Nat × Option Nat → List Nat
  | (a, none) => [a]
  | (a, some b) =>
    if b - a + 1 ≤ 3 then (List.range (b - a + 1)).map (a + ·) else [a, 0x2d, b]

/-- `_canonical_pattern_add_range`, pattern.py:274-299. -/
def addRange (binstr : List Nat) : List Nat :=
  let dash := binstr.contains 0x2d
  let bs1 := if dash then binstr.erase 0x2d else binstr
  let br := bs1.contains 0x5d
  let bs2 := if br then bs1.erase 0x5d else bs1
  [0x5b] ++ (if br then [0x5d] else []) ++
    (sortRanges (getRanges bs2)).flatMap renderRange ++
    (if dash then [0x2d] else []) ++ [0x5d]

/-- The body of the loop pattern.py:243-270. -/
def canonItem : Item → List Nat
  | (num, none) =>
    if num < 0x200 then
      let start := num &&& 0xff
      if special start then [0x5b, start, 0x5d] else [start]
    else
      match common num with
      | some b => [b]
      | none =>
        let length := (num &&& 0xff00) >>> 8
        let start := num &&& 0xff
        if length = 2 then [0x5b, start, start + 1, 0x5d]
        else if length = 3 then [0x5b, start, start + 1, start + 2, 0x5d]
        else [0x5b, start, 0x2d, start + length - 1, 0x5d]
  | (_, some bs) => addRange bs

/-- `_canonical_pattern_range`, pattern.py:231-272. -/
def canonRange (items : List Item) : List Nat := items.flatMap canonItem

/-- `Pattern.canonical_pattern`, pattern.py:208-229 (the caching attribute is
left out: the value is a function of `values`). -/
def canonical (v : Values) : Str :=
  if v.kind = 0 then
    latin1Decode (v.items.map (fun i => i.1 &&& 0xff))
  else if v.items.dropLast.all (fun i => i.1 < 0x200) ∧
      v.items.getLast? = some (0x30000, none) then
    latin1Decode (v.items.dropLast.map (fun i => i.1 &&& 0xff))
  else
    '_' :: latin1Decode (canonRange v.items.dropLast)

/-! ## `is_canonical` -/

/-- One match of `\[.[^]]*\]` (first alternative of `RE_NO_DASH`, pattern.py:73)
at the start of the text after `[`: one arbitrary character, then characters
other than `]`, then `]`.  Returns the matched text without the `[` and the rest.
(`.` also excludes LF, which cannot occur in a config line.) -/
def bracketMatch : Str → Option (Str × Str)
  | [] => none
  | c :: cs =>
    match splitOnce ']' cs with
    | none => none
    | some (a, b) => some (c :: a ++ [']'], b)

/-- `''.join(RE_NO_DASH.findall(raw))`, pattern.py:203: at each position try
`\[.[^]]*\]`, then `[^][-]+`; a position matching neither is skipped.  Taking the
second alternative one character at a time gives the same concatenation.  Fuel =
number of positions. -/
def noDashFuel : Nat → Str → Str
  | _, [] => []
  | 0, _ :: _ => []
  | fuel + 1, c :: cs =>
    if c = '[' then
      match bracketMatch cs with
      | some (m, rest) => '[' :: m ++ noDashFuel fuel rest
      | none => noDashFuel fuel cs
    else if c = ']' ∨ c = '-' then noDashFuel fuel cs
    else c :: noDashFuel fuel cs

/-- `''.join(self.RE_NO_DASH.findall(self.raw))`, pattern.py:73, 203. -/
def noDash (raw : Str) : Str := noDashFuel raw.length raw

/-- `Pattern.is_canonical`, pattern.py:200-206. -/
def isCanonical (raw : Str) (v : Values) : Bool := noDash raw == canonical v

/-! ## Example, matching, comparison -/

/-- `Pattern.example`, pattern.py:328-350, for the two kinds produced by `parse`. -/
def exampleOf (v : Values) : Str :=
  if v.kind = 0 then
    v.items.map (fun i => Char.ofNat (i.1 &&& 0xff))
  else
    v.items.flatMap fun i =>
      if i.1 = 0x18000 then c! "0-123456789-333"
      else if i.1 = 0x28000 then c! "-123456789-333"
      else if i.1 = 0x30000 then []
      else [Char.ofNat (i.1 &&& 0xff)]

/-- The loop and tail of `matches_extension`, pattern.py:356-379, on the bytes of
the extension without dashes. -/
def matchItems : List Item → List Nat → Bool
  | [], [] => true
  | v :: _, [] => v.1 == 0x28000 || v.1 == 0x30000
  | [], _ :: _ => false
  | v :: vs, c :: cs =>
    if v.1 = 0x18000 ∨ v.1 = 0x28000 ∨ v.1 = 0x30000 then true
    else match v.2 with
      | some set => if set.contains c then matchItems vs cs else false
      | none =>
        let rangelen := (v.1 >>> 8) &&& 0xff
        let rangestart := v.1 &&& 0xff
        if rangestart ≤ c ∧ c < rangestart + rangelen then matchItems vs cs else false

/-- `Pattern.matches_extension`, pattern.py:352-379; `none` is the
`UnicodeEncodeError` of `.encode('latin1')`. -/
def matchesExtension (v : Values) (ext : Str) : Option Bool :=
  match latin1? (ext.filter (· ≠ '-')) with
  | none => none
  | some bs => some (matchItems v.items bs)

/-- `Pattern.matches_same`, pattern.py:381-392 (`other` not `None`). -/
def matchesSame (a b : Values) : Bool :=
  if a.kind = b.kind then a == b
  else if a.kind = 1 then a.items.dropLast == b.items
  else a.items == b.items.dropLast

/-- Python's `<` on sequences, given `<` on the elements.  Code: pattern.py:405. -/
def lexLt {α : Type} [DecidableEq α] (lt : α → α → Bool) : List α → List α → Bool
  | [], [] => false
  | [], _ :: _ => true
  | _ :: _, [] => false
  | a :: as, b :: bs => if a = b then lexLt lt as bs else lt a b

/-- Python's `<` on the item tuples `(num,)` and `(num, bytes)`.  Code: pattern.py:405. -/
def itemLt (a b : Item) : Bool :=
  if a.1 = b.1 then
    match a.2, b.2 with
    | none, none => false
    | none, some _ => true
    | some _, none => false
    | some x, some y => lexLt (fun m n => decide (m < n)) x y
  else decide (a.1 < b.1)

/-- `Pattern.__lt__`, pattern.py:402-405: tuple comparison of `values`. -/
def patLt (a b : Values) : Bool :=
  if a.kind = b.kind then lexLt itemLt a.items b.items else decide (a.kind < b.kind)

/-- `Pattern.__eq__`, pattern.py:397-400. -/
def patEq (a b : Values) : Bool := a == b

end ALint.Pattern
