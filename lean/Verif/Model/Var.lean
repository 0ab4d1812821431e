import Verif.Model.Message
import Verif.Py.Int

/-!
# Model of `asterisklint/variable.py`
-/

namespace ALint

/-- `strjoin`, variable.py:300-316. -/
def strjoin : List V → List V
  | [] => []
  | .str s :: rest =>
    match strjoin rest with
    | .str t :: r => .str (s ++ t) :: r
    | r => .str s :: r
  | v :: rest => v :: strjoin rest

/-- Adding a piece in front of joined pieces, variable.py:49-57 (the code adds at the
end; merging runs of strings gives the same from either side). -/
def joinCons (v : V) (rest : List V) : List V :=
  match v, rest with
  | .str s, .str t :: r => .str (s ++ t) :: r
  | v, r => v :: r

/-- The list `copy` built by `Var.join`, variable.py:42-57. -/
def joinItems : List V → List V
  | [] => []
  | v :: vs => if v.truthy then joinCons v (joinItems vs) else joinItems vs

/-- `Var.join`, variable.py:41-67.  All callers pass strings and variables only, so the
`TypeError` for other items is left out. -/
def join (vs : List V) : V :=
  match joinItems vs with
  | [] => .str []
  | [v] => v
  | l => .lst l

namespace V

/-- `c in v` for a one-character string: `in` iterates over a `Var`.
Code: varfun.py:328, 332, 248; variable.py:108-114. -/
def hasTok (c : Char) (v : V) : Bool := v.tokens.any (· == .str [c])

/-- `v[i:j]` for `0 ≤ i`, `0 ≤ j`: `str` slices, and `Var.__getitem__`,
variable.py:116-138, which may return a list. -/
def getSlice (v : V) (i j : Nat) : Arg :=
  match v with
  | .str s => .one (.str ((s.drop i).take (j - i)))
  | v =>
    match strjoin ((v.tokens.drop i).take (j - i)) with
    | [x] => .one x
    | l => .many l

end V

/-- The items of `iter(x)` for a value or a list.  Code: variable.py:108-114. -/
def Arg.iter : Arg → List V
  | .one v => v.tokens
  | .many vs => vs

/-- `bool(x)`.  Python's own; variable.py:140-141 for a `Var`. -/
def Arg.truthy : Arg → Bool
  | .one v => v.truthy
  | .many vs => !vs.isEmpty

/-! ## `split` -/

/-- `s.split(c, n)`; `none` for `n` is no limit.  Code: variable.py:203, 205. -/
def splitN (c : Char) : Option Nat → Str → List Str
  | some 0, s => [s]
  | _, [] => [[]]
  | n, x :: xs =>
    if x = c then [] :: splitN c (n.map (· - 1)) xs
    else match splitN c n xs with
      | [] => [[x]]
      | p :: ps => (x :: p) :: ps

/-- Put an item in front of the first group.  Code: variable.py:198-215. -/
def consHead (v : V) : List (List V) → List (List V)
  | [] => [[v]]
  | g :: gs => (v :: g) :: gs

/-- Distribute the subitems of one split string: each but the last closes a group,
the last one starts the next; empty ones are left out, variable.py:207-215. -/
def spread : List Str → List (List V) → List (List V)
  | [], gs => gs
  | [p], gs => if p.isEmpty then gs else consHead (.str p) gs
  | p :: ps, gs => (if p.isEmpty then [] else [.str p]) :: spread ps gs

/-- The loop of `Var._split`, variable.py:193-215; `n` is the number of splits left. -/
def splitGroups (c : Char) : Option Nat → List V → List (List V)
  | _, [] => [[]]
  | n, .str s :: rest =>
    if c ∉ s ∨ n = some 0 then consHead (.str s) (splitGroups c n rest)
    else
      let subs := splitN c n s
      spread subs (splitGroups c (n.map (· - (subs.length - 1))) rest)
  | n, v :: rest => consHead v (splitGroups c n rest)

/-- The joining of one group, variable.py:217-224. -/
def joinGroup : List V → V
  | [] => .str []
  | [v] => v
  | l => join l

namespace V

/-- `v.split(c)` (`n = none`) or `v.split(c, n)`: `str.split`, and `Var.split`,
variable.py:175-226.  A variable with empty name has no `_list`.  The assertion on the
combination of token and limit holds at every call. -/
def split (c : Char) (n : Option Nat) : V → Except Exc (List V)
  | .str s => .ok ((splitN c n s).map .str)
  | .lst items => .ok ((splitGroups c n items).map joinGroup)
  | .atom _ name _ _ =>
    if name.truthy then .ok ((splitGroups c n [name]).map joinGroup) else .error .attributeError
  | .int _ => .error .attributeError
  | .none => .error .attributeError

/-- Is it a string of white space only (or empty)?  Code: variable.py:233-236. -/
def blankStr : V → Bool
  | .str s => s.all isSpace
  | _ => false

/-- Remove a first item that is blank text.  Code: variable.py:233-237. -/
def dropBlank : List V → List V
  | [] => []
  | v :: vs => if v.blankStr then vs else v :: vs

/-- `v.strip()`: `str.strip`, and `Var.strip`, variable.py:228-246. -/
def strip : V → Except Exc V
  | .str s => .ok (.str (stripP isSpace s))
  | .lst items =>
    let new := (dropBlank (dropBlank items).reverse).reverse
    if new.length = items.length then .ok (.lst items)
    else match new with
      | [v] => .ok v
      | new => .ok (.lst new)
  | .atom k name s l => if name.truthy then .ok (.atom k name s l) else .error .attributeError
  | .int _ => .error .attributeError
  | .none => .error .attributeError

/-- Does the regular expression made of the items match the whole value:
a character matches itself, a variable `.*`?  Code: variable.py:85-89. -/
def matchToks : List V → Str → Bool
  | [], s => s == [] || s == ['\n']
  | .str t :: toks, s => t.isPrefixOf s && matchToks toks (s.drop t.length)
  | _ :: toks, s => anyTail (matchToks toks) s
where
  /-- `.*`: skip any number of characters other than a line feed. -/
  anyTail (p : Str → Bool) : Str → Bool
    | [] => p []
    | c :: cs => p (c :: cs) || (c != '\n' && anyTail p cs)

/-- `v.could_match(value)`, variable.py:72-89, with `str(value)` given. -/
def couldMatch (v : V) (value : Str) : Bool :=
  match v with
  | .atom _ name _ _ => if name.truthy then true else matchToks v.tokens value
  | v => matchToks v.tokens value

end V

/-! ## `variable_check_balance` -/

/-- The sequence `arr` without its first element, last element first.  Code: variable.py:329. -/
abbrev BalStack := List Str

/-- One item, variable.py:332-370; `none` is the `ValueError`.  Items of a list
may be longer strings, for which `in` is a substring test. -/
def balStep (st : BalStack) : V → Option BalStack
  | .str ch =>
    if ch = c! "\"" then
      if st.head? = some (c! "\"") then some st.tail
      else if st.head? = some (c! "'") then some st
      else some (ch :: st)
    else if ch = c! "'" then
      if st.head? = some (c! "'") then some st.tail
      else if st.head? = some (c! "\"") then some st
      else some (ch :: st)
    else if contains ch (c! "({[") then
      if st.head? = some (c! "\"") ∨ st.head? = some (c! "'") then some st
      else some (ch :: st)
    else if contains ch (c! ")}]") then
      if st.head? = some (c! "\"") ∨ st.head? = some (c! "'") then some st
      else
        let left := if (c! ")").isPrefixOf ch then c! "(" else if (c! "}").isPrefixOf ch then c! "{" else c! "["
        if st.head? = some left then some st.tail else none
    else some st
  | _ => some st

/-- The loop of `variable_check_balance`, variable.py:331-371. -/
def balRun : BalStack → List V → Option BalStack
  | st, [] => some st
  | st, v :: vs =>
    match balStep st v with
    | some st' => balRun st' vs
    | none => none

/-- `variable_check_balance(data)` returns without `ValueError`, variable.py:319-374. -/
def balanced (items : List V) : Bool := balRun [] items == some []

example : balanced (V.str (c! "a(b[\"(\"])")).tokens = true := by decide
example : balanced (V.str (c! "a(b]")).tokens = false := by decide

end ALint
