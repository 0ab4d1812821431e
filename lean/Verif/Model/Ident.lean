import Verif.Model.Dialplan
import Verif.Py.Sort

/-!
# Model of `commands/ident-scan.py`

Identifiers and similarities; the program is in Model/IdentShow.
-/

namespace ALint

/-- What the command takes from Python and `editdistance`: `str.lower`, `str.isupper`,
`str.islower`, `editdistance.eval`.  Code: commands/ident-scan.py:112-129. -/
structure IEnv where
  lower : Str → Str
  isUpper : Str → Bool
  isLower : Str → Bool
  dist : Str → Str → Nat

/-- `x.startswith('ARG') and x[3:].isdigit()`, ident-scan.py:126-129. -/
def isArgName (x : Str) : Bool := (c! "ARG").isPrefixOf x && isDigitS (x.drop 3)

/-- The tests on two identifiers next to each other, ident-scan.py:121-133. -/
def tooClose (env : IEnv) (prev cur : Str) : Bool :=
  let lodiff := env.dist (env.lower prev) (env.lower cur)
  if lodiff == 0 && ((env.isUpper prev && env.isLower cur) || (env.isLower prev && env.isUpper cur)) then false
  else if isArgName prev && isArgName cur then false
  else decide (lodiff ≤ 2) && decide (lodiff + 1 < prev.length) && decide (lodiff + 1 < cur.length)

/-- `if prev:`, ident-scan.py:120. -/
def closeTo (env : IEnv) : Option Str → Str → List (Str × Str)
  | some (c :: p), cur => if tooClose env (c :: p) cur then [(c :: p, cur)] else []
  | _, _ => []

/-- The loop over one list, ident-scan.py:118-136: the pairs entered into `similar`. -/
def scanIds (env : IEnv) (prev : Option Str) : List Str → List (Str × Str)
  | [] => []
  | cur :: rest => closeTo env prev cur ++ scanIds env (some cur) rest

/-- `key=(lambda x: x.lower())`, ident-scan.py:111-112. -/
def nameLt (env : IEnv) (a b : Str) : Bool := strLt (env.lower a) (env.lower b)

/-- `key=(lambda x: (len(x), x.lower()))`, ident-scan.py:113-114. -/
def lenLt (env : IEnv) (a b : Str) : Bool :=
  decide (a.length < b.length) || (a.length == b.length && strLt (env.lower a) (env.lower b))

/-- Both lists, ident-scan.py:111-136.  `ids` is the set in the order in which it is
enumerated. -/
def similarPairs (env : IEnv) (ids : List Str) : List (Str × Str) :=
  scanIds env none (sortBy (nameLt env) ids) ++ scanIds env none (sortBy (lenLt env) ids)

/-- The keys of `similar` in the order of their insertion.  Code: commands/ident-scan.py:116, 134-135. -/
def similarKeys (pairs : List (Str × Str)) : List Str := (pairs.flatMap fun p => [p.1, p.2]).eraseDups

/-- `similar[x]`.  Code: commands/ident-scan.py:142. -/
def similarTo (pairs : List (Str × Str)) (x : Str) : List Str :=
  (pairs.flatMap fun p => (if p.1 = x then [p.2] else []) ++ (if p.2 = x then [p.1] else [])).eraseDups

/-- The lines printed, ident-scan.py:140-144: an identifier and those similar to it. -/
def similarLines (env : IEnv) (ids : List Str) : List (Str × List Str) :=
  let pairs := similarPairs env ids
  (sortBy (nameLt env) (similarKeys pairs)).map fun k => (k, sortBy strLt (similarTo pairs k))

/-- The value returned, ident-scan.py:138-146 (`None` exits with 0). -/
def identExit (lines : List (Str × List Str)) : Nat := if lines.isEmpty then 0 else 1

/-- The identifiers: names of contexts, labels and variables, ident-scan.py:57-65, 76-79; as
a list that has the elements of the set. -/
def identifiers (st : DState) : List Str :=
  (st.dp.contexts.map (·.name) ++ st.dp.allLabels ++ st.uses.filterMap fun e => match e with
    | .var name _ => some name
    | _ => none).eraseDups

end ALint
