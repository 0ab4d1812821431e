import Verif.Py.Str

/-!
# Python values handled by the argument parser
-/

namespace ALint

/-- The class of a variable object whose `name` is not `None`. -/
inductive Kind where
  /-- `Var(name)`, variable.py:69 -/
  | var
  /-- `VarSlice(name, start, length)`, variable.py:279 -/
  | slice
  /-- `VarDynSlice(name, start, length)`, variable.py:285 -/
  | dynSlice
  /-- `Expr(name)`, expression.py:19 -/
  | expr
  /-- `ReadFunc(func, args)`, function.py:19 -/
  | func
  /-- `ReadFuncSlice(func, args, start, length)`, function.py:42 -/
  | funcSlice
deriving DecidableEq, Repr

/-- Python values: `str`, `int`, `None`, a `Var` made by `Var.join` (name `None`,
`_list` given) and a `Var` with a name (variable.py:19-298). -/
inductive V where
  | str (s : Str)
  | int (n : Int)
  | none
  | lst (items : List V)
  | atom (kind : Kind) (name : V) (start length : V)

namespace V

mutual
/-- Decidable equality of values (not Python's `==`). -/
def decEq : (a b : V) → Decidable (a = b)
  | .str s, .str t => if h : s = t then isTrue (by rw [h]) else isFalse (by simpa using h)
  | .int s, .int t => if h : s = t then isTrue (by rw [h]) else isFalse (by simpa using h)
  | .none, .none => isTrue rfl
  | .lst s, .lst t =>
    match decEqs s t with
    | isTrue h => isTrue (by rw [h])
    | isFalse h => isFalse (by simpa using h)
  | .atom k n s l, .atom k' n' s' l' =>
    if hk : k = k' then
      match decEq n n', decEq s s', decEq l l' with
      | isTrue h1, isTrue h2, isTrue h3 => isTrue (by rw [hk, h1, h2, h3])
      | isFalse h, _, _ => isFalse (by simp [h])
      | _, isFalse h, _ => isFalse (by simp [h])
      | _, _, isFalse h => isFalse (by simp [h])
    else isFalse (by simp [hk])
  | .str _, .int _ => isFalse (by simp) | .str _, .none => isFalse (by simp)
  | .str _, .lst _ => isFalse (by simp) | .str _, .atom .. => isFalse (by simp)
  | .int _, .str _ => isFalse (by simp) | .int _, .none => isFalse (by simp)
  | .int _, .lst _ => isFalse (by simp) | .int _, .atom .. => isFalse (by simp)
  | .none, .str _ => isFalse (by simp) | .none, .int _ => isFalse (by simp)
  | .none, .lst _ => isFalse (by simp) | .none, .atom .. => isFalse (by simp)
  | .lst _, .str _ => isFalse (by simp) | .lst _, .int _ => isFalse (by simp)
  | .lst _, .none => isFalse (by simp) | .lst _, .atom .. => isFalse (by simp)
  | .atom .., .str _ => isFalse (by simp) | .atom .., .int _ => isFalse (by simp)
  | .atom .., .none => isFalse (by simp) | .atom .., .lst _ => isFalse (by simp)
def decEqs : (a b : List V) → Decidable (a = b)
  | [], [] => isTrue rfl
  | x :: xs, y :: ys =>
    match decEq x y, decEqs xs ys with
    | isTrue h1, isTrue h2 => isTrue (by rw [h1, h2])
    | isFalse h, _ => isFalse (by simp [h])
    | _, isFalse h => isFalse (by simp [h])
  | [], _ :: _ => isFalse (by simp)
  | _ :: _, [] => isFalse (by simp)
end

instance : DecidableEq V := decEq

/-- `isinstance(v, Var)`. -/
def isVar : V → Bool
  | .lst _ => true
  | .atom .. => true
  | _ => false

/-- `isinstance(v, str)`. -/
def isStr : V → Bool
  | .str _ => true
  | _ => false

mutual
/-- The items of `iter(v)`: one-character strings and atoms.  For a `Var` this is
`_get_cached_iter`, variable.py:143-153 (the caching itself has no observable
effect, variables are not modified after construction). -/
def tokens : V → List V
  | .str s => s.map (fun c => .str [c])
  | .lst items => tokensAll items
  | .atom k n s l => [.atom k n s l]
  | .int _ => []
  | .none => []
def tokensAll : List V → List V
  | [] => []
  | v :: vs => tokens v ++ tokensAll vs
end

/-- `bool(v)`: for a `Var` this is `len(v) > 0`, variable.py:140-141. -/
def truthy : V → Bool
  | .str s => !s.isEmpty
  | .int n => n != 0
  | .none => false
  | .lst items => !(tokensAll items).isEmpty
  | .atom .. => true

end V

/-- Python exceptions that can leave the modelled code. -/
inductive Exc where
  | attributeError | keyError | typeError | valueError | assertionError | indexError
  | unboundLocalError | recursionError | unicodeDecodeError | unicodeEncodeError
  | notImplementedError | varParseError
  /-- not an exception: the code runs for ever (until memory is exhausted) -/
  | hang
  /-- `ProgrammingError`, config.py:67, raised from another exception -/
  | programmingError (cause : Exc)
deriving DecidableEq, Repr

instance exceptDecEq {α β : Type} [DecidableEq α] [DecidableEq β] : DecidableEq (Except α β)
  | .ok a, .ok b => if h : a = b then isTrue (by rw [h]) else isFalse (by simpa using h)
  | .error a, .error b => if h : a = b then isTrue (by rw [h]) else isFalse (by simpa using h)
  | .ok _, .error _ => isFalse (by simp)
  | .error _, .ok _ => isFalse (by simp)

/-- Decimal digits of a natural number, most significant first (fuel = number of
digits needed, at most `n`). -/
def decDigits : Nat → Nat → Str
  | 0, _ => []
  | fuel + 1, n =>
    if n < 10 then [Char.ofNat (48 + n)]
    else decDigits fuel (n / 10) ++ [Char.ofNat (48 + n % 10)]

/-- `str(n)` for a natural number. -/
def natStr (n : Nat) : Str := decDigits (n + 1) n

/-- `str(n)` for an integer. -/
def intStr : Int → Str
  | .ofNat n => natStr n
  | .negSucc n => '-' :: natStr (n + 1)

namespace V

mutual
/-- `str(v)`.  `Var.__str__` variable.py:170-173, `SliceMixin.__str__`
variable.py:271-276, `VarDynSlice.__str__` variable.py:292-297, `Expr.__str__`
expression.py:33-36.  A variable with the empty name has no `_list`, hence the
`AttributeError`. -/
def toStr : V → Except Exc Str
  | .str s => .ok s
  | .int n => .ok (intStr n)
  | .none => .ok (c! "None")
  | .lst items => toStrAll items
  | .atom k n s l =>
    match k with
    | .var | .func =>
      if n.truthy then (toStr n).map (fun t => c! "${" ++ t ++ c! "}")
      else .error .attributeError
    | .expr =>
      if n.truthy then (toStr n).map (fun t => c! "$[" ++ t ++ c! "]")
      else .error .attributeError
    | .slice | .funcSlice | .dynSlice =>
      match toStr n, toStr s, toStr l with
      | .error e, _, _ => .error e
      | .ok _, .error e, _ => .error e
      | .ok tn, .ok ts, tl =>
        if l.truthy then tl.map (fun tl => c! "${" ++ tn ++ c! ":" ++ ts ++ c! ":" ++ tl ++ c! "}")
        else .ok (c! "${" ++ tn ++ c! ":" ++ ts ++ c! "}")
def toStrAll : List V → Except Exc Str
  | [] => .ok []
  | v :: vs =>
    match toStr v, toStrAll vs with
    | .error e, _ => .error e
    | .ok _, .error e => .error e
    | .ok a, .ok b => .ok (a ++ b)
end

end V

example : V.lst [.str (c! "a"), .atom .var (.str (c! "b")) .none .none] ≠ .lst [.str (c! "a")] := by
  decide
example : V.toStr (.lst [.str (c! "a"), .atom .slice (.str (c! "b")) (.int (-2)) (.int 13)])
    = .ok (c! "a${b:-2:13}") := by decide

end ALint
