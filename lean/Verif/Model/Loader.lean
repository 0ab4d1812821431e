import Verif.Model.App

/-!
# Model of `AppLoader` (application.py:39-84) and `FuncLoader` (varfun.py:80-129)

The two classes have the same code.  Loading of modules is not modelled: a history of
`register` and `get` calls takes its place.
-/

namespace ALint

/-- `_lower_apps` or `_lower_funcs` (the last entry for a name is in front) and
`_used_apps` or `_used_funcs` (a set).  Code: application.py:41-42, varfun.py:86-87. -/
structure Loader (α : Type) where
  table : List (Str × α)
  used : List Str

/-- The loader before anything is registered, application.py:41-42, varfun.py:86-87. -/
def Loader.empty {α : Type} : Loader α := ⟨[], []⟩

/-- `register`, application.py:82-84, varfun.py:127-129. -/
def Loader.register {α : Type} (l : Loader α) (low : Str) (a : α) : Loader α :=
  { l with table := (low, a) :: l.table }

/-- `get`, application.py:67-80, varfun.py:112-125. -/
def Loader.get {α : Type} (l : Loader α) (low : Str) : Except Exc (α × Loader α) :=
  match l.table.lookup low with
  | some a => .ok (a, { l with used := low :: l.used })
  | none =>
    match l.table.lookup (c! "unknown") with
    | none => .error .notImplementedError
    | some u => .ok (u, ⟨(low, u) :: l.table, low :: l.used⟩)

/-- Insertion in a sorted list without duplicates.  Code: application.py:50, 57; varfun.py:95, 102. -/
def insertStr (x : Str) : List Str → List Str
  | [] => [x]
  | y :: ys => if x = y then y :: ys else if x < y then x :: y :: ys else y :: insertStr x ys

/-- `sorted(set(l))` of strings.  Code: application.py:50, 57; varfun.py:95, 102. -/
def sortStrs (l : List Str) : List Str := l.foldr insertStr []

/-- `used_modules`, application.py:53-59, varfun.py:98-104. -/
def Loader.usedModules {α : Type} (mod : α → Str) (l : Loader α) : List Str :=
  (sortStrs (l.used.filterMap fun i => (l.table.lookup i).map mod)).filter (· ≠ c! "unknown")

/-- A call of one of the methods.  Code: application.py:67-84, varfun.py:112-129. -/
inductive LoaderOp (α : Type) where
  | register (low : Str) (a : α)
  | get (low : Str)

/-- One call.  Code: application.py:67-84, varfun.py:112-129. -/
def Loader.step {α : Type} (l : Loader α) : LoaderOp α → Except Exc (Loader α)
  | .register low a => .ok (l.register low a)
  | .get low => (l.get low).map Prod.snd

/-- A history of calls.  Code: application.py:67-84, varfun.py:112-129. -/
def Loader.run {α : Type} : Loader α → List (LoaderOp α) → Except Exc (Loader α)
  | l, [] => .ok l
  | l, op :: ops => (l.step op).bind fun l => l.run ops

end ALint
