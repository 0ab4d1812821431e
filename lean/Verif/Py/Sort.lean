import Verif.Py.Str

/-!
# `sorted`
-/

namespace ALint

/-- `<` on strings. -/
def strLt : Str → Str → Bool
  | _, [] => false
  | [], _ :: _ => true
  | a :: as, b :: bs => a.toNat < b.toNat || (a == b && strLt as bs)

/-- Sorting is stable: an element that came first goes before those not smaller. -/
def insertBy {α : Type} (lt : α → α → Bool) (a : α) : List α → List α
  | [] => [a]
  | x :: xs => if lt x a then x :: insertBy lt a xs else a :: x :: xs

/-- `sorted(l)` for a comparison. -/
def sortBy {α : Type} (lt : α → α → Bool) : List α → List α
  | [] => []
  | a :: l => insertBy lt a (sortBy lt l)

end ALint
