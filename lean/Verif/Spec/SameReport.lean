import Verif.Model.Repr
import Verif.Spec.Command

/-!
# The same files, the same report: what is meant
-/

namespace ALint.Spec
open ALint

/-- A variable object: `${…}`, `$[…]`, a function call, or text mixed with such. -/
inductive VarObject : V → Prop where
  | mixed {items} : VarObject (.lst items)
  | plain {k n s l} : VarObject (.atom k n s l)

/-- The text of the message shows a variable by its `repr`: under `!r` or as an item of a list. -/
inductive ShowsObject (m : Msg) : Prop where
  | quoted {name : Str} {v : V} : Piece.field name true ∈ m.kind.template → m.args.lookup name = some (.one v) →
      VarObject v → ShowsObject m
  | listed {name : Str} {r : Bool} {vs : List V} {v : V} : Piece.field name r ∈ m.kind.template →
      m.args.lookup name = some (.many vs) → v ∈ vs → VarObject v → ShowsObject m

/-- Two reports with the same messages, of which only the texts behind the names can differ. -/
def SameButTexts (a b : List Str) : Prop :=
  ∃ (ms : List Msg) (s t : List Str), s.length = ms.length ∧ t.length = ms.length ∧
    a = List.zipWith heading ms s ∧ b = List.zipWith heading ms t

end ALint.Spec
