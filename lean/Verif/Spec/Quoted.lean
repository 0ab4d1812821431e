import Verif.Spec.SameReport

/-!
# Values in the texts of messages: what is meant
-/

namespace ALint.Spec
open ALint

/-- A value that is shown as itself: a text, a number or nothing, under `!r`, or a number. -/
inductive ShownAsItself : Bool → V → Prop where
  | text {s} : ShownAsItself true (.str s)
  | number {r n} : ShownAsItself r (.int n)
  | nothing : ShownAsItself true .none

/-- All values in the text of the message are shown as themselves. -/
def ShowsValues (m : Msg) : Prop :=
  ∀ name r, Piece.field name r ∈ m.kind.template → ∃ v, m.args.lookup name = some (.one v) ∧ ShownAsItself r v

/-- The two messages show the same values. -/
def SameValues (m m' : Msg) : Prop :=
  ∀ name r, Piece.field name r ∈ m.kind.template → m.args.lookup name = m'.args.lookup name

/-- All values in texts of this class stand under `!r`. -/
def OnlyQuotes (k : MK) : Prop := ∀ name r, Piece.field name r ∈ k.template → r = true

end ALint.Spec
