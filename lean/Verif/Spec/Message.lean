import Verif.Model.Message

/-!
# Messages (specification)
-/

namespace ALint.Spec
open ALint

/-- The names a text refers to. -/
def placeholders : List Piece → List Str
  | [] => []
  | .lit _ :: ps => placeholders ps
  | .field name _ :: ps => name :: placeholders ps

/-- Every name the text of the message refers to has a value. -/
def Supplies (m : Msg) : Prop := ∀ name ∈ placeholders m.kind.template, ∃ a, (name, a) ∈ m.args

/-- The message can be printed. -/
def Prints (m : Msg) : Prop := ∃ text, m.render = .ok text

end ALint.Spec
