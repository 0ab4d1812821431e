import Verif.Spec.Vg
import Verif.Spec.Config
import Verif.Spec.File

/-!
# Lines that include files (specification)
-/

namespace ALint.Spec
open ALint

/-- What a line says, without its comment, the blanks in front of that, and the line end. -/
def Says (line : Bytes) (data : Str) : Prop :=
  ∃ t s d bl, Decodes line t ∧ EolOff t s ∧ Trimmed s d bl ∧
    ((AllEscaped d ∧ data = unescape d) ∨ ∃ a b y, CommentAt d a b ∧ Trimmed (unescape a) data y)

/-- The line is `#include name` or `#tryinclude name`, with the name bare or in quotes. -/
def IncludesFile (line : Bytes) (name : Str) : Prop :=
  ∃ indent sep q, ∃ must : Bool,
    Says line (indent ++ (if must then c! "#include" else c! "#tryinclude") ++ sep ++ q) ∧
    Spaces indent ∧ sep ≠ [] ∧ (∀ c ∈ sep, c.toNat ≤ 32) ∧ Quoted name q ∧ '=' ∉ q

end ALint.Spec
