import Verif.Spec.LineLog
import Verif.Model.Web

/-!
# Texts that include themselves (specification)
-/

namespace ALint.Spec
open ALint

/-- What a line that is skipped comes to: nothing, or a blank line. -/
inductive Skipped : Gives → Prop
  | nothing : Skipped .nothing
  | blank (c : Bool) (w : Where) : Skipped (.elem (.empty c w))

/-- The `k`th line (from zero) of the text posted. -/
def webLine (k : Nat) (line : Bytes) : Where := ⟨webName, (k : Int) + 1, line⟩

/-- The line includes the file posted. -/
def IncludesItself (data : Bytes) (k : Nat) (line : Bytes) : Prop :=
  ∃ ms, LineTells (webFs data) (webLine k line) ms (.file webName)

/-- The first line, apart from comments, blank lines and bad ones, is an include of the text itself. -/
def StartsOver (data : Bytes) : Prop :=
  ∃ pre line post, physLines data = pre ++ line :: post ∧ IncludesItself data pre.length line ∧
    ∀ k l, pre[k]? = some l → ∃ ms g, LineTells (webFs data) (webLine k l) ms g ∧ Skipped g

end ALint.Spec
