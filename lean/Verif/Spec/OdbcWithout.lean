import Verif.Spec.OdbcParts
import Verif.Spec.Disregarded

/-!
# A func_odbc.conf without one of its functions (specification)
-/

namespace ALint.Spec
open ALint

/-- A line is a header. -/
def HeaderGiven (g : Gives) : Prop := ∃ c, g = .elem (.ctx c)

/-- A line is no header, and does not include a file. -/
def BelowGiven (g : Gives) : Prop := (∀ f, g ≠ .file f) ∧ ¬ HeaderGiven g

/-- A section: a header, and lines below it that are no headers and include no files. -/
def OneSection (told : List Told) : Prop := ∃ x xs, told = x :: xs ∧ HeaderGiven x.gives ∧ ∀ y ∈ xs, BelowGiven y.gives

/-- Nothing follows, or a section. -/
def SectionNext (fs : FS) (path : Str) (rest : Bytes) : Prop := rest = [] ∨ ∃ next more, rest = next ++ more ∧ TextIs fs path next OneSection

/-- What is said of the file with the section is what is said without it, in some order, and something about the lines of the section. -/
def SectionLess (ws : List Where) (log log' : List Msg) : Prop :=
  ∃ about, (∀ m ∈ about, m.at_ ∈ ws) ∧ SameInSomeOrder log (about ++ log')

end ALint.Spec
