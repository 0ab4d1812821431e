import Verif.Model.Config

/-!
# Lines of files (specification)
-/

namespace ALint.Spec
open ALint

/-- The file linted, or one that can be included. -/
def FileOf (fs : FS) (path : Str) (content : Bytes) (name : Str) (bytes : Bytes) : Prop :=
  name = path ∧ bytes = content ∨ fs name = some bytes

/-- The place is a line of such a file: its number counts from one, its text is that of the
line. -/
def LineOf (fs : FS) (path : Str) (content : Bytes) (w : Where) : Prop :=
  ∃ bytes, FileOf fs path content w.filename bytes ∧
    ∃ n : Nat, w.lineno = n + 1 ∧ (physLines bytes)[n]? = some w.line

end ALint.Spec
