import Verif.Spec.Splice
import Verif.Spec.Command
import Verif.Spec.Locality

/-!
# The exit status and the form of a dialplan (specification)
-/

namespace ALint.Spec
open ALint

/-- `ALINT_IGNORE` asks to leave out the messages about line terminators and about the number of blank lines. -/
def IgnoresSpacing (ignore : Str) : Prop := ∀ k, spacingKind k = true → Ignores ignore k.name

/-- The file `path` is not the one with the definitions of functions, nor included by it. -/
def OdbcApart (fs : FS) (arg : Option Str) (path : Str) : Prop := ∀ o, OdbcAt arg path o → ¬ Touches fs o path

end ALint.Spec
