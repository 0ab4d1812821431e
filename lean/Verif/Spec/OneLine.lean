import Verif.Spec.Command

/-!
# The report as text
-/

namespace ALint.Spec
open ALint

/-- What arrives on the standard error output: every line with a line feed behind it. -/
def written (ls : List Str) : Str := ls.flatMap (· ++ ['\n'])

/-- The texts Python has for values and for objects are texts of one line. -/
structure OneLineTexts (sh : Shell) : Prop where
  rep : ∀ a, '\n' ∉ sh.rep a
  obj : ∀ w, '\n' ∉ sh.obj w

/-- File, line and name of a message. -/
def signature (m : Msg) : Str × Int × MK := (m.at_.filename, m.at_.lineno, m.kind)

end ALint.Spec
