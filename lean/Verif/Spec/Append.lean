import Verif.Spec.Lookup
import Verif.Model.Vsw

/-!
# Writing more at the end of a file (specification)
-/

namespace ALint.Spec
open ALint

/-- The files `fs'` are the files `fs`, with `extra` written at the end of one of them, whose last
line was complete. -/
structure Appended (fs fs' : FS) (path : Str) (content extra : Bytes) : Prop where
  before : fs path = some content
  after : fs' path = some (content ++ extra)
  whole : content ≠ [] → content.getLast? = some 10
  others : ∀ q, q ≠ path → fs' q = fs q

/-- What is only said at the end of a check: about the last line of a file and the blank lines
there, about what the dialplan as a whole lacks (without the number of a line), and about jumps.  Long
gaps between contexts can show at the end, too. -/
def SaidLast (m : Msg) : Prop :=
  m.kind = .W_FILE_DOS_EOFCRLF ∨ m.kind = .W_FILE_UNIX_NOLF ∨ m.kind = .W_WSV_EOF ∨ m.kind = .H_WSV_CTX_BETWEEN ∨
  m.at_.lineno = 0 ∨ jumpKind m.kind = true

instance (m : Msg) : Decidable (SaidLast m) := by unfold SaidLast; infer_instance

/-- The rest is said while the lines are read. -/
def earlyOnes (log : List Msg) : List Msg := log.filter fun m => ¬ SaidLast m

end ALint.Spec
