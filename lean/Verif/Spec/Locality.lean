import Verif.Spec.LineLog

/-!
# The files a program looks at (specification)
-/

namespace ALint.Spec
open ALint

/-- A file read while `path` is read: `path` itself, and what is in a file that a line of such a
file includes. -/
inductive FileRead (fs : FS) (path : Str) (content : Bytes) : Str → Bytes → Prop
  | given : FileRead fs path content path content
  | included {w : Where} {ms : List Msg} {bytes bytes' : Bytes} {n : Nat} {name : Str} :
      FileRead fs path content w.filename bytes → w.lineno = n + 1 → (physLines bytes)[n]? = some w.line →
      LineTells fs w ms (.file name) → fs name = some bytes' → FileRead fs path content name bytes'

/-- A line of a file read. -/
def LineRead (fs : FS) (path : Str) (content : Bytes) (w : Where) : Prop :=
  ∃ bytes, FileRead fs path content w.filename bytes ∧
    ∃ n : Nat, w.lineno = n + 1 ∧ (physLines bytes)[n]? = some w.line

/-- A file included by a line that is read, there or not. -/
def FileNamed (fs : FS) (path : Str) (content : Bytes) (name : Str) : Prop :=
  ∃ w ms, LineRead fs path content w ∧ LineTells fs w ms (.file name)

/-- The file given to a program, and what is included on the way. -/
def Touches (fs : FS) (path name : Str) : Prop :=
  name = path ∨ ∃ content, fs path = some content ∧ FileNamed fs path content name

/-- Where func_odbc.conf is looked for: as said (nowhere for an empty name), otherwise in the
directory of the dialplan. -/
inductive OdbcAt (arg : Option Str) (path : Str) : Str → Prop
  | named (a : Str) : arg = some a → a ≠ [] → OdbcAt arg path a
  | beside (p : Str) : arg = none → PathFrom path (c! "func_odbc.conf") p → OdbcAt arg path p

/-- The files that the check of a dialplan may look at. -/
def Matters (fs : FS) (arg : Option Str) (path name : Str) : Prop :=
  Touches fs path name ∨ ∃ o, OdbcAt arg path o ∧ Touches fs o name

/-- The same files under these names. -/
def AgreeOn (names : Str → Prop) (fs fs' : FS) : Prop := ∀ q, names q → fs' q = fs q

end ALint.Spec
