import Verif.Model.CanonProgram
import Verif.Spec.LineLog
import Verif.Spec.Mutator

/-!
# Making the patterns of a dialplan canonical (specification)
-/

namespace ALint.Spec
open ALint

/-- The log has the hint about line `n` of file `f` that the pattern `pat` is better written
`expected`. -/
def HintAt (log : List Msg) (f : Str) (n : Nat) (pat expected : Str) : Prop :=
  ∃ m ∈ log, m.kind = .H_PAT_NON_CANONICAL ∧ m.at_.filename = f ∧ m.at_.lineno = n ∧
    m.args = [(c! "pat", .one (.str pat)), (c! "expected", .one (.str expected))]

/-- The log has a hint about a line of the file. -/
def HasHint (log : List Msg) (f : Str) : Prop := ∃ n pat expected, HintAt log f n pat expected

/-- A line with the first `old` behind its first `=` replaced by `new`, or the line itself if there
is none. -/
inductive Swapped (old new : Bytes) : Bytes → Bytes → Prop
  | found (head a b : Bytes) : 0x3d ∉ head →
      (∀ a' b', a ++ old ++ b = a' ++ old ++ b' → a.length ≤ a'.length) →
      Swapped old new (head ++ 0x3d :: (a ++ old ++ b)) (head ++ 0x3d :: (a ++ new ++ b))
  | absent (head tail : Bytes) : 0x3d ∉ head → (¬ ∃ a b, tail = a ++ old ++ b) →
      Swapped old new (head ++ 0x3d :: tail) (head ++ 0x3d :: tail)

/-- What becomes of line `n` of file `f`. -/
inductive LineAfter (log : List Msg) (f : Str) (n : Nat) (line : Bytes) : Bytes → Prop
  | same : (∀ pat expected, ¬ HintAt log f n pat expected) → LineAfter log f n line line
  | swapped (pat expected : Str) (new : Bytes) : HintAt log f n pat expected →
      Swapped (utf8 pat) (utf8 expected) line new → LineAfter log f n line new

/-- What becomes of the lines of file `f`. -/
def LinesAfter (log : List Msg) (f : Str) (ls ls' : List Bytes) : Prop :=
  ls'.length = ls.length ∧
    ∀ (k : Nat) line line', ls[k]? = some line → ls'[k]? = some line' → LineAfter log f (k + 1) line line'

/-- The names of the files read, `path` first, with those included as often as they are. -/
def FilesRead (fs : FS) (path : Str) (names : List Str) : Prop :=
  ∃ content t, fs path = some content ∧ names = path :: t.files ∧
    ∀ inc, KnowsIncludes fs inc → Expand fs inc path 0 (physLines content) t

/-- Where the file `f` is: at the entry of that name, or at the one that a link there names, if its
text names the same entry from the current directory (as an absolute path does). -/
inductive SitsAt {P : Type} (ps : Paths P) (d : Disk P) (f : Str) : P → Prop
  | plain {c u g m} : d (ps.name f) = some (.file c u g m) → SitsAt ps d f (ps.name f)
  | link {t c u g m} : d (ps.name f) = some (.link t) → ps.follow (ps.name f) t = ps.name t →
      d (ps.name t) = some (.file c u g m) → SitsAt ps d f (ps.name t)

/-- Following links from one entry leads to the other. -/
inductive LeadsTo {P : Type} (ps : Paths P) (d : Disk P) : P → P → Prop
  | here (p : P) : LeadsTo ps d p p
  | on {p q : P} {t : Str} : d p = some (.link t) → LeadsTo ps d (ps.follow p t) q → LeadsTo ps d p q

end ALint.Spec
