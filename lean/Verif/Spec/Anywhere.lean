import Verif.Spec.Pieces

/-!
# Where the includes of a context stand (specification)
-/

namespace ALint.Spec
open ALint

/-- The lines are `include` lines, comments and blank lines. -/
def IncludeLines (told : List Told) : Prop :=
  ∀ x ∈ told, x.gives = .nothing ∨ (∃ b w, x.gives = .elem (.empty b w)) ∨ ∃ v : VarE, x.gives = .elem (.var v) ∧ v.key = c! "include"

/-- The lines are lines of a context without `include` lines: there are neither headers, nor directives that include files. -/
def OtherLines (told : List Told) : Prop :=
  ∀ x ∈ told, x.gives = .nothing ∨ (∃ b w, x.gives = .elem (.empty b w)) ∨ ∃ v : VarE, x.gives = .elem (.var v) ∧ v.key ≠ c! "include"

/-- Two parts of a file change places: it consists of `above`, `one`, `two` and `rest` in `fs`, and of `above`, `two`, `one` and
`rest` in `fs'`.  All other files are the same. -/
structure PartsSwapped (fs fs' : FS) (path : Str) (above one two rest : Bytes) : Prop where
  before : fs path = some (above ++ (one ++ (two ++ rest)))
  after : fs' path = some (above ++ (two ++ (one ++ rest)))
  others : ∀ q, q ≠ path → fs' q = fs q
  whole : WholeLines above

end ALint.Spec
