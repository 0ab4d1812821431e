import Verif.Spec.Odbc
import Verif.Model.Odbc
import Verif.Spec.Sections

/-!
# The order of the functions of a func_odbc.conf (specification)
-/

namespace ALint.Spec
open ALint

/-- Lines that begin with a header; they do not include other files. -/
structure PartLines (told : List Told) : Prop where
  header : ∃ c, (told.head?.map (·.gives)) = some (.elem (.ctx c))
  shut : ∀ x ∈ told, ∀ f, x.gives ≠ .file f

/-- The file consists of `pre` and of `parts`, which all begin with a header, in `fs`; in `fs'` it consists of `pre` and of the same
parts in some order; and all other files are the same. -/
structure PartsMoved (fs fs' : FS) (path : Str) (pre : Bytes) (parts parts' : List Bytes) : Prop where
  before : fs path = some (pre ++ parts.flatten)
  after : fs' path = some (pre ++ parts'.flatten)
  others : ∀ q, q ≠ path → fs' q = fs q
  whole : WholeLines pre
  same : parts.Perm parts'
  header : ∀ b ∈ parts, TextIs fs path b PartLines

/-- A function as it is written: the name of the section and its settings. -/
def fnText (f : OdbcFn) : Str × Str × List (Str × Str) := (f.name, f.templates, f.sets.map fun v => (v.key, v.value))

/-- The functions known after reading, and those read, as they are written. -/
def loadedText (r : FEnv × List OdbcFn) : FEnv × List (Str × Str × List (Str × Str)) := (r.1, r.2.map fnText)

/-- The same functions are known, but for small and capital letters in the names of those that are defined more than once. -/
structure KnowsSame (env env' : FEnv) : Prop where
  lower : env'.lower = env.lower
  funcs : ∀ k, env'.funcs k = env.funcs k ∨
    ∃ f name, env.funcs k = some f ∧ env'.funcs k = some { f with name := name } ∧ env.lower f.name = k ∧ env.lower name = k

end ALint.Spec
