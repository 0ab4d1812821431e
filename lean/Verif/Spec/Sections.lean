import Verif.Spec.Splice
import Verif.Spec.Dialplan
import Verif.Spec.Vsw

/-!
# The sections of a dialplan file (specification)
-/

namespace ALint.Spec
open ALint

/-- The first step among the assignments, if any, has an extension and a priority of its own: it is
not `same`, nor has it the priority `n`. -/
inductive OwnStart : List VarE → Prop
  | none : OwnStart []
  | other {v : VarE} {vs : List VarE} : v.key ≠ c! "exten" → v.key ≠ c! "same" → OwnStart vs → OwnStart (v :: vs)
  | step {v : VarE} {vs : List VarE} {p : Parts} {raw : Str} {n : Nat} :
      StepText v p → p.exten = some raw → p.prio = some n → 1 ≤ n → OwnStart (v :: vs)

/-- The lines `told` are a header with the name of a context and what follows up to the next header,
without includes. -/
structure SectionShape (name : Str) (told : List Told) : Prop where
  header : ∃ c, (told.head?.map (·.gives)) = some (.elem (.ctx c)) ∧ c.name = name
  named : name ≠ c! "general" ∧ name ≠ c! "globals"
  body : ∀ x ∈ told.tail, (∀ c, x.gives ≠ .elem (.ctx c)) ∧ ∀ f, x.gives ≠ .file f

/-- Moreover, the first step does not depend on what was above. -/
structure SectionLines (name : Str) (told : List Told) : Prop extends SectionShape name told where
  own : OwnStart (varsOf (elemsOf told))

/-- The places of lines, below line `n` of a file. -/
def linesFrom (path : Str) : Nat → List Bytes → List Where
  | _, [] => []
  | n, l :: ls => ⟨path, (n : Int) + 1, l⟩ :: linesFrom path (n + 1) ls

/-- The text `b` consists of whole lines; read below some line of the file, its lines are as `P` says. -/
def TextIs (fs : FS) (path : Str) (b : Bytes) (P : List Told → Prop) : Prop :=
  WholeLines b ∧ ∃ (n : Nat) (told : List Told), told.map (·.line) = linesFrom path n (physLines b) ∧
    (∀ x ∈ told, LineTells fs x.line x.msgs x.gives) ∧ P told

/-- The text `b` is such a section. -/
def SectionOf (fs : FS) (path : Str) (name : Str) (b : Bytes) : Prop := TextIs fs path b (SectionLines name)

/-- A file with a beginning and sections. -/
def withSections (pre : Bytes) (secs : List (Str × Bytes)) : Bytes := pre ++ secs.flatMap (·.2)

/-- The file consists of `pre` and the sections `secs` in `fs`, and of `pre` and the sections `secs'` in `fs'`; these are the same
sections in some order, the names of the contexts are different, and all other files are the same. -/
structure SectionsMoved (fs fs' : FS) (path : Str) (pre : Bytes) (secs secs' : List (Str × Bytes)) : Prop where
  before : fs path = some (withSections pre secs)
  after : fs' path = some (withSections pre secs')
  others : ∀ q, q ≠ path → fs' q = fs q
  whole : WholeLines pre
  same : secs.Perm secs'
  names : (secs.map (·.1)).Nodup

/-- The same messages in some order, but for the numbers of lines. -/
def SameInSomeOrder (log log' : List Msg) : Prop := ∃ l, log.Perm l ∧ Zips SameWords l log'

end ALint.Spec
