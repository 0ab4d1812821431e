import Verif.Model.Mutator

/-!
# Rewritten files (specification)
-/

namespace ALint.Spec
open ALint

/-- The lines of a file with the lines of the issues replaced, all others as they were. -/
def replaced (issues : List Issue) (lines : List Bytes) : List Bytes :=
  lines.mapIdx fun k line =>
    match issues.find? (fun i => i.lineno == (k : Int)) with
    | some i => (i.out line).1.flatten
    | none => line

/-- No rewriter raises on its line. -/
def NoneRaises (issues : List Issue) (lines : List Bytes) : Prop :=
  ∀ i ∈ issues, ∀ (k : Nat) line, lines[k]? = some line → i.lineno = k → (i.out line).2 = none

/-- Issues on strictly increasing lines, from 0. -/
structure Increasing (issues : List Issue) : Prop where
  start : ∀ i ∈ issues, 0 ≤ i.lineno
  order : List.Pairwise (fun i j => i.lineno < j.lineno) issues

/-- The content of the file a path leads to. -/
def contentAt {P : Type} (ps : Paths P) (d : Disk P) (path : Str) : Option Bytes :=
  match d.stat ps path with
  | some (.file c _ _ _) => some c
  | _ => none

/-- The path is no link, or a link whose text names the same entry from the current directory
as from the directory of the link (an absolute one, say). -/
def Direct {P : Type} (ps : Paths P) (d : Disk P) (path : Str) : Prop :=
  ∀ t, d (ps.name path) = some (.link t) → ps.follow (ps.name path) t = ps.name t

end ALint.Spec
