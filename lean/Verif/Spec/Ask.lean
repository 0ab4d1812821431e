import Verif.Model.Ask
import Verif.Spec.Mutator

/-!
# What is said before files are rewritten (specification)
-/

namespace ALint.Spec
open ALint

/-- The question. -/
def question : Str := c! "Update all [y/n] ? "

/-- The files with issues, one below the other. -/
def indented : List Str → Str
  | [] => []
  | [f] => c! "  " ++ f
  | f :: fs => c! "  " ++ f ++ c! "\n" ++ indented fs

/-- Everything up to the answer, if there is something to do. -/
def upToQuestion {P : Type} (title : Str) (files : List Str) : List (Deed P) :=
  [.said title, .said (c! "Parsing current config..."), .said [], .said (c! "The following files have issues:"),
    .said (indented files), .asked question]

/-- The line before a file is overwritten. -/
def overwriting (name : Str) : Str := c! "Overwriting " ++ name ++ c! " ..."

/-- What is seen on the screen: all but the changes of the disk. -/
def screen {P : Type} : List (Deed P) → List (Deed P)
  | [] => []
  | .disk _ :: ds => screen ds
  | x :: ds => x :: screen ds

/-- The name overwritten for a file: its own, or the text of the link it is. -/
def NameFor {P : Type} (ps : Paths P) (d : Disk P) (f name : Str) : Prop :=
  name = f ∨ d (ps.name f) = some (.link name)

/-- In a list of deeds that begins with the disk `d`, nothing is changed silently: an entry other than a
temporary one that differs from what it was has been announced before. -/
def Announced {P : Type} (ps : Paths P) (tmps : Str → P) (d : Disk P) (files : List Str) (deeds : List (Deed P)) : Prop :=
  ∀ before after d', deeds = before ++ .disk d' :: after → ∀ p, d' p ≠ d p →
    (∃ f ∈ files, p = tmps f) ∨
    ∃ f ∈ files, ∃ name, NameFor ps d f name ∧ p = ps.name name ∧ Deed.said (overwriting name) ∈ before

end ALint.Spec
