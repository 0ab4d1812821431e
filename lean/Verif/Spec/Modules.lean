import Verif.Py.Str

/-!
# The listing of modules: what is meant
-/

namespace ALint.Spec

/-- Words with a comma and a space between them. -/
def commas : List Str → Str
  | [] => []
  | [w] => w
  | w :: v :: ws => w ++ c! ", " ++ commas (v :: ws)

/-- `Answer(), Dial()`. -/
def calls (names : List Str) : Str := commas (names.map (· ++ c! "()"))

/-- One line for each group of names; a line that is not the last ends with a comma. -/
def callLines : List (List Str) → List Str
  | [] => []
  | [g] => [calls g]
  | g :: h :: gs => (calls g ++ c! ",") :: callLines (h :: gs)

/-- A line with a module, or without it, and names. -/
def column (module text : Str) : Str :=
  c! ";   " ++ module ++ List.replicate (20 - module.length) ' ' ++ c! "  " ++ text

/-- The module on the first line only. -/
def columns (module : Str) : List Str → List Str
  | [] => []
  | l :: ls => column module l :: ls.map (column [])

end ALint.Spec
