import Verif.Py.Str

/-!
# Words and lines of a text
-/

namespace ALint.Spec
open ALint

/-- The words of a text: non-empty, without white space, with white space around. -/
inductive Words : Str → List Str → Prop
  | nil {s : Str} : (∀ c ∈ s, isSpace c = true) → Words s []
  | cons {a w rest : Str} {ws : List Str} : (∀ c ∈ a, isSpace c = true) → w ≠ [] → (∀ c ∈ w, isSpace c = false) →
      (∀ c ∈ rest.head?, isSpace c = true) → Words rest ws → Words (a ++ w ++ rest) (w :: ws)

/-- Words with one space between them. -/
def spaced (ws : List Str) : Str := joinWith ' ' ws

/-- Lines, all but the first indented. -/
def paragraph (indent : Str) (lines : List Str) : Str :=
  joinWith '\n' ((lines.take 1) ++ (lines.drop 1).map (indent ++ ·))

end ALint.Spec
