import Verif.Spec.Args

/-!
# The options of the commands (specification)
-/

namespace ALint.Spec
open ALint

/-- Of `--name` so much that it can be told from the others: the dashes and a letter at least. -/
def ShortFor (name w : Str) : Prop := w <+: name ∧ 3 ≤ w.length

/-- The word uses one of the options `names`: a group of letters with one of them in front, or one of the long names
or a part of it, perhaps with a value. -/
def Offered (names : List Str) (w : Str) : Prop :=
  (∃ c s, w = '-' :: c :: s ∧ c ≠ '-' ∧ ['-', c] ∈ names) ∨
  ∃ pre v name, LongWord w pre v ∧ name ∈ names ∧ pre <+: name

/-- A word that starts like an option: a dash and more, no blank, no negative number. -/
def LikeOption (negNum : Str → Bool) (w : Str) : Prop := Dashed w ∧ ' ' ∉ w ∧ negNum w = false

end ALint.Spec
