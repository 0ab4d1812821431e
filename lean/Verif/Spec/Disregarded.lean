import Verif.Spec.Anywhere

/-!
# Lines that are disregarded (specification)
-/

namespace ALint.Spec
open ALint

/-- Assignments that are disregarded: those above the first header, those in a second `[globals]`, and those of a dialplan context
that are neither steps nor includes. -/
def Disregarded (cur : Cur) (v : VarE) : Prop :=
  cur = .none ∨ cur = .detached ∨ (∃ a, cur = .ctx a) ∧ v.key ≠ c! "exten" ∧ v.key ≠ c! "same" ∧ v.key ≠ c! "include"

/-- The lines are such assignments, lines that are none at all (`#exec`, or not understood), comments and blank lines. -/
def DisregardedLines (cur : Cur) (told : List Told) : Prop :=
  ∀ x ∈ told, x.gives = .nothing ∨ (∃ b w, x.gives = .elem (.empty b w)) ∨ ∃ v : VarE, x.gives = .elem (.var v) ∧ Disregarded cur v

/-- The file consists of `above`, `part` and `rest` in `fs`, and of `above` and `rest` in `fs'`.  All other files are the same. -/
structure PartAbsent (fs fs' : FS) (path : Str) (above part rest : Bytes) : Prop where
  present : fs path = some (above ++ (part ++ rest))
  absent : fs' path = some (above ++ rest)
  others : ∀ q, q ≠ path → fs' q = fs q
  whole : WholeLines above

/-- The messages `log` are the messages `log'`, but for the numbers of lines, with some messages about the lines `ws` in between. -/
def LinesLess (ws : List Where) (log log' : List Msg) : Prop :=
  ∃ a l b, log = a ++ (l ++ b) ∧ (∀ m ∈ l, m.at_ ∈ ws) ∧ Zips SameWords (a ++ b) log'

end ALint.Spec
