import Verif.Spec.Expand
import Verif.Model.Handles

/-!
# Open files (specification)
-/

namespace ALint.Spec
open ALint

/-- The files open after what happened, innermost first, given those open before: an opened file is
put on top, only the file on top is closed, and lines come only from the file on top. -/
inductive OpenAfter : List Str → List Act → List Str → Prop
  | done {open_ : List Str} : OpenAfter open_ [] open_
  | opened {p : Str} {open_ open' : List Str} {as : List Act} : OpenAfter (p :: open_) as open' →
      OpenAfter open_ (.opened p :: as) open'
  | refused {p : Str} {open_ open' : List Str} {as : List Act} : OpenAfter open_ as open' →
      OpenAfter open_ (.refused p :: as) open'
  | closed {p : Str} {open_ open' : List Str} {as : List Act} : OpenAfter open_ as open' →
      OpenAfter (p :: open_) (.closed p :: as) open'
  | line {w : Where} {p : Str} {open_ open' : List Str} {as : List Act} : w.filename = p → OpenAfter (p :: open_) as open' →
      OpenAfter (p :: open_) (.line w :: as) open'

/-- How many files are open in the file itself at most, besides it. -/
def Items.nest : Items → Nat
  | .nil => 0
  | .line _ rest => rest.nest
  | .incl _ _ sub rest => max (sub.nest + 1) rest.nest

/-- `Expand`, when no more than `d` further files can be open; `refused` are the lines whose file
is there but not opened. -/
inductive ExpandIn (fs : Str → Option Bytes) (inc : Where → Option Str) :
    Nat → Str → Nat → List Bytes → Items → List Where → Prop
  | nil {d f} {n : Nat} : ExpandIn fs inc d f n [] .nil []
  | line {d f} {n : Nat} {l ls t r} : pulls fs inc ⟨f, (n : Int) + 1, l⟩ = none →
      ExpandIn fs inc d f (n + 1) ls t r →
      ExpandIn fs inc d f n (l :: ls) (.line ⟨f, (n : Int) + 1, l⟩ t) r
  | full {f} {n : Nat} {l ls p c t r} : pulls fs inc ⟨f, (n : Int) + 1, l⟩ = some (p, c) →
      ExpandIn fs inc 0 f (n + 1) ls t r →
      ExpandIn fs inc 0 f n (l :: ls) (.line ⟨f, (n : Int) + 1, l⟩ t) (⟨f, (n : Int) + 1, l⟩ :: r)
  | incl {d f} {n : Nat} {l ls p c sub t r r'} : pulls fs inc ⟨f, (n : Int) + 1, l⟩ = some (p, c) →
      ExpandIn fs inc d p 0 (physLines c) sub r →
      ExpandIn fs inc (d + 1) f (n + 1) ls t r' →
      ExpandIn fs inc (d + 1) f n (l :: ls) (.incl ⟨f, (n : Int) + 1, l⟩ p sub t) (r ++ r')

/-- The lines delivered, in order. -/
def linesIn : List Act → List Where
  | [] => []
  | .line w :: as => w :: linesIn as
  | _ :: as => linesIn as

end ALint.Spec
