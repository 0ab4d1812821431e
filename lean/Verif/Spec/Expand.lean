import Verif.Model.File

/-!
# Include expansion (specification)

`inc w` says which file the line `w` pulls in (if any), `fs` which files can be
read.  `Expand fs inc f n ls t`: the lines `ls` of file `f`, the first of which has
number `n + 1`, expand to the finite tree `t`.
-/

namespace ALint.Spec
open ALint

/-- A finite include tree: the lines of a file, some followed by the tree of an
included file. -/
inductive Items where
  | nil
  | line (w : Where) (rest : Items)
  | incl (w : Where) (file : Str) (sub : Items) (rest : Items)

/-- Depth first, in place. -/
def Items.flatten : Items → List Where
  | .nil => []
  | .line w rest => w :: rest.flatten
  | .incl w _ sub rest => w :: (sub.flatten ++ rest.flatten)

/-- The file pulled in by a line, with its content. -/
def pulls (fs : Str → Option Bytes) (inc : Where → Option Str) (w : Where) : Option (Str × Bytes) :=
  match inc w with
  | none => none
  | some p => (fs p).map (fun c => (p, c))

inductive Expand (fs : Str → Option Bytes) (inc : Where → Option Str) :
    Str → Nat → List Bytes → Items → Prop
  | nil {f} {n : Nat} : Expand fs inc f n [] .nil
  | line {f} {n : Nat} {l ls t} : pulls fs inc ⟨f, (n : Int) + 1, l⟩ = none →
      Expand fs inc f (n + 1) ls t →
      Expand fs inc f n (l :: ls) (.line ⟨f, (n : Int) + 1, l⟩ t)
  | incl {f} {n : Nat} {l ls p c sub t} : pulls fs inc ⟨f, (n : Int) + 1, l⟩ = some (p, c) →
      Expand fs inc p 0 (physLines c) sub →
      Expand fs inc f (n + 1) ls t →
      Expand fs inc f n (l :: ls) (.incl ⟨f, (n : Int) + 1, l⟩ p sub t)

/-- Beginnings of a possibly infinite expansion. -/
inductive Begins (fs : Str → Option Bytes) (inc : Where → Option Str) :
    Str → Nat → List Bytes → List Where → Prop
  | nil {f} {n : Nat} {ls} : Begins fs inc f n ls []
  | line {f} {n : Nat} {l ls t} : pulls fs inc ⟨f, (n : Int) + 1, l⟩ = none →
      Begins fs inc f (n + 1) ls t →
      Begins fs inc f n (l :: ls) (⟨f, (n : Int) + 1, l⟩ :: t)
  | inside {f} {n : Nat} {l ls p c t} : pulls fs inc ⟨f, (n : Int) + 1, l⟩ = some (p, c) →
      Begins fs inc p 0 (physLines c) t →
      Begins fs inc f n (l :: ls) (⟨f, (n : Int) + 1, l⟩ :: t)
  | past {f} {n : Nat} {l ls p c sub t} : pulls fs inc ⟨f, (n : Int) + 1, l⟩ = some (p, c) →
      Expand fs inc p 0 (physLines c) sub →
      Begins fs inc f (n + 1) ls t →
      Begins fs inc f n (l :: ls) (⟨f, (n : Int) + 1, l⟩ :: (sub.flatten ++ t))

/-- The file `p` pulls in `q`. -/
def Pulls (fs : Str → Option Bytes) (inc : Where → Option Str) (p q : Str) : Prop :=
  ∃ content, fs p = some content ∧ ∃ (n : Nat) (l : Bytes),
    (physLines content)[n]? = some l ∧ ∃ c, pulls fs inc ⟨p, (n : Int) + 1, l⟩ = some (q, c)

/-- One or more steps of `Pulls`. -/
inductive PullsPlus (fs : Str → Option Bytes) (inc : Where → Option Str) : Str → Str → Prop
  | one {p q} : Pulls fs inc p q → PullsPlus fs inc p q
  | more {p q r} : Pulls fs inc p q → PullsPlus fs inc q r → PullsPlus fs inc p r

end ALint.Spec
