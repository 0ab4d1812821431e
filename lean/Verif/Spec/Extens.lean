import Verif.Spec.Sections

/-!
# The extensions of a context (specification)
-/

namespace ALint.Spec
open ALint

/-- The lines `told` are the steps of the extension `pat`: the first one names the extension; the other ones are steps of this
extension (`same` or the extension once more), comments and blank lines. -/
structure BlockShape (pat : Pattern.Values) (told : List Told) : Prop where
  named : ∃ (v : VarE) (p : Parts) (raw : Str), told.head?.map (·.gives) = some (.elem (.var v)) ∧
    StepText v p ∧ p.exten = some raw ∧ Pattern.parse raw = .ok pat
  lines : ∀ x ∈ told, x.gives = .nothing ∨ (∃ b w, x.gives = .elem (.empty b w)) ∨
    ∃ (v : VarE) (p : Parts), x.gives = .elem (.var v) ∧ StepText v p ∧ ∀ raw, p.exten = some raw → Pattern.parse raw = .ok pat

/-- Moreover, the first step has a priority of its own: it is not `n`. -/
structure BlockLines (pat : Pattern.Values) (told : List Told) : Prop extends BlockShape pat told where
  starts : ∃ (v : VarE) (p : Parts) (raw : Str) (n : Nat), told.head?.map (·.gives) = some (.elem (.var v)) ∧
    StepText v p ∧ p.exten = some raw ∧ Pattern.parse raw = .ok pat ∧ p.prio = some n ∧ 1 ≤ n

/-- The text `b` consists of such lines. -/
def BlockOf (fs : FS) (path : Str) (pat : Pattern.Values) (b : Bytes) : Prop := TextIs fs path b (BlockLines pat)

/-- A file with a beginning and extensions. -/
def withBlocks (pre : Bytes) (blocks : List (Pattern.Values × Bytes)) : Bytes := pre ++ blocks.flatMap (·.2)

/-- The file consists of `pre` and the extensions `blocks` in `fs`, and of `pre` and the extensions `blocks'` in `fs'`; these
are the same in some order, no two of them are written the same way when made canonical, and all other files are the same. -/
structure BlocksMoved (fs fs' : FS) (path : Str) (pre : Bytes) (blocks blocks' : List (Pattern.Values × Bytes)) : Prop where
  before : fs path = some (withBlocks pre blocks)
  after : fs' path = some (withBlocks pre blocks')
  others : ∀ q, q ≠ path → fs' q = fs q
  whole : WholeLines pre
  same : blocks.Perm blocks'
  names : (blocks.map fun x => Pattern.canonical x.1).Nodup

/-- The context `name` has no step of one of these extensions yet. -/
def NoneOf (dp : Dialplan) (name : Str) (blocks : List (Pattern.Values × Bytes)) : Prop :=
  ∀ c, dp.get name = some c → ∀ s ∈ c.steps, ∀ x ∈ blocks, Pattern.canonical s.pat ≠ Pattern.canonical x.1

end ALint.Spec
