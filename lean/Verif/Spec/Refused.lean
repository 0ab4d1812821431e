import Verif.Spec.Disregarded

/-!
# Steps that are refused (specification)
-/

namespace ALint.Spec
open ALint

/-- The lines are assignments, comments, blank lines and lines that are none at all. -/
def AssignmentLines (told : List Told) : Prop :=
  ∀ x ∈ told, x.gives = .nothing ∨ (∃ b w, x.gives = .elem (.empty b w)) ∨ ∃ v : VarE, x.gives = .elem (.var v)

/-- The lines between the states `s` and `t` of a check have not become part of the dialplan: in the context `a`, the dialplan
has the contexts, includes and steps it had. -/
structure NotTaken (a : Str) (s t : DState) : Prop where
  within : s.cur = .ctx a
  same : dialplanText t.dp = dialplanText s.dp

/-- A step that follows is taken for the same: the last priority of the dialplan and that of the context `a` are the same, and
`Background` is spelled in the same way. -/
structure SameForNext (a : Str) (s t : DState) : Prop where
  last : t.dp.lastPrio = s.dp.lastPrio
  here : (t.dp.get a).map (·.lastPrio) = (s.dp.get a).map (·.lastPrio)
  spelling : t.sp = s.sp

/-- The text is empty or its first line is a step with an extension and a priority of its own. -/
def OwnStepText (fs : FS) (path : Str) (b : Bytes) : Prop :=
  ∀ l ∈ (physLines b).head?, ∃ n ms v p raw k, LineTells fs ⟨path, n, l⟩ ms (.elem (.var v)) ∧ StepText v p ∧ p.exten = some raw ∧
    p.prio = some k ∧ 1 ≤ k

end ALint.Spec
