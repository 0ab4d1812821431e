import Verif.Spec.Splice
import Verif.Spec.Dialplan

/-!
# Ways to write the next step of an extension (specification)
-/

namespace ALint.Spec
open ALint

/-- The parts of a line for the step behind `s`: the extension is written out, in its canonical
spelling, or `same` is used; the priority is written out, or `n` is used. -/
structure NextStep (s : Step) (p : Parts) : Prop where
  exten : p.exten = none ∨ p.exten = some s.raw ∧ Pattern.noDash s.raw = Pattern.canonical s.pat
  prio : p.prio = none ∨ p.prio = some (s.prio + 1)

/-- The line is the assignment `v`, there is nothing to say about how it is written, and its parts are `p`. -/
structure StepLine (fs : FS) (w : Where) (v : VarE) (p : Parts) : Prop where
  reads : LineTells fs w [] (.elem (.var v))
  arrow : v.arrow = true
  parts : StepText v p

/-- The line `above`, below `pre`, adds the step `s` to the dialplan. -/
structure AddedAbove (fs : FS) (env : DEnv) (sp : Option Str) (path : Str) (pre above : Bytes) (s : Step) : Prop where
  whole : WholeLines pre ∧ WholeLines above
  one : physLines above = [above]
  plain : ∃ ms e, LineTells fs ⟨path, ((physLines pre).length : Int) + 1, above⟩ ms (.elem e)
  adds : ∃ n n' log log' st st' name, checkDialplan fs env sp n path pre = ⟨log, .ok (some st)⟩ ∧
    checkDialplan fs env sp n' path (pre ++ above) = ⟨log', .ok (some st')⟩ ∧ Adds st.dp st'.dp name s

end ALint.Spec
