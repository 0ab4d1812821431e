import Verif.Spec.CanonProgram
import Verif.Spec.Pattern
import Verif.Props.Canon

/-!
# What becomes of a dialplan when its patterns are made canonical (specification)
-/

namespace ALint.Spec
open ALint Props

/-- The hints of the log are about lines of valid UTF-8; the canonical spelling can express the
pattern and is considered canonical, the pattern has no (escaped) semicolon, and the canonical
spelling can stand in the place of the pattern. -/
structure Fit (log : List Msg) : Prop where
  text : ∀ m ∈ log, m.kind = .H_PAT_NON_CANONICAL → ∃ text, m.at_.line = utf8 text
  pats : ∀ f l pat expected, HintAt log f l pat expected →
    Expressible pat ∧ Bracketless pat ∧ ';' ∉ pat ∧ CanStand expected

/-- The lists are as long, and what is at the same place belongs together. -/
def Matched {α : Type} (R : α → α → Prop) (l l' : List α) : Prop :=
  l'.length = l.length ∧ ∀ (k : Nat) a a', l[k]? = some a → l'[k]? = some a' → R a a'

/-- The same line of the same file, whatever is in it. -/
def SamePlace (w w' : Where) : Prop := w'.filename = w.filename ∧ w'.lineno = w.lineno

/-- The same step, with the pattern spelled as before or as expected by a hint of the log. -/
structure SameStep (log : List Msg) (s s' : Step) : Prop where
  prio : s'.prio = s.prio
  label : s'.label = s.label
  app : s'.app = s.app
  comment : s'.comment = s.comment
  place : SamePlace s.at_ s'.at_
  spelling : s'.raw = s.raw ∨ ∃ f l, HintAt log f l s.raw s'.raw
  reads : Pattern.parse s.raw = .ok s.pat ∧ Pattern.parse s'.raw = .ok s'.pat
  stands : ∀ e, Describes s'.raw e ↔ Describes s.raw e

structure SameContext (log : List Msg) (c c' : DCtx) : Prop where
  name : c'.name = c.name
  at_ : c'.at_ = c.at_
  includes : c'.includes = c.includes
  steps : Matched (SameStep log) c.steps c'.steps

structure SameDest (d d' : Dest) : Prop where
  context : d'.context = d.context
  exten : d'.exten = d.exten
  prio : d'.prio = d.prio
  place : SamePlace d.at_ d'.at_

/-- The same dialplan, with the patterns spelled as before or as expected by hints of the log. -/
structure SamePlan (log : List Msg) (dp dp' : Dialplan) : Prop where
  general : dp'.general = dp.general
  globals : dp'.globals = dp.globals
  contexts : Matched (SameContext log) dp.contexts dp'.contexts
  dests : Matched SameDest dp.dests dp'.dests
  labels : dp'.allLabels = dp.allLabels

/-- What is used: the applications, the functions, and the names of the variables. -/
def namesUsed : List Ev → List (Nat × Str)
  | [] => []
  | .msg _ :: us => namesUsed us
  | .var x _ :: us => (0, x) :: namesUsed us
  | .func x :: us => (1, x) :: namesUsed us
  | .app x :: us => (2, x) :: namesUsed us

end ALint.Spec
