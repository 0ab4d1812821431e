import Verif.Spec.Dialplan
import Verif.Spec.Pattern

/-!
# Looking up jump destinations (specification)
-/

namespace ALint.Spec
open ALint

/-- Dialling `exten` reaches steps written with the extension `raw`.  Dashes are ignored; of
a pattern it suffices that it describes a beginning of what is dialled (C25). -/
def Dials (raw exten : Str) : Prop :=
  ∃ e, latin1? (exten.filter (· ≠ '-')) = some e ∧
    ∃ e', e' <+: e ∧ (raw.head? = some '_' ∨ e' = e) ∧ Describes raw e'

/-- The step has the priority or the label; for a text with variables: could have it (C37,
where a missing label counts as the text `None`). -/
def Fits (prio : Arg) (s : Step) : Prop :=
  (∃ n : Int, prio = .one (.int n) ∧ (s.prio : Int) = n) ∨
  (∃ l, prio = .one (.str l) ∧ s.label = some l) ∨
  (∃ v, prio = .one v ∧ v.isVar = true ∧
    (v.couldMatch (natStr s.prio) = true ∨ v.couldMatch (s.label.getD (c! "None")) = true))

/-- A priority as the applications give them: a number, a text, or a text with variables. -/
def Prio (prio : Arg) : Prop :=
  (∃ n, prio = .one (.int n)) ∨ (∃ l, prio = .one (.str l)) ∨ ∃ v, prio = .one v ∧ v.isVar = true

/-- `b` is a context of the dialplan and `a` includes it. -/
def Includes (dp : Dialplan) (a b : Str) : Prop :=
  ∃ c i, dp.get a = some c ∧ i ∈ c.includes ∧ i.1 = b ∧ (dp.get b).isSome

/-- `b` is `a` or included by it, over any number of contexts. -/
inductive Reaches (dp : Dialplan) (a : Str) : Str → Prop
  | self : Reaches dp a a
  | incl {b c : Str} : Reaches dp a b → Includes dp b c → Reaches dp a c

/-- There is a step for the extension and priority: in the context or an included one; if the
priority is a number, `i` with priority 1 will do. -/
def Findable (dp : Dialplan) (ctx exten : Str) (prio : Arg) (s : Step) : Prop :=
  ∃ c, dp.get c.name = some c ∧ Reaches dp ctx c.name ∧ s ∈ c.steps ∧
    ((Dials s.raw exten ∧ Fits prio s) ∨
     ((∃ n, prio = .one (.int n)) ∧ exten ≠ c! "i" ∧ Dials s.raw (c! "i") ∧ s.prio = 1))

/-- The destination of a jump is there, as far as it is known. -/
inductive JumpOk (dp : Dialplan) (d : Dest) : Prop
  /-- the context depends on variables; a label must be somewhere -/
  | anyContext (h : d.context.isVar = true)
      (hl : ∀ l, d.prio = .one (.str l) → ∃ c ∈ dp.contexts, ∃ s ∈ c.steps, Labelled s l)
  /-- the extension depends on variables; a label must be in the context -/
  | anyExten (name : Str) (c : DCtx) (hc : d.context = .str name) (hg : dp.get name = some c)
      (h : d.exten.isVar = true)
      (hl : ∀ l, d.prio = .one (.str l) → ∃ s ∈ c.steps, Labelled s l)
  | step (name x : Str) (c : DCtx) (s : Step) (hc : d.context = .str name) (hg : dp.get name = some c)
      (hx : d.exten = .str x) (hs : Findable dp name x d.prio s)

/-- The reports about jump destinations. -/
def jumpKind : MK → Bool
  | .E_DP_GOTO_NOLABEL | .E_DP_GOTO_NOCONTEXT | .E_DP_GOTO_CONTEXT_NOLABEL | .W_DP_GOTO_CONTEXT_NOEXTEN => true
  | _ => false

end ALint.Spec
