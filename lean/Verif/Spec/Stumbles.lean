import Verif.Spec.Lookup

/-!
# Where looking up a jump ends with an internal error (specification)
-/

namespace ALint.Spec
open ALint

/-- None of the steps of the context itself is for the extension and priority. -/
def Passed (c : DCtx) (exten : Str) (prio : Arg) : Prop := ∀ s ∈ c.steps, ¬ (Dials s.raw exten ∧ Fits prio s)

/-- A search in `a` comes to `b`, which `a` includes: there is nothing in `a` itself, nor in
the contexts it includes before. -/
def GoesOn (dp : Dialplan) (exten : Str) (prio : Arg) (a b : Str) : Prop :=
  ∃ c pre i post, dp.get a = some c ∧ Passed c exten prio ∧ c.includes = pre ++ i :: post ∧ i.1 = b ∧
    (dp.get b).isSome ∧ ∀ j ∈ pre, ∀ s, ¬ Findable dp j.1 exten prio s

/-- A search in `a` comes to `b`, over any number of contexts. -/
inductive ComesTo (dp : Dialplan) (exten : Str) (prio : Arg) (a : Str) : Str → Prop
  | self : ComesTo dp exten prio a a
  | on {b c : Str} : ComesTo dp exten prio a b → GoesOn dp exten prio b c → ComesTo dp exten prio a c

/-- A search that starts in `ctx` comes to a context, goes on, and comes there again. -/
def Circles (dp : Dialplan) (ctx exten : Str) (prio : Arg) : Prop :=
  ∃ a b, ComesTo dp exten prio ctx a ∧ GoesOn dp exten prio a b ∧ ComesTo dp exten prio b a

/-- A search that ends with an internal error: it goes in circles; or it comes to a step with
an extension that is not within Latin-1; or to a step that is dialled, with a priority that is
neither number nor text. -/
inductive SearchFails (dp : Dialplan) (ctx exten : Str) (prio : Arg) : Prop
  | circle (h : Circles dp ctx exten prio)
  | latin1 (c : DCtx) (s : Step) (hc : dp.get c.name = some c) (hr : Reaches dp ctx c.name) (hs : s ∈ c.steps)
      (h : ∃ ch ∈ exten, 256 ≤ ch.toNat)
  | prio (c : DCtx) (s : Step) (hc : dp.get c.name = some c) (hr : Reaches dp ctx c.name) (hs : s ∈ c.steps)
      (hd : Dials s.raw exten) (h : ¬ Prio prio)

/-- A destination with a part that cannot be made a text. -/
def Unprintable (d : Dest) : Prop :=
  (∃ e, d.context.toStr = .error e) ∨ (∃ e, d.exten.toStr = .error e) ∨ ∃ v e, d.prio = .one v ∧ v.toStr = .error e

/-- A destination that ends the walk with an internal error: its search does, or it is wrong
and cannot be reported. -/
inductive Stumbles (dp : Dialplan) (d : Dest) : Prop
  | search (name x : Str) (hc : d.context = .str name) (hx : d.exten = .str x) (h : SearchFails dp name x d.prio)
  | report (hj : ¬ JumpOk dp d) (hu : Unprintable d)

end ALint.Spec
