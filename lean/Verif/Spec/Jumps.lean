import Verif.Spec.Lookup
import Verif.Spec.App

/-!
# The jumps of a dialplan (specification)
-/

namespace ALint.Spec
open ALint

/-- The position that `start` means in a text of that length: counted from the end if
negative. -/
def startAt (len : Nat) (start : Int) : Int := if start < 0 then len + start else start

/-- The position behind the last character: `length` from the start, or that many before the
end if negative, or the end. -/
def endAt (len : Nat) (start : Int) : Option Int → Int
  | none => len
  | some n => if n < 0 then len + n else startAt len start + n

/-- The characters of `x` that `${EXTEN:start:length}` stands for. -/
def partOf (x : Str) (start : Int) (length : Option Int) : Str :=
  (x.zipIdx.filter fun p => startAt x.length start ≤ p.2 ∧ p.2 < endAt x.length start length).map (·.1)

example : partOf (c! "01234") 1 none = c! "1234" ∧ partOf (c! "01234") (-2) none = c! "34" ∧
    partOf (c! "01234") 1 (some 2) = c! "12" ∧ partOf (c! "01234") (-3) (some 2) = c! "23" ∧
    partOf (c! "01234") 1 (some (-1)) = c! "123" := by decide

mutual
/-- `s` is `v` with `x` for `EXTEN`, which is the only variable in it. -/
inductive Filled (x : Str) : V → Str → Prop
  | text (s : Str) : Filled x (.str s) s
  | joined (items : List V) (s : Str) (h : FilledAll x items s) : Filled x (.lst items) s
  | exten (name a b : V) (h : Filled x name (c! "EXTEN")) : Filled x (.atom .var name a b) x
  | from_ (name : V) (start : Int) (h : Filled x name (c! "EXTEN")) :
      Filled x (.atom .slice name (.int start) .none) (partOf x start none)
  /-- the other lengths are refused when the variable is read -/
  | slice (name : V) (start n : Int) (h : Filled x name (c! "EXTEN")) (hn : n ≠ 0)
      (hneg : start < 0 → 0 < n → start + n < 0) :
      Filled x (.atom .slice name (.int start) (.int n)) (partOf x start (some n))
inductive FilledAll (x : Str) : List V → Str → Prop
  | nil : FilledAll x [] []
  | cons (v : V) (vs : List V) (s t : Str) (h : Filled x v s) (hs : FilledAll x vs t) : FilledAll x (v :: vs) (s ++ t)
end

/-- There is another variable than `EXTEN` in it. -/
inductive Foreign (x : Str) : V → Prop
  | name (k : Kind) (name a b : V) (key : Str) (h : Filled x name key) (hne : key ≠ c! "EXTEN") :
      Foreign x (.atom k name a b)
  | inner (k : Kind) (name a b : V) (h : Foreign x name) : Foreign x (.atom k name a b)
  | joined (items : List V) (v : V) (hv : v ∈ items) (h : Foreign x v) : Foreign x (.lst items)

/-- Nothing is given: missing or empty (or zero, which no application gives). -/
def Missing (v : V) : Prop := v = .none ∨ v = .int 0 ∨ v = .str [] ∨ ∃ items, v = .lst items ∧ v.tokens = []

/-- The destination `d` of the jump `j` of a step in the context `name`, for whose extension
`x` can be dialled. -/
structure Completed (name x : Str) (w : Where) (j : Jump) (d : Dest) : Prop where
  place : d.at_ = w
  context : ¬ Missing j.context → d.context = j.context
  sameContext : Missing j.context → d.context = .str name
  here : Missing j.exten → d.exten = .str x
  text : ∀ s, s ≠ [] → j.exten = .str s → d.exten = .str s
  filled : ∀ s, ¬ Missing j.exten → Filled x j.exten s → d.exten = .str s
  unknown : Foreign x j.exten → d.exten = j.exten
  either : d.exten = j.exten ∨ ∃ s, d.exten = .str s
  number : ∀ ds, ds ≠ [] → (∀ c ∈ ds, c.isDigit = true) → j.prio = .one (.str ds) → d.prio = natV (decimal ds)
  other : (∀ s, j.prio = .one (.str s) → s = [] ∨ ∃ c ∈ s, isDigitC c = false) → d.prio = j.prio

/-- The jumps of an application, for whichever spelling of `Background` is the accepted one. -/
def JumpsOf (env : DEnv) (s : Step) (js : List Jump) : Prop :=
  ∃ sp sp', (runApp env.toAEnv env.depth sp s.at_ (strV s.app)).val = .ok (sp', js)

/-- A step with its context and the destinations of its jumps. -/
structure Jumping where
  context : Str
  step : Step
  dests : List Dest

end ALint.Spec
