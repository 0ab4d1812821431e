import Verif.Spec.Jumps

/-!
# The destinations of jumps, exactly (specification)

`Completed` in `Spec/Jumps` says what the destination of a jump should be.  Here is what it is, whatever the
jump looks like; the destinations that differ from what they should be are those of `$[EXTEN]` and of a part
of `EXTEN` whose bounds depend on variables: `EXTEN` is taken as a whole.
-/

namespace ALint.Spec
open ALint

mutual
/-- `s` is what is taken for the text of `v`, with `x` for `EXTEN`; there is none if there are
other variables or functions. -/
inductive Taken (x : Str) : V → Str → Prop
  | text (s : Str) : Taken x (.str s) s
  | joined (items : List V) (s : Str) (h : TakenAll x items s) : Taken x (.lst items) s
  | whole (k : Kind) (name a b : V) (hk : k = .var ∨ k = .expr ∨ k = .dynSlice) (h : Taken x name (c! "EXTEN")) :
      Taken x (.atom k name a b) x
  | from_ (name : V) (start : Int) (h : Taken x name (c! "EXTEN")) :
      Taken x (.atom .slice name (.int start) .none) (partOf x start none)
  | slice (name : V) (start n : Int) (h : Taken x name (c! "EXTEN")) (hn : n ≠ 0)
      (hneg : start < 0 → 0 < n → start + n < 0) :
      Taken x (.atom .slice name (.int start) (.int n)) (partOf x start (some n))
inductive TakenAll (x : Str) : List V → Str → Prop
  | nil : TakenAll x [] []
  | cons (v : V) (vs : List V) (s t : Str) (h : Taken x v s) (hs : TakenAll x vs t) : TakenAll x (v :: vs) (s ++ t)
end

/-- A priority of digits that are not all decimal digits, as in `²`. -/
def BadNumber (p : Arg) : Prop := ∃ s, p = .one (.str s) ∧ isDigitS s = true ∧ decNat 0 s = none

/-- The destination `d` of the jump `j` of a step in the context `name`, for whose extension
`x` can be dialled. -/
structure CompletedAs (name x : Str) (w : Where) (j : Jump) (d : Dest) : Prop where
  place : d.at_ = w
  context : ¬ Missing j.context → d.context = j.context
  sameContext : Missing j.context → d.context = .str name
  here : Missing j.exten → d.exten = .str x
  taken : ∀ s, ¬ Missing j.exten → Taken x j.exten s → d.exten = .str s
  unknown : ¬ Missing j.exten → (∀ s, ¬ Taken x j.exten s) → d.exten = j.exten
  number : ∀ s, j.prio = .one (.str s) → isDigitS s = true → ∃ n, decNat 0 s = some n ∧ d.prio = natV n
  other : (∀ s, j.prio = .one (.str s) → isDigitS s = false) → d.prio = j.prio

end ALint.Spec
