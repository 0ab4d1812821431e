import Verif.Py.Int

/-!
# Similar identifiers: what is meant
-/

namespace ALint.Spec

/-- `b` is `a` with `n` characters replaced, left out or added. -/
inductive Edits : Nat → Str → Str → Prop
  | nil : Edits 0 [] []
  | keep {n : Nat} {a b : Str} (x : Char) : Edits n a b → Edits n (x :: a) (x :: b)
  | replace {n : Nat} {a b : Str} (x y : Char) : Edits n a b → Edits (n + 1) (x :: a) (y :: b)
  | drop {n : Nat} {a b : Str} (x : Char) : Edits n a b → Edits (n + 1) (x :: a) b
  | add {n : Nat} {a b : Str} (y : Char) : Edits n a b → Edits (n + 1) a (y :: b)

/-- The Levenshtein distance. -/
def Distance (n : Nat) (a b : Str) : Prop := Edits n a b ∧ ∀ m, Edits m a b → n ≤ m

/-- Two identifiers look like each other: at most two edits apart, and not too short for that. -/
def Alike (lower : Str → Str) (a b : Str) : Prop :=
  ∃ n, Distance n (lower a) (lower b) ∧ n ≤ 2 ∧ n + 1 < a.length ∧ n + 1 < b.length

/-- `ARG1`, `ARG2`, ... -/
def ArgName (a : Str) : Prop := ∃ d : Str, d ≠ [] ∧ (∀ c ∈ d, isDigitC c = true) ∧ a = c! "ARG" ++ d

/-- Pairs that are fine: the same in upper and lower case, and `ARGn`. -/
def Exempt (lower : Str → Str) (isUpper isLower : Str → Bool) (a b : Str) : Prop :=
  (lower a = lower b ∧ ((isUpper a = true ∧ isLower b = true) ∨ (isLower a = true ∧ isUpper b = true))) ∨
  (ArgName a ∧ ArgName b)

/-- No other identifier is strictly between the two. -/
def Beside (before : Str → Str → Bool) (ids : List Str) (a b : Str) : Prop :=
  ∀ c ∈ ids, ¬ (before a c = true ∧ before c b = true) ∧ ¬ (before b c = true ∧ before c a = true)

end ALint.Spec
