import Verif.Spec.App

/-!
# Conditions of `GotoIf` and the like (specification)
-/

namespace ALint.Spec
open ALint

/-- Text with variables is cut at exactly the delimiters at top level. -/
def Pieces (d : Char) (toks : List V) (parts : List (List V)) : Prop :=
  parts ≠ [] ∧ sepBy (.str [d]) parts = toks ∧
  ∀ pre post, toks = pre ++ .str [d] :: post →
    (TopLevel (letters pre) ↔ ∃ l r, l ≠ [] ∧ r ≠ [] ∧ parts = l ++ r ∧ pre = sepBy (.str [d]) l)

/-- Quotes and backslashes removed; a backslash makes the next character (not: variable) an ordinary
one. -/
def unquoteToks : (escaped : Bool) → List V → List V
  | _, [] => []
  | true, .str s :: ts => .str s :: unquoteToks false ts
  | false, .str s :: ts =>
    if s = c! "\"" then unquoteToks false ts
    else if s = c! "\\" then unquoteToks true ts
    else .str s :: unquoteToks false ts
  | e, t :: ts => t :: unquoteToks e ts

/-- White space only. -/
def BlankToks (toks : List V) : Prop := ∀ t ∈ toks, ∃ c, t = .str [c] ∧ isSpace c = true

/-- There is a character other than white space around. -/
def Constant (toks : List V) : Prop :=
  ∃ pre c post, toks = pre ++ .str [c] :: post ∧ (isSpace c = false ∨ ¬ BlankToks pre ∧ ¬ BlankToks post)

/-- Text in which each variable has a name and can be printed. -/
def Sound (data : V) : Prop :=
  isText data = true ∧ ∀ k n s l, V.atom k n s l ∈ data.tokens → n.truthy = true ∧ ∃ t, (V.atom k n s l).toStr = .ok t

/-- What is said about the parts of a condition, the first part being that before the question
mark: nothing about two parts. -/
inductive PartsReport (data : List V) : List V → List MK → Prop
  | two {c s : List V} : Pieces '?' data [c, s] → PartsReport data (unquoteToks false c) []
  | many {c s m : List V} {more : List (List V)} : Pieces '?' data (c :: s :: m :: more) →
      PartsReport data (unquoteToks false c) [.E_APP_ARG_MANY]
  | old {c a : List V} {more : List (List V)} : Pieces '?' data [data] → Pieces ',' data (c :: a :: more) →
      PartsReport data c [.E_APP_ARG_IFSTYLE]
  | few : Pieces '?' data [data] → Pieces ',' data [data] → PartsReport data data [.E_APP_ARG_FEW]

open Classical in
/-- All that is said; `const`: constants in the condition are reported, too. -/
noncomputable def condReport (const : Bool) (cond : List V) : List MK :=
  if BlankToks cond then [.E_APP_ARG_IFEMPTY]
  else if const = true ∧ Constant cond then [.E_APP_ARG_IFCONST] else []

end ALint.Spec
