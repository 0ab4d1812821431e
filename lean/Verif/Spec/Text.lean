import Verif.Spec.Var
import Verif.Spec.Dialplan

/-!
# Text with substitutions: what is meant, and how it is written (specification)
-/

namespace ALint.Spec
open ALint

/-- Text with variables, substrings, function calls and expressions. -/
inductive Txt where
  | nil
  | text (s : Str) (rest : Txt)
  /-- `${name}` -/
  | var (name : Str) (rest : Txt)
  /-- `${name:start}` or `${name:start:length}`, with the numbers as written -/
  | sub (name start : Str) (length : Option Str) (rest : Txt)
  /-- `${f(args)}` -/
  | call (f : Str) (args rest : Txt)
  /-- `$[e]` -/
  | expr (e rest : Txt)

/-- `:length`, if there is one. -/
def lengthText : Option Str → Str
  | none => []
  | some l => ':' :: l

namespace Txt

/-- The text. -/
def write : Txt → Str
  | .nil => []
  | .text s r => s ++ r.write
  | .var n r => c! "${" ++ (n ++ '}' :: r.write)
  | .sub n s l r => c! "${" ++ ((n ++ ':' :: (s ++ lengthText l)) ++ '}' :: r.write)
  | .call f a r => c! "${" ++ ((f ++ '(' :: (a.write ++ [')'])) ++ '}' :: r.write)
  | .expr e r => c! "$[" ++ (e.write ++ ']' :: r.write)

end Txt

/-- A number in ASCII digits. -/
def numeral : Str → Int
  | '-' :: t => -(decimal t : Int)
  | t => decimal t

/-- The number, if there is one. -/
def numeralV : Option Str → V
  | none => .none
  | some l => .int (numeral l)

def IsNumeral (s : Str) : Prop :=
  ∃ t, (s = t ∨ s = '-' :: t) ∧ t ≠ [] ∧ ∀ d ∈ t, d.isDigit = true

namespace Txt

/-- What it means: a sequence of strings and variables. -/
def meaning : Txt → List V
  | .nil => []
  | .text s r => .str s :: r.meaning
  | .var n r => .atom .var (.str n) .none .none :: r.meaning
  | .sub n s l r => .atom .slice (.str n) (.int (numeral s)) (numeralV l) :: r.meaning
  | .call f a r => .atom .func (join [.str f, .str (c! "("), join a.meaning, .str (c! ")")]) .none .none :: r.meaning
  | .expr e r => .atom .expr (join e.meaning) .none .none :: r.meaning

/-- What is used: each variable and each function, a function after its arguments. -/
def used (env : FEnv) (w : Where) : Txt → List Ev
  | .nil => []
  | .text _ r => r.used env w
  | .var n r => .var n w :: r.used env w
  | .sub n _ _ r => .var n w :: r.used env w
  | .call f a r => a.used env w ++ .func (env.lower f) :: r.used env w
  | .expr e r => e.used env w ++ r.used env w

end Txt

namespace Txt

def append : Txt → Txt → Txt
  | .nil, t => t
  | .text s r, t => .text s (r.append t)
  | .var n r, t => .var n (r.append t)
  | .sub n s l r, t => .sub n s l (r.append t)
  | .call f a r, t => .call f a (r.append t)
  | .expr e r, t => .expr e (r.append t)

/-- Several of them, with a comma between. -/
def commas : List Txt → Txt
  | [] => .nil
  | [t] => t
  | t :: u :: ts => t.append (.text (c! ",") (commas (u :: ts)))

end Txt

/-- Brackets are balanced in the text and never closed too early. -/
def Level (l r : Char) (s : Str) : Prop := s.count l = s.count r ∧ ∀ p, p <+: s → p.count r ≤ p.count l

/-- Letters, digits, underscores; at least one. -/
def IsName (n : Str) : Prop := n ≠ [] ∧ legalName n = true

/-- The text is in order; `inside` a substitution the brackets of the text are level.
Functions are those that only want their arguments balanced. -/
def GoodTxt (env : FEnv) : Bool → Txt → Prop
  | _, .nil => True
  | i, .text s r => '$' ∉ s ∧ (i = true → Level '{' '}' s ∧ Level '[' ']' s) ∧ GoodTxt env i r
  | i, .var n r => IsName n ∧ GoodTxt env i r
  | i, .sub n s l r => IsName n ∧ IsNumeral s ∧ (∀ x, l = some x → IsNumeral x ∧ numeral x ≠ 0 ∧
      (numeral s < 0 → numeral s + numeral x < 0)) ∧ (numeral s = 0 → l ≠ none) ∧ GoodTxt env i r
  | i, .call f a r => IsName f ∧ (∃ m, env.funcs (env.lower f) = some ⟨f, m, .plain⟩) ∧
      Bal (join a.meaning).tokens ∧ GoodTxt env true a ∧ GoodTxt env i r
  | i, .expr e r => GoodTxt env true e ∧ GoodTxt env i r

end ALint.Spec
