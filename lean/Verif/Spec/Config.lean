import Verif.Model.Config

/-!
# The grammar of configuration lines (specification)

White space is Python's (`isSpace`).
-/

namespace ALint.Spec
open ALint

/-- Only white space. -/
def Spaces (s : Str) : Prop := ∀ c ∈ s, isSpace c = true

instance (s : Str) : Decidable (Spaces s) := inferInstanceAs (Decidable (∀ c ∈ s, _))

/-- `s` does not start with white space. -/
def NoLead (s : Str) : Prop := ∀ c r, s = c :: r → isSpace c = false

/-- `s` does not end in white space. -/
def NoTrail (s : Str) : Prop := ∀ r c, s = r ++ [c] → isSpace c = false

/-- `indent [name]`. -/
structure IsHeader (data indent name : Str) : Prop where
  shape : data = indent ++ '[' :: name ++ [']']
  indent : Spaces indent
  name : ']' ∉ name

/-- `indent [name] (c)` with a single character in the parentheses. -/
structure IsTemplate (data indent name : Str) (c : Char) : Prop where
  shape : ∃ gap, Spaces gap ∧ data = indent ++ '[' :: name ++ ']' :: gap ++ ['(', c, ')']
  indent : Spaces indent
  name : ']' ∉ name
  char : c ≠ ')' ∧ c ≠ '+'

/-- `key separator value`, the separator being the first `=` or `=>` with the white
space around it. -/
structure IsAssign (data key sep value : Str) (arrow : Bool) : Prop where
  shape : ∃ s1 s2, Spaces s1 ∧ Spaces s2 ∧
    sep = s1 ++ (if arrow then c! "=>" else c! "=") ++ s2 ∧ data = key ++ sep ++ value ∧
    -- `=` directly followed by `>` is an arrow
    (arrow = false → s2 = [] → value.head? ≠ some '>')
  keyNoEq : '=' ∉ key
  keyEnd : NoTrail key
  valueStart : NoLead value

/-- Some header shape. -/
def SomeHeader (data : Str) : Prop :=
  (∃ i n, IsHeader data i n) ∨ ∃ i n c, IsTemplate data i n c

/-- How a file name may be written. -/
inductive Quoted (name : Str) : Str → Prop
  | double : Quoted name ('"' :: name ++ ['"'])
  | angle : Quoted name ('<' :: name ++ ['>'])
  | bare (h0 : name ≠ []) (h1 : ∀ c, name.head? = some c → c ≠ '"' ∧ c ≠ '<' ∧ 32 < c.toNat)
      (h2 : ∀ c, name.getLast? = some c → c ≠ '"' ∧ c ≠ '>') : Quoted name name

end ALint.Spec
