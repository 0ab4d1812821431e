import Verif.Model.Varfun

/-!
# Texts with variables (specification)
-/

namespace ALint.Spec
open ALint

mutual
/-- A string, a variable, or a sequence of these. -/
def isText : V → Bool
  | .str _ => true
  | .lst items => isTexts items
  | .atom .. => true
  | .int _ => false
  | .none => false
def isTexts : List V → Bool
  | [] => true
  | v :: vs => isText v && isTexts vs
end

/-- No empty string and no two adjacent strings. -/
def Compact : List V → Prop
  | [] => True
  | [v] => v ≠ .str []
  | v :: w :: rest => v ≠ .str [] ∧ (v.isStr = true → w.isStr = false) ∧ Compact (w :: rest)

/-- A string or a variable. -/
def isPiece : V → Bool
  | .str _ => true
  | .atom .. => true
  | _ => false

/-- A mixed text as `Var.join` makes it from strings and variables: a string, or a
sequence of strings and variables. -/
def isMixed : V → Bool
  | .str _ => true
  | .lst items => items.all isPiece
  | _ => false

/-- Lists joined by a separator. -/
def sepBy {α : Type} (sep : α) : List (List α) → List α
  | [] => []
  | [l] => l
  | l :: m :: rest => l ++ sep :: sepBy sep (m :: rest)

end ALint.Spec

namespace ALint.Spec
open ALint

/-! ## Matching a value -/

/-- The texts that arise when each occurrence of a variable is replaced by some text. -/
inductive Fills : List V → Str → Prop
  | nil : Fills [] []
  | text (t : Str) {toks : List V} {s : Str} : Fills toks s → Fills (.str t :: toks) (t ++ s)
  | var (k : Kind) (n st l : V) (w : Str) {toks : List V} {s : Str} :
      Fills toks s → Fills (.atom k n st l :: toks) (w ++ s)

/-- The same with texts of a single line only. -/
inductive FillsLine : List V → Str → Prop
  | nil : FillsLine [] []
  | text (t : Str) {toks : List V} {s : Str} : FillsLine toks s → FillsLine (.str t :: toks) (t ++ s)
  | var (k : Kind) (n st l : V) (w : Str) {toks : List V} {s : Str} :
      '\n' ∉ w → FillsLine toks s → FillsLine (.atom k n st l :: toks) (w ++ s)

/-- The text with each variable replaced by its value. -/
def subst (σ : V → Str) (v : V) : Str :=
  v.tokens.flatMap fun t => match t with
    | .str s => s
    | a => σ a

/-! ## Balance -/

def brackets : List (Char × Char) := [('(', ')'), ('{', '}'), ('[', ']')]

/-- Neither a bracket nor a quote. -/
def isPlain (t : V) : Prop :=
  ∀ c ∈ ['(', ')', '{', '}', '[', ']', '"', '\''], t ≠ .str [c]

/-- Properly nested brackets, with quoted stretches in which brackets (and the other
kind of quotes) do not count. -/
inductive Bal : List V → Prop
  | nil : Bal []
  | plain {t : V} {rest : List V} : isPlain t → Bal rest → Bal (t :: rest)
  | bracket {o c : Char} {inner rest : List V} : (o, c) ∈ brackets → Bal inner → Bal rest →
      Bal (.str [o] :: inner ++ .str [c] :: rest)
  | quoted {q : Char} {body rest : List V} : q ∈ ['"', '\''] → V.str [q] ∉ body → Bal rest →
      Bal (.str [q] :: body ++ .str [q] :: rest)

end ALint.Spec

namespace ALint.Spec
open ALint

/-! ## Substitutions -/

/-- `s = inner ++ r :: tail`, and this `r` is the first one that closes a bracket opened
before `s`: inside, brackets `l` and `r` are balanced and never closed too early. -/
def Encloses (l r : Char) (s inner tail : Str) : Prop :=
  s = inner ++ r :: tail ∧ inner.count l = inner.count r ∧
    ∀ p, p <+: inner → p.count r ≤ p.count l

/-- Somewhere in the text there is a `${` or `$[`. -/
def HasSubst (s : Str) : Prop := c! "${" <:+: s ∨ c! "$[" <:+: s

/-- Every `${` and `$[` is closed, and so are those inside. -/
inductive Closed : Str → Prop
  | plain {s : Str} : ¬ HasSubst s → Closed s
  | curly {pre s inner tail : Str} : ¬ HasSubst pre → Encloses '{' '}' s inner tail →
      Closed inner → Closed tail → Closed (pre ++ '$' :: '{' :: s)
  | square {pre s inner tail : Str} : ¬ HasSubst pre → Encloses '[' ']' s inner tail →
      Closed inner → Closed tail → Closed (pre ++ '$' :: '[' :: s)

end ALint.Spec

namespace ALint.Spec
open ALint

/-! ## Substrings -/

/-- A part of a substring expression means a number or, if it has variables, is kept. -/
def Means (part v : V) : Prop :=
  (part.isVar = true ∧ v = part) ∨
    ∃ s n, part = .str s ∧ v = .int n ∧ looksInt s = true ∧ pyInt s = .ok n

/-- A substring as it may be constructed: the start is a number or variable; a numeric
length is not zero and ends before the end of the text if the start counts from there; a
start of zero needs a length. -/
def GoodSlice (start length : V) : Prop :=
  ((∃ n, start = .int n) ∨ start.isVar = true) ∧
  (length = .none ∨ length.isVar = true ∨
    ∃ s n, start = .int s ∧ length = .int n ∧ n ≠ 0 ∧ (s < 0 → s + n < 0)) ∧
  (start = .int 0 → length ≠ .none)

/-- The parts of a legal `name:start` or `name:start:length`. -/
def LegalSlice (parts : List V) (name start length : V) : Prop :=
  GoodSlice start length ∧
  ((∃ s, parts = [name, s] ∧ Means s start ∧ length = .none) ∨
   (∃ s l, parts = [name, s, l] ∧ Means s start ∧ Means l length))

end ALint.Spec

namespace ALint.Spec
open ALint

/-! ## Uses of variables -/

/-- The variable counted for a `${...}`, given its characters with `none` for each
substitution inside: nothing for a function; otherwise the part before the first colon,
provided there is no substitution in it. -/
def counted (k : List (Option Char)) : List Str :=
  if some '(' ∈ k then []
  else
    let p := k.takeWhile (· ≠ some ':')
    if p.all Option.isSome then [p.filterMap id] else []

/-- `Uses s k names`: the text `s` has characters and substitutions `k`, and `names` are
the variables named in it, in the order of the closing brackets. -/
inductive Uses : Str → List (Option Char) → List Str → Prop
  | plain {s : Str} : ¬ HasSubst s → Uses s (s.map some) []
  | curly {pre s inner tail : Str} {k1 k2 : List (Option Char)} {n1 n2 : List Str} :
      ¬ HasSubst pre → Encloses '{' '}' s inner tail → Uses inner k1 n1 → Uses tail k2 n2 →
      Uses (pre ++ '$' :: '{' :: s) (pre.map some ++ none :: k2) (n1 ++ counted k1 ++ n2)
  | square {pre s inner tail : Str} {k1 k2 : List (Option Char)} {n1 n2 : List Str} :
      ¬ HasSubst pre → Encloses '[' ']' s inner tail → Uses inner k1 n1 → Uses tail k2 n2 →
      Uses (pre ++ '$' :: '[' :: s) (pre.map some ++ none :: k2) (n1 ++ n2)

/-- The names of the uses that were recorded. -/
def usedNames (evs : List Ev) : List Str :=
  evs.filterMap fun e => match e with
    | .var n _ => some n
    | _ => none

/-- The names that were reported for their characters. -/
def reportedNames (evs : List Ev) : List Arg :=
  evs.filterMap fun e => match e with
    | .msg m => if m.kind = .E_VAR_BAD_TOKENS then m.args.lookup (c! "data") else none
    | _ => none

/-- Only letters, digits and underscores. -/
def legalName (n : Str) : Bool :=
  n.all fun c => c.isAlphanum || c == '_'

end ALint.Spec

namespace ALint.Spec
open ALint

/-! ## Printing back -/

/-- The messages that tell that a part of the text is dropped. -/
def lossy : List MK := [.E_FUNC_PARENS, .E_FUNC_TAIL, .E_VAR_SUBSTR_ARGS, .E_VAR_SUBSTR_START,
  .E_VAR_SUBSTR_LENGTH]

/-- No such message was issued. -/
def Lossless (evs : List Ev) : Prop := ∀ m, Ev.msg m ∈ evs → m.kind ∉ lossy

/-- Integers behind a colon are written as Python writes them. -/
def CanonNumbers (s : Str) : Prop :=
  ∀ n z, (':' :: n) <:+: s → looksInt n = true → pyInt n = .ok z → intStr z = n

/-- No empty substitution, and no expression starting with a colon. -/
def NoOddSubst (s : Str) : Prop :=
  ¬ c! "${}" <:+: s ∧ ¬ c! "$[]" <:+: s ∧ ¬ c! "$[:" <:+: s

end ALint.Spec
