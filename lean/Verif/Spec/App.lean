import Verif.Model.Loader
import Verif.Spec.Var

/-!
# Arguments of applications (specification)
-/

namespace ALint.Spec
open ALint

/-- The characters with a meaning of their own. -/
def sepSpecial : List Char := ['[', ']', '(', ')', '"', '\\']

/-- The characters of a text, variables left out. -/
def letters (toks : List V) : Str :=
  toks.filterMap fun t => match t with
    | .str [c] => some c
    | _ => none

/-- What comes next is escaped: the text ends in an odd number of backslashes. -/
def Escaped (s : Str) : Prop :=
  ∃ a n, s = a ++ List.replicate (2 * n + 1) '\\' ∧ a.getLast? ≠ some '\\'

/-- The text without escaped characters and the backslashes escaping them. -/
def live : Str → Str
  | [] => []
  | ['\\'] => []
  | '\\' :: _ :: rest => live rest
  | c :: rest => c :: live rest

/-- There is an opening bracket that is not closed. -/
def Inside (o c : Char) (s : Str) : Prop :=
  ∃ a b, s = a ++ o :: b ∧ ∀ p, p <+: b → p.count c ≤ p.count o

/-- The place behind this text is at top level: not escaped, not in double quotes, not in
round or square brackets. -/
def TopLevel (s : Str) : Prop :=
  ¬ Escaped s ∧ (live s).count '"' % 2 = 0 ∧ ¬ Inside '(' ')' (live s) ∧ ¬ Inside '[' ']' (live s)

/-- Quotes and backslashes removed; `\x` stands for `x`. -/
def unquote : Str → Str
  | [] => []
  | ['\\'] => []
  | '\\' :: c :: rest => c :: unquote rest
  | '"' :: rest => unquote rest
  | c :: rest => c :: unquote rest

/-- A backslash in front of every special character and delimiter. -/
def escapeArg (d : Char) (s : Str) : Str :=
  s.flatMap fun c => if c = d ∨ c ∈ sepSpecial then ['\\', c] else [c]

end ALint.Spec

namespace ALint.Spec
open ALint

/-! ## Arguments -/

/-- The messages among the events. -/
def msgs (ev : List Ev) : List Msg := ev.filterMap fun e => match e with
  | .msg m => some m
  | _ => none

/-- How many messages of a kind. -/
def countKind (k : MK) (ev : List Ev) : Nat := ((msgs ev).filter fun m => m.kind = k).length

/-- The messages of a kind about argument number `n`. -/
def about (k : MK) (n : Nat) (ev : List Ev) : List Msg :=
  (msgs ev).filter fun m => m.kind = k ∧ m.args.lookup (c! "argno") = some (natV n)

/-- The number of arguments given: a single empty argument is none. -/
def given (args : List V) : Nat :=
  if args.map V.tokens = [[]] then 0 else args.length

/-! ## Destinations -/

/-- Right-aligned, missing leading parts absent. -/
def Aligned (args : List V) (context exten prio : V) : Prop :=
  [context, exten, prio] = List.replicate (3 - args.length) V.none ++ args

/-- Two lists of the same length are related element by element. -/
inductive Zips {α β : Type} (R : α → β → Prop) : List α → List β → Prop
  | nil : Zips R [] []
  | cons {a : α} {b : β} {as : List α} {bs : List β} : R a b → Zips R as bs → Zips R (a :: as) (b :: bs)

/-! ## Registered applications -/

/-- What was registered last under a name, whatever was looked up. -/
def registered {α : Type} (low : Str) : List (LoaderOp α) → Option α
  | [] => none
  | .register k a :: ops => (registered low ops).or (if k = low then some a else none)
  | .get _ :: ops => registered low ops

/-- The accepted spelling of `Background` in a sequence of uses: the first of the two. -/
def spelling (uses : List Str) : Str :=
  (uses.find? fun u => u = c! "Background" || u = c! "BackGround").getD (c! "Background")

end ALint.Spec
