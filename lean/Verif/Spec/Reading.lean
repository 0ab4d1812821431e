import Verif.Spec.Calls

/-!
# What is said about any text with variables (specification)

`TextSays` in `Spec/Calls` follows the text as it should be written.  Here is what is made of any
text, however odd.
-/

namespace ALint.Spec
open ALint

/-- The fields of a text between the characters `c`.  For a single variable those of its name
are taken. -/
inductive Fields (c : Char) : V → List V → Prop
  | text {v : V} {parts : List (List V)} : isMixed v = true → parts ≠ [] → v.tokens = sepBy (tk c) parts →
      (∀ p ∈ parts, tk c ∉ p) → Fields c v (parts.map join)
  | inside {k : Kind} {t : Str} {s l : V} {parts : List V} : t ≠ [] → Fields c (.str t) parts →
      Fields c (.atom k (.str t) s l) parts
  | whole {k : Kind} {n s l : V} : n.truthy = true → n.isStr = false → Fields c (.atom k n s l) [n]

def noStart (w : Where) : Ev := .msg (mkMsg .E_VAR_SUBSTR_START w [(c! "start", .one .none)])
def noLength (w : Where) (l : V) : Ev := .msg (mkMsg .E_VAR_SUBSTR_LENGTH w [(c! "length", .one l)])

/-- What becomes of `name:start:length`, and what is said. -/
inductive SliceSays (w : Where) (data : V) : (name start length : V) → List Ev → Prop
  | wrongNumber {name : V} {rest : List V} {t : Str} : Fields ':' data (name :: rest) → rest.length ≠ 1 → rest.length ≠ 2 →
      data.toStr = .ok t →
      SliceSays w data name .none .none [.msg (mkMsg .E_VAR_SUBSTR_ARGS w [(c! "data", .one data)])]
  /-- Without length; a start of zero makes no sense then. -/
  | start {name s start : V} : Fields ':' data [name, s] → Means s start → start ≠ .int 0 →
      SliceSays w data name start .none []
  | zero {name s : V} : Fields ':' data [name, s] → Means s (.int 0) → SliceSays w data name .none .none [noStart w]
  /-- A start that is not a number. -/
  | badStart {name : V} {s : Str} {rest : List V} : Fields ':' data (name :: .str s :: rest) → rest.length ≤ 1 →
      looksInt s = false → SliceSays w data name .none .none [noStart w]
  /-- With length. -/
  | both {name s l start length : V} : Fields ':' data [name, s, l] → Means s start → Means l length →
      GoodSlice start length → SliceSays w data name start length []
  | badLength {name s start : V} {l : Str} : Fields ':' data [name, s, .str l] → Means s start → looksInt l = false →
      SliceSays w data name .none .none [noLength w (.str l)]
  /-- A length of zero, or one that reaches the end of the text: the length is dropped.  Then
  again, a start of zero makes no sense. -/
  | unfit {name s l start : V} {n : Int} : Fields ':' data [name, s, l] → Means s start → Means l (.int n) →
      (n = 0 ∨ ∃ m, start = .int m ∧ m < 0 ∧ 0 ≤ m + n) → start ≠ .int 0 →
      SliceSays w data name start .none [noLength w .none]
  | unfitZero {name s l : V} : Fields ':' data [name, s, l] → Means s (.int 0) → Means l (.int 0) →
      SliceSays w data name .none .none [noLength w .none, noStart w]

/-- The use of what is named: a name counts, one with variables does not. -/
inductive Counts (w : Where) : V → List Ev → Prop
  | name {n : Str} {evs : List Ev} : NameCounts w n evs → Counts w (.str n) evs
  | dynamic {v : V} : v.isVar = true → Counts w v []

/-- The variable, or a part of it. -/
def takenPart (name start length : V) : V :=
  if start = .none then .atom .var name .none .none
  else if start.isVar || length.isVar then .atom .dynSlice name start length
  else .atom .slice name start length

/-- The function call, or a part of what it gives. -/
def called (f : Str) (args start length : V) : V :=
  .atom (if start = .none then .func else .funcSlice) (join [.str f, .str (c! "("), args, .str (c! ")")]) start
    (if start = .none then .none else length)

/-- The arguments behind `name(`, the part that is taken of the result, and what is said. -/
inductive CallParts (w : Where) (data : V) : (rest : List V) → (args start length : V) → List Ev → Prop
  /-- The closing parenthesis is missing. -/
  | open {rest : List V} {t : Str} : tk ')' ∉ rest → data.toStr = .ok t →
      CallParts w data rest (join rest) .none .none [.msg (mkMsg .E_FUNC_PARENS w [(c! "data", .one data)])]
  | closed {args : List V} : CallParts w data (args ++ [tk ')']) (join args) .none .none []
  /-- A part: `:start:length` behind the parenthesis. -/
  | part {args tail : List V} {start length : V} {evs : List Ev} : tail ≠ [] → tk ')' ∉ tail →
      SliceSays w (join tail) (.str []) start length evs →
      CallParts w data (args ++ tk ')' :: tail) (join args) start length evs
  /-- Something else behind the parenthesis. -/
  | excess {args tail : List V} {name start length : V} {evs : List Ev} {t : Str} : tail ≠ [] → tk ')' ∉ tail →
      SliceSays w (join tail) name start length evs → name ≠ .str [] → data.toStr = .ok t →
      CallParts w data (args ++ tk ')' :: tail) (join args) .none .none
        (evs ++ [.msg (mkMsg .E_FUNC_TAIL w [(c! "data", .one data)])])

/-- What becomes of the text between `${` and `}`, and what is said. -/
inductive CurlySays (env : FEnv) (w : Where) (data : V) : V → List Ev → Prop
  | var {evs : List Ev} : tk '(' ∉ data.tokens → tk ':' ∉ data.tokens → Counts w data evs →
      CurlySays env w data (.atom .var data .none .none) evs
  | slice {name start length : V} {e1 e2 : List Ev} : tk '(' ∉ data.tokens → tk ':' ∈ data.tokens →
      SliceSays w data name start length e1 → Counts w name e2 → CurlySays env w data (takenPart name start length) (e1 ++ e2)
  | call {f : Str} {rest : List V} {args start length : V} {fi : FuncInfo} {parts look call : List Ev} :
      data.tokens = f.map tk ++ tk '(' :: rest → f ≠ [] → '(' ∉ f → CallParts w data rest args start length parts →
      LooksUp env w f fi look → FuncSays env w fi (.one args) call →
      CurlySays env w data (called f args start length) (parts ++ (look ++ call))

/-- The pieces of the text: strings, and what becomes of `${...}` and `$[...]`; and what is
said, innermost first. -/
inductive TextReads (env : FEnv) (w : Where) : Str → List V → List Ev → Prop
  | plain {s : Str} : ¬ HasSubst s → TextReads env w s [.str s] []
  | curly {pre s inner tail : Str} {l1 l2 : List V} {v : V} {e1 e2 e3 : List Ev} : ¬ HasSubst pre →
      Encloses '{' '}' s inner tail → TextReads env w inner l1 e1 → CurlySays env w (join l1) v e2 → TextReads env w tail l2 e3 →
      TextReads env w (pre ++ '$' :: '{' :: s) (.str pre :: v :: l2) (e1 ++ (e2 ++ e3))
  | square {pre s inner tail : Str} {l1 l2 : List V} {e1 e3 : List Ev} : ¬ HasSubst pre →
      Encloses '[' ']' s inner tail → TextReads env w inner l1 e1 → TextReads env w tail l2 e3 →
      TextReads env w (pre ++ '$' :: '[' :: s) (.str pre :: .atom .expr (join l1) .none .none :: l2) (e1 ++ e3)

/-- A text with a substitution that is not closed; what is said until this is found. -/
inductive BreaksOff (env : FEnv) (w : Where) : Str → List Ev → Prop
  | curly {pre s : Str} : ¬ HasSubst pre → (∀ inner tail, ¬ Encloses '{' '}' s inner tail) →
      BreaksOff env w (pre ++ '$' :: '{' :: s) []
  | square {pre s : Str} : ¬ HasSubst pre → (∀ inner tail, ¬ Encloses '[' ']' s inner tail) →
      BreaksOff env w (pre ++ '$' :: '[' :: s) []
  | inCurly {pre s inner tail : Str} {evs : List Ev} : ¬ HasSubst pre → Encloses '{' '}' s inner tail →
      BreaksOff env w inner evs → BreaksOff env w (pre ++ '$' :: '{' :: s) evs
  | inSquare {pre s inner tail : Str} {evs : List Ev} : ¬ HasSubst pre → Encloses '[' ']' s inner tail →
      BreaksOff env w inner evs → BreaksOff env w (pre ++ '$' :: '[' :: s) evs
  | behindCurly {pre s inner tail : Str} {l1 : List V} {v : V} {e1 e2 e3 : List Ev} : ¬ HasSubst pre →
      Encloses '{' '}' s inner tail → TextReads env w inner l1 e1 → CurlySays env w (join l1) v e2 → BreaksOff env w tail e3 →
      BreaksOff env w (pre ++ '$' :: '{' :: s) (e1 ++ (e2 ++ e3))
  | behindSquare {pre s inner tail : Str} {l1 : List V} {e1 e3 : List Ev} : ¬ HasSubst pre →
      Encloses '[' ']' s inner tail → TextReads env w inner l1 e1 → BreaksOff env w tail e3 →
      BreaksOff env w (pre ++ '$' :: '[' :: s) (e1 ++ e3)

/-- The data of an application as a text with variables, and what is said about it. -/
inductive DataSays (env : FEnv) (w : Where) (app : Str) : Str → V → List Ev → Prop
  | text {s : Str} {l : List V} {e : List Ev} : TextReads env w s l e → DataSays env w app s (join l) e
  /-- A text that breaks off is taken for text without variables. -/
  | unread {s : Str} {e : List Ev} : BreaksOff env w s e →
      DataSays env w app s (.str s) (e ++ [.msg (mkMsg .E_APP_PARSE_ERROR w [(c! "app", strV app), (c! "args", strV s)])])

/-- What is said about brackets and quotes. -/
inductive BalanceSays (w : Where) (data : V) : List Ev → Prop
  | fine : Bal data.tokens → BalanceSays w data []
  | wrong {s : Str} : ¬ Bal data.tokens → data.toStr = .ok s →
      BalanceSays w data [.msg (mkMsg .W_APP_BALANCE w [(c! "data", strV s)])]

end ALint.Spec
