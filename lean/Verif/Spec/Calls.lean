import Verif.Spec.Text
import Verif.Model.App

/-!
# What is said about function calls and assignments (specification)
-/

namespace ALint.Spec
open ALint

/-- The message is issued, once, exactly if the condition holds. -/
def Exactly (p : Prop) (m : Msg) (evs : List Ev) : Prop := (p ∧ evs = [.msg m]) ∨ (¬ p ∧ evs = [])

/-- The arguments `AUDIOHOOK_INHERIT` takes. -/
def hookNames : List Str := [c! "MixMonitor", c! "Chanspy", c! "Volume", c! "Speex", c! "pitch_shift", c! "JACK_HOOK", c! "Mute"]

/-- The character as an item of a text. -/
def tk (c : Char) : V := .str [c]

/-- The message about brackets and quotes in the argument of a function. -/
def unbalanced (w : Where) (text : Arg) : Msg := mkMsg .W_FUNC_BALANCE w [(c! "data", text)]

/-- The text is written with a name that differs from that of the function in case only. -/
def miscased (w : Where) (written : Str) (f : FuncInfo) : Msg :=
  mkMsg .E_FUNC_BAD_CASE w [(c! "func", strV written), (c! "proper", strV f.name)]

/-- The value is a text as it is read: strings and variables, joined. -/
def Normal (v : V) : Prop := ∃ vs : List V, (∀ x ∈ vs, isPiece x = true) ∧ v = join vs

/-- The message is issued, once, exactly if the condition holds; the value it shows can be
printed then. -/
def Showing (p : Prop) (v : V) (m : Msg) (evs : List Ev) : Prop := Exactly p m evs ∧ (p → ∃ s, v.toStr = .ok s)

/-- The function a name stands for: in any case; any other name stands for the function
`UNKNOWN`. -/
def StandsFor (env : FEnv) (f : Str) (fi : FuncInfo) : Prop :=
  env.funcs (env.lower f) = some fi ∨ env.funcs (env.lower f) = none ∧ env.funcs (c! "unknown") = some fi

/-- The function a name stands for, and what is said about the name. -/
inductive LooksUp (env : FEnv) (w : Where) (f : Str) : FuncInfo → List Ev → Prop
  | known {fi : FuncInfo} : StandsFor env f fi → fi.name = f → LooksUp env w f fi [.func (env.lower f)]
  | miscased {fi : FuncInfo} : StandsFor env f fi → fi.name ≠ f → fi.name ≠ c! "UNKNOWN" →
      LooksUp env w f fi [.func (env.lower f), .msg (miscased w f fi)]
  | unknown {fi : FuncInfo} : StandsFor env f fi → fi.name ≠ f → fi.name = c! "UNKNOWN" →
      LooksUp env w f fi [.func (env.lower f), .msg (mkMsg .E_FUNC_MISSING w [(c! "func", strV f)])]

/-- What a piece of text counts as if it is looked at as a whole: a bracket or quote; several
opening brackets (in this order) open something that nothing closes; several closing ones
count as the first of them. -/
def wholePiece : V → List V
  | .str [c] => [tk c]
  | .str s =>
    if s ∈ [[], c! "({", c! "{[", c! "({["] then [tk '(', tk ']']
    else if s ∈ [c! ")}", c! "}]", c! ")}]"] then (s.take 1).map tk
    else []
  | _ => []

/-- Brackets and quotes in an argument are balanced; of a list, each piece is looked at as a
whole. -/
def Balances : Arg → Prop
  | .one v => Bal v.tokens
  | .many vs => Bal (vs.flatMap wholePiece)

/-- What is said about brackets and quotes in the argument of a function. -/
inductive FuncBalance (w : Where) : Arg → List Ev → Prop
  | fine {a : Arg} : Balances a → FuncBalance w a []
  | text {v : V} {s : Str} : ¬ Bal v.tokens → v.toStr = .ok s → FuncBalance w (.one v) [.msg (unbalanced w (strV s))]
  | list {vs : List V} : ¬ Balances (.many vs) → FuncBalance w (.many vs) [.msg (unbalanced w (.many vs))]

/-- A text with variables becomes a string, a variable, or a list of these. -/
inductive Cut : List V → Arg → Prop
  | text {s : Str} : Cut (s.map tk) (strV s)
  | variable {k : Kind} {n s l : V} : Cut [.atom k n s l] (.one (.atom k n s l))
  | mixed {items : List V} : Compact items → (∀ v ∈ items, isPiece v = true) → 2 ≤ items.length →
      Cut (V.tokensAll items) (.many items)

/-- The use of a variable. -/
inductive NameCounts (w : Where) (n : Str) : List Ev → Prop
  | mk {tok : List Ev} : Exactly (legalName n = false) (mkMsg .E_VAR_BAD_TOKENS w [(c! "data", strV n)]) tok →
      NameCounts w n (tok ++ [.var n w])

/-- A space in what is assigned to. -/
def SpaceSays (w : Where) (dest : List V) (evs : List Ev) : Prop :=
  Showing (tk ' ' ∈ dest) (join dest) (mkMsg .W_ASSIGN_SPACES w [(c! "name", .one (join dest))]) evs

mutual

/-- What is said about, and counted for, a call of the function with that argument. -/
inductive FuncSays (env : FEnv) (w : Where) : FuncInfo → Arg → List Ev → Prop
  /-- Most functions: brackets and quotes have to be balanced. -/
  | plain {f : FuncInfo} {a : Arg} {bal : List Ev} : f.beh = .plain → FuncBalance w a bal → FuncSays env w f a bal
  /-- `AUDIOHOOK_INHERIT`: one of the names as well, unless the argument has variables. -/
  | hook {f : FuncInfo} {a : Arg} {bad bal : List Ev} : f.beh = .audiohook →
      Exactly (∃ t, a = strV t ∧ t ∉ hookNames)
        (mkMsg .E_FUNC_BAD_ARGS w [(c! "func", strV f.name), (c! "data", a)]) bad →
      FuncBalance w a bal → FuncSays env w f a (bad ++ bal)
  /-- `INC` and `DEC`: the argument is the name of a variable, and counts as such. -/
  | count {f : FuncInfo} {s : Str} {bal use : List Ev} : f.beh = .count → FuncBalance w (strV s) bal →
      NameCounts w s use → FuncSays env w f (strV s) (bal ++ use)
  /-- `SET`: the argument is an assignment. -/
  | set {f : FuncInfo} {a : V} {asg bal : List Ev} : f.beh = .set → AssignSays env w a asg → FuncBalance w (.one a) bal →
      FuncSays env w f (.one a) (asg ++ bal)

/-- What is said about an assignment. -/
inductive AssignSays (env : FEnv) (w : Where) : V → List Ev → Prop
  | empty : AssignSays env w (.str []) [.msg (mkMsg .E_ASSIGN_EMPTY w [])]
  | noEquals {v : V} {s : Str} : isMixed v = true → v.toStr = .ok s → v.tokens ≠ [] → tk '=' ∉ v.tokens →
      AssignSays env w v [.msg (mkMsg .E_ASSIGN_NO_EQUALS w [(c! "data", .one v)])]
  /-- To a variable: its name is what is in front of the first `=`. -/
  | variable {v : V} {dest rest : List V} {sp : List Ev} : isMixed v = true →
      v.tokens = dest ++ tk '=' :: rest → tk '=' ∉ dest → dest.getLast? ≠ some (tk ')') →
      SpaceSays w dest sp → AssignSays env w v sp
  /-- To a function: `name(args)=value`. -/
  | function {v : V} {name : Str} {args rest : List V} {a : Arg} {fi : FuncInfo} {sp look call : List Ev} : isMixed v = true →
      v.tokens = (name.map tk ++ tk '(' :: (args ++ [tk ')'])) ++ tk '=' :: rest → '=' ∉ name → tk '=' ∉ args → '(' ∉ name →
      SpaceSays w (name.map tk ++ tk '(' :: (args ++ [tk ')'])) sp →
      Cut args a → LooksUp env w name fi look → FuncSays env w fi a call → AssignSays env w v (sp ++ (look ++ call))
  /-- A single variable or expression: an assignment is looked for inside. -/
  | inside {k : Kind} {t : Str} {s l : V} {evs : List Ev} : '=' ∈ t → AssignSays env w (.str t) evs →
      AssignSays env w (.atom k (.str t) s l) evs
  | nothingInside {k : Kind} {n s l : V} {t : Str} : n.truthy = true → (∀ u, n = .str u → '=' ∉ u) →
      (V.atom k n s l).toStr = .ok t →
      AssignSays env w (.atom k n s l) [.msg (mkMsg .E_ASSIGN_NO_EQUALS w [(c! "data", .one (.atom k n s l))])]

end

/-- A name as it is written in a substitution: no brackets, no `$`, no `:`. -/
def PlainName (n : Str) : Prop := ∀ c ∈ ['$', '{', '}', '[', ']', '(', ':'], c ∉ n

/-- What is said about, and counted for, a text; `inside` a substitution the brackets of
the text have to be level. -/
inductive TextSays (env : FEnv) (w : Where) : Bool → Txt → List Ev → Prop
  | nil {i : Bool} : TextSays env w i .nil []
  | text {i : Bool} {s : Str} {r : Txt} {e : List Ev} : '$' ∉ s → (i = true → Level '{' '}' s ∧ Level '[' ']' s) →
      TextSays env w i r e → TextSays env w i (.text s r) e
  /-- A variable: letters, digits and underscores. -/
  | var {i : Bool} {n : Str} {r : Txt} {use e : List Ev} : PlainName n → NameCounts w n use →
      TextSays env w i r e → TextSays env w i (.var n r) (use ++ e)
  /-- A substring with proper numbers: nothing but the use of the variable. -/
  | sub {i : Bool} {n s : Str} {l : Option Str} {r : Txt} {e : List Ev} : IsName n → IsNumeral s →
      (∀ x, l = some x → IsNumeral x ∧ numeral x ≠ 0 ∧ (numeral s < 0 → numeral s + numeral x < 0)) →
      (numeral s = 0 → l ≠ none) → TextSays env w i r e → TextSays env w i (.sub n s l r) (.var n w :: e)
  /-- A function call: first what is said about its arguments, then about its name, then
  what the function has to say. -/
  | call {i : Bool} {f : Str} {a r : Txt} {fi : FuncInfo} {ea look call e : List Ev} : f ≠ [] → PlainName f →
      TextSays env w true a ea → LooksUp env w f fi look → FuncSays env w fi (.one (join a.meaning)) call →
      TextSays env w i r e → TextSays env w i (.call f a r) (ea ++ (look ++ (call ++ e)))
  | expr {i : Bool} {x r : Txt} {ex e : List Ev} : TextSays env w true x ex → TextSays env w i r e →
      TextSays env w i (.expr x r) (ex ++ e)

end ALint.Spec
