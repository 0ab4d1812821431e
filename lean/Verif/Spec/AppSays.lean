import Verif.Spec.Reading
import Verif.Spec.Cond
import Verif.Spec.Config

/-!
# What is said about an application (specification)
-/

namespace ALint.Spec
open ALint

/-- The arguments: the pieces of the text between the delimiters at top level. -/
def ArgsOf (d : Char) (data : V) (args : List V) : Prop :=
  ∃ parts, Pieces d data.tokens parts ∧ args = parts.map join

/-- The same with quotes and backslashes removed. -/
def BareArgsOf (d : Char) (data : V) (args : List V) : Prop :=
  ∃ parts, Pieces d data.tokens parts ∧ args = parts.map fun p => join (unquoteToks false p)

/-- The number of arguments: too few, or else too many. -/
inductive CountSays (w : Where) (name : Str) (least : Nat) (most : Nat) (args : List V) : List Ev → Prop
  | mk {few many : List Ev} :
      Exactly (given args < least) (mkMsg .E_APP_ARG_FEW w [(c! "app", strV name), (c! "min_args", natV least)]) few →
      Exactly (least ≤ given args ∧ most < given args)
        (mkMsg .E_APP_ARG_MANY w [(c! "app", strV name), (c! "max_args", natV most)]) many →
      CountSays w name least most args (few ++ many)

/-- A single argument with a pipe in it. -/
def PipeSays (w : Where) (name : Str) (data : V) (args : List V) (evs : List Ev) : Prop :=
  Exactly (∃ a, args = [a] ∧ tk '|' ∈ a.tokens)
    (mkMsg .E_APP_ARG_PIPEDELIM w [(c! "app", strV name), (c! "data", .one data)]) evs

/-- What is said about argument number `n`. -/
inductive ArgSays (w : Where) (name : Str) (n : Nat) : ArgBeh → V → List Ev → Prop
  | any {a : V} : ArgSays w name n .any a []
  /-- Letters other than the options known, and letters given twice. -/
  | options {opts : Str} {a : V} {bad dupe : List Ev} :
      Exactly (∃ c ∈ letters a.tokens, c ∉ opts)
        (mkMsg .E_APP_ARG_BADOPT w [(c! "argno", natV n), (c! "app", strV name),
          (c! "opts", strV ((letters a.tokens).filter fun c => decide (c ∉ opts)))]) bad →
      Exactly (¬ (letters a.tokens).Nodup)
        (mkMsg .E_APP_ARG_DUPEOPT w [(c! "argno", natV n), (c! "app", strV name), (c! "opts", .one a)]) dupe →
      ArgSays w name n (.options opts) a (bad ++ dupe)
  | appOrExten {a : V} {bad : List Ev} :
      Exactly (a ≠ .str (c! "app") ∧ a ≠ .str (c! "exten"))
        (mkMsg .E_APP_ARG_BADOPT w [(c! "argno", natV n), (c! "app", strV name), (c! "opts", .one a)]) bad →
      ArgSays w name n .appOrExten a bad

/-- What is said about the arguments from number `n` on. -/
inductive ArgsSay (w : Where) (name : Str) : Nat → List ArgBeh → List V → List Ev → Prop
  | noneLeft {n : Nat} {bs : List ArgBeh} : ArgsSay w name n bs [] []
  | noMore {n : Nat} {as : List V} : ArgsSay w name n [] as []
  | next {n : Nat} {b : ArgBeh} {bs : List ArgBeh} {a : V} {as : List V} {e es : List Ev} : ArgSays w name n b a e →
      ArgsSay w name (n + 1) bs as es → ArgsSay w name n (b :: bs) (a :: as) (e ++ es)

/-- The priority of a `Gosub` and what is said about it: arguments in parentheses do not
belong to it, and have to be closed. -/
inductive PrioSays (w : Where) : V → Arg → List Ev → Prop
  | plain {p : V} : tk '(' ∉ p.tokens → PrioSays w p (.one p) []
  | args {p : V} {label : Arg} {front rest : List V} {bal : List Ev} :
      p.tokens = front ++ tk '(' :: rest → tk '(' ∉ front → front ≠ [] → Cut front label →
      Exactly (p.tokens.getLast? ≠ some (tk ')')) (mkMsg .W_APP_BALANCE w [(c! "data", .one p)]) bal →
      PrioSays w p label bal
  /-- Nothing in front of the parenthesis: no text, or no pieces if there are variables. -/
  | nothing {p : V} {rest : List V} {bal : List Ev} : p.tokens = tk '(' :: rest →
      Exactly (p.tokens.getLast? ≠ some (tk ')')) (mkMsg .W_APP_BALANCE w [(c! "data", .one p)]) bal →
      PrioSays w p (if p.isStr then strV [] else .many []) bal

/-- One to three arguments: context, extension, priority, right-aligned. -/
def GotoSays (args : List V) (j : Jump) : Prop :=
  args.length ≤ 3 ∧ ∃ c e p, Aligned args c e p ∧ j = ⟨c, e, .one p⟩

/-- The same for `Gosub`, where a comma may be part of the arguments in parentheses; `warn`:
more than three arguments are reported. -/
inductive GosubSays (w : Where) (name : Str) (warn : Bool) : List V → Jump → List Ev → Prop
  | upTo3 {args : List V} {c e p : V} {p' : Arg} {ev : List Ev} : args ≠ [] → Aligned args c e p → PrioSays w p p' ev →
      GosubSays w name warn args ⟨c, e, p'⟩ ev
  | more {c e p q : V} {p' : Arg} {qs : List V} {many ev : List Ev} :
      Exactly (warn = true) (mkMsg .E_APP_ARG_MANY w [(c! "app", strV name), (c! "max_args", natV 3)]) many →
      PrioSays w (join (p :: (q :: qs).flatMap fun i => [tk ',', i])) p' ev →
      GosubSays w name warn (c :: e :: p :: q :: qs) ⟨c, e, p'⟩ (many ++ ev)

/-- The arguments of an action. -/
inductive ActionArgs : Arg → List V → Prop
  | text {v : V} {args : List V} : BareArgsOf ',' v args → ActionArgs (.one v) args
  /-- In the old style the commas are gone, and it is one argument; a quote or backslash that
  is a part of its own is left out. -/
  | old {vs : List V} : ActionArgs (.many vs) [join (vs.filter fun v => v ≠ tk '"' ∧ v ≠ tk '\\')]

/-- The parts of a condition: the text in front of the question mark, the actions behind it,
and what is said about them. -/
inductive PartsSay (w : Where) (name : Str) (data : V) : List V → List Arg → List Ev → Prop
  | two {c s : List V} {as : List (List V)} : Pieces '?' data.tokens [c, s] → Pieces ':' (unquoteToks false s) as →
      PartsSay w name data (unquoteToks false c) (((as.take 2).filter (!·.isEmpty)).map fun a => .one (join a)) []
  | many {c s m : List V} {more as : List (List V)} : Pieces '?' data.tokens (c :: s :: m :: more) →
      Pieces ':' (unquoteToks false s) as →
      PartsSay w name data (unquoteToks false c) (((as.take 2).filter (!·.isEmpty)).map fun a => .one (join a))
        [.msg (mkMsg .E_APP_ARG_MANY w [(c! "app", strV name), (c! "data", .one data), (c! "max_args", natV 2)])]
  /-- The old style, with a comma for the question mark. -/
  | old {c a : List V} {more : List (List V)} {s t : Str} : Pieces '?' data.tokens [data.tokens] →
      Pieces ',' data.tokens (c :: a :: more) → data.toStr = .ok s → (join c).toStr = .ok t →
      PartsSay w name data c [.many ((a :: more).map join)]
        [.msg (mkMsg .E_APP_ARG_IFSTYLE w [(c! "app", strV name), (c! "data", .one data), (c! "cond", .one (join c)),
          (c! "args", .many ((a :: more).map join))])]
  | few : Pieces '?' data.tokens [data.tokens] → Pieces ',' data.tokens [data.tokens] →
      PartsSay w name data data.tokens []
        [.msg (mkMsg .E_APP_ARG_FEW w [(c! "app", strV name), (c! "data", .one data), (c! "min_args", natV 2)])]

/-- Without a first piece that is white space. -/
def offBlank : List V → List V
  | .str s :: rest => if s.all isSpace then rest else .str s :: rest
  | items => items

/-- Without a first and a last piece that are white space. -/
def trimEnds (items : List V) : List V := (offBlank (offBlank items).reverse).reverse

/-- A condition without white space around. -/
inductive CondTrimmed : List V → V → Prop
  | text {s : Str} : CondTrimmed (s.map tk) (.str (stripP isSpace s))
  /-- A single variable has to have a name. -/
  | variable {k : Kind} {n s l : V} : n.truthy = true → CondTrimmed [.atom k n s l] (.atom k n s l)
  | mixed {items : List V} : Compact items → (∀ v ∈ items, isPiece v = true) → 2 ≤ items.length →
      CondTrimmed (V.tokensAll items) (join (trimEnds items))

/-- What is said about a condition; `const`: constants are reported. -/
inductive CondSays (w : Where) (name : Str) (const : Bool) (data : V) : List Arg → List Ev → Prop
  | mk {cond : List V} {r : V} {acts : List Arg} {parts empty constant : List Ev} :
      PartsSay w name data cond acts parts → CondTrimmed cond r →
      Showing (BlankToks cond) data (mkMsg .E_APP_ARG_IFEMPTY w [(c! "app", strV name), (c! "data", .one data)]) empty →
      Showing (const = true ∧ ¬ BlankToks cond ∧ Constant cond) data
        (mkMsg .E_APP_ARG_IFCONST w [(c! "app", strV name), (c! "data", .one data), (c! "cond", .one r)]) constant →
      (const = true ∧ ¬ BlankToks cond ∧ Constant cond → ∃ s, r.toStr = .ok s) →
      CondSays w name const data acts (parts ++ (empty ++ constant))

/-- The accepted spelling of `Background` after a use of an application: the first of the two
that occurred. -/
def spelled (sp : Option Str) (a : AppInfo) (name : Str) : Option Str :=
  match sp with
  | some s => some s
  | none => if a.beh = .background ∧ name ∈ [c! "Background", c! "BackGround"] then some name else none

/-- The proper name of an application. -/
def properName (sp : Option Str) (a : AppInfo) : Str :=
  match a.beh, sp with
  | .background, some s => s
  | _, _ => a.name

/-- The application a name stands for: in any case; any other name stands for the application
`Unknown`. -/
def Stands (env : AEnv) (name : Str) (a : AppInfo) : Prop :=
  env.apps (env.lower name) = some a ∨ env.apps (env.lower name) = none ∧ env.apps (c! "unknown") = some a

/-- The application a name stands for, and what is said about the name. -/
inductive NameSays (env : AEnv) (sp : Option Str) (w : Where) (name : Str) : AppInfo → List Ev → Prop
  | known {a : AppInfo} : Stands env name a → properName (spelled sp a name) a = name →
      NameSays env sp w name a [.app (env.lower name)]
  | miscased {a : AppInfo} : Stands env name a → properName (spelled sp a name) a ≠ name →
      properName (spelled sp a name) a ≠ c! "Unknown" →
      NameSays env sp w name a [.app (env.lower name), .msg (mkMsg .W_APP_BAD_CASE w
        [(c! "app", strV name), (c! "proper", strV (properName (spelled sp a name) a))])]
  | unknown {a : AppInfo} : Stands env name a → properName (spelled sp a name) a ≠ name →
      properName (spelled sp a name) a = c! "Unknown" →
      NameSays env sp w name a [.app (env.lower name), .msg (mkMsg .E_APP_MISSING w [(c! "app", strV name)])]

/-- Every application that has its arguments described has at least one. -/
def ArgsDescribed (env : AEnv) : Prop := ∀ low a least behs, env.apps low = some a → a.beh = .args least behs → behs ≠ []

/-- What is in front of the first parenthesis, and the data in the parentheses. -/
inductive Front (env : FEnv) (w : Where) : V → Str → Str → List Ev → Prop
  | closed {raw : V} {front data : Str} {rest : List V} : isMixed raw = true → raw.tokens = front.map tk ++ tk '(' :: rest →
      '(' ∉ front → (join rest).toStr = .ok (data ++ [')']) → Front env w raw front data []
  /-- Without the closing parenthesis the opening one is taken for data. -/
  | unclosed {raw : V} {front s : Str} {rest : List V} : isMixed raw = true → raw.tokens = front.map tk ++ tk '(' :: rest →
      '(' ∉ front → (join rest).toStr = .ok s → s.getLast? ≠ some ')' → Front env w raw front ('(' :: s) []
  | bare {front : Str} {parens : List Ev} : '(' ∉ front →
      Exactly (env.lower front ≠ c! "noop") (mkMsg .W_APP_NEED_PARENS w [(c! "app", strV front)]) parens →
      Front env w (.str front) front [] parens
  /-- A single variable or expression: an application is looked for inside. -/
  | inside {k : Kind} {t front data : Str} {s l : V} {parens : List Ev} : '(' ∈ t → Front env w (.str t) front data parens →
      Front env w (.atom k (.str t) s l) front data parens

mutual
/-- The number of question marks in a value. -/
def _root_.ALint.V.marks : V → Nat
  | .str s => s.count '?'
  | .lst items => V.marksAll items
  | .atom _ n s l => V.marks n + V.marks s + V.marks l
  | .int _ => 0
  | .none => 0
/-- The number of question marks in several values. -/
def _root_.ALint.V.marksAll : List V → Nat
  | [] => 0
  | v :: vs => V.marks v + V.marksAll vs
end

mutual

/-- What is said about an application with that data: events, the accepted spelling of
`Background` afterwards, and destinations. -/
inductive AppSays (env : AEnv) (w : Where) : Option Str → AppInfo → V → List Ev → Option Str → List Jump → Prop
  | plain {sp : Option Str} {a : AppInfo} {data : V} {bal : List Ev} : a.beh = .plain ∨ a.beh = .background →
      BalanceSays w data bal → AppSays env w sp a data bal sp []
  | set {sp : Option Str} {a : AppInfo} {data : V} {asg bal : List Ev} : a.beh = .set → AssignSays env.toFEnv w data asg →
      BalanceSays w data bal → AppSays env w sp a data (asg ++ bal) sp []
  | args {sp : Option Str} {a : AppInfo} {data : V} {least : Option Nat} {behs : List ArgBeh} {args : List V}
      {count each pipe : List Ev} : a.beh = .args least behs → behs ≠ [] → ArgsOf ',' data args →
      CountSays w a.name (least.getD 0) behs.length args count → ArgsSay w a.name 1 behs args each →
      PipeSays w a.name data args pipe → AppSays env w sp a data (count ++ (each ++ pipe)) sp []
  | goto {sp : Option Str} {a : AppInfo} {data : V} {args : List V} {j : Jump} {count pipe : List Ev} : a.beh = .goto →
      ArgsOf ',' data args → CountSays w a.name 1 3 args count → PipeSays w a.name data args pipe → GotoSays args j →
      AppSays env w sp a data (count ++ pipe) sp [j]
  | gosub {sp : Option Str} {a : AppInfo} {data : V} {args : List V} {j : Jump} {count pipe prio : List Ev} : a.beh = .gosub →
      ArgsOf ',' data args → CountSays w a.name 1 3 args count → PipeSays w a.name data args pipe →
      GosubSays w a.name false args j prio → AppSays env w sp a data (count ++ (pipe ++ prio)) sp [j]
  | ifTime {sp : Option Str} {a : AppInfo} {data : V} {acts : List Arg} {evs : List Ev} : a.beh = .ifTime →
      CondSays w a.name false data acts evs → AppSays env w sp a data evs sp []
  | gotoIf {sp : Option Str} {a : AppInfo} {data : V} {acts : List Arg} {js : List Jump} {evs : List Ev} : a.beh = .gotoIf →
      CondSays w a.name true data acts evs →
      Zips (fun act j => ∃ args, ActionArgs act args ∧ GotoSays args j) acts js → AppSays env w sp a data evs sp js
  | gosubIf {sp : Option Str} {a : AppInfo} {data : V} {acts : List Arg} {js : List (Jump × List Ev)} {evs : List Ev} :
      a.beh = .gosubIf → CondSays w a.name true data acts evs →
      Zips (fun act j => ∃ args, ActionArgs act args ∧ GosubSays w a.name true args j.1 j.2) acts js →
      AppSays env w sp a data (evs ++ js.flatMap (·.2)) sp (js.map (·.1))
  /-- The actions are applications themselves; this does not work in the old style. -/
  | execIf {sp sp' : Option Str} {a : AppInfo} {data : V} {acts : List V} {evs runs : List Ev} : a.beh = .execIf →
      CondSays w a.name true data (acts.map .one) evs → LinesSay env w sp acts runs sp' →
      AppSays env w sp a data (evs ++ runs) sp' []

/-- What is said about several applications, one after the other. -/
inductive LinesSay (env : AEnv) (w : Where) : Option Str → List V → List Ev → Option Str → Prop
  | nil {sp : Option Str} : LinesSay env w sp [] [] sp
  | cons {sp sp' sp'' : Option Str} {raw : V} {raws : List V} {e es : List Ev} {js : List Jump} :
      LineSays env w sp raw e sp' js → LinesSay env w sp' raws es sp'' → LinesSay env w sp (raw :: raws) (e ++ es) sp''

/-- What is said about an application as it is written. -/
inductive LineSays (env : AEnv) (w : Where) : Option Str → V → List Ev → Option Str → List Jump → Prop
  /-- White space between name and parenthesis: not looked at any further. -/
  | blankBehind {sp : Option Str} {raw : V} {front data : Str} {x : Char} {e : List Ev} :
      Front env.toFEnv w raw (front ++ [x]) data e → isSpace x = true →
      LineSays env w sp raw (e ++ [.msg (mkMsg .E_APP_WSH w [(c! "app", strV (front ++ [x]))])]) sp []
  | noName {sp : Option Str} {raw : V} {data : Str} {e : List Ev} : Front env.toFEnv w raw [] data e →
      LineSays env w sp raw (e ++ [.msg (mkMsg .E_APP_MISSING w [(c! "app", strV (c! "(none)"))])]) sp []
  /-- In this order: about the parentheses, white space in front, the name, variables and
  functions in the data, and what the application has to say. -/
  | app {sp sp' : Option Str} {raw v : V} {blank name data : Str} {a : AppInfo} {front lead look inner call : List Ev}
      {js : List Jump} : Front env.toFEnv w raw (blank ++ name) data front → (∀ c ∈ blank, isSpace c = true) →
      name ≠ [] → NoLead name → NoTrail name →
      Exactly (blank ≠ []) (mkMsg .W_APP_WSH w [(c! "app", strV (blank ++ name))]) lead →
      NameSays env sp w name a look → DataSays env.toFEnv w name data v inner →
      AppSays env w (spelled sp a name) a v call sp' js →
      LineSays env w sp raw (front ++ (lead ++ (look ++ (inner ++ call)))) sp' js

end

end ALint.Spec
