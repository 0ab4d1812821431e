import Verif.Model.Var

/-!
# Model of `asterisklint/varfun.py`, `function.py`, `func/base.py`

The singletons `FuncLoader` and `VarLoader` collect what is used; this is modelled by
a trace of events.
-/

namespace ALint

/-- Something observable happening while application data is processed.
Code: defines.py:81, application.py:79, varfun.py:124, 378, application.py:108. -/
inductive Ev where
  /-- a message is issued -/
  | msg (m : Msg)
  /-- `VarLoader._variables[name].append(where)`, varfun.py:378 -/
  | var (name : Str) (w : Where)
  /-- `FuncLoader._used_funcs.add(lower)`, varfun.py:124 -/
  | func (lower : Str)
  /-- `AppLoader._used_apps.add(lower)`, application.py:79 -/
  | app (lower : Str)
deriving DecidableEq

/-- The outcome of a piece of code: events in order, and value or exception.
Sequencing; it has no code of its own. -/
structure Tr (α : Type) where
  ev : List Ev
  val : Except Exc α
deriving DecidableEq

namespace Tr

/-- A value without events; it has no code of its own. -/
def pure {α : Type} (a : α) : Tr α := ⟨[], .ok a⟩

/-- Raising an exception; it has no code of its own. -/
def raise {α : Type} (e : Exc) : Tr α := ⟨[], .error e⟩

/-- Sequencing: events before an exception stay.  Sequencing; it has no code of its own. -/
def bind {α β : Type} (x : Tr α) (f : α → Tr β) : Tr β :=
  match x.val with
  | .error e => ⟨x.ev, .error e⟩
  | .ok a => ⟨x.ev ++ (f a).ev, (f a).val⟩

/-- A value or an exception without events; it has no code of its own. -/
def lift {α : Type} (x : Except Exc α) : Tr α := ⟨[], x⟩

/-- One event; it has no code of its own. -/
def note (e : Ev) : Tr Unit := ⟨[e], .ok ()⟩

/-- Issuing a message: recorded first, formatted afterwards (defines.py:79-85). -/
def emit (m : Msg) : Tr Unit := ⟨[.msg m], m.render.map (fun _ => ())⟩

end Tr

/-- The special behaviour of some functions when called.  The classes in func/vall. -/
inductive FuncBeh where
  /-- `FuncBase.__call__`, func/base.py:29-33 -/
  | plain
  /-- `SET`, func/vall/func_logic.py:41-44 -/
  | set
  /-- `AUDIOHOOK_INHERIT`, func/vall/func_audiohookinherit.py:20-27 -/
  | audiohook
  /-- `INC` and `DEC`, func/vall/func_math.py:24-43 -/
  | count
deriving DecidableEq

/-- A registered function: `name` and `module`, func/base.py:21-27. -/
structure FuncInfo where
  name : Str
  module : Str
  beh : FuncBeh
deriving DecidableEq

/-- What the checked code takes from its surroundings. `lower` is `str.lower`;
`funcs` is `FuncLoader._lower_funcs` as filled by `register` (varfun.py:127-129). -/
structure FEnv where
  lower : Str → Str
  funcs : Str → Option FuncInfo

/-- A message without `previous`, defines.py:117-120. -/
def mkMsg (k : MK) (w : Where) (args : List (Str × Arg)) : Msg := ⟨k, w, args, none⟩

/-! ## Functions -/

/-- `FuncLoader._get_and_check_availability` with `FuncLoader.get`, varfun.py:112-125, 205-215.
The alias made for an unknown name has no effect but to repeat the look-up
of `unknown`. -/
def getFunc (env : FEnv) (w : Where) (func : Str) : Tr FuncInfo :=
  let low := env.lower func
  match (env.funcs low).or (env.funcs (c! "unknown")) with
  | none => .raise .notImplementedError
  | some f =>
    .bind (.note (.func low)) fun _ =>
      if f.name ≠ func then
        if f.name = c! "UNKNOWN" then
          .bind (.emit (mkMsg .E_FUNC_MISSING w [(c! "func", .one (.str func))])) fun _ => .pure f
        else
          .bind (.emit (mkMsg .E_FUNC_BAD_CASE w
            [(c! "func", .one (.str func)), (c! "proper", .one (.str f.name))])) fun _ => .pure f
      else .pure f

/-- `[A-Za-z0-9_]`, varfun.py:73. -/
def legalVarChar (c : Char) : Bool :=
  ('A' ≤ c && c ≤ 'Z') || ('a' ≤ c && c ≤ 'z') || ('0' ≤ c && c ≤ '9') || c == '_'

/-- `VarLoader.count_var`, varfun.py:372-378. -/
def countVar (w : Where) (name : Str) : Tr Unit :=
  .bind (if name.all legalVarChar then .pure ()
    else .emit (mkMsg .E_VAR_BAD_TOKENS w [(c! "data", .one (.str name))])) fun _ =>
  .note (.var name w)

/-- `count_var` on anything: the assertion `isinstance(varname, str)`.  Code: varfun.py:372-373. -/
def countArg (w : Where) : Arg → Tr Unit
  | .one (.str s) => countVar w s
  | _ => .raise .assertionError

/-- `str(data)` as passed to a message.  The text of `str` of a list (which never
fails) is left abstract.  Code: app/base.py:74, func/base.py:33. -/
def strArg : Arg → Except Exc Arg
  | .one v => v.toStr.map (fun s => .one (.str s))
  | .many vs => .ok (.many vs)

/-- `FuncBase.__call__`, func/base.py:29-33. -/
def funcBalance (w : Where) (data : Arg) : Tr Unit :=
  if balanced data.iter then .pure ()
  else .bind (.lift (strArg data)) fun s => .emit (mkMsg .W_FUNC_BALANCE w [(c! "data", s)])

/-- The names allowed by `AUDIOHOOK_INHERIT`.  Code: func/vall/func_audiohookinherit.py:22-24. -/
def audiohooks : List Str := [c! "MixMonitor", c! "Chanspy", c! "Volume", c! "Speex",
  c! "pitch_shift", c! "JACK_HOOK", c! "Mute"]

/-- Is `data` a string outside the list?  Code: func/vall/func_audiohookinherit.py:22-24. -/
def badAudiohook : Arg → Bool
  | .one (.str s) => !audiohooks.contains s
  | _ => false

/-- `x[-1] == ')'` for a non-empty `x`.  Code: varfun.py:191. -/
def endsParen (v : V) : Bool := v.tokens.getLast? == some (.str (c! ")"))

/-- `FuncLoader.process_write_function`, varfun.py:185-203; `call` calls a function. -/
def writeFunction (env : FEnv) (w : Where) (call : FuncInfo → Arg → Tr Unit) (dest : V) : Tr Unit :=
  if dest.hasTok '(' then
    .bind (.lift (dest.split '(' (some 1))) fun parts =>
      match parts with
      | [func, args] =>
        match args.tokens.getLast? with
        | none => .raise .indexError
        | some t =>
          if t = .str (c! ")") then
            let inner := args.getSlice 0 (args.tokens.length - 1)
            match func with
            | .str f => .bind (getFunc env w f) fun fi => call fi inner
            | _ => .raise .attributeError
          else .raise .assertionError
      | _ => .raise .valueError
  else .raise .unboundLocalError

/-- `VarLoader.parse_assignment`, varfun.py:227-252. -/
def parseAssignment (env : FEnv) (w : Where) (call : FuncInfo → Arg → Tr Unit) (data : Arg) : Tr Unit :=
  if !data.truthy then .emit (mkMsg .E_ASSIGN_EMPTY w [])
  else match data with
    | .many _ => .raise .attributeError
    | .one v =>
      .bind (.lift (v.split '=' (some 1))) fun parts =>
        match parts with
        | [dest, _] =>
          .bind (if dest.hasTok ' ' then .emit (mkMsg .W_ASSIGN_SPACES w [(c! "name", .one dest)])
            else .pure ()) fun _ =>
          if dest.truthy && endsParen dest then writeFunction env w call dest else .pure ()
        | _ => .emit (mkMsg .E_ASSIGN_NO_EQUALS w [(c! "data", .one v)])

/-- Calling a function.  `SET` may call a function in turn, on a smaller argument; the
number bounds this (`callFunc_fuel` in Proofs: the result does not depend on it once it
exceeds the size of the argument).
Code: func/base.py:29-33, func/vall/func_logic.py:41-44, func/vall/func_math.py:24-43. -/
def callFunc (env : FEnv) (w : Where) : Nat → FuncInfo → Arg → Tr Unit
  | 0, _, _ => .raise .recursionError
  | n + 1, f, data =>
    match f.beh with
    | .plain => funcBalance w data
    | .set => .bind (parseAssignment env w (callFunc env w n) data) fun _ => funcBalance w data
    | .audiohook =>
      .bind (if badAudiohook data then
          .emit (mkMsg .E_FUNC_BAD_ARGS w [(c! "func", .one (.str f.name)), (c! "data", data)])
        else .pure ()) fun _ => funcBalance w data
    | .count => .bind (funcBalance w data) fun _ => countArg w data

mutual
/-- The number of characters and variables in a value, inside names too.
It only measures for `callFunc`. -/
def V.size : V → Nat
  | .str s => s.length
  | .lst items => V.sizeAll items
  | .atom _ n _ _ => V.size n + 1
  | .int _ => 0
  | .none => 0

/-- The same for a list; it only measures for `callFunc`. -/
def V.sizeAll : List V → Nat
  | [] => 0
  | v :: vs => V.size v + V.sizeAll vs
end

/-- A bound for the calls made from an argument.  It only measures for `callFunc`. -/
def Arg.size : Arg → Nat
  | .one v => v.size
  | .many vs => V.sizeAll vs

/-- The call `loaded_func(args, where=where)`.  Code: varfun.py:179, 201. -/
def callFuncTop (env : FEnv) (w : Where) (f : FuncInfo) (data : Arg) : Tr Unit :=
  callFunc env w (data.size + 1) f data

/-! ## Slices -/

/-- `varname, start, length` before validation, varfun.py:386-394; `false`: wrong number
of parts. -/
def sliceParts : List V → V × V × V × Bool
  | [v, s] => (v, s, .none, true)
  | [v, s, l] => (v, s, l, true)
  | v :: _ => (v, .none, .none, false)
  | [] => (.str [], .none, .none, false)

/-- Validation of `start`, varfun.py:396-406: new start, new length. -/
def sliceStart (w : Where) (start length : V) : Tr (V × V) :=
  match start with
  | .str s =>
    if looksInt s then .bind (.lift (pyInt s)) fun n => .pure (.int n, length)
    else .bind (.emit (mkMsg .E_VAR_SUBSTR_START w [(c! "start", .one .none)])) fun _ =>
      .pure (.none, .none)
  | start => .pure (start, length)

/-- `start < 0 and -length <= start`, varfun.py:418: `TypeError` for a variable. -/
def startCovers (start : V) (n : Int) : Except Exc Bool :=
  match start with
  | .int s => .ok (decide (s < 0) && decide (-n ≤ s))
  | _ => .error .typeError

/-- Validation of `length`, varfun.py:408-423. -/
def sliceLength (w : Where) (start length : V) : Tr (V × V) :=
  match length with
  | .str s =>
    if looksInt s then
      .bind (.lift (pyInt s)) fun n =>
        .bind (.lift (if n = 0 then .ok true else startCovers start n)) fun bad =>
          if bad then
            .bind (.emit (mkMsg .E_VAR_SUBSTR_LENGTH w [(c! "length", .one .none)])) fun _ =>
              .pure (start, .none)
          else .pure (start, .int n)
    else .bind (.emit (mkMsg .E_VAR_SUBSTR_LENGTH w [(c! "length", .one (.str s))])) fun _ =>
      .pure (.none, .none)
  | length => .pure (start, length)

/-- `start == 0 and not length`, varfun.py:425-428. -/
def sliceZero (w : Where) (start length : V) : Tr (V × V) :=
  if start = .int 0 && !length.truthy then
    .bind (.emit (mkMsg .E_VAR_SUBSTR_START w [(c! "start", .one .none)])) fun _ =>
      .pure (.none, length)
  else .pure (start, length)

/-- `VarLoader.split_variable_slice`, varfun.py:380-430. -/
def splitSlice (w : Where) (data : V) : Tr (V × V × V) :=
  .bind (.lift (data.split ':' none)) fun parts =>
    let p := sliceParts parts
    .bind (if p.2.2.2 then .pure ()
      else .emit (mkMsg .E_VAR_SUBSTR_ARGS w [(c! "data", .one data)])) fun _ =>
    .bind (sliceStart w p.2.1 p.2.2.1) fun sl =>
    .bind (sliceLength w sl.1 sl.2) fun sl =>
    .bind (sliceZero w sl.1 sl.2) fun sl =>
    .pure (p.1, sl.1, sl.2)

/-- `SliceMixin.__init__`, variable.py:250-263: the assertions and comparisons. -/
def sliceInit (start length : V) : Except Exc Unit :=
  match start, length with
  | .none, _ => .error .assertionError
  | start, .int n =>
    if n = 0 then .error .assertionError
    else if n < 0 then .ok ()
    else match start with
      | .int s => if s < 0 then (if s + n < 0 then .ok () else .error .assertionError) else .ok ()
      | _ => .error .typeError
  | _, _ => .ok ()

/-! ## Reading functions -/

/-- Position of the first `(`.  Code: varfun.py:136-139. -/
def firstParen (toks : List V) : Nat := toks.findIdx (· == .str (c! "("))

/-- The last position of a `)` behind position `i`, varfun.py:142-148. -/
def lastParen (toks : List V) (i : Nat) : Option Nat :=
  let n := (toks.reverse).findIdx (· == .str (c! ")"))
  if n < toks.length && i < toks.length - 1 - n then some (toks.length - 1 - n) else none

/-- The name of a `ReadFunc`, function.py:29-35. -/
def funcName (func args : V) : V := join [func, .str (c! "("), args, .str (c! ")")]

/-- `ReadFunc` or `ReadFuncSlice`, varfun.py:181-183. -/
def mkReadFunc (func args start length : V) : Except Exc V :=
  if start = .none then .ok (.atom .func (funcName func args) .none .none)
  else (sliceInit start length).map fun _ => .atom .funcSlice (funcName func args) start length

/-- The slice behind a function call, varfun.py:154-163: start and length. -/
def funcTail (w : Where) (data tail : V) : Tr (V × V) :=
  if tail.truthy then
    .bind (splitSlice w tail) fun r =>
      if r.1.truthy then
        .bind (.emit (mkMsg .E_FUNC_TAIL w [(c! "data", .one data)])) fun _ => .pure (.none, .none)
      else .pure (r.2.1, r.2.2)
  else .pure (.none, .none)

/-- Arguments and tail, varfun.py:142-152. -/
def funcArgs (w : Where) (data : V) (i : Nat) : Tr (V × V) :=
  let len := data.tokens.length
  match lastParen data.tokens i with
  | some n =>
    .pure (join (data.getSlice (i + 1) n).iter, join (data.getSlice (n + 1) len).iter)
  | none =>
    .bind (.emit (mkMsg .E_FUNC_PARENS w [(c! "data", .one data)])) fun _ =>
      .pure (join (data.getSlice (i + 1) len).iter, .str [])

/-- `FuncLoader.process_read_function`, varfun.py:131-183.  A name with variables either
is a `Var` (`W_FUNC_DYNAMIC` is issued without the value its text wants) or a list
(which has no `lower`). -/
def readFunction (env : FEnv) (w : Where) (data : V) : Tr V :=
  let i := firstParen data.tokens
  let func := data.getSlice 0 i
  if !func.truthy then .raise .assertionError
  else
    .bind (funcArgs w data i) fun at_ =>
    .bind (funcTail w data at_.2) fun sl =>
    match func with
    | .many _ => .raise .attributeError
    | .one (.str f) =>
      .bind (getFunc env w f) fun fi =>
      .bind (callFuncTop env w fi (.one at_.1)) fun _ =>
      .lift (mkReadFunc (.str f) at_.1 sl.1 sl.2)
    | .one v =>
      .bind (.emit (mkMsg .W_FUNC_DYNAMIC w [(c! "func", .one v)])) fun _ =>
      .lift (mkReadFunc v at_.1 sl.1 sl.2)

/-! ## Variables -/

/-- `if not isinstance(varname, Var): self.count_var(...)`, varfun.py:338-339, 351-352. -/
def countUnlessVar (w : Where) (v : V) : Tr Unit :=
  if v.isVar then .pure () else countArg w (.one v)

/-- `VarLoader._process_variable_slice`, varfun.py:344-362. -/
def processSlice (w : Where) (data : V) : Tr V :=
  .bind (splitSlice w data) fun r =>
  .bind (countUnlessVar w r.1) fun _ =>
    if r.2.1 = .none then .pure (.atom .var r.1 .none .none)
    else if r.2.1.isVar || r.2.2.isVar then .pure (.atom .dynSlice r.1 r.2.1 r.2.2)
    else .bind (.lift (sliceInit r.2.1 r.2.2)) fun _ => .pure (.atom .slice r.1 r.2.1 r.2.2)

/-- `VarLoader._process_variable`, varfun.py:322-342. -/
def processVariable (env : FEnv) (w : Where) (data : V) : Tr V :=
  if data.hasTok '(' then readFunction env w data
  else if data.hasTok ':' then processSlice w data
  else .bind (countUnlessVar w data) fun _ => .pure (.atom .var data .none .none)

/-- `VarLoader._process_expression`, varfun.py:364-370. -/
def processExpression (data : V) : V := .atom .expr data .none .none

/-- The search for the next `${` or `$[`, varfun.py:265-274: text before, kind of bracket
(curly?), text behind. -/
def findSubst : Str → Option (Str × Bool × Str)
  | [] => none
  | c :: cs =>
    match c, cs with
    | '$', '{' :: rest => some ([], true, rest)
    | '$', '[' :: rest => some ([], false, rest)
    | _, _ => (findSubst cs).map fun r => (c :: r.1, r.2)

/-- Does the text start with `{` or `[`?  (At the end of the text the code also
answers yes, the bracket then is missing anyway.).  Code: varfun.py:312-314. -/
def opensSubst : Str → Bool
  | '{' :: _ => true
  | '[' :: _ => true
  | _ => false

/-- `VarLoader._find_brackets_end`, varfun.py:302-320: the text inside, whether it has
substitutions, the text behind; `none` is the `VarParseError`.  `depth` is `brackets`
minus one. -/
def bracketsEnd (l r : Char) : Nat → Str → Option (Str × Bool × Str)
  | _, [] => none
  | depth, c :: cs =>
    if c = '$' then (bracketsEnd l r depth cs).map fun x => (c :: x.1, opensSubst cs || x.2.1, x.2.2)
    else if c = l then (bracketsEnd l r (depth + 1) cs).map fun x => (c :: x.1, x.2)
    else if c = r then
      match depth with
      | 0 => some ([], false, cs)
      | depth + 1 => (bracketsEnd l r depth cs).map fun x => (c :: x.1, x.2)
    else (bracketsEnd l r depth cs).map fun x => (c :: x.1, x.2)

/-- The opening bracket, varfun.py:277, 280. -/
def brOpen (curly : Bool) : Char := if curly then '{' else '['

/-- The closing bracket, varfun.py:277, 280. -/
def brClose (curly : Bool) : Char := if curly then '}' else ']'

/-- What becomes of one `${...}` or `$[...]`, varfun.py:287-292. -/
def processSubst (env : FEnv) (w : Where) (curly : Bool) (data : V) : Tr V :=
  if curly then processVariable env w data else .pure (processExpression data)

/-- The list `ret` of `VarLoader.parse_variables`, varfun.py:254-300.  Both the recursive
call and the next turn of the loop work on a shorter text; the number bounds this
(`parseItems_fuel` in Proofs).  Python's limit on the depth of the recursion is not
modelled. -/
def parseItems (env : FEnv) (w : Where) : Nat → Str → Tr (List V)
  | 0, _ => .raise .recursionError
  | fuel + 1, data =>
    match findSubst data with
    | none => .pure [.str data]
    | some (pre, curly, rest) =>
      match bracketsEnd (brOpen curly) (brClose curly) 0 rest with
      | none => .raise .varParseError
      | some (inner, more, tail) =>
        .bind (if more then .bind (parseItems env w fuel inner) fun l => .pure (join l)
          else .pure (.str inner)) fun data' =>
        .bind (processSubst env w curly data') fun v =>
        .bind (parseItems env w fuel tail) fun l =>
        .pure (.str pre :: v :: l)

/-- `VarLoader.parse_variables`.  Code: varfun.py:254-300. -/
def parseVariables (env : FEnv) (w : Where) (data : Str) : Tr V :=
  .bind (parseItems env w (data.length + 1) data) fun l => .pure (join l)

end ALint
