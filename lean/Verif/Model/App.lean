import Verif.Model.Varfun

/-!
# Model of `asterisklint/application.py`, `app/base.py`, `app/vall/*.py`
-/

namespace ALint

/-! ## `AppBase.separate_args`, app/base.py:88-158 -/

/-- `brackets`, `parens`, `quotes`, `skipnext`, app/base.py:96-99. -/
structure SepSt where
  brackets : Nat
  parens : Nat
  quotes : Bool
  skip : Bool
deriving DecidableEq

/-- The values at the start, app/base.py:96-99. -/
def SepSt.init : SepSt := ⟨0, 0, false, false⟩

/-- What happens at one item: go on; add what was passed to the argument and leave out
this item; end the argument.  Code: app/base.py:104-144. -/
inductive SepAct where
  | keep | cut | split
deriving DecidableEq

/-- The body of the loop, app/base.py:104-144. -/
def sepStep (delim : Char) (remove : Bool) (st : SepSt) : V → SepSt × SepAct
  | .str s =>
    if st.skip then ({ st with skip := false }, .keep)
    else if s = c! "[" then ({ st with brackets := st.brackets + 1 }, .keep)
    else if s = c! "]" then ({ st with brackets := st.brackets - 1 }, .keep)
    else if s = c! "(" then ({ st with parens := st.parens + 1 }, .keep)
    else if s = c! ")" then ({ st with parens := st.parens - 1 }, .keep)
    else if s = c! "\"" ∧ delim ≠ '"' then
      ({ st with quotes := !st.quotes }, if remove then .cut else .keep)
    else if s = c! "\\" then ({ st with skip := true }, if remove then .cut else .keep)
    else if s = [delim] ∧ st.brackets = 0 ∧ st.parens = 0 ∧ st.quotes = false then (st, .split)
    else (st, .keep)
  | _ => (st, .keep)

/-- The items of `data[i:j]`: of a string, a `Var` or a list.  Code: app/base.py:134, 138, 142, 147. -/
def Arg.slice (a : Arg) (i j : Nat) : List V :=
  match a with
  | .one v => (v.getSlice i j).iter
  | .many vs => (vs.drop i).take (j - i)

/-- The loop with its end, app/base.py:101-147: `i` is the index of the next item, `cur`
the last element of `ret`. -/
def sepLoop (delim : Char) (remove : Bool) (data : Arg) :
    (i : Nat) → List V → SepSt → (start : Nat) → (cur : List V) → List (List V)
  | i, [], _, start, cur => [cur ++ data.slice start i]
  | i, t :: ts, st, start, cur =>
    let r := sepStep delim remove st t
    match r.2 with
    | .keep => sepLoop delim remove data (i + 1) ts r.1 start cur
    | .cut => sepLoop delim remove data (i + 1) ts r.1 (i + 1) (cur ++ data.slice start i)
    | .split => (cur ++ data.slice start i) :: sepLoop delim remove data (i + 1) ts r.1 (i + 1) []

/-- Squashing of one argument, app/base.py:150-156. -/
def squash (letters : List V) : V :=
  match strjoin letters with
  | [v] => v
  | l => join l

/-- `AppBase.separate_args(data, delimiter, remove_quotes_backslashes)`.  Code: app/base.py:88-158. -/
def separateArgs (delim : Char) (remove : Bool) (data : Arg) : List V :=
  (sepLoop delim remove data 0 data.iter .init 0 []).map squash

example : separateArgs ',' false (.one (.str (c! "a,\"b,c\",(d,e),f\\,g"))) =
    [.str (c! "a"), .str (c! "\"b,c\""), .str (c! "(d,e)"), .str (c! "f\\,g")] := by decide
example : separateArgs ',' true (.one (.str (c! "a,\"b,c\",(d,e),f\\,g"))) =
    [.str (c! "a"), .str (c! "b,c"), .str (c! "(d,e)"), .str (c! "f,g")] := by decide

/-! ## Registered applications -/

/-- The classes describing arguments.  Code: app/base.py:30-54. -/
inductive ArgBeh where
  /-- `AppArg`, app/base.py:30-38 -/
  | any
  /-- `AppOptions(options)`, app/base.py:41-54 -/
  | options (opts : Str)
  /-- `AppOrExten`, app/vall/app_originate.py:19-23 -/
  | appOrExten
deriving DecidableEq

/-- What an application class does when called.  Code: app/base.py:57-317 and the classes in app/vall. -/
inductive AppBeh where
  /-- `AppBase.__call__`, app/base.py:66-74 -/
  | plain
  /-- `Background`, app/vall/builtin.py:37-53 -/
  | background
  /-- `Set`, app/vall/builtin.py:157-161 -/
  | set
  /-- `App`, app/base.py:234-239: minimum and descriptions of the arguments -/
  | args (minArgs : Option Nat) (args : List ArgBeh)
  /-- `Goto`, app/vall/builtin.py:68-82 -/
  | goto
  /-- `GotoIf`, app/vall/builtin.py:85-98 -/
  | gotoIf
  /-- `GotoIfTime`, `ExecIfTime`, app/vall/builtin.py:101-106 -/
  | ifTime
  /-- `Gosub`, app/vall/app_stack.py:72-83 -/
  | gosub
  /-- `GosubIf`, app/vall/app_stack.py:86-97 -/
  | gosubIf
  /-- `ExecIf`, app/vall/app_exec.py:43-54 -/
  | execIf
deriving DecidableEq

/-- A registered application: class name and module, app/base.py:58-64. -/
structure AppInfo where
  name : Str
  module : Str
  beh : AppBeh
deriving DecidableEq

/-- The surroundings of an application; `apps` is `AppLoader._lower_apps` as filled by
`register` (application.py:82-84; the aliases added by `get` are treated in
Model/Loader.lean). -/
structure AEnv extends FEnv where
  apps : Str → Option AppInfo

/-- An element of `jump_destinations`: `None` is `V.none`; the priority of a `Gosub` may
be a list.  Code: application.py:108. -/
structure Jump where
  context : V
  exten : V
  prio : Arg
deriving DecidableEq

/-! ## Checks of arguments -/

/-- A text as an argument of a message, defines.py:117-120. -/
def strV (s : Str) : Arg := .one (.str s)

/-- A number as an argument of a message, defines.py:117-120. -/
def natV (n : Nat) : Arg := .one (.int n)

/-- `MinMaxArgsMixin.split_args`, app/base.py:183-194, the check. -/
def minMaxCheck (w : Where) (name : Str) (minArgs maxArgs : Option Nat) (args : List V) : Tr Unit :=
  if tooFew minArgs args then
    .emit (mkMsg .E_APP_ARG_FEW w [(c! "app", strV name), (c! "min_args", natV (minArgs.getD 0))])
  else if tooMany maxArgs args then
    .emit (mkMsg .E_APP_ARG_MANY w [(c! "app", strV name), (c! "max_args", natV (maxArgs.getD 0))])
  else .pure ()
where
  /-- app/base.py:186-188 -/
  tooFew : Option Nat → List V → Bool
    | none, _ => false
    | some m, args => decide (args.length < m) ||
        (m == 1 && match args with | [a] => !a.truthy | _ => false)
  /-- app/base.py:190-191 -/
  tooMany : Option Nat → List V → Bool
    | none, _ => false
    | some m, args => decide (m < args.length)

/-- `NoPipeDelimiterMixin.split_args`, app/base.py:226-231, the check. -/
def pipeCheck (w : Where) (name : Str) (data : V) (args : List V) : Tr Unit :=
  match args with
  | [a] => if a.hasTok '|' then
      .emit (mkMsg .E_APP_ARG_PIPEDELIM w [(c! "app", strV name), (c! "data", .one data)])
    else .pure ()
  | _ => .pure ()

/-- The strings among the items of an argument, app/base.py:47. -/
def optionStrs (arg : V) : List Str := arg.tokens.filterMap fun t => match t with
  | .str s => some s
  | _ => none

/-- The strings outside the allowed options, app/base.py:48. -/
def badOptions (opts : Str) (arg : V) : List Str :=
  (optionStrs arg).filter fun s => !contains s opts

/-- `validate`, app/base.py:37-38, 46-54 and app/vall/app_originate.py:20-23. -/
def validateArg (w : Where) (name : Str) (argno : Nat) (beh : ArgBeh) (arg : V) : Tr Unit :=
  match beh with
  | .any => .pure ()
  | .options opts =>
    .bind (if (badOptions opts arg).isEmpty then .pure ()
      else .emit (mkMsg .E_APP_ARG_BADOPT w [(c! "argno", natV argno), (c! "app", strV name),
        (c! "opts", strV (badOptions opts arg).flatten)])) fun _ =>
    if (optionStrs arg).length ≠ (optionStrs arg).eraseDups.length then
      .emit (mkMsg .E_APP_ARG_DUPEOPT w [(c! "argno", natV argno), (c! "app", strV name),
        (c! "opts", .one arg)])
    else .pure ()
  | .appOrExten =>
    if arg = .str (c! "app") ∨ arg = .str (c! "exten") then .pure ()
    else .emit (mkMsg .E_APP_ARG_BADOPT w [(c! "argno", natV argno), (c! "app", strV name),
        (c! "opts", .one arg)])

/-- The loop of `AppArgsMixin.split_args`, app/base.py:213-215, from the given number on. -/
def validateArgs (w : Where) (name : Str) : Nat → List ArgBeh → List V → Tr Unit
  | n, b :: bs, a :: as => .bind (validateArg w name n b a) fun _ => validateArgs w name (n + 1) bs as
  | _, _, _ => .pure ()

/-- `App.__call__` = `DelimitedArgsMixin.__call__` with all `split_args`, app/base.py:161-239. -/
def callArgs (w : Where) (name : Str) (minArgs : Option Nat) (behs : List ArgBeh) (data : V) : Tr (List V) :=
  let args := separateArgs ',' false (.one data)
  .bind (minMaxCheck w name minArgs (some behs.length) args) fun _ =>
  .bind (validateArgs w name 1 behs args) fun _ =>
  .bind (pipeCheck w name data args) fun _ => .pure args

/-- `split_args` of `Goto` and `Gosub`: one to three arguments, app/vall/builtin.py:68-71,
app/vall/app_stack.py:72-76. -/
def jumpArgs (w : Where) (name : Str) (data : V) : Tr (List V) :=
  let args := separateArgs ',' false (.one data)
  .bind (minMaxCheck w name (some 1) (some 3) args) fun _ =>
  .bind (pipeCheck w name data args) fun _ => .pure args

/-! ## Conditions -/

/-- Messages of `IfStyleApp.split_args` about the number of parts.  Code: app/base.py:253-255. -/
def ifMany (w : Where) (name : Str) (data : V) : Msg :=
  mkMsg .E_APP_ARG_MANY w [(c! "app", strV name), (c! "data", .one data), (c! "max_args", natV 2)]

/-- The message of `IfStyleApp.split_args` about the old style, app/base.py:279-280. -/
def ifOldStyle (w : Where) (name : Str) (data cond : V) (rest : List V) : Msg :=
  mkMsg .E_APP_ARG_IFSTYLE w [(c! "app", strV name), (c! "data", .one data), (c! "cond", .one cond),
    (c! "args", .many rest)]

/-- The message of `IfStyleApp.split_args` about missing parts, app/base.py:282. -/
def ifFew (w : Where) (name : Str) (data : V) : Msg :=
  mkMsg .E_APP_ARG_FEW w [(c! "app", strV name), (c! "data", .one data), (c! "min_args", natV 2)]

/-- `iftrue` and `iffalse` from the parts between colons, app/base.py:261-268. -/
def ifActions : List V → Arg × V
  | [] => (.one .none, .none)
  | [a] => (.one a, .none)
  | a :: b :: _ => (.one a, b)

/-- The first part of `IfStyleApp.split_args`, app/base.py:249-285: condition and actions.
The lists are never empty (`separate_args` gives at least one). -/
def ifParts (w : Where) (name : Str) (data : V) : Tr (V × Arg × V) :=
  match separateArgs '?' true (.one data) with
  | cond :: second :: more =>
    .bind (if more.isEmpty then .pure () else .emit (ifMany w name data)) fun _ =>
      .pure (cond, ifActions (separateArgs ':' false (.one second)))
  | _ =>
    match separateArgs ',' false (.one data) with
    | [] => .raise .indexError
    | cond :: rest =>
      .bind (.emit (if rest.isEmpty then ifFew w name data else ifOldStyle w name data cond rest)) fun _ =>
        .pure (cond, .many rest, .none)

/-- `IfStyleApp.split_args`, app/base.py:249-292. -/
def ifSplit (w : Where) (name : Str) (data : V) : Tr (V × Arg × V) :=
  .bind (ifParts w name data) fun p =>
  .bind (.lift p.1.strip) fun cond =>
  .bind (if cond = .str [] then
      .emit (mkMsg .E_APP_ARG_IFEMPTY w [(c! "app", strV name), (c! "data", .one data)])
    else .pure ()) fun _ =>
  .pure (cond, p.2)

/-- Is there text in the condition?  app/base.py:306-308 -/
def condConst (cond : V) : Bool :=
  cond ≠ .str [] && (cond.isStr || cond.tokens.any V.isStr)

/-- `VarCondIfStyleApp.split_args`, app/base.py:302-317. -/
def condSplit (w : Where) (name : Str) (data : V) : Tr (V × Arg × V) :=
  .bind (ifSplit w name data) fun p =>
  .bind (if condConst p.1 then
      .emit (mkMsg .E_APP_ARG_IFCONST w [(c! "app", strV name), (c! "data", .one data), (c! "cond", .one p.1)])
    else .pure ()) fun _ =>
  .pure p

/-! ## Jumps -/

/-- The loop `while len(jumpdest) != 3: jumpdest.insert(0, None)`, app/vall/builtin.py:77-79,
93-95.  With more than three elements it does not end (`C47_violated_hang`). -/
def padJump : List V → Except Exc Jump
  | [] => .ok ⟨.none, .none, .one .none⟩
  | [p] => .ok ⟨.none, .none, .one p⟩
  | [e, p] => .ok ⟨.none, e, .one p⟩
  | [c, e, p] => .ok ⟨c, e, .one p⟩
  | _ => .error .hang

/-- The priority of a `Gosub` without the arguments in parentheses,
app/vall/app_stack.py:53-69: position of the first parenthesis. -/
def gosubPrio (w : Where) (prio : V) : Tr Arg :=
  if prio.hasTok '(' then
    .bind (if endsParen prio then .pure ()
      else .emit (mkMsg .W_APP_BALANCE w [(c! "data", .one prio)])) fun _ =>
    .pure (prio.getSlice 0 (firstParen prio.tokens))
  else .pure (.one prio)

/-- The excess arguments joined with commas, app/vall/app_stack.py:37-39. -/
def joinExcess (p : V) (more : List V) : V :=
  join (p :: more.flatMap fun i => [.str (c! ","), i])

/-- `_gosub_args_to_destination`, app/vall/app_stack.py:24-51; `warn`: not a
`MinMaxArgsMixin`. -/
def gosubDest (w : Where) (name : Str) (warn : Bool) (args : List V) : Tr Jump :=
  match args with
  | [] => .raise .typeError  -- not reached: iteration over `None`
  | [p] => .bind (gosubPrio w p) fun p => .pure ⟨.none, .none, p⟩
  | [e, p] => .bind (gosubPrio w p) fun p => .pure ⟨.none, e, p⟩
  | [c, e, p] => .bind (gosubPrio w p) fun p => .pure ⟨c, e, p⟩
  | c :: e :: p :: more =>
    .bind (if warn then .emit (mkMsg .E_APP_ARG_MANY w [(c! "app", strV name), (c! "max_args", natV 3)])
      else .pure ()) fun _ =>
    .bind (gosubPrio w (joinExcess p more)) fun p => .pure ⟨c, e, p⟩

/-- `for args in (iftrue, iffalse): if args: ...`: the actions present, in order.
Code: app/vall/builtin.py:90-91, app/vall/app_stack.py:91-92. -/
def actions (p : Arg × V) : List Arg := [p.1, .one p.2].filter Arg.truthy

/-- Collecting results in order.  Sequencing of a loop; it has no code of its own. -/
def Tr.mapM {α β : Type} (f : α → Tr β) : List α → Tr (List β)
  | [] => .pure []
  | a :: as => .bind (f a) fun b => .bind (Tr.mapM f as) fun bs => .pure (b :: bs)

/-! ## Calling -/

/-- `AppBase.__call__`, app/base.py:66-74. -/
def appBalance (w : Where) (data : V) : Tr Unit :=
  if balanced data.tokens then .pure ()
  else .bind (.lift data.toStr) fun s => .emit (mkMsg .W_APP_BALANCE w [(c! "data", strV s)])

/-- Running the actions of `ExecIf`, app/vall/app_exec.py:49-52, threading the chosen
spelling of `Background`. -/
def execAll (inner : Option Str → Arg → Tr (Option Str)) : Option Str → List Arg → Tr (Option Str)
  | sp, [] => .pure sp
  | sp, a :: as => .bind (inner sp a) fun sp => execAll inner sp as

/-- `app(self.data, where, jump_destinations)`, application.py:136-138: the destinations.
`inner` runs an application given as text (for `ExecIf`). -/
def callApp (env : FEnv) (inner : Option Str → Arg → Tr (Option Str)) (sp : Option Str) (w : Where)
    (app : AppInfo) (data : V) : Tr (Option Str × List Jump) :=
  match app.beh with
  | .plain | .background => .bind (appBalance w data) fun _ => .pure (sp, [])
  | .set =>
    .bind (parseAssignment env w (callFuncTop env w) (.one data)) fun _ =>
    .bind (appBalance w data) fun _ => .pure (sp, [])
  | .args minArgs behs => .bind (callArgs w app.name minArgs behs data) fun _ => .pure (sp, [])
  | .goto =>
    .bind (jumpArgs w app.name data) fun args =>
    .bind (.lift (padJump args)) fun j => .pure (sp, [j])
  | .gotoIf =>
    .bind (condSplit w app.name data) fun p =>
    .bind (Tr.mapM (fun a => .lift (padJump (separateArgs ',' true a))) (actions p.2)) fun js =>
    .pure (sp, js)
  | .ifTime => .bind (ifSplit w app.name data) fun _ => .pure (sp, [])
  | .gosub =>
    .bind (jumpArgs w app.name data) fun args =>
    .bind (gosubDest w app.name false args) fun j => .pure (sp, [j])
  | .gosubIf =>
    .bind (condSplit w app.name data) fun p =>
    .bind (Tr.mapM (fun a => gosubDest w app.name true (separateArgs ',' true a)) (actions p.2)) fun js =>
    .pure (sp, js)
  | .execIf =>
    .bind (condSplit w app.name data) fun p =>
    .bind (execAll inner sp (actions p.2)) fun sp => .pure (sp, [])

/-! ## `App`, application.py:87-196 -/

/-- `data[1:-1]` if in parentheses, application.py:169-171. -/
def stripParens (data : Str) : Str :=
  if data.head? = some '(' ∧ data.getLast? = some ')' then (data.drop 1).dropLast else data

/-- The end of `split_app_data`, application.py:173-192: application and data, or `none`
for `return False`. -/
def splitAppEnd (w : Where) (app : V) (data : Str) : Tr (Option (Str × Str)) :=
  match app with
  | .str a =>
    if rstripP isSpace a ≠ a then
      .bind (.emit (mkMsg .E_APP_WSH w [(c! "app", strV a)])) fun _ => .pure none
    else
      let b := lstripP isSpace a
      .bind (if b ≠ a then .emit (mkMsg .W_APP_WSH w [(c! "app", strV a)]) else .pure ()) fun _ =>
      if b = [] then
        .bind (.emit (mkMsg .E_APP_MISSING w [(c! "app", strV (c! "(none)"))])) fun _ => .pure none
      else .pure (some (b, stripParens data))
  | _ => .raise .attributeError

/-- `split_app_data` when there is no parenthesis, application.py:160-165. -/
def splitAppBare (env : FEnv) (w : Where) (raw : V) : Tr (Option (Str × Str)) :=
  match raw with
  | .str s =>
    .bind (if env.lower s ≠ c! "noop" then .emit (mkMsg .W_APP_NEED_PARENS w [(c! "app", strV s)])
      else .pure ()) fun _ =>
    splitAppEnd w raw (c! "()")
  | _ => .raise .attributeError

/-- `split_app_data`, application.py:154-192. -/
def splitAppData (env : FEnv) (w : Where) (raw : Arg) : Tr (Option (Str × Str)) :=
  match raw with
  | .many _ => .raise .attributeError
  | .one v =>
    .bind (.lift (v.split '(' (some 1))) fun parts =>
      match parts with
      | [app, data] => .bind (.lift data.toStr) fun s => splitAppEnd w app ('(' :: s)
      | _ => splitAppBare env w v

/-- `except VarParseError:`; what happened before the exception stays.  Code: application.py:148-151. -/
def Tr.catchParse {α : Type} (x : Tr α) (h : Tr α) : Tr α :=
  match x.val with
  | .error .varParseError => ⟨x.ev ++ h.ev, h.val⟩
  | _ => x

/-- `parse_inner`, application.py:140-152. -/
def parseInner (env : FEnv) (w : Where) (app data : Str) : Tr V :=
  if contains (c! "${") data || contains (c! "$[") data then
    (parseVariables env w data).catchParse
      (.bind (.emit (mkMsg .E_APP_PARSE_ERROR w [(c! "app", strV app), (c! "args", strV data)])) fun _ =>
        .pure (.str data))
  else .pure (.str data)

/-- `Background.name` and `AppBase.name`.  Code: app/vall/builtin.py:37-51, app/base.py:58-60. -/
def appName (sp : Option Str) (app : AppInfo) : Str :=
  if app.beh = .background then sp.getD app.name else app.name

/-- The spelling chosen by a use of `Background`, app/vall/builtin.py:48-51. -/
def chooseSpelling (sp : Option Str) (app : AppInfo) (supplied : Str) : Option Str :=
  if app.beh = .background ∧ sp = none ∧ (supplied = c! "Background" ∨ supplied = c! "BackGround") then
    some supplied
  else sp

/-- `check_availability`, app/base.py:76-82. -/
def checkAvailability (w : Where) (name supplied : Str) : Tr Unit :=
  if name = supplied then .pure ()
  else if name = c! "Unknown" then .emit (mkMsg .E_APP_MISSING w [(c! "app", strV supplied)])
  else .emit (mkMsg .W_APP_BAD_CASE w [(c! "app", strV supplied), (c! "proper", strV name)])

/-- `AppLoader.get` (application.py:67-80) with `check_availability`: the application and
the spelling of `Background`. -/
def getApp (env : AEnv) (sp : Option Str) (w : Where) (app : Str) : Tr (AppInfo × Option Str) :=
  match (env.apps (env.lower app)).or (env.apps (c! "unknown")) with
  | none => .raise .notImplementedError
  | some a =>
    .bind (.note (.app (env.lower app))) fun _ =>
    .bind (checkAvailability w (appName (chooseSpelling sp a app) a) app) fun _ =>
    .pure (a, chooseSpelling sp a app)

/-- `App(raw, where)`, application.py:105-138: the spelling of `Background` and the
destinations.  The number is the depth of nested applications that Python's stack allows;
the exact limit is not modelled. -/
def runApp (env : AEnv) : Nat → Option Str → Where → Arg → Tr (Option Str × List Jump)
  | 0, _, _, _ => .raise .recursionError
  | depth + 1, sp, w, raw =>
    .bind (splitAppData env.toFEnv w raw) fun r =>
      match r with
      | none => .pure (sp, [])
      | some (app, data) =>
        .bind (getApp env sp w app) fun a =>
        .bind (parseInner env.toFEnv w app data) fun d =>
        callApp env.toFEnv (fun sp raw => .bind (runApp env depth sp w raw) fun r => .pure r.1)
          a.2 w a.1 d

end ALint
