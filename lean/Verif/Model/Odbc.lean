import Verif.Model.Varfun
import Verif.Model.Vsw

/-!
# Model of `asterisklint/func_odbc.py`

`OdbcQuery` and `get_queries` are in Model/Annotate.
-/

namespace ALint

/-- `OdbcFunction`, func_odbc.py:134-241: a `Context` with its varsets. -/
structure OdbcFn where
  name : Str
  templates : Str
  comment : Bool
  at_ : Where
  sets : List VarE
deriving DecidableEq

/-- `OdbcFunction.ORDER`, func_odbc.py:135-139. -/
def odbcOrder : List Str := [c! "prefix", c! "synopsis", c! "dsn", c! "escapecommas", c! "mode",
  c! "rowlimit", c! "readhandle", c! "writehandle", c! "readsql", c! "writesql", c! "insertsql",
  c! "read", c! "write"]

/-- `tuple.index`; `none` is the `ValueError`.  Code: func_odbc.py:195-198. -/
def indexOf? (x : Str) : List Str → Option Nat
  | [] => none
  | y :: ys => if x = y then some 0 else (indexOf? x ys).map (· + 1)

/-- `get_variable`, func_odbc.py:150-154: the first value. -/
def OdbcFn.get (f : OdbcFn) (key : Str) : Option Str := (f.sets.find? (·.key == key)).map (·.value)

/-- `get_prefix`, func_odbc.py:147-148: the empty text is false. -/
def OdbcFn.prefix_ (f : OdbcFn) : Str :=
  match f.get (c! "prefix") with
  | some (c :: cs) => c :: cs
  | _ => c! "ODBC"

/-- `get_function_name`, func_odbc.py:144-145. -/
def OdbcFn.funcName (f : OdbcFn) : Str := f.prefix_ ++ c! "_" ++ f.name

/-- `check_order`, func_odbc.py:194-215.  The position of a setting that was kept is always
found.  (`previous` is the earlier `Varset`; the model keeps its place.) -/
def checkOrder (sets : List VarE) (v : VarE) : Res Bool :=
  match indexOf? v.key odbcOrder with
  | none => .bind (.emit (mkMsg .E_CONF_KEY_INVALID v.at_ [(c! "key", .one (.str v.key))])) fun _ => .pure false
  | some pos =>
    match sets.find? (·.key == v.key) with
    | some old =>
      .bind (.emit ⟨.E_CONF_KEY_DUPE, v.at_, [(c! "key", .one (.str v.key))], some old.at_⟩) fun _ => .pure false
    | none =>
      match sets.getLast?.bind (fun l => indexOf? l.key odbcOrder) with
      | none => .pure true
      | some last =>
        if pos < last then
          .bind (.emit (mkMsg .W_CONF_KEY_LATE v.at_ [(c! "key", .one (.str v.key))])) fun _ => .pure true
        else .pure true

/-- The settings holding a statement, func_odbc.py:176-177. -/
def isSqlKey (k : Str) : Bool :=
  [c! "readsql", c! "writesql", c! "insertsql", c! "read", c! "write"].contains k

/-- `OdbcFunction.add`, func_odbc.py:172-189. -/
def OdbcFn.add (f : OdbcFn) (v : VarE) : Res OdbcFn :=
  .bind (checkOrder f.sets v) fun ok =>
    if ok then
      .bind (if isSqlKey v.key then
          .bind (if v.key = c! "read" ∨ v.key = c! "write" then .emit (mkMsg .W_ODBC_LEGACY v.at_ [])
            else .pure ()) fun _ =>
          if v.value.getLast? = some ';' then .emit (mkMsg .W_ODBC_TAILSEMI v.at_ []) else .pure ()
        else .pure ()) fun _ =>
      .pure { f with sets := f.sets ++ [v] }
    else .pure f

/-- The rest of `FUNC_NAME_RE` after the first character; `gap` tells that an underscore was
the last character.  Code: func_odbc.py:251. -/
def odbcNameTail : Bool → Str → Bool
  | gap, [] => !gap
  | gap, c :: cs =>
    if c = '_' then !gap && odbcNameTail true cs
    else (('A' ≤ c && c ≤ 'Z') || ('0' ≤ c && c ≤ '9')) && odbcNameTail false cs

/-- `^[A-Z0-9](_?[A-Z0-9])*$`, func_odbc.py:251.  (The name has no LF.) -/
def odbcNameOk : Str → Bool
  | [] => false
  | c :: cs => (('A' ≤ c && c ≤ 'Z') || ('0' ≤ c && c ≤ '9')) && odbcNameTail false cs

/-- `FuncOdbcAggregator.on_context`, func_odbc.py:262-267, `Context.from_context`
(configobj.py:39-46, 48-60: templates are reported once more), `ConfigAggregator.on_context`
(config.py:211-215).  The newest function is in front; it is `_curcontext`. -/
def odbcContext (fns : List OdbcFn) (c : CtxE) : Res (List OdbcFn) :=
  .bind (if odbcNameOk c.name then .pure ()
    else .emit (mkMsg .W_ODBC_BADTOKENS c.at_ [(c! "name", .one (.str c.name))])) fun _ =>
  .bind (if c.templates.isEmpty then .pure () else .emit (mkMsg .I_NOTIMPL_TEMPLATES c.at_ [])) fun _ =>
  .pure (⟨c.name, c.templates, c.comment, c.at_, []⟩ :: fns)

/-- `FuncOdbcAggregator.on_varset`, func_odbc.py:269-276, `ConfigAggregator.on_varset`
(config.py:217-221). -/
def odbcVarset (fns : List OdbcFn) (v : VarE) : Res (List OdbcFn) :=
  .bind (if v.arrow then .emit (mkMsg .H_CONF_HAS_ARROW v.at_ []) else .pure ()) fun _ =>
  match fns with
  | [] => .bind (.emit (mkMsg .E_CONF_CTX_MISSING v.at_ [])) fun _ => .pure []
  | f :: rest => .bind (f.add v) fun f' => .pure (f' :: rest)

/-- One element, config.py:187-196. -/
def odbcStep (fns : List OdbcFn) : Elem → Res (List OdbcFn)
  | .ctx c => odbcContext fns c
  | .var v => odbcVarset fns v
  | .empty _ _ => .pure fns

/-- `finalize_check_any_read_write`, func_odbc.py:230-235, the condition. -/
def OdbcFn.hasSql (f : OdbcFn) : Bool :=
  (f.get (c! "read")).isSome || (f.get (c! "write")).isSome || (f.get (c! "readsql")).isSome ||
    (f.get (c! "writesql")).isSome

/-- `FuncLoader.register`, varfun.py:127-129. -/
def FEnv.register (env : FEnv) (f : FuncInfo) : FEnv :=
  { env with funcs := fun k => if k = env.lower f.name then some f else env.funcs k }

/-- `OdbcFunction.finalize`, func_odbc.py:217-241.  `type(name, ...)` refuses a name with a
NUL. -/
def OdbcFn.finalize (env : FEnv) (f : OdbcFn) : Res FEnv :=
  if f.hasSql then
    if f.funcName.any (fun c => c.toNat = 0) then .raise .valueError
    else .pure (env.register ⟨f.funcName, c! "func_odbc", .plain⟩)
  else .bind (.emit (mkMsg .E_ODBC_NOSQL f.at_ [])) fun _ => .pure env

/-- `FuncOdbcAggregator.on_yield`, func_odbc.py:253-256, for a consumer that takes all. -/
def finalizeAll : FEnv → List OdbcFn → Res FEnv
  | env, [] => .pure env
  | env, f :: fs => .bind (f.finalize env) fun env => finalizeAll env fs

/-- Reading a func_odbc.conf and registering its functions (mainutil.py:59-64,
commands/func_odbc-check.py:38-42), in at most `n` lines; `none`: not finished. -/
def loadOdbc (fs : FS) (env : FEnv) (n : Nat) (path : Str) (content : Bytes) :
    Res (Option (FEnv × List OdbcFn)) :=
  .bind (pipeRun fs odbcStep n ⟨[openFrame path content], [], [], []⟩) fun o =>
    match o with
    | none => .pure none
    | some fns => .bind (finalizeAll env fns.reverse) fun env => .pure (some (env, fns.reverse))

/-- `load_func_odbc_functions`, mainutil.py:46-64.  `arg` is the option (`none`: absent),
`fs` stands for `os.path.exists` as well.  Opening an absent file is an `OSError`, given as
`none` (like an unfinished reading). -/
def odbcFile (fs : FS) (arg : Option Str) (dialplan : Str) : Option Str :=
  match arg with
  | some [] => none
  | some a => some a
  | none =>
    let p := pathJoin (dirname dialplan) (c! "func_odbc.conf")
    if (fs p).isSome then some p else none

end ALint
