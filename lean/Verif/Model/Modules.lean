import Verif.Model.Dialplan
import Verif.Model.Loader
import Verif.Model.Show
import Verif.Model.Wrap

/-!
# Model of `commands/modules-show.py`

Without `func_odbc.conf`.
-/

namespace ALint

/-- An application or function as far as it matters here: `name` and `module`.
Code: app/base.py:58-64, func/base.py:21-27. -/
structure UItem where
  name : Str
  module : Str
deriving DecidableEq

/-- `_lower_apps[low]` after a `get` (an unknown name is an alias of `Unknown`).
Code: application.py:67-80. -/
def appItem (env : AEnv) (sp : Option Str) (low : Str) : Option UItem :=
  ((env.apps low).or (env.apps (c! "unknown"))).map fun a => ⟨appName sp a, a.module⟩

/-- `_lower_funcs[low]` after a `get`.  Code: varfun.py:112-125. -/
def funcItem (env : FEnv) (low : Str) : Option UItem :=
  ((env.funcs low).or (env.funcs (c! "unknown"))).map fun f => ⟨f.name, f.module⟩

/-- `_used_apps`.  Code: application.py:79. -/
def usedAppNames (uses : List Ev) : List Str := uses.filterMap fun e => match e with
  | .app low => some low
  | _ => none

/-- `_used_funcs`.  Code: varfun.py:124. -/
def usedFuncNames (uses : List Ev) : List Str := uses.filterMap fun e => match e with
  | .func low => some low
  | _ => none

/-- `used_apps`, application.py:46-51; `used_funcs`, varfun.py:91-96. -/
def usedItems (item : Str → Option UItem) (lows : List Str) : List UItem :=
  ((sortStrs lows).filter (· ≠ c! "unknown")).filterMap item

/-- `used_modules`, application.py:53-59, varfun.py:98-104. -/
def usedMods (item : Str → Option UItem) (lows : List Str) : List Str :=
  (sortStrs (lows.filterMap fun low => (item low).map (·.module))).filter (· ≠ c! "unknown")

/-- `'{}()'.format(name)`.  Code: commands/modules-show.py:112. -/
def callText (name : Str) : Str := name ++ c! "()"

/-- The loop that fills lines, modules-show.py:107-116: `cur` is `item_lines[-1]`. -/
def fillLines (lines : List Str) (cur : Str) : List Str → List Str
  | [] => lines ++ [cur]
  | n :: ns =>
    let cur := if cur.isEmpty then cur else cur ++ c! ", "
    if 52 < cur.length + (callText n).length then fillLines (lines ++ [cur]) (callText n) ns
    else fillLines lines (cur ++ callText n) ns

/-- The lines for one module after `strip`.  Code: commands/modules-show.py:106-116, 120, 123. -/
def itemLines (names : List Str) : List Str := (fillLines [] [] names).map (stripP isSpace)

/-- `';   {:20s}  {}'.format(...)`. -/
def modLine (module text : Str) : Str := c! ";   " ++ padRight 20 module ++ c! "  " ++ text

/-- modules-show.py:118-123. -/
def modLines (module : Str) : List Str → List Str
  | [] => []
  | l :: ls => modLine module l :: ls.map (modLine [])

/-- The names listed for a module, modules-show.py:100-102, 106. -/
def namesIn (items : List UItem) (module : Str) : List Str :=
  (items.filter (·.module = module)).map (·.name)

/-- One section, modules-show.py:104-124. -/
def modSection (what : Str) (items : List UItem) (mods : List Str) : List Str :=
  [c! "; " ++ what ++ c! " providing modules used:"] ++
  mods.flatMap (fun m => modLines m (itemLines (namesIn items m))) ++ [c! ";"]

/-- `'load => {}.so'.format(module)`.  Code: commands/modules-show.py:130. -/
def loadLine (module : Str) : Str := c! "load => " ++ module ++ c! ".so"

/-- `print_load_statements`, modules-show.py:126-131. -/
def loadLines (mods : List Str) : List Str :=
  [c! "; modules.conf"] ++ ((sortStrs mods).filter (· ≠ c! "<builtin>")).map loadLine ++ [[]]

/-- The text of an argument of a message; the names of applications and functions are texts.
Code: commands/modules-show.py:42-46. -/
def argStr : Option Arg → Option Str
  | some (.one (.str s)) => some s
  | _ => none

/-- `Aggregator`, modules-show.py:31-46. -/
def missingNames (kind : MK) (key : Str) (log : List Msg) : List Str :=
  log.filterMap fun m => if m.kind = kind then argStr (m.args.lookup key) else none

/-- One half of `print_unknowns`, modules-show.py:133-141. -/
def unknownLines (what : Str) (names : List Str) : List Str :=
  if names.isEmpty then []
  else [c! "; WARNING: The following unknown " ++ what ++ c! " were seen:",
    c! ";   " ++ joinStr (c! ", ") (sortStrs names), c! ";"]

/-- The modules loaded.  Code: commands/modules-show.py:87-89. -/
def allMods (env : DEnv) (st : DState) : List Str :=
  usedMods (appItem env.toAEnv st.sp) (usedAppNames st.uses) ++ usedMods (funcItem env.toFEnv) (usedFuncNames st.uses)

/-- What is printed after the dialplan was read, with the messages of reading it,
modules-show.py:86-90. -/
def modulesShow (env : DEnv) (st : DState) (log : List Msg) : List Str :=
  modSection (c! "Application") (usedItems (appItem env.toAEnv st.sp) (usedAppNames st.uses))
    (usedMods (appItem env.toAEnv st.sp) (usedAppNames st.uses)) ++
  modSection (c! "Function") (usedItems (funcItem env.toFEnv) (usedFuncNames st.uses))
    (usedMods (funcItem env.toFEnv) (usedFuncNames st.uses)) ++
  loadLines (allMods env st) ++
  unknownLines (c! "applications") (missingNames .E_APP_MISSING (c! "app") log) ++
  unknownLines (c! "functions") (missingNames .E_FUNC_MISSING (c! "func") log)

/-- The exit code, modules-show.py:92-94. -/
def modulesExit (log : List Msg) : Nat :=
  if (missingNames .E_APP_MISSING (c! "app") log).isEmpty && (missingNames .E_FUNC_MISSING (c! "func") log).isEmpty
  then 0 else 1

end ALint
