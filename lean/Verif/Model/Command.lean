import Verif.Model.Odbc
import Verif.Model.Modules
import Verif.Model.Ident

/-!
# Model of `asterisklint/commands/*.py` as programs

What `dialplan-check`, `func_odbc-check`, `dialplan-show` and `modules-show` write and how they end,
with their arguments already read (command lines are in Model/Args).  `func_odbc-annotate` is in
Model/Annotate.
-/

namespace ALint

/-! ## Messages on the standard error output -/

/-- The surroundings of a program: `ALINT_IGNORE`, the settings of `MessageDefManager`
(defines.py:29-35), and `repr` of a value (left abstract). -/
structure Shell where
  ignore : Str
  muted : Bool
  showLine : Bool
  showPrevious : Bool
  rep : Arg → Str
  /-- `str` of the `Varset` or `Extension` at that place, which has no text of its own -/
  obj : Where → Str

/-- `str(where)`, where.py:24-25. -/
def Where.text (w : Where) : Str := w.filename ++ c! ":" ++ intStr w.lineno

/-- A hexadecimal digit.  Used by defines.py:92. -/
def hexDigit (n : Nat) : Char := if n < 10 then Char.ofNat (48 + n) else Char.ofNat (87 + n)

/-- One byte in `repr` of a `bytes` object, between quotes `q`.  Used by defines.py:92. -/
def byteRepr (q : Nat) (b : Nat) : Str :=
  if b = 92 ∨ b = q then ['\\', Char.ofNat b]
  else if b = 9 then c! "\\t"
  else if b = 10 then c! "\\n"
  else if b = 13 then c! "\\r"
  else if b < 32 ∨ 127 ≤ b then ['\\', 'x', hexDigit (b / 16), hexDigit (b % 16)]
  else [Char.ofNat b]

/-- `repr` of a `bytes` object: double quotes are used if there are single ones inside and no
double ones.  Used by defines.py:92. -/
def bytesRepr (bs : Bytes) : Str :=
  let q := if bs.contains 39 && !bs.contains 34 then 34 else 39
  'b' :: Char.ofNat q :: bs.flatMap (byteRepr q) ++ [Char.ofNat q]

/-- The line shown below a message, defines.py:91-96. -/
def shownLine (bs : Bytes) : Str :=
  let r := bytesRepr bs
  if 64 < r.length then (r.drop 1).take 63 ++ c! "..." else r.drop 1

/-- The text of a piece of a message.  Code: defines.py:82, 87-89. -/
def Rendered.shown (rep : Arg → Str) : Rendered → Str
  | .text s => s
  | .repr a => rep a

/-- `str(msg.previous)`: a place for two kinds of messages (dialplan.py:120, 131), a `Varset` or an
`Extension` for the others (func_odbc.py:207-208, dialplan.py:418-434). -/
def prevText (sh : Shell) (k : MK) (w : Where) : Str :=
  if k = .W_CONF_CTX_DUPE ∨ k = .E_DP_GLOBALS_DUPE then w.text else sh.obj w

/-- The line about an earlier place, defines.py:99-102. -/
def previousLines (sh : Shell) (k : MK) : Option Where → List Str
  | some w => [c! "    previous occurrence at " ++ prevText sh k w]
  | none => []

/-- What `on_message` prints, one text per `print`, defines.py:87-102. -/
def messageLines (sh : Shell) (m : Msg) (text : List Rendered) : List Str :=
  [m.at_.text ++ c! " " ++ m.kind.name ++ c! ": " ++ text.flatMap (Rendered.shown sh.rep)] ++
  (if sh.showLine then [c! "  => " ++ shownLine m.at_.line] else []) ++
  (if sh.showPrevious then previousLines sh m.kind m.previous else [])

/-! ## Programs -/

/-- Why there is no result.  The exceptions that leave the commands, scripts/asterisklint:34. -/
inductive Stopped where
  /-- a file given to the program cannot be opened -/
  | osError
  /-- not finished within the given number of lines -/
  | unfinished
  /-- `ImportError` raised by the program itself -/
  | importError
deriving DecidableEq

/-- How a program ends.  Code: scripts/asterisklint:34. -/
inductive CmdEnd where
  | exit (status : Nat)
  /-- with a traceback -/
  | raised (e : Exc)
  | stopped (s : Stopped)
deriving DecidableEq

/-- What is seen of a program.  Code: scripts/asterisklint:34, defines.py:79-102. -/
structure CmdRun where
  out : List Str
  err : List Str
  fin : CmdEnd
deriving DecidableEq

/-- `MessageDefManager` after these messages.  Code: defines.py:79-102. -/
def managerAfter (sh : Shell) (log : List Msg) : Manager :=
  log.foldl (fun mg m => (mg.onMessage sh.ignore sh.muted m).1) Manager.init

/-- A program made of a part that issues messages, what it prints then, and its exit status.
Code: mainutil.py:33-35, scripts/asterisklint:34. -/
def program {α : Type} (sh : Shell) (r : Res (Except Stopped α)) (out : α → List Str) (status : Manager → α → Nat) : CmdRun :=
  let mg := managerAfter sh r.log
  let err := mg.printed.flatMap fun p => messageLines sh p.1 p.2
  match r.val with
  | .error e => ⟨[], err, .raised e⟩
  | .ok (.error s) => ⟨[], err, .stopped s⟩
  | .ok (.ok a) => ⟨out a, err, .exit (status mg a)⟩

/-- A reading that may not be finished.
The loop of file.py:78-88 need not end, so its runs are given a number of rounds. -/
def finished {α β : Type} (r : Res (Option α)) (f : α → Res (Except Stopped β)) : Res (Except Stopped β) :=
  .bind r fun o => match o with
    | none => .pure (.error .unfinished)
    | some a => f a

/-- Opening a file given to the program.  Code: file.py:66-75. -/
def opening {β : Type} (fs : FS) (path : Str) (f : Bytes → Res (Except Stopped β)) : Res (Except Stopped β) :=
  match fs path with
  | none => .pure (.error .osError)
  | some content => f content

/-- Going on with a result.  Sequencing; it has no code of its own. -/
def andThen {α β : Type} (r : Res (Except Stopped α)) (f : α → Res (Except Stopped β)) : Res (Except Stopped β) :=
  .bind r fun o => match o with
    | .error s => .pure (.error s)
    | .ok a => f a

/-- `load_func_odbc_functions`, mainutil.py:46-64. -/
def readOdbc (fs : FS) (env : DEnv) (n : Nat) (arg : Option Str) (dialplan : Str) : Res (Except Stopped DEnv) :=
  match odbcFile fs arg dialplan with
  | none => .pure (.ok env)
  | some p => opening fs p fun content =>
    finished (loadOdbc fs env.toFEnv n p content) fun r => .pure (.ok { env with toFEnv := r.1 })

/-- commands/dialplan-check.py:44-52. -/
def dialplanCheckRun (fs : FS) (env : DEnv) (n : Nat) (arg : Option Str) (path : Str) : Res (Except Stopped DState) :=
  andThen (readOdbc fs env n arg path) fun env =>
  opening fs path fun content =>
  finished (checkDialplan fs env none n path content) fun st => .pure (.ok st)

/-- `dialplan-check`, commands/dialplan-check.py:44-58. -/
def dialplanCheck (sh : Shell) (fs : FS) (env : DEnv) (n : Nat) (arg : Option Str) (path : Str) : CmdRun :=
  program sh (dialplanCheckRun fs env n arg path) (fun _ => []) fun mg _ => mg.exitStatus sh.ignore

/-- `func_odbc-check`, commands/func_odbc-check.py:38-48. -/
def odbcCheck (sh : Shell) (fs : FS) (env : DEnv) (n : Nat) (path : Str) : CmdRun :=
  program sh (opening fs path fun content => finished (loadOdbc fs env.toFEnv n path content) fun r => .pure (.ok r))
    (fun _ => []) fun mg _ => mg.exitStatus sh.ignore

/-- `next(iter(parser))` of a dialplan parser: reading and completing.
Code: commands/dialplan-check.py:50, dialplan.py:573-582. -/
def readDialplan (fs : FS) (env : DEnv) (n : Nat) (path : Str) : Res (Except Stopped DState) :=
  opening fs path fun content =>
  finished (pipeRun fs (dialplanStep env) n ⟨[openFrame path content], [], [], .init none⟩) fun st =>
  .bind (onComplete st.dp) fun _ => .pure (.ok st)

/-- `dialplan-show`, commands/dialplan-show.py:42-48; `repr` of a name is a parameter. -/
def dialplanShow (sh : Shell) (reprStr : Str → Str) (fs : FS) (env : DEnv) (n : Nat) (reverse : Bool) (path : Str) : CmdRun :=
  program { sh with muted := true } (readDialplan fs env n path)
    (fun st => [showDialplan reprStr reverse st.dp]) fun _ _ => 0

/-- commands/modules-show.py:75-84: the environment after reading `func_odbc.conf`, and the dialplan. -/
def modulesRead (fs : FS) (env : DEnv) (n : Nat) (arg : Option Str) (path : Str) : Res (Except Stopped (DEnv × DState)) :=
  andThen (readOdbc fs env n arg path) fun env =>
  andThen (readDialplan fs env n path) fun st => .pure (.ok (env, st))

/-- `modules-show`, commands/modules-show.py:69-94.  The callbacks see all messages. -/
def modulesProgram (sh : Shell) (fs : FS) (env : DEnv) (n : Nat) (arg : Option Str) (path : Str) : CmdRun :=
  let r := modulesRead fs env n arg path
  program { sh with muted := true } r (fun es => modulesShow es.1 es.2 r.log) fun _ _ => modulesExit r.log

end ALint
