import Verif.Model.Config
import Verif.Model.Show
import Verif.Model.Wrap
import Verif.Py.Sort

/-!
# Model of `asterisklint/main.py`: finding and running commands
-/

namespace ALint

/-- A loaded module as far as `main.py` looks at it. -/
structure CmdMod where
  /-- `__doc__` -/
  doc : Option Str
  /-- is there a `main`? -/
  entry : Bool
deriving DecidableEq

/-- The file system and the interpreter as seen by `main.py`. -/
structure CmdWorld where
  isdir : Str → Bool
  isfile : Str → Bool
  pathExists : Str → Bool
  /-- `os.listdir`; `none` for an `OSError` -/
  listdir : Str → Option (List Str)
  /-- `exec_module`; `none` if it raises anything -/
  load : Str → Option CmdMod

/-- `[a-z0-9]`.  Code: main.py:28. -/
def cmdHead (c : Char) : Bool := ('a' ≤ c && c ≤ 'z') || ('0' ≤ c && c ≤ '9')

/-- `[a-z0-9_-]`.  Code: main.py:28. -/
def cmdTail (c : Char) : Bool := cmdHead c || c == '_' || c == '-'

/-- `[a-z0-9_-]*$`: the `$` also matches before a line feed at the end.  Code: main.py:28. -/
def cmdRest : Str → Bool
  | [] => true
  | c :: s => (cmdTail c && cmdRest s) || (c == '\n' && s.isEmpty)

/-- `COMMAND_RE.match(s)`, main.py:28. -/
def commandRe : Str → Bool
  | [] => false
  | c :: s => cmdHead c && cmdRest s

/-- `list_command_dirs`, main.py:49-53. -/
def commandDirs (w : CmdWorld) (path : List Str) : List Str :=
  (path.map fun p => pathJoin (pathJoin p (c! "asterisklint")) (c! "commands")).filter w.isdir

/-- How `load_command` ends.  Code: main.py:103-146. -/
inductive Loaded
  | ok (file : Str) (mod : CmdMod)
  /-- `NoSuchCommand('Invalid tokens in command ...')` -/
  | badName
  /-- `NoSuchCommand('Command ... has no entrypoint')` -/
  | noEntry
  /-- `ImportError('No dir found for command ...')` -/
  | noDir
  /-- what the module raised -/
  | raised
deriving DecidableEq

/-- main.py:135-146 for Python 3.5 and later. -/
def loadFile (w : CmdWorld) (file : Str) : Loaded :=
  match w.load file with
  | none => .raised
  | some m => if m.entry then .ok file m else .noEntry

/-- `load_command(command)`, main.py:103-146. -/
def loadCommand (w : CmdWorld) (path : List Str) (command : Str) : Loaded :=
  if commandRe command then
    match (commandDirs w path).find? fun d => w.isfile (pathJoin d (command ++ c! ".py")) with
    | some d => loadFile w (pathJoin d (command ++ c! ".py"))
    | none => .noDir
  else .badName

/-- `file_[0:-3]` if the name ends in `.py`. -/
def pyName (file : Str) : Option Str :=
  if file.drop (file.length - 3) = c! ".py" then some (file.take (file.length - 3)) else none

/-- `repr` of a name that `COMMAND_RE` accepts.  Code: main.py:119, 132, 144. -/
def cmdRepr (name : Str) : Str :=
  c! "'" ++ name.flatMap (fun c => if c = '\n' then c! "\\n" else [c]) ++ c! "'"

/-- The description, main.py:73-82; `none` if the module raised something, which ends `ls`. -/
def describe (w : CmdWorld) (name file : Str) : Option Str :=
  match loadFile w file with
  | .ok _ m => match m.doc with
    | some d => some (stripP isSpace d)
    | none => some (c! "(help text missing)")
  | .noEntry => some (c! "(error: Command " ++ cmdRepr name ++ c! " has no entrypoint)")
  | _ => none

/-- One line of the list before printing: directory, name, description.  Code: main.py:85-86. -/
abbrev Row := Str × Str × Str

/-- The loop over the files of one directory, main.py:69-86. -/
def listFiles (w : CmdWorld) (dir : Str) : List Row → List Str → Option (List Row)
  | rows, [] => some rows
  | rows, file :: files =>
    match pyName file with
    | none => listFiles w dir rows files
    | some name =>
      if commandRe name ∧ ¬ rows.any (fun r => r.2.1 = name) then
        match describe w name (pathJoin dir file) with
        | none => none
        | some desc => listFiles w dir (rows ++ [(dir, name, desc)]) files
      else listFiles w dir rows files

/-- The loop over the directories, main.py:63-86. -/
def listDirs (w : CmdWorld) : List Row → List Str → Option (List Row)
  | rows, [] => some rows
  | rows, dir :: dirs =>
    match w.listdir dir with
    | none => listDirs w rows dirs
    | some files => match listFiles w dir rows files with
      | none => none
      | some rows => listDirs w rows dirs

/-- `<` on the tuples.  Code: main.py:87. -/
def rowLt (a b : Row) : Bool :=
  strLt a.1 b.1 || (a.1 == b.1 && (strLt a.2.1 b.2.1 || (a.2.1 == b.2.1 && strLt a.2.2 b.2.2)))

/-- `'  {name:21} {desc}'`. -/
def cmdLine (name desc : Str) : Str := c! "  " ++ padRight 21 name ++ c! " " ++ desc

/-- main.py:93-98. -/
def rowLines : Option Str → List Row → List Str
  | _, [] => []
  | last, (dir, name, desc) :: rows =>
    (if last = some dir then [] else [[], dir ++ c! ":"]) ++ cmdLine name (wrap desc 24 80) :: rowLines (some dir) rows

/-- `list_commands`, main.py:56-100: what is printed, one string per `print`; `none` if a module
raised something. -/
def listCommands (w : CmdWorld) (path : List Str) : Option (List Str) :=
  (listDirs w [] (commandDirs w path)).map fun rows =>
    [c! "builtin:", cmdLine (c! "ls") (c! "List available commands.")] ++ rowLines none (sortBy rowLt rows) ++
      [[], c! "Place custom commands in ~/.asterisklint/asterisklint/commands."]

/-- How the program ends.  Code: main.py:149-194. -/
inductive CmdOut
  /-- the `main` of that file was called with these arguments; its result is the exit status -/
  | ran (file : Str) (args : List Str)
  /-- the list was printed, exit status 0 -/
  | listed (lines : List Str)
  /-- a message was printed, exit status 1 -/
  | noSuch
  /-- ended by an exception -/
  | raised
  /-- no command: `argparse` handles `--version` and `--help` and complains otherwise -/
  | usage (args : List Str)
deriving DecidableEq

/-- The search path, main.py:150-155; `home` is `envs['HOME']`. -/
def searchPath (w : CmdWorld) (path : List Str) (home : Option Str) : List Str :=
  let userdir := home.getD (c! "/dev/null") ++ c! "/.asterisklint"
  if w.pathExists userdir ∧ userdir ∉ path then userdir :: path else path

/-- `args.remove(x)`.  Code: main.py:161. -/
def removeFirst (x : Str) : List Str → List Str
  | [] => []
  | a :: l => if a = x then l else a :: removeFirst x l

/-- `main`, main.py:149-194. -/
def mainRun (w : CmdWorld) (path : List Str) (home : Option Str) (args : List Str) : CmdOut :=
  let path := searchPath w path home
  match args.filter (fun a => a.head? ≠ some '-') with
  | command :: _ =>
    let args := removeFirst command args
    if command = c! "ls" then
      match listCommands w path with
      | some lines => .listed lines
      | none => .raised
    else
      match loadCommand w path command with
      | .ok file _ => .ran file args
      | .badName => .noSuch
      | .noEntry => .noSuch
      | .noDir => .raised
      | .raised => .raised
  | [] => .usage args

end ALint
