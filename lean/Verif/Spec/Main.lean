import Verif.Model.Main

/-!
# Commands: names, files and the list
-/

namespace ALint.Spec
open ALint

/-- Lower case letters, digits, underscores and dashes, the first a letter or digit. -/
def CommandName (s : Str) : Prop :=
  (∀ c ∈ s, c ∈ c! "abcdefghijklmnopqrstuvwxyz0123456789_-") ∧
  ∃ c, s.head? = some c ∧ c ∈ c! "abcdefghijklmnopqrstuvwxyz0123456789"

/-- A command name, perhaps with a line feed behind it. -/
def NameLike (s : Str) : Prop := CommandName s ∨ ∃ t, CommandName t ∧ s = t ++ ['\n']

/-- The first element with that property. -/
def FirstWith {α : Type} (p : α → Prop) (l : List α) (a : α) : Prop :=
  ∃ before after, l = before ++ a :: after ∧ p a ∧ ∀ b ∈ before, ¬ p b

/-- The place for commands below an entry of the search path. -/
def commandsOf (entry : Str) : Str :=
  if entry = [] ∨ entry.getLast? = some '/' then entry ++ c! "asterisklint/commands"
  else entry ++ c! "/asterisklint/commands"

/-- The file of a command in a directory. -/
def fileIn (dir name : Str) : Str := dir ++ '/' :: (name ++ c! ".py")

/-- The first directory for commands on the search path that has the file. -/
def HasCommand (w : CmdWorld) (path : List Str) (name dir : Str) : Prop :=
  FirstWith (fun d => w.isdir d = true ∧ w.isfile (fileIn d name) = true) (path.map commandsOf) dir

/-- The first directory for commands on the search path that lists the file. -/
def Lists (w : CmdWorld) (path : List Str) (name dir : Str) : Prop :=
  FirstWith (fun d => w.isdir d = true ∧ ∃ files, w.listdir d = some files ∧ name ++ c! ".py" ∈ files)
    (path.map commandsOf) dir

/-- The text in the list for the module that a file holds. -/
def Described (w : CmdWorld) (name file text : Str) : Prop :=
  ∃ m, w.load file = some m ∧
    (m.entry = true ∧ (∃ doc, m.doc = some doc ∧ text = stripP isSpace doc) ∨
     m.entry = true ∧ m.doc = none ∧ text = c! "(help text missing)" ∨
     m.entry = false ∧ CommandName name ∧ text = c! "(error: Command '" ++ name ++ c! "' has no entrypoint)" ∨
     m.entry = false ∧ ∃ t, CommandName t ∧ name = t ++ ['\n'] ∧
       text = c! "(error: Command '" ++ t ++ c! "\\n' has no entrypoint)")

/-- One line of the list: the name padded to 21 columns, the description wrapped. -/
def listLine (name text : Str) : Str :=
  c! "  " ++ name ++ List.replicate (21 - name.length) ' ' ++ c! " " ++ wrap text 24 80

/-- The list: the builtin command, then directory by directory. -/
def listText (groups : List (Str × List (Str × Str))) : List Str :=
  [c! "builtin:", c! "  ls                    List available commands."] ++
  groups.flatMap (fun g => [[], g.1 ++ c! ":"] ++ g.2.map fun c => listLine c.1 c.2) ++
  [[], c! "Place custom commands in ~/.asterisklint/asterisklint/commands."]

end ALint.Spec
