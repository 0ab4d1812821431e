import Verif.Model.CanonProgram
import Verif.Model.Wrap

/-!
# Model of what the rewriting programs say and ask

`request_permission_and_process` (asterisklint/helper/mutator.py) with everything it prints, and
the two programs that call it, contrib/make_patterns_canonical.py and
contrib/convert_dp_104_to_1100.py.  What is said, what is asked and what happens to the disk is kept
in one list, in the order in which it happens.
-/

namespace ALint

/-- Something that happens: a `print`, a question (`input`), a change of the disk.
Code: helper/mutator.py:42-56, 63-112. -/
inductive Deed (P : Type) where
  | said (text : Str)
  | asked (text : Str)
  | disk (d : Disk P)

/-- The result of a program that talks.  For helper/mutator.py:42-112. -/
structure TalkRun (P α : Type) where
  deeds : List (Deed P)
  disk : Disk P
  steps : Nat
  val : Except Halt α

/-- A program that talks, for helper/mutator.py:42-112. -/
abbrev Talk (P α : Type) := Oracle → Nat → Disk P → TalkRun P α

section
variable {P : Type} [DecidableEq P]

namespace Talk

/-- A value without talking; it has no code of its own. -/
def pure {α : Type} (a : α) : Talk P α := fun _ n d => ⟨[], d, n, .ok a⟩

/-- Raising an exception; it has no code of its own. -/
def raise {α : Type} (h : Halt) : Talk P α := fun _ n d => ⟨[], d, n, .error h⟩

/-- Sequencing; it has no code of its own. -/
def bind {α β : Type} (x : Talk P α) (f : α → Talk P β) : Talk P β := fun o n d =>
  let r := x o n d
  match r.val with
  | .error h => ⟨r.deeds, r.disk, r.steps, .error h⟩
  | .ok a => let s := f a o r.steps r.disk
    ⟨r.deeds ++ s.deeds, s.disk, s.steps, s.val⟩

/-- System calls that print nothing.  Code: helper/mutator.py:63-112. -/
def quiet {α : Type} (x : Sys P α) : Talk P α := fun o n d =>
  let r := x o n d
  ⟨r.trace.map .disk, r.disk, r.steps, r.val⟩

/-- `print(text)`, which may fail.  Code: helper/mutator.py:44, 47, 48, 52, 56, 111. -/
def say (text : Str) : Talk P Unit := fun o n d =>
  match o.fail n with
  | some h => ⟨[], d, n + 1, .error h⟩
  | none => ⟨[.said text], d, n + 1, .ok ()⟩

/-- `input(text)`: an answer is a line, `none` is the end of the input (`EOFError`).  It may fail; then
it does not count as asked.  Code: helper/mutator.py:49. -/
def ask (text : Str) (answer : Option Str) : Talk P Str := fun o n d =>
  match o.fail n with
  | some h => ⟨[], d, n + 1, .error h⟩
  | none => match answer with
    | none => ⟨[.asked text], d, n + 1, .error .error⟩
    | some a => ⟨[.asked text], d, n + 1, .ok a⟩

/-- Opening a file for reading, which fails if there is none.
Code: `parser.include`, make_patterns_canonical.py:75 and convert_dp_104_to_1100.py:85. -/
def openFile (ps : Paths P) (path : Str) : Talk P Unit := fun o n d =>
  match o.fail n with
  | some h => ⟨[], d, n + 1, .error h⟩
  | none => match nodeContent (d.stat ps path) with
    | none => ⟨[], d, n + 1, .error .error⟩
    | some _ => ⟨[], d, n + 1, .ok ()⟩

end Talk

/-- `process_file` up to the `print`, mutator.py:62-109: gives the name to be overwritten. -/
def prepareFile (ps : Paths P) (tmp : P) (u g : Nat) (filename : Str) (issues : List Issue) : Sys P Str :=
  Sys.bind (readLink ps filename) fun diskFilename =>
  Sys.bind (.call (makeTmp tmp u g)) fun _ =>
  Sys.bind (Sys.andFinally (Sys.orElse (mutateBody ps tmp filename issues)
      (.call fun d => match d tmp with | none => none | some _ => some (d.set tmp none, ())))
    (.ask fun _ => some ())) fun _ =>
  Sys.bind (copyOwner ps tmp filename) fun _ => .pure diskFilename

/-- `process_file`, mutator.py:62-112. -/
def fileTalk (ps : Paths P) (tmp : P) (u g : Nat) (filename : Str) (issues : List Issue) : Talk P Unit :=
  Talk.bind (.quiet (prepareFile ps tmp u g filename issues)) fun diskFilename =>
  Talk.bind (.say (c! "Overwriting " ++ diskFilename ++ c! " ...")) fun _ =>
  .quiet (.call (renameTo tmp (ps.name diskFilename)))

/-- `process`, mutator.py:58-60. -/
def allTalk (ps : Paths P) (tmps : Str → P) (u g : Nat) (issues : Str → List Issue) : List Str → Talk P Unit
  | [] => .pure ()
  | f :: fs => Talk.bind (fileTalk ps (tmps f) u g f (issues f)) fun _ => allTalk ps tmps u g issues fs

/-- `request_permission_and_process`, mutator.py:42-56. -/
def askTalk (ps : Paths P) (tmps : Str → P) (u g : Nat) (answer : Option Str) (files : List Str) (issues : Str → List Issue) :
    Talk P Unit :=
  if files.isEmpty then .say (c! "Your dialplan has no issues. We're done here.")
  else
    Talk.bind (.say (c! "The following files have issues:")) fun _ =>
    Talk.bind (.say (c! "  " ++ joinStr (c! "\n  ") files)) fun _ =>
    Talk.bind (.ask (c! "Update all [y/n] ? ") answer) fun yesno =>
    if yesno ≠ c! "y" then .say (c! "Aborted.")
    else
      Talk.bind (allTalk ps tmps u g issues files) fun _ => .say (c! "Done")

/-- Reading the dialplan, which does not touch the disk, and going on with the messages; an exception
ends the program.  Code: make_patterns_canonical.py:79 and convert_dp_104_to_1100.py:89. -/
def readTalk (ps : Paths P) (env : DEnv) (n : Nat) (path : Str) (next : List Msg → Talk P Unit) : Talk P Unit :=
  fun o k d =>
    let r := readDialplan (fun p => nodeContent (d.stat ps p)) env n path
    match r.val with
    | .ok (.ok _) => next r.log o k d
    | _ => ⟨[], d, k, .error .error⟩

/-- The program, make_patterns_canonical.py:72-83 and convert_dp_104_to_1100.py:82-93, which differ in
the title and in what they collect from the messages: the file is opened first, then printing and
reading begin. -/
def mutatorTalk (title : Str) (filesOf : List Msg → List Str) (issuesOf : List Msg → Str → List Issue)
    (ps : Paths P) (tmps : Str → P) (u g : Nat) (env : DEnv) (n : Nat) (answer : Option Str) (path : Str) : Talk P Unit :=
  Talk.bind (.openFile ps path) fun _ =>
  Talk.bind (.say title) fun _ =>
  Talk.bind (.say (c! "Parsing current config...")) fun _ =>
  readTalk ps env n path fun log =>
    Talk.bind (.say []) fun _ => askTalk ps tmps u g answer (filesOf log) (issuesOf log)

/-- contrib/make_patterns_canonical.py. -/
def canonTalk (ps : Paths P) (tmps : Str → P) (u g : Nat) (env : DEnv) (n : Nat) (answer : Option Str) (path : Str) :
    Talk P Unit :=
  mutatorTalk (c! "Making dialplan patterns into canonical form.") canonFiles canonIssues ps tmps u g env n answer path

/-- contrib/convert_dp_104_to_1100.py. -/
def convertTalk (ps : Paths P) (tmps : Str → P) (u g : Nat) (env : DEnv) (n : Nat) (answer : Option Str) (path : Str) :
    Talk P Unit :=
  mutatorTalk (c! "Converting dialplan from 1.4 to 11.") convertFiles convertIssues ps tmps u g env n answer path

end
end ALint
