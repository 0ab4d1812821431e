import Verif.Model.File

/-!
# Model of `asterisklint/helper/mutator.py`

The program runs as a sequence of system calls on a disk.  Each of them may fail or be
interrupted, as told by an oracle; the list of all disks the program goes through is kept, so
that a process killed at any point is a prefix of a run.

The disk is a map from directory entries (an abstract type `P`) to files and links.  What entry
a path names (seen from the current directory, or from the place of a link) is a parameter.
Power failures (data not yet written by the kernel) and other programs that change the disk
at the same time are not modelled.
-/

namespace ALint

/-- An entry: a file with content, owner, group and mode, or a symbolic link.
What helper/mutator.py:63-112 works on; it is the file system, not code. -/
inductive Node where
  | file (content : Bytes) (uid gid mode : Nat)
  | link (target : Str)
deriving DecidableEq

/-- What helper/mutator.py:63-112 works on; it is the file system, not code. -/
abbrev Disk (P : Type) := P → Option Node

/-- What paths mean: `name s` is the entry named by the path `s`, `follow p s` the entry a link
at `p` with the text `s` refers to (relative to the directory of `p`, not to the current
one).  What helper/mutator.py:63-112 works on; it is the file system, not code. -/
structure Paths (P : Type) where
  name : Str → P
  follow : P → Str → P

section
variable {P : Type} [DecidableEq P]

/-- Change one entry.  What helper/mutator.py:63-112 works on; it is the file system, not code. -/
def Disk.set (d : Disk P) (p : P) (n : Option Node) : Disk P := fun q => if q = p then n else d q

/-- The file at an entry after following links; the system gives up after 40.
Used by helper/mutator.py:79, 104. -/
def Disk.followed (ps : Paths P) (d : Disk P) : Nat → P → Option Node
  | 0, _ => none
  | n + 1, p => match d p with
    | some (.link t) => d.followed ps n (ps.follow p t)
    | x => x

/-- `os.stat(path)` or opening it: the file a path leads to.  Code: helper/mutator.py:79, 103-104. -/
def Disk.stat (ps : Paths P) (d : Disk P) (path : Str) : Option Node := d.followed ps 40 (ps.name path)

/-- Ways a step may stop: `error` is an `Exception`, `interrupt` is an exception that is not
(`KeyboardInterrupt`, `SystemExit`).  Code: helper/mutator.py:96-98. -/
inductive Halt where
  | error
  | interrupt
deriving DecidableEq

/-- What befalls the steps: whether step `n` fails, and how much of the data written has
reached the file after step `n`.  For helper/mutator.py:63-112. -/
structure Oracle where
  fail : Nat → Option Halt
  part : Nat → Nat

/-- The result of a program: all disks after the first, the last one, the number of steps,
and the value.  For helper/mutator.py:63-112. -/
structure Run (P α : Type) where
  trace : List (Disk P)
  disk : Disk P
  steps : Nat
  val : Except Halt α

/-- A program that makes system calls, for helper/mutator.py:63-112. -/
abbrev Sys (P α : Type) := Oracle → Nat → Disk P → Run P α

namespace Sys

/-- A value without a system call; it has no code of its own. -/
def pure {α : Type} (a : α) : Sys P α := fun _ n d => ⟨[], d, n, .ok a⟩

/-- Raising an exception; it has no code of its own. -/
def raise {α : Type} (h : Halt) : Sys P α := fun _ n d => ⟨[], d, n, .error h⟩

/-- Sequencing; it has no code of its own. -/
def bind {α β : Type} (x : Sys P α) (f : α → Sys P β) : Sys P β := fun o n d =>
  let r := x o n d
  match r.val with
  | .error h => ⟨r.trace, r.disk, r.steps, .error h⟩
  | .ok a => let s := f a o r.steps r.disk
    ⟨r.trace ++ s.trace, s.disk, s.steps, s.val⟩

/-- A system call that may fail; if it does not it gives a new disk and a value, or an error
of its own.  For helper/mutator.py:63-112. -/
def call {α : Type} (f : Disk P → Option (Disk P × α)) : Sys P α := fun o n d =>
  match o.fail n with
  | some h => ⟨[], d, n + 1, .error h⟩
  | none => match f d with
    | none => ⟨[], d, n + 1, .error .error⟩
    | some (d', a) => ⟨[d'], d', n + 1, .ok a⟩

/-- A system call that leaves the disk alone.  Code: helper/mutator.py:65, 79, 103-104. -/
def ask {α : Type} (f : Disk P → Option α) : Sys P α := call fun d => (f d).map fun a => (d, a)

/-- `try: x except Exception: h; raise`.  Code: helper/mutator.py:75, 96-98. -/
def orElse {α : Type} (x : Sys P α) (h : Sys P Unit) : Sys P α := fun o n d =>
  let r := x o n d
  match r.val with
  | .error .error => let s := h o r.steps r.disk
    ⟨r.trace ++ s.trace, s.disk, s.steps, match s.val with | .ok _ => .error .error | .error e => .error e⟩
  | _ => r

/-- `try: x finally: y`.  Code: helper/mutator.py:75, 99-100. -/
def andFinally {α : Type} (x : Sys P α) (y : Sys P Unit) : Sys P α := fun o n d =>
  let r := x o n d
  let s := y o r.steps r.disk
  ⟨r.trace ++ s.trace, s.disk, s.steps, match s.val with | .ok _ => r.val | .error e => .error e⟩

end Sys

/-- An issue: its line (from 0) and what `process_issue` writes for that line, in pieces, and
whether it raises afterwards.  Code: helper/mutator.py:80-85. -/
structure Issue where
  lineno : Int
  out : Bytes → List Bytes × Option Halt

/-- Content written to the temporary file: some beginning of the data has got there.
Code: helper/mutator.py:94-95. -/
def putContent (tmp : P) (d : Disk P) (content : Bytes) : Disk P :=
  match d tmp with
  | some (.file _ u g m) => d.set tmp (some (.file content u g m))
  | _ => d

/-- `tempout.write(chunk)`; `written` is everything written before.  Even if it fails some of
it may have reached the disk.  Code: helper/mutator.py:94; make_patterns_canonical.py:69. -/
def writeTmp (tmp : P) (written chunk : Bytes) : Sys P Bytes := fun o n d =>
  let all := written ++ chunk
  let d' := putContent tmp d (all.take (o.part n))
  ⟨[d'], d', n + 1, match o.fail n with | some h => .error h | none => .ok all⟩

/-- `tempout.flush()`.  Code: helper/mutator.py:95. -/
def flushTmp (tmp : P) (written : Bytes) : Sys P Unit := fun o n d =>
  match o.fail n with
  | some h => let d' := putContent tmp d (written.take (o.part n)); ⟨[d'], d', n + 1, .error h⟩
  | none => let d' := putContent tmp d written; ⟨[d'], d', n + 1, .ok ()⟩

/-- What `process_issue` writes, in pieces, helper/mutator.py:82-85. -/
def writeAll (tmp : P) (written : Bytes) : List Bytes → Sys P Bytes
  | [] => .pure written
  | c :: cs => Sys.bind (writeTmp tmp written c) fun w => writeAll tmp w cs

/-- `self.process_issue(...)`, as far as it is known here.  Code: helper/mutator.py:82-85. -/
def processIssue (tmp : P) (written line : Bytes) (i : Issue) : Sys P Bytes :=
  Sys.bind (writeAll tmp written (i.out line).1) fun w =>
    match (i.out line).2 with
    | none => .pure w
    | some h => .raise h

/-- The loop over the lines, mutator.py:79-94; `todo` are the issues from the pointer on (an
issue object is true).  Getting the next line is a step of its own. -/
def mutateLines (tmp : P) : Int → List Issue → Bytes → List Bytes → Sys P Bytes
  | _, _, written, [] => Sys.bind (.ask fun _ => some ()) fun _ => .pure written
  | k, todo, written, line :: lines =>
    Sys.bind (.ask fun _ => some ()) fun _ =>
      match todo with
      | i :: rest =>
        if k = i.lineno then Sys.bind (processIssue tmp written line i) fun w => mutateLines tmp (k + 1) rest w lines
        else Sys.bind (writeTmp tmp written line) fun w => mutateLines tmp (k + 1) todo w lines
      | [] => Sys.bind (writeTmp tmp written line) fun w => mutateLines tmp (k + 1) todo w lines

/-- The content of a file.  Code: helper/mutator.py:79-80. -/
def nodeContent : Option Node → Option Bytes
  | some (.file c _ _ _) => some c
  | _ => none

/-- `st_uid`, `st_gid` and `st_mode` of a file, helper/mutator.py:103-109. -/
def nodeOwner : Option Node → Option (Nat × Nat × Nat)
  | some (.file _ u g m) => some (u, g, m)
  | _ => none

/-- The body of the `try`, mutator.py:75-95. -/
def mutateBody (ps : Paths P) (tmp : P) (filename : Str) (issues : List Issue) : Sys P Unit :=
  match issues with
  | [] => .raise .error
  | _ :: _ => Sys.bind (.ask fun d => nodeContent (d.stat ps filename)) fun content =>
      Sys.bind (mutateLines tmp 0 issues [] (physLines content)) fun w => flushTmp tmp w

/-- `os.chown` and `os.chmod` of the temporary file.  Code: helper/mutator.py:103-109. -/
def setOwner (tmp : P) (u g m : Nat) (d : Disk P) : Option (Disk P × Unit) :=
  match d tmp with
  | some (.file c _ _ _) => some (d.set tmp (some (.file c u g m)), ())
  | _ => none

/-- `os.rename(src, dst)` of a file; the name `dst` may exist.  Code: helper/mutator.py:112. -/
def renameTo (src dst : P) (d : Disk P) : Option (Disk P × Unit) :=
  match d src with
  | none => none
  | some n => some (fun p => if p = dst then some n else if p = src then none else d p, ())

/-- Updating the permissions, mutator.py:102-109. -/
def copyOwner (ps : Paths P) (tmp : P) (filename : Str) : Sys P Unit :=
  Sys.bind (.ask fun d => nodeOwner (d tmp)) fun src =>
  Sys.bind (.ask fun d => nodeOwner (d.stat ps filename)) fun dst =>
  Sys.bind (if src.1 ≠ dst.1 ∨ src.2.1 ≠ dst.2.1 then .call (setOwner tmp dst.1 dst.2.1 src.2.2) else .pure ()) fun _ =>
  if src.2.2 ≠ dst.2.2 then .call (setOwner tmp dst.1 dst.2.1 dst.2.2) else .pure ()

/-- `os.readlink`, or the name itself if that fails, mutator.py:63-67. -/
def diskName (ps : Paths P) (filename : Str) (d : Disk P) : Str :=
  match d (ps.name filename) with
  | some (.link t) => t
  | _ => filename

/-- `os.readlink` fails with an `OSError`, which is caught, so only an interrupt counts.
Code: helper/mutator.py:64-67. -/
def readLink (ps : Paths P) (filename : Str) : Sys P Str := fun o n d =>
  match o.fail n with
  | some .interrupt => ⟨[], d, n + 1, .error .interrupt⟩
  | some .error => ⟨[], d, n + 1, .ok filename⟩
  | none => ⟨[], d, n + 1, .ok (diskName ps filename d)⟩

/-- `NamedTemporaryFile`: a new entry; `tmp` is the entry picked, which must be free, and
belongs to user `u`, group `g`.  Code: helper/mutator.py:71-72. -/
def makeTmp (tmp : P) (u g : Nat) (d : Disk P) : Option (Disk P × Unit) :=
  match d tmp with
  | some _ => none
  | none => some (d.set tmp (some (.file [] u g 0o600)), ())

/-- `process_file`, mutator.py:62-112.  That the temporary entry lies in the directory of the
file (so that `os.rename` works) is not expressed. -/
def processFile (ps : Paths P) (tmp : P) (u g : Nat) (filename : Str) (issues : List Issue) : Sys P Unit :=
  Sys.bind (readLink ps filename) fun diskFilename =>
  Sys.bind (.call (makeTmp tmp u g)) fun _ =>
  Sys.bind (Sys.andFinally (Sys.orElse (mutateBody ps tmp filename issues)
      (.call fun d => match d tmp with | none => none | some _ => some (d.set tmp none, ())))
    (.ask fun _ => some ())) fun _ =>
  Sys.bind (copyOwner ps tmp filename) fun _ =>
  Sys.bind (.ask fun _ => some ()) fun _ =>
  .call (renameTo tmp (ps.name diskFilename))

/-- `process`, mutator.py:58-60: the files in order, each with its issues and its temporary
entry. -/
def processAll (ps : Paths P) (u g : Nat) : List (Str × P × List Issue) → Sys P Unit
  | [] => .pure ()
  | (f, tmp, issues) :: fs => Sys.bind (processFile ps tmp u g f issues) fun _ => processAll ps u g fs

end
end ALint
