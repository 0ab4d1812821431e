import Verif.Model.Canon
import Verif.Model.Command

/-!
# Model of `contrib/convert_dp_104_to_1100.py`, and of asking for permission

What the program prints is left out.
-/

namespace ALint

/-- The texts of values in a row; the first that has none ends it.
Code: convert_dp_104_to_1100.py:60-61. -/
def allText : List V → Except Exc (List Str)
  | [] => .ok []
  | v :: vs => do
    let s ← v.toStr
    let ss ← allText vs
    pure (s :: ss)

/-- The new form, convert_dp_104_to_1100.py:59-68: condition, question mark, application with
the other arguments in parentheses. -/
def newForm (cond : V) (args : List V) : Except Exc Str := do
  let ts ← allText args
  match ts with
  | [] => .error .assertionError  -- `assert issue.args`
  | a :: rest => do
    let c ← cond.toStr
    pure (c ++ c! "?" ++ a ++ c! "(" ++ joinWith ',' rest ++ c! ")")

/-- `process_issue`, convert_dp_104_to_1100.py:57-79: what is written and whether it raises. -/
def convertOut (app : Str) (data cond : V) (args : List V) (line : Bytes) : List Bytes × Option Halt :=
  if app = c! "ExecIf" then
    match newForm cond args, data.toStr with
    | .ok new, .ok old =>
      let out := replaceFirst (utf8 old) (utf8 new) line
      if line = out then ([], some .error) else ([out], none)
    | _, _ => ([], some .error)
  else ([], some .error)

/-- `Aggregator.on_e_arg_ifstyle`, convert_dp_104_to_1100.py:46-53: the issue for a message
(which has all the arguments, see `ifOldStyle`). -/
def convertIssue (m : Msg) : Option Issue :=
  if m.kind = .E_APP_ARG_IFSTYLE then
    match m.args.lookup (c! "app"), m.args.lookup (c! "data"), m.args.lookup (c! "cond"), m.args.lookup (c! "args") with
    | some (.one (.str app)), some (.one data), some (.one cond), some (.many args) =>
      some ⟨m.at_.lineno - 1, convertOut app data cond args⟩
    | _, _, _, _ => none
  else none

/-- `issues_per_file`, convert_dp_104_to_1100.py:44-53. -/
def convertIssues (log : List Msg) (filename : Str) : List Issue :=
  (log.filter fun m => m.at_.filename = filename).filterMap convertIssue

/-- The files with issues, sorted, mutator.py:38-40. -/
def convertFiles (log : List Msg) : List Str :=
  sortBy strLt ((log.filter fun m => (convertIssue m).isSome).map (·.at_.filename)).eraseDups

section
variable {P : Type} [DecidableEq P]

/-- `request_permission_and_process`, mutator.py:42-56; `tmps` are the temporary entries made for
the files, `yes` tells whether the answer is `y`. -/
def askAndProcess (ps : Paths P) (tmps : Str → P) (u g : Nat) (yes : Bool) (files : List Str) (issues : Str → List Issue) :
    Sys P Unit :=
  if files.isEmpty then .pure ()
  else if yes then processAll ps u g (files.map fun f => (f, tmps f, issues f))
  else .pure ()

/-- The program, convert_dp_104_to_1100.py:82-93, on a file: reading does not touch the disk (faults
are modelled for what comes after it only), and an exception ends the program. -/
def convertProgram (ps : Paths P) (tmps : Str → P) (u g : Nat) (env : DEnv) (n : Nat) (yes : Bool) (path : Str) :
    Sys P Unit := fun o k d =>
  let r := readDialplan (fun p => nodeContent (d.stat ps p)) env n path
  match r.val with
  | .ok (.ok _) => askAndProcess ps tmps u g yes (convertFiles r.log) (convertIssues r.log) o k d
  | _ => ⟨[], d, k, .error .error⟩

end
end ALint
