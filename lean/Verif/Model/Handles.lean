import Verif.Model.Reader
import Verif.Model.Dialplan

/-!
# Open files

The operating system lets a process have only so many files open at a time; `open` fails with an
`OSError` beyond that.  `room` is the number of configuration files that can be open at a time.
The rest of the model (`pipeRun`) leaves this limit out.
-/

namespace ALint

/-- What happens to files: opened, could not be opened, closed; and the delivery of a line.
Code: file.py:66-88. -/
inductive Act where
  | opened (path : Str)
  | refused (path : Str)
  | closed (path : Str)
  | line (w : Where)
deriving DecidableEq

/-- One round of the loop in `BinFileReader.__iter__` (file.py:78-90) together with what the consumer
of the line does before it asks for the next one: `include` (file.py:66-75) for the path `inc w`, with
`OSError` swallowed (config.py:175-180).  `none`: the loop ends. -/
def actsRound (fs : FS) (inc : Where → Option Str) (room : Nat) : List Frame → Option (List Act × List Frame)
  | [] => none
  | fr :: stack =>
    match fr.rest with
    | [] => some ([.closed fr.name], stack)
    | l :: ls =>
      let w : Where := ⟨fr.name, (fr.idx : Int) + 1, l⟩
      let stack' : List Frame := ⟨fr.name, fr.idx + 1, ls⟩ :: stack
      match inc w with
      | none => some ([.line w], stack')
      | some p =>
        match fs p with
        | none => some ([.line w, .refused p], stack')
        | some content =>
          if stack'.length < room then some ([.line w, .opened p], openFrame p content :: stack')
          else some ([.line w, .refused p], stack')

/-- At most `n` rounds: what happened, and the files still open.  Code: file.py:77-88. -/
def actsRun (fs : FS) (inc : Where → Option Str) (room : Nat) : Nat → List Frame → List Act × List Frame
  | 0, frames => ([], frames)
  | n + 1, frames =>
    match actsRound fs inc room frames with
    | none => ([], frames)
    | some (as, frames') =>
      let r := actsRun fs inc room n frames'
      (as ++ r.1, r.2)

/-- Reading a file: `include`, file.py:66-75, then the loop.  `none`: it cannot be opened. -/
def actsFile (fs : FS) (inc : Where → Option Str) (room n : Nat) (path : Str) : Option (List Act × List Frame) :=
  match fs path with
  | none => none
  | some content =>
    if room = 0 then none
    else
      let r := actsRun fs inc room n [openFrame path content]
      some (.opened path :: r.1, r.2)

/-- The files that can be opened while a line of the innermost file of `frames` is looked at.
Code: file.py:68, 73, 83-84. -/
def withRoom (room : Nat) (frames : List Frame) (fs : FS) : FS :=
  match nextLine frames with
  | none => fs
  | some (_, open_) => if open_.length < room then fs else fun _ => none

/-- `pipeStep` with the limit.  Code: file.py:68; see `pipeStep`. -/
def pipeStepIn {σ : Type} (room : Nat) (fs : FS) (agg : σ → Elem → Res σ) (st : PState σ) : Option (Res (PState σ)) :=
  pipeStep (withRoom room st.frames fs) agg st

/-- `pipeRun` with the limit.  Code: file.py:68; see `pipeRun`. -/
def pipeRunIn {σ : Type} (room : Nat) (fs : FS) (agg : σ → Elem → Res σ) : Nat → PState σ → Res (Option σ)
  | 0, _ => Res.pure none
  | n + 1, st =>
    match pipeStepIn room fs agg st with
    | none => Res.bind (pipeEnd agg st) fun s => Res.pure (some s)
    | some r => Res.bind r fun st' => pipeRunIn room fs agg n st'

/-- `pipeLines` with the limit.  Code: file.py:68; see `pipeLines`. -/
def pipeLinesIn {σ : Type} (room : Nat) (fs : FS) (agg : σ → Elem → Res σ) : Nat → PState σ → List Where
  | 0, _ => []
  | n + 1, st =>
    match nextLine st.frames with
    | none => []
    | some (w, _) =>
      w :: match pipeStepIn room fs agg st with
        | some r =>
          match r.val with
          | .ok st' => pipeLinesIn room fs agg n st'
          | .error _ => []
        | none => []

/-- `checkDialplan` with the limit.  Code: file.py:68, commands/dialplan-check.py:48-51. -/
def checkDialplanIn (room : Nat) (fs : FS) (env : DEnv) (sp : Option Str) (n : Nat) (path : Str) (content : Bytes) :
    Res (Option DState) :=
  .bind (pipeRunIn room fs (dialplanStep env) n ⟨[openFrame path content], [], [], .init sp⟩) fun r =>
    match r with
    | none => .pure none
    | some st =>
      .bind (onComplete st.dp) fun _ =>
      .bind (walkDests st.dp env.depth st.dp.dests) fun _ => .pure (some st)

end ALint
