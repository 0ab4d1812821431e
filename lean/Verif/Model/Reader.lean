import Verif.Model.Vsw

/-!
# The reader loop alone

`BinFileReader.__iter__` (file.py:77-88) with its consumer reduced to the question
which file a line makes it include (`inc`).  `Verif.Proofs.Reader` shows that the
whole pipeline reads the same lines, with `inc = opens`.
-/

namespace ALint

/-- Read at most `n` lines: the lines delivered, and whether the end was reached.  Code: file.py:77-88. -/
def readFuel (fs : FS) (inc : Where → Option Str) : Nat → List Frame → List Where × Bool
  | 0, _ => ([], false)
  | n + 1, frames =>
    match nextLine frames with
    | none => ([], true)
    | some (w, rest) =>
      let frames' := match inc w with
        | none => rest
        | some p =>
          match fs p with
          | none => rest
          | some content => openFrame p content :: rest
      let r := readFuel fs inc n frames'
      (w :: r.1, r.2)

/-- The path a line makes the reader include (`none`: no include, or an exception
before it comes to that).  Code: config.py:122-126, 130-177. -/
def opens (w : Where) : Option Str :=
  match (encodingStage w).2 with
  | .error _ => none
  | .ok data =>
    let d := (commentStage w (ffStage [] w data).2.2).2
    match (parserStage w d.1 d.2).2 with
    | .pp (.open_ path _ _) => some path
    | _ => none

/-- The lines the pipeline has read when it has gone through at most `n` rounds
(the loop of `pipeRun`, recording only the lines).  Code: file.py:77-88. -/
def pipeLines {σ : Type} (fs : FS) (agg : σ → Elem → Res σ) : Nat → PState σ → List Where
  | 0, _ => []
  | n + 1, st =>
    match nextLine st.frames with
    | none => []
    | some (w, _) =>
      w :: match pipeStep fs agg st with
        | some r =>
          match r.val with
          | .ok st' => pipeLines fs agg n st'
          | .error _ => []
        | none => []

end ALint
