import Verif.Model.Convert

/-!
# Model of `contrib/make_patterns_canonical.py` as a program

What the program prints is left out.
-/

namespace ALint

/-- The files with issues, sorted, mutator.py:38-40, make_patterns_canonical.py:43-50. -/
def canonFiles (log : List Msg) : List Str :=
  sortBy strLt ((log.filter fun m => (canonIssue m).isSome).map (·.at_.filename)).eraseDups

/-- The program, make_patterns_canonical.py:72-82, on a file: reading does not touch the disk (faults
are modelled for what comes after it only), and an exception ends the program.  `yes` tells whether
the answer is `y`. -/
def canonProgram {P : Type} [DecidableEq P] (ps : Paths P) (tmps : Str → P) (u g : Nat) (env : DEnv) (n : Nat) (yes : Bool)
    (path : Str) : Sys P Unit := fun o k d =>
  let r := readDialplan (fun p => nodeContent (d.stat ps p)) env n path
  match r.val with
  | .ok (.ok _) => askAndProcess ps tmps u g yes (canonFiles r.log) (canonIssues r.log) o k d
  | _ => ⟨[], d, k, .error .error⟩

end ALint
