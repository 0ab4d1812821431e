import Verif.Model.Dialplan
import Verif.Model.Mutator

/-!
# Model of `contrib/make_patterns_canonical.py`
-/

namespace ALint

/-- `data.split(b'=', 1)`, `none` if there is only one part.  Code: make_patterns_canonical.py:56. -/
def splitByte (b : Nat) : Bytes → Option (Bytes × Bytes)
  | [] => none
  | x :: xs => if x = b then some ([], xs) else (splitByte b xs).map fun p => (x :: p.1, p.2)

/-- `data.replace(needle, replacement, 1)` for bytes.  Code: make_patterns_canonical.py:64-65. -/
def replaceFirst (needle replacement : Bytes) : Bytes → Bytes
  | [] => if needle.isEmpty then replacement else []
  | x :: xs =>
    if needle.isPrefixOf (x :: xs) then replacement ++ (x :: xs).drop needle.length
    else x :: replaceFirst needle replacement xs

/-- `process_issue`, make_patterns_canonical.py:54-69: what is written and whether it raises.
`linehead, linetail =` raises `ValueError` without a `=`, `linetail[0]` an `IndexError` for an
empty rest.  `linetail[0]` is a number and never equal to `b'>'`, so the arrow stays in the
tail. -/
def canonOut (needle replacement line : Bytes) : List Bytes × Option Halt :=
  match splitByte 0x3d line with
  | none => ([], some .error)
  | some (_, []) => ([], some .error)
  | some (head, tail) => ([head ++ [0x3d] ++ replaceFirst needle replacement tail], none)

/-- `Aggregator.on_message`, make_patterns_canonical.py:45-50: the issue for a message (the
arguments are those of `canonCheck`). -/
def canonIssue (m : Msg) : Option Issue :=
  if m.kind = .H_PAT_NON_CANONICAL then
    match m.args with
    | [(_, .one (.str pat)), (_, .one (.str expected))] =>
      some ⟨m.at_.lineno - 1, canonOut (utf8 pat) (utf8 expected)⟩
    | _ => none
  else none

/-- `issues_per_file[filename]`, make_patterns_canonical.py:43-50. -/
def canonIssues (log : List Msg) (filename : Str) : List Issue :=
  (log.filter fun m => m.at_.filename = filename).filterMap canonIssue

end ALint
