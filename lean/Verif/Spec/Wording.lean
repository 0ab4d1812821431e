import Verif.Spec.LineLog
import Verif.Spec.App
import Verif.Model.Dialplan

/-!
# What of a line matters (specification)
-/

namespace ALint.Spec
open ALint

/-- Two lines with the same data in front of the comment.  Both or none have a comment, are badly
encoded, contain control characters, end in blanks, or have the comment glued to the data.  The
comments themselves may differ, and so may, unless `strict`, the line terminators. -/
inductive SameLine (strict : Bool) (l l' : Bytes) : Prop
  | same : l = l' → SameLine strict l l'
  | mk {text text' body body' data comment comment' : Str} {bad : Bool} :
      DecodesAs l text bad → DecodesAs l' text' bad → (HasControl text ↔ HasControl text') →
      (strict = true → (CrLf text ↔ CrLf text') ∧ (Lf text ↔ Lf text')) →
      Unterminated text body → Unterminated text' body' →
      Content body data comment → Content body' data comment' → (comment = [] ↔ comment' = []) →
      (EndsBlank body ↔ EndsBlank body') → (Glued body ↔ Glued body') → SameLine strict l l'

/-- The same files, line by line. -/
def SameFiles (R : Bytes → Bytes → Prop) (fs fs' : FS) : Prop :=
  ∀ q, (fs q = none ∧ fs' q = none) ∨
    ∃ c c', fs q = some c ∧ fs' q = some c' ∧ Zips R (physLines c) (physLines c')

/-- The name of the file and the number of the line. -/
def placeOf (w : Where) : Str × Int := (w.filename, w.lineno)

/-- The same message about the same line of the same file; the text of the line, which is shown with
the message, may differ. -/
structure SameMsg (m m' : Msg) : Prop where
  kind : m'.kind = m.kind
  args : m'.args = m.args
  place : placeOf m'.at_ = placeOf m.at_
  previous : m'.previous.map placeOf = m.previous.map placeOf

/-- What a dialplan says: contexts, what they include, their steps. -/
def dialplanText (dp : Dialplan) : List (Str × List Str × List (Str × Nat × Option Str × Str)) :=
  dp.contexts.map fun c => (c.name, c.includes.map (·.1), c.steps.map fun s => (s.raw, s.prio, s.label, s.app))

/-- The check stops the same way; if it reaches its end, the same dialplan has been read. -/
inductive SameOutcome : Except Exc (Option DState) → Except Exc (Option DState) → Prop
  | failed (e : Exc) : SameOutcome (.error e) (.error e)
  | unfinished : SameOutcome (.ok none) (.ok none)
  | done {st st' : DState} : dialplanText st'.dp = dialplanText st.dp → SameOutcome (.ok (some st)) (.ok (some st'))

/-- The messages about line terminators. -/
def terminatorKind : MK → Bool
  | .W_FILE_DOS_BARELF | .W_FILE_DOS_EOFCRLF | .W_FILE_UNIX_CRLF | .W_FILE_UNIX_NOLF => true
  | _ => false

/-- A line terminator, or none on the last line. -/
def Terminator (t : Str) : Prop := t = [] ∨ t = ['\n'] ∨ t = ['\r', '\n']

/-- The same line with another comment: `a ; c` and `a ; c'`.  The comments are not in the way of the
line terminator, do not end in blanks and contain no control characters. -/
inductive Reworded (l l' : Bytes) : Prop
  | same : l = l' → Reworded l l'
  | mk {a c c' t : Str} : l = utf8 (a ++ ';' :: c ++ t) → l' = utf8 (a ++ ';' :: c' ++ t) →
      AllEscaped a → a.getLast? ≠ some '\\' → Terminator t →
      (∀ x ∈ c, 0x20 ≤ x.toNat) → (∀ x ∈ c', 0x20 ≤ x.toNat) → ¬ EndsBlank c → ¬ EndsBlank c' → Reworded l l'

/-- The same line with another terminator. -/
inductive Reterminated (l l' : Bytes) : Prop
  | same : l = l' → Reterminated l l'
  | mk {body t t' : Str} : l = utf8 (body ++ t) → l' = utf8 (body ++ t') → Terminator t → Terminator t' →
      (∀ x, body.getLast? = some x → x ≠ '\r' ∧ x ≠ '\n') → Reterminated l l'

/-- The text as a DOS program saves it: with CR LF for LF. -/
def dosText (text : Str) : Str := text.flatMap fun c => if c = '\n' then ['\r', '\n'] else [c]

end ALint.Spec
