import Verif.Spec.Expand

/-!
# Comments and file formats (specification)
-/

namespace ALint.Spec
open ALint

/-! ## Comments -/

/-- Every semicolon is directly preceded by a backslash. -/
def AllEscaped (s : Str) : Prop := ∀ a b, s = a ++ ';' :: b → a.getLast? = some '\\'

/-- `a ; b` with the semicolon being the first one without a backslash before it. -/
structure CommentAt (s a b : Str) : Prop where
  parts : s = a ++ ';' :: b
  before : AllEscaped a
  plain : a.getLast? ≠ some '\\'

/-- Backslash-semicolon becomes semicolon. -/
def unescape : Str → Str
  | '\\' :: ';' :: r => ';' :: unescape r
  | c :: r => c :: unescape r
  | [] => []

/-- Semicolon becomes backslash-semicolon. -/
def escape : Str → Str
  | [] => []
  | c :: r => if c = ';' then '\\' :: ';' :: escape r else c :: escape r

/-- A space or a TAB. -/
def Blank (c : Char) : Prop := c = ' ' ∨ c = '\t'

/-- `s` ends in a blank. -/
def EndsBlank (s : Str) : Prop := ∃ c, s.getLast? = some c ∧ Blank c

/-- `s` is `d` followed by blanks only, and `d` does not end in a blank. -/
structure Trimmed (s d blanks : Str) : Prop where
  parts : s = d ++ blanks
  blank : ∀ c ∈ blanks, Blank c
  end_ : ¬ EndsBlank d

/-! ## File formats -/

/-- A line ends in CR LF. -/
def CrLf (data : Str) : Prop := ∃ t, data = t ++ ['\r', '\n']

/-- A line ends in LF. -/
def Lf (data : Str) : Prop := ∃ t, data = t ++ ['\n']

open Classical in
/-- A file counts as DOS file if its first line ends in CR LF or has no line
terminator. -/
noncomputable def startsDos (data : Str) : Bool := decide (CrLf data ∨ ¬ Lf data)

open Classical in
/-- The message for one line of a DOS (Unix) file. -/
noncomputable def formatMsg (dos : Bool) (w : Where) (data : Str) : List Msg :=
  if dos = true ∧ Lf data ∧ ¬ CrLf data then [⟨.W_FILE_DOS_BARELF, w, [], none⟩]
  else if dos = false ∧ CrLf data then [⟨.W_FILE_UNIX_CRLF, w, [], none⟩]
  else []

open Classical in
/-- The message for the last line of a DOS (Unix) file. -/
noncomputable def eofMsg (dos : Bool) (w : Where) (data : Str) : List Msg :=
  if dos = true ∧ Lf data then [⟨.W_FILE_DOS_EOFCRLF, w, [], none⟩]
  else if dos = false ∧ ¬ Lf data then [⟨.W_FILE_UNIX_NOLF, w, [], none⟩]
  else []

/-- The messages for one file on its own: `text` gives the decoded lines. -/
noncomputable def ownFormat (text : Where → Str) (ws : List Where) : List Msg :=
  match ws.head?, ws.getLast? with
  | some first, some last =>
    let dos := startsDos (text first)
    ws.flatMap (fun w => formatMsg dos w (text w)) ++ eofMsg dos last (text last)
  | _, _ => []

/-- The lines of the file itself, without those of the included files. -/
def Items.own : Items → List Where
  | .nil => []
  | .line w rest => w :: rest.own
  | .incl w _ _ rest => w :: rest.own

/-- The messages for an include tree: those of the file itself, with the messages of
each included file directly after the line including it.  `seen`: the kind and the
last line so far of the file the items belong to. -/
noncomputable def Items.formats (text : Where → Str) : Option (Bool × Where) → Items → List Msg
  | none, .nil => []
  | some (dos, w), .nil => eofMsg dos w (text w)
  | seen, .line w rest =>
    let dos := (seen.map (·.1)).getD (startsDos (text w))
    formatMsg dos w (text w) ++ rest.formats text (some (dos, w))
  | seen, .incl w _ sub rest =>
    let dos := (seen.map (·.1)).getD (startsDos (text w))
    formatMsg dos w (text w) ++ (sub.formats text none ++ rest.formats text (some (dos, w)))

/-- The code page Windows-1252 where it differs from Latin-1 (Unicode consortium, CP1252.TXT). -/
def windowsOnly : List (Nat × Char) := [
  (0x80, '€'), (0x82, '‚'), (0x83, 'ƒ'), (0x84, '„'), (0x85, '…'), (0x86, '†'), (0x87, '‡'), (0x88, 'ˆ'), (0x89, '‰'),
  (0x8a, 'Š'), (0x8b, '‹'), (0x8c, 'Œ'), (0x8e, 'Ž'), (0x91, '‘'), (0x92, '’'), (0x93, '“'), (0x94, '”'), (0x95, '•'),
  (0x96, '–'), (0x97, '—'), (0x98, '˜'), (0x99, '™'), (0x9a, 'š'), (0x9b, '›'), (0x9c, 'œ'), (0x9e, 'ž'), (0x9f, 'Ÿ')]

/-- The byte stands for the character in Windows-1252. -/
def Windows1252 (b : Nat) (c : Char) : Prop :=
  (b < 0x80 ∨ 0xa0 ≤ b) ∧ b < 256 ∧ c.toNat = b ∨ (b, c) ∈ windowsOnly

end ALint.Spec
