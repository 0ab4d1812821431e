import Verif.Model.Vsw

/-!
# Layout of blank lines, grouping of assignments (specification)
-/

namespace ALint.Spec
open ALint

/-- A header or an assignment. -/
inductive Item where
  | ctx (c : CtxE)
  | var (v : VarE)

def Item.elem : Item → Elem
  | .ctx c => .ctx c
  | .var v => .var v

/-- A blank or comment-only line: (has a comment, where). -/
abbrev BlankLine := Bool × Where

def BlankLine.elem (b : BlankLine) : Elem := .empty b.1 b.2

/-- The lines of one file: items with the blank lines before each of them, and the
blank lines at the end. -/
structure Layout where
  segs : List (List BlankLine × Item)
  tail : List BlankLine

def Layout.elems (l : Layout) : List Elem :=
  l.segs.flatMap (fun s => s.1.map BlankLine.elem ++ [s.2.elem]) ++ l.tail.map BlankLine.elem

/-- The runs of consecutive pure blank lines: the pieces between comment lines. -/
def pureRuns : List BlankLine → List (List Where)
  | [] => []
  | (true, _) :: rest => pureRuns rest
  | (false, w) :: rest =>
    match rest with
    | (false, _) :: _ =>
      match pureRuns rest with
      | r :: rs => (w :: r) :: rs
      | [] => [[w]]
    | _ => [w] :: pureRuns rest

/-- One hint, at the last line, for each run longer than `max`. -/
def longRuns (kind : MK) (max : Nat) (runs : List (List Where)) : List Msg :=
  (runs.filter (fun r => decide (max < r.length))).filterMap fun r =>
    r.getLast?.map fun w => ⟨kind, w, [], none⟩

/-- The hints for the blank lines before an item.  At the start of the file, if its
first line is a pure blank line, the first run gives a begin-of-file hint instead. -/
def gapHints (start : Bool) (gap : List BlankLine) (kind : MK) (max : Nat) : List Msg :=
  match start, gap with
  | true, (false, w) :: _ => ⟨.W_WSV_BOF, w, [], none⟩ :: longRuns kind max (pureRuns gap).tail
  | _, _ => longRuns kind max (pureRuns gap)

/-- The hints for the blank lines at the end: a final run of pure blank lines gives
an end-of-file hint, at the last line. -/
def endHints (gap : List BlankLine) : List Msg :=
  match gap.getLast? with
  | none => []
  | some (true, _) => longRuns .H_WSV_CTX_BETWEEN 2 (pureRuns gap)
  | some (false, w) =>
    longRuns .H_WSV_CTX_BETWEEN 2 (pureRuns gap).dropLast ++ [⟨.W_WSV_EOF, w, [], none⟩]

/-- All hints.  `start`: nothing but blank lines so far; `n`: the number of
assignments since the last header. -/
def segHints : Bool → Nat → List (List BlankLine × Item) → List Msg
  | _, _, [] => []
  | start, n, (gap, .ctx c) :: rest =>
    (if gap.isEmpty && 3 ≤ n then [⟨.H_WSV_CTX_BETWEEN, c.at_, [], none⟩]
      else gapHints start gap .H_WSV_CTX_BETWEEN 2) ++ segHints false 0 rest
  | start, n, (gap, .var _) :: rest =>
    gapHints start gap .H_WSV_VARSET_BETWEEN 1 ++ segHints false (n + 1) rest

def Layout.hints (l : Layout) : List Msg := segHints true 0 l.segs ++ endHints l.tail

/-! ## Grouping -/

def isCtx : Elem → Bool
  | .ctx _ => true
  | _ => false

/-- The assignments among some elements. -/
def varsOf : List Elem → List VarE
  | [] => []
  | .var v :: es => v :: varsOf es
  | _ :: es => varsOf es

/-- Is it a header or an assignment? -/
def notBlank : Elem → Bool
  | .empty _ _ => false
  | _ => true

/-- The begin-of-file hint due to a file: at its first line, if that is a pure blank
line and something else than blank lines follows. -/
def bofHint : List Elem → List Msg
  | .empty false w :: rest => if rest.any notBlank then [⟨.W_WSV_BOF, w, [], none⟩] else []
  | _ => []

/-- The end-of-file hint due to a file: at its last line, if that is a pure blank line. -/
def eofHint (es : List Elem) : List Msg :=
  match es.getLast? with
  | some (.empty false w) => [⟨.W_WSV_EOF, w, [], none⟩]
  | _ => []

/-! ## Several files -/

/-- The files the lines come from. -/
def filesOf (es : List Elem) : List Str := es.map (·.at_.filename)

/-- The lines of one file. -/
def ownLines (f : Str) (es : List Elem) : List Elem := es.filter fun e => e.at_.filename = f

/-- The lines of no file are interrupted by lines of another one that go on afterwards.  This is
so if every file is read once (`Nested`). -/
def NoReturn (es : List Elem) : Prop :=
  ∀ x y, x ≠ y → ¬ List.Sublist [y, x, y, x] (filesOf es)

/-- File `f` is read, each line in turn; instead of a line that includes a file the lines of that
file are read.  No file is read twice. -/
inductive Nested : Str → List Elem → Prop
  | nil (f : Str) : Nested f []
  | line (f : Str) (e : Elem) (es : List Elem) (h : e.at_.filename = f) : Nested f es → Nested f (e :: es)
  | incl (f g : Str) (sub rest : List Elem) (hf : f ∉ filesOf sub) (hd : ∀ x ∈ filesOf sub, x ∉ filesOf rest) :
      Nested g sub → Nested f rest → Nested f (sub ++ rest)

/-- The checker has noticed that the file is over: it is the last one, or there is a line of a
file that was seen before it. -/
def SeenOver (x : Str) (es : List Elem) : Prop :=
  (filesOf es).getLast? = some x ∨ ∃ y, y ≠ x ∧ List.Sublist [y, x, y] (filesOf es)

end ALint.Spec
