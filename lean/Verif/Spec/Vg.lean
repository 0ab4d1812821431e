import Verif.Model.Vg

/-!
# Lines for the `vg` command (specification)
-/

namespace ALint.Spec
open ALint

/-- A character without a role. -/
def Plain (c : Char) : Prop := c ≠ '"' ∧ c ≠ '\'' ∧ c ≠ '(' ∧ c ≠ ')' ∧ c ≠ ';'

/-- Text with quotes and parentheses in order.  `dq`, `sq`: what may stand between double and single
quotes; `semi`: semicolons outside of quotes and parentheses are allowed (those inside always are). -/
inductive Nests (dq sq : Str → Prop) : (semi : Bool) → Str → Prop
  | nil {semi : Bool} : Nests dq sq semi []
  | char {semi : Bool} {c : Char} {s : Str} : Plain c → Nests dq sq semi s → Nests dq sq semi (c :: s)
  | semi {s : Str} : Nests dq sq true s → Nests dq sq true (';' :: s)
  | double {semi : Bool} {q s : Str} : dq q → Nests dq sq semi s → Nests dq sq semi ('"' :: (q ++ '"' :: s))
  | single {semi : Bool} {q s : Str} : sq q → Nests dq sq semi s → Nests dq sq semi ('\'' :: (q ++ '\'' :: s))
  | paren {semi : Bool} {q s : Str} : Nests dq sq true q → Nests dq sq semi s → Nests dq sq semi ('(' :: (q ++ ')' :: s))

/-- Quotes hold anything but that quote. -/
def AnyDouble (q : Str) : Prop := '"' ∉ q
def AnySingle (q : Str) : Prop := '\'' ∉ q

/-- Double quotes without single ones inside, single quotes without double ones and opening
parentheses. -/
def MildDouble (q : Str) : Prop := '"' ∉ q ∧ '\'' ∉ q
def MildSingle (q : Str) : Prop := '\'' ∉ q ∧ '"' ∉ q ∧ '(' ∉ q

/-- The blanks at the end. -/
def EndBlanks (s : Str) (d b : Str) : Prop := s = d ++ b ∧ (∀ c ∈ b, isBlank c = true) ∧ ∀ r c, d = r ++ [c] → isBlank c = false

/-- Folded lines: a line and all those that follow it and start with a blank; a line that starts with
`#` stands for itself. -/
inductive Folded : List (Where × Str) → List (List (Where × Str)) → Prop
  | nil : Folded [] []
  | hash {w : Where} {s : Str} {ls : List (Where × Str)} {gs : List (List (Where × Str))} :
      Folded ls gs → Folded ((w, '#' :: s) :: ls) ([(w, '#' :: s)] :: gs)
  | lines {l : Where × Str} {more ls : List (Where × Str)} {gs : List (List (Where × Str))} :
      l.2.head? ≠ some '#' → (∀ m ∈ more, startsBlank m.2 = true) → (∀ x, ls.head? = some x → startsBlank x.2 = false) →
      Folded ls gs → Folded (l :: (more ++ ls)) ((l :: more) :: gs)

/-- What a line contributes, without the blanks at its end: data and comment. -/
def contributes (s : Str) : Str × Str := (vgSplit (rstripP isBlank s)).2

/-- The line a group of folded lines stands for: the place of the first, the data of all, the comments
of all. -/
def unfolded : List (Where × Str) → Option Logical
  | [] => none
  | l :: more =>
    some (l.1, ((l :: more).map fun x => (contributes x.2).1).flatten, ((l :: more).map fun x => (contributes x.2).2).flatten)

/-- Blanks at the end of a line, no blank in front of its comment. -/
def blankMsgs (l : Where × Str) : List Msg :=
  (if l.2.getLast?.any isBlank then [⟨.W_WSH_EOL, l.1, [], none⟩] else []) ++
    (if (vgSplit (rstripP isBlank l.2)).1 then [⟨.W_WSH_COMMENT, l.1, [], none⟩] else [])

/-- The messages for the continuations of a line of which the data are `d` so far. -/
def continuedMsgs (d : Str) : List (Where × Str) → List Msg
  | [] => []
  | l :: more =>
    blankMsgs l ++ (if d = [] then [⟨.W_WSH_BOL, l.1, [], none⟩] else []) ++ continuedMsgs (d ++ (contributes l.2).1) more

/-- The messages for a group of folded lines. -/
def groupMsgs : List (Where × Str) → List Msg
  | [] => []
  | l :: more => blankMsgs l ++ continuedMsgs (contributes l.2).1 more

/-- The text of a line in a file: in UTF-8, or else in Windows-1252. -/
def Decodes (b : Bytes) (t : Str) : Prop := utf8Decode b = some t ∨ utf8Decode b = none ∧ cp1252Decode b = some t

/-- A line without its end. -/
def EolOff (t s : Str) : Prop :=
  t = s ++ ['\r', '\n'] ∨ (t = s ++ ['\n'] ∧ s.getLast? ≠ some '\r') ∨ (t = s ∧ s.getLast? ≠ some '\n')

/-- The lines of a file, of which `i` have gone before: places and texts. -/
inductive Texts (name : Str) : Nat → List Bytes → List (Where × Str) → Prop
  | nil {i : Nat} : Texts name i [] []
  | cons {i : Nat} {b : Bytes} {t s : Str} {bs : List Bytes} {ls : List (Where × Str)} :
      Decodes b t → EolOff t s → Texts name (i + 1) bs ls → Texts name i (b :: bs) ((⟨name, (i : Int) + 1, b⟩, s) :: ls)

/-- The messages about encoding, control characters and line ends, for these lines. -/
def lowerMsgs (ff : List FInfo) : List Where → List Msg
  | [] => ffEnd ff
  | w :: ws =>
    match (encodingStage w).2 with
    | .error _ => (encodingStage w).1
    | .ok data => (encodingStage w).1 ++ ctrlStage w data ++ (ffStage ff w data).2.1 ++ lowerMsgs (ffStage ff w data).1 ws

/-- Handing lines to the parser and what it yields to the aggregator, one after the other. -/
def deliverAll {σ : Type} (fs : FS) (agg : σ → Elem → Res σ) (st : PState σ) : List Logical → Res (PState σ)
  | [] => .pure st
  | l :: ls => .bind (vgDeliver fs agg st l) fun st => deliverAll fs agg st ls

/-- The checks at the end. -/
def finish {σ : Type} (agg : σ → Elem → Res σ) (st : PState σ) : Res (Option σ) :=
  .bind (.emitAll (vswEnd st.vsw).2) fun _ => .bind (feed agg st.agg (vswEnd st.vsw).1) fun s => .pure (some s)

/-- A line on which both ways of looking for comments agree: no white space at the beginning, no backslash, and in front
of the first semicolon quotes and parentheses are in order. -/
structure Ordinary (s : Str) : Prop where
  start : ∀ c, s.head? = some c → isSpace c = false
  backslash : '\\' ∉ s
  comment : ∀ pre post, s = pre ++ ';' :: post → ';' ∉ pre → Nests MildDouble MildSingle false pre

/-- A file of such lines. -/
def OrdinaryFile (content : Bytes) : Prop := ∀ b ∈ physLines content, ∀ t s, Decodes b t → EolOff t s → Ordinary s

/-- The names of the headers. -/
def headerNames : List Elem → List Str
  | [] => []
  | .ctx c :: es => c.name :: headerNames es
  | .var _ :: es => headerNames es
  | .empty _ _ :: es => headerNames es

/-- Of several equal names only the last. -/
def lastOnes : List Str → List Str
  | [] => []
  | n :: ns => if n ∈ ns then lastOnes ns else n :: lastOnes ns

/-- A part of the elements that is all of a section: a header, and what follows up to the next header. -/
structure SectionIn (es before : List Elem) (c : CtxE) (body rest : List Elem) : Prop where
  all : es = before ++ .ctx c :: (body ++ rest)
  body : ∀ d, Elem.ctx d ∉ body
  rest : rest = [] ∨ ∃ d more, rest = .ctx d :: more

end ALint.Spec
