import Verif.Spec.LineLog
import Verif.Spec.DialplanTells
import Verif.Spec.Fatal

/-!
# The order in which messages are issued (specification)
-/

namespace ALint.Spec
open ALint

/-- The files read: the lines, what is said about each of them and what it comes to; what is said
about line terminators and about blank lines. -/
structure FilesTell (fs : FS) (path : Str) (content : Bytes) (told : List Told) (formats hints : List Msg) : Prop where
  /-- every line is told what the specification asks for -/
  lines : ∀ x ∈ told, LineTells fs x.line x.msgs x.gives
  /-- the lines are those of the file with the included files in place -/
  files : ∃ t : Items, (∀ inc, KnowsIncludes fs inc → Expand fs inc path 0 (physLines content) t) ∧
    told.map (·.line) = t.flatten ∧
    (∀ text, KnowsText text → formats = t.formats text none) ∧
    ((path :: t.files).Nodup → HintsFor (elemsOf told) hints)

/-- About the bytes of a line. -/
def AboutBytes (m : Msg) : Prop := m.kind = .E_FILE_UTF8_BAD ∨ m.kind = .W_FILE_CTRL_CHAR

/-- About the end of a file. -/
def AboutEnd (m : Msg) : Prop := m.kind = .W_FILE_DOS_EOFCRLF ∨ m.kind = .W_FILE_UNIX_NOLF

/-- What is said about line terminators upon a line: about the ends of files, then about the line itself. -/
structure UponLine (w : Where) (ends own : List Msg) : Prop where
  ends : ∀ m ∈ ends, AboutEnd m
  own : ∀ m ∈ own, m.at_ = w ∧ ¬ AboutEnd m

/-- What the dialplan says about a line, if the line is a header, an assignment or blank. -/
inductive AggTells (env : AEnv) (s : Sofar) : Gives → List Msg → Sofar → List Ev → List Dest → Prop
  | elem {e : Elem} {ms : List Msg} {s' : Sofar} {us : List Ev} {ds : List Dest} :
      ElemTells env s e ms s' us ds → AggTells env s (.elem e) ms s' us ds
  | file (p : Str) : AggTells env s (.file p) [] s [] []
  | nothing : AggTells env s .nothing [] s [] []

/-- The messages in the order in which they are issued: line by line, first what is said about its
bytes, then about line terminators, then about its layout, then about blank lines in front of it,
then what the dialplan says about it.  What is said about the ends of files and about blank lines may
come upon any later line, in the order given (about blank lines only upon headers, assignments and
blank lines); what is left of it comes in the end. -/
inductive Issued (env : AEnv) : Sofar → List Told → (formats hints log : List Msg) → Sofar → List Ev → List Dest → Prop
  | done {s : Sofar} {formats hints : List Msg} : (∀ m ∈ formats, AboutEnd m) →
      Issued env s [] formats hints (formats ++ hints) s [] []
  | line {s s' s'' : Sofar} {x : Told} {told : List Told} {a b e f h d formats hints log : List Msg} {us us' : List Ev}
      {ds ds' : List Dest} :
      x.msgs = a ++ b → (∀ m ∈ a, AboutBytes m) → (∀ m ∈ b, ¬ AboutBytes m) →
      UponLine x.line e f → (x.gives.elem? = none → h = []) →
      AggTells env s x.gives d s' us ds → Issued env s' told formats hints log s'' us' ds' →
      Issued env s (x :: told) (e ++ f ++ formats) (h ++ hints) (a ++ e ++ f ++ b ++ h ++ d ++ log) s'' (us ++ us') (ds ++ ds')

end ALint.Spec
