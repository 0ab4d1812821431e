import Verif.Spec.Config
import Verif.Spec.File
import Verif.Spec.Vsw
import Verif.Spec.DialplanLog
import Verif.Py.Str

/-!
# What is said about the lines of the files (specification)
-/

namespace ALint.Spec
open ALint

/-- A message without arguments. -/
def plainMsg (k : MK) (w : Where) : Msg := ⟨k, w, [], none⟩

/-- The message if the condition holds, otherwise none. -/
def Tells (p : Prop) (m : Msg) (ms : List Msg) : Prop := (p ∧ ms = [m]) ∨ (¬ p ∧ ms = [])

/-! ## From bytes to data and comment -/

/-- The text of some bytes: they are its UTF-8 form, or (`bad`) of no text and are then taken for
cp1252. -/
inductive DecodesAs (bytes : Bytes) : Str → Bool → Prop
  | utf8 (s : Str) : bytes = utf8 s → DecodesAs bytes s false
  | cp1252 (s : Str) : (¬ ∃ t, bytes = utf8 t) → bytes.map cp1252Byte = s.map some → DecodesAs bytes s true

/-- The text without its CR LF or LF. -/
inductive Unterminated (text : Str) : Str → Prop
  | crlf (s : Str) : text = s ++ ['\r', '\n'] → Unterminated text s
  | lf (s : Str) : text = s ++ ['\n'] → ¬ CrLf text → Unterminated text s
  | none : ¬ Lf text → Unterminated text text

/-- What is in front of the comment, and the comment. -/
inductive Content (body : Str) : Str → Str → Prop
  | plain (d blanks : Str) : Trimmed body d blanks → AllEscaped d → Content body (unescape d) []
  | comment (d blanks a b x y : Str) : Trimmed body d blanks → CommentAt d a b → Trimmed (unescape a) x y →
      Content body x (y ++ ';' :: b)

/-- A comment that is not separated from what is in front of it. -/
def Glued (body : Str) : Prop := ∃ d blanks a c b, Trimmed body d blanks ∧ CommentAt d (a ++ [c]) b ∧ ¬ Blank c

/-- A control character other than TAB, LF and CR. -/
def HasControl (text : Str) : Prop := ∃ c ∈ text, c.toNat < 0x20 ∧ c ≠ '\t' ∧ c ≠ '\n' ∧ c ≠ '\r'

/-! ## Directives -/

/-- The words of the preprocessor. -/
def Directive (cmd : Str) : Prop := cmd = c! "#include" ∨ cmd = c! "#tryinclude" ∨ cmd = c! "#exec"

/-- `cmd argument`, separated by white space and control characters. -/
structure DirectiveText (text cmd sep arg : Str) : Prop where
  shape : text = cmd ++ sep ++ arg
  cmd : Directive cmd
  sepNe : sep ≠ []
  sep : ∀ c ∈ sep, c.toNat ≤ 32
  argStart : ∃ c, arg.head? = some c ∧ 32 < c.toNat

/-- A quote or bracket at one end without its partner at the other. -/
def BadQuotes (arg : Str) : Prop :=
  (arg.head? = some '"' ∨ arg.head? = some '<' ∨ arg.getLast? = some '"' ∨ arg.getLast? = some '>') ∧
    ¬ (∃ n, arg = '"' :: n ++ ['"']) ∧ ¬ ∃ n, arg = '<' :: n ++ ['>']

/-- What an argument names.  A single double quote is taken for quotes around nothing. -/
inductive ArgNames (arg : Str) : Str → Prop
  | quoted (name : Str) : Quoted name arg → ArgNames arg name
  | lone : arg = ['"'] → ArgNames arg []
  | bad : BadQuotes arg → arg ≠ ['"'] → ArgNames arg arg

/-- The path of the file `name` as seen from `file`. -/
inductive PathFrom (file name : Str) : Str → Prop
  | absolute : name.head? = some '/' → PathFrom file name name
  | here : '/' ∉ file → PathFrom file name name
  | root (slashes base : Str) : name.head? ≠ some '/' → file = slashes ++ base → slashes ≠ [] →
      (∀ c ∈ slashes, c = '/') → '/' ∉ base → PathFrom file name (slashes ++ name)
  | beside (dir slashes base : Str) : name.head? ≠ some '/' → file = dir ++ slashes ++ base → dir ≠ [] →
      dir.getLast? ≠ some '/' → slashes ≠ [] → (∀ c ∈ slashes, c = '/') → '/' ∉ base →
      PathFrom file name (dir ++ '/' :: name)

/-- Indentation of an assignment. -/
def Blanks (s : Str) : Prop := ∀ c ∈ s, c = ' ' ∨ c = '\t'

/-! ## A line -/

/-- What a line comes to. -/
inductive Gives where
  | elem (e : Elem)
  /-- the file it includes, there or not -/
  | file (path : Str)
  | nothing
deriving DecidableEq

/-- What is said about the separator of a directive. -/
def OddSeparator (sep : Str) : Prop := ¬ (∀ c ∈ sep, c = ' ') ∧ ¬ ∀ c ∈ sep, c = '\t'

/-- How the data of a line are read, what is said about them and what they come to. -/
inductive ReadAs (fs : FS) (w : Where) (data : Str) (comment : Bool) : List Msg → Gives → Prop
  | header {indent name m} : IsHeader data indent name → Tells (indent ≠ []) (plainMsg .W_WSH_BOL w) m →
      ReadAs fs w data comment m (.elem (.ctx ⟨name, [], comment, w⟩))
  | template {indent name c m} : IsTemplate data indent name c → Tells (indent ≠ []) (plainMsg .W_WSH_BOL w) m →
      ReadAs fs w data comment (m ++ [plainMsg .I_NOTIMPL_TEMPLATES w]) (.elem (.ctx ⟨name, [c], comment, w⟩))
  | arrow {indent key sep value m1 m2} : ¬ SomeHeader data → IsAssign data (indent ++ key) sep value true →
      Blanks indent → (∀ c, key.head? = some c → ¬ Blank c) →
      Tells (sep ≠ c! " => ") (plainMsg .W_WSH_OBJSET w) m1 →
      Tells (indent ≠ [] ∧ key ≠ c! "same") (plainMsg .W_WSH_BOL w) m2 →
      ReadAs fs w data comment (m1 ++ m2) (.elem (.var ⟨key, value, true, comment, w⟩))
  | equals {indent key sep value m1 m2} : ¬ SomeHeader data → IsAssign data (indent ++ key) sep value false →
      Blanks indent → (∀ c, key.head? = some c → ¬ Blank c) →
      Tells (sep ≠ c! "=") (plainMsg .W_WSH_VARSET w) m1 →
      Tells (indent ≠ [] ∧ key ≠ c! "same") (plainMsg .W_WSH_BOL w) m2 →
      ReadAs fs w data comment (m1 ++ m2) (.elem (.var ⟨key, value, false, comment, w⟩))
  | blank : Spaces data → ReadAs fs w data comment [] (.elem (.empty comment w))
  | exec {indent text sep arg name m1 m2 m3} : data = indent ++ text → Spaces indent → '=' ∉ data →
      DirectiveText text (c! "#exec") sep arg → ArgNames arg name →
      Tells (indent ≠ []) (plainMsg .W_WSH_BOL w) m1 →
      Tells (OddSeparator sep) (plainMsg .W_WSH_CTRL w) m2 →
      Tells (BadQuotes arg ∧ arg ≠ ['"']) (plainMsg .W_PP_QUOTE_BAD w) m3 →
      ReadAs fs w data comment (m1 ++ m2 ++ m3 ++ [⟨.W_PP_EXEC, w, [(c! "cmd", .one (.str name))], none⟩]) .nothing
  | include {indent text cmd sep arg name path m1 m2 m3 m4} : data = indent ++ text → Spaces indent → '=' ∉ data →
      DirectiveText text cmd sep arg → cmd ≠ c! "#exec" → ArgNames arg name → PathFrom w.filename name path →
      '\x00' ∉ path →
      Tells (indent ≠ []) (plainMsg .W_WSH_BOL w) m1 →
      Tells (OddSeparator sep) (plainMsg .W_WSH_CTRL w) m2 →
      Tells (BadQuotes arg ∧ arg ≠ ['"']) (plainMsg .W_PP_QUOTE_BAD w) m3 →
      Tells (cmd = c! "#include" ∧ fs path = none)
        ⟨.W_PP_INCLUDE_MISSING, w, [(c! "filename", .one (.str name))], none⟩ m4 →
      ReadAs fs w data comment (m1 ++ m2 ++ m3 ++ m4) (.file path)
  | hash {indent text m} : data = indent ++ text → Spaces indent → '=' ∉ data → text.head? = some '#' →
      (∀ cmd sep arg, ¬ DirectiveText text cmd sep arg) →
      Tells (indent ≠ []) (plainMsg .W_WSH_BOL w) m →
      ReadAs fs w data comment
        (m ++ [⟨.E_CONF_BAD_LINE, w, [(c! "startswith", .one (.str (text.take 16)))], none⟩]) .nothing
  | other : ¬ SomeHeader data → '=' ∉ data → ¬ Spaces data →
      (∀ indent text, data = indent ++ text → Spaces indent → text.head? ≠ some '#') →
      ReadAs fs w data comment
        [⟨.E_CONF_BAD_LINE, w, [(c! "startswith", .one (.str (data.take 16)))], none⟩] .nothing

/-- What is said about a line, whatever file it is in, and what it comes to. -/
inductive LineTells (fs : FS) (w : Where) : List Msg → Gives → Prop
  | mk {text body data comment : Str} {bad : Bool} {m1 m2 m3 m4 m5 : List Msg} {g : Gives} :
      DecodesAs w.line text bad → Unterminated text body → Content body data comment →
      Tells (bad = true) (plainMsg .E_FILE_UTF8_BAD w) m1 →
      Tells (HasControl text) (plainMsg .W_FILE_CTRL_CHAR w) m2 →
      Tells (EndsBlank body) (plainMsg .W_WSH_EOL w) m3 →
      Tells (Glued body) (plainMsg .W_WSH_COMMENT w) m4 →
      ReadAs fs w data (!comment.isEmpty) m5 g →
      LineTells fs w (m1 ++ m2 ++ m3 ++ m4 ++ m5) g

/-! ## All lines -/

/-- A line with what is said about it and what it comes to. -/
structure Told where
  line : Where
  msgs : List Msg
  gives : Gives

def Gives.elem? : Gives → Option Elem
  | .elem e => some e
  | _ => none

def Gives.file? : Gives → Option Str
  | .file p => some p
  | _ => none

/-- The headers, assignments and blank lines among the lines. -/
def elemsOf (told : List Told) : List Elem := told.filterMap fun x => x.gives.elem?

/-- The names of the included files, as often as they are included. -/
def Items.files : Items → List Str
  | .nil => []
  | .line _ rest => rest.files
  | .incl _ f sub rest => f :: (sub.files ++ rest.files)

/-- `inc` knows which file a line includes. -/
def KnowsIncludes (fs : FS) (inc : Where → Option Str) : Prop := ∀ w ms g, LineTells fs w ms g → inc w = g.file?

/-- `text` knows the text of each line. -/
def KnowsText (text : Where → Str) : Prop := ∀ w s bad, DecodesAs w.line s bad → text w = s

/-- What is said about the blank lines of a file: what its layout asks for, only that nothing is
said about a blank line at its end unless the checker has noticed that the file is over. -/
def HintsFor (es : List Elem) (hints : List Msg) : Prop :=
  ∀ (f : Str) (l : Layout), l.elems = ownLines f es →
    (SeenOver f es → (hints.filter fun m => m.at_.filename = f) = l.hints) ∧
    (¬ SeenOver f es → (hints.filter fun m => m.at_.filename = f) = l.hints.filter fun m => m.kind ≠ .W_WSV_EOF)

/-- The files read, line by line; what is said about each line, about line terminators, about
blank lines, and all that put together. -/
structure FilesSay (fs : FS) (path : Str) (content : Bytes) (told : List Told) (log : List Msg) : Prop where
  /-- every line is told what the specification asks for -/
  lines : ∀ x ∈ told, LineTells fs x.line x.msgs x.gives
  /-- the lines are those of the file with the included files in place -/
  files : ∃ t : Items, (∀ inc, KnowsIncludes fs inc → Expand fs inc path 0 (physLines content) t) ∧
    told.map (·.line) = t.flatten ∧
    ∃ formats hints rest,
      (∀ text, KnowsText text → formats = t.formats text none) ∧
      ((path :: t.files).Nodup → HintsFor (elemsOf told) hints) ∧
      Merges formats hints rest ∧ Merges (told.flatMap (·.msgs)) rest log

end ALint.Spec
