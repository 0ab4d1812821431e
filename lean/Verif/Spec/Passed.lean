import Verif.Spec.Issued

/-!
# What is known of a dialplan about which nothing was said (specification)
-/

namespace ALint.Spec
open ALint

/-! ## Lines -/

/-- The data of a line that is fine, and what it comes to. -/
inductive CleanData (fs : FS) (w : Where) (data : Str) (comment : Bool) : Gives → Prop
  /-- `[name]` -/
  | header {name : Str} : IsHeader data [] name → CleanData fs w data comment (.elem (.ctx ⟨name, [], comment, w⟩))
  /-- `key => value`; only `same` may be indented -/
  | arrow {indent key value : Str} : ¬ SomeHeader data → IsAssign data (indent ++ key) (c! " => ") value true → Blanks indent →
      (∀ c, key.head? = some c → ¬ Blank c) → (indent ≠ [] → key = c! "same") →
      CleanData fs w data comment (.elem (.var ⟨key, value, true, comment, w⟩))
  /-- `key=value` -/
  | equals {indent key value : Str} : ¬ SomeHeader data → IsAssign data (indent ++ key) (c! "=") value false → Blanks indent →
      (∀ c, key.head? = some c → ¬ Blank c) → (indent ≠ [] → key = c! "same") →
      CleanData fs w data comment (.elem (.var ⟨key, value, false, comment, w⟩))
  | blank : Spaces data → CleanData fs w data comment (.elem (.empty comment w))
  /-- `#include file` or `#tryinclude file`, only spaces or only tabs between them, and the file is there unless it need not be -/
  | included {cmd sep arg name path : Str} : DirectiveText data cmd sep arg → '=' ∉ data →
      cmd = c! "#include" ∨ cmd = c! "#tryinclude" → (∀ c ∈ sep, c = ' ') ∨ (∀ c ∈ sep, c = '\t') →
      Quoted name arg ∨ arg = ['"'] ∧ name = [] → PathFrom w.filename name path → '\x00' ∉ path →
      (cmd = c! "#include" → ∃ content, fs path = some content) → CleanData fs w data comment (.file path)

/-- A line that is fine: text in UTF-8 without control characters, no white space at its end, the
comment separated from the data. -/
inductive CleanLine (fs : FS) (w : Where) (g : Gives) : Prop
  | mk (text body data comment : Str) : w.line = utf8 text → ¬ HasControl text → Unterminated text body → ¬ EndsBlank body →
      ¬ Glued body → Content body data comment → CleanData fs w data (!comment.isEmpty) g → CleanLine fs w g

/-! ## The dialplan -/

/-- A header that is fine: `[general]` comes first, `[globals]` after it, both before the contexts, once; the others have no
templates. -/
inductive CleanHeader (s : Sofar) (c : CtxE) : Sofar → Prop
  | general : c.name = c! "general" → s.general = none → s.globals = none → s.first = none →
      CleanHeader s c { s with general := some c.at_, header := some c.name }
  | globals : c.name = c! "globals" → (∃ w, s.general = some w) → s.globals = none → s.first = none →
      CleanHeader s c { s with globals := some c.at_, header := some c.name }
  | context : c.name ≠ c! "general" → c.name ≠ c! "globals" → c.templates = [] →
      CleanHeader s c { s with header := some c.name, first := firstWith c s.first, begun := false }

/-- A step that is fine: its extension can be read and is in canonical spelling, its priority is a number or `n`, it comes in order,
neither number nor label are used twice for the extension, and there is nothing to say about its application. -/
structure CleanStep (env : AEnv) (s : Sofar) (name : Str) (v : VarE) (raw : Str) (pat : Pattern.Values) (n : Nat) (evs : List Ev)
    (sp : Option Str) (js : List Jump) : Prop where
  key : v.key = c! "exten" ∨ v.key = c! "same"
  arrow : v.arrow = true
  prio : (readingOf v).prio = c! "n" ∨ isDigitS (readingOf v).prio = true
  app : LineSays env v.at_ s.spelling (.str (readingOf v).app) evs sp js
  silent : evMsgs evs = []
  exten : extenFor s name (readingOf v).exten = some (raw, pat)
  canonical : (readingOf v).exten ≠ none → Pattern.isCanonical raw pat = true
  number : numberFor s (prioOf (readingOf v).prio) = some n
  order : ¬ Disorder s name pat (prioOf (readingOf v).prio)
  once : ∀ t ∈ s.steps name, Pattern.canonical t.pat = Pattern.canonical pat →
    t.prio ≠ n ∧ ∀ l, (readingOf v).label = some l → l ≠ [] → t.label ≠ some l

/-- An element that is fine, what came before the next one, the uses of variables, functions and applications in it, and the
destinations of its jumps. -/
inductive CleanElem (env : AEnv) (s : Sofar) : Elem → Sofar → List Ev → List Dest → Prop
  | blank (b : Bool) (w : Where) : CleanElem env s (.empty b w) s [] []
  | header (c : CtxE) (s' : Sofar) : CleanHeader s c s' → CleanElem env s (.ctx c) s' [] []
  | setting (v : VarE) (name : Str) : s.header = some name → special name = true → CleanElem env s (.var v) s [] []
  | includes (v : VarE) (name : Str) : s.header = some name → special name = false → v.key = c! "include" → v.arrow = true →
      CleanElem env s (.var v) s [] []
  | step (v : VarE) (name raw : Str) (pat : Pattern.Values) (n : Nat) (evs : List Ev) (sp : Option Str) (js : List Jump)
      (ds : List Dest) : s.header = some name → special name = false → CleanStep env s name v raw pat n evs sp js →
      Zips (CompletedAs name (Pattern.exampleOf pat) v.at_) js ds →
      CleanElem env s (.var v)
        ({ s with spelling := sp }.number
          ⟨name, ⟨raw, pat, n, (readingOf v).label, (readingOf v).app, v.comment, v.at_⟩, true⟩) (evUses evs) ds

inductive CleanElems (env : AEnv) : Sofar → List Elem → Sofar → List Ev → List Dest → Prop
  | nil {s : Sofar} : CleanElems env s [] s [] []
  | cons {s s' s'' : Sofar} {e : Elem} {es : List Elem} {us us' : List Ev} {ds ds' : List Dest} :
      CleanElem env s e s' us ds → CleanElems env s' es s'' us' ds' → CleanElems env s (e :: es) s'' (us ++ us') (ds ++ ds')

/-- A dialplan that is fine: the lines of the files, the elements made of them, `[general]` and `[globals]` are there (unless there
are no contexts), and all jumps lead somewhere. -/
structure CleanDialplan (fs : FS) (env : AEnv) (path : Str) (content : Bytes) (told : List Told) (s : Sofar) (us : List Ev)
    (ds : List Dest) : Prop where
  files : FilesTell fs path content told [] []
  lines : ∀ x ∈ told, CleanLine fs x.line x.gives
  elems : CleanElems env (.none none) (elemsOf told) s us ds
  special : s.first ≠ none → s.general ≠ none ∧ s.globals ≠ none
  jumps : ∀ d ∈ ds, JumpOk (viewOf (elemsOf told) s) d

end ALint.Spec
