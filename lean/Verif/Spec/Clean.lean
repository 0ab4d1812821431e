import Verif.Spec.Lookup
import Verif.Spec.Config

/-!
# A clean dialplan: what is written, and what is meant (specification)
-/

namespace ALint.Spec
open ALint

/-! ## What is meant -/

/-- A step: an optional label, and the application with its arguments. -/
structure CStep where
  label : Option Str
  app : Str

/-- An extension with its steps. -/
structure CExt where
  pat : Str
  first : CStep
  more : List CStep

def CExt.steps (e : CExt) : List CStep := e.first :: e.more

structure CCtx where
  name : Str
  includes : List Str
  exts : List CExt

/-- A dialplan: the settings in `[general]` and `[globals]`, and the contexts. -/
structure CFile where
  general : List (Str × Str)
  globals : List (Str × Str)
  contexts : List CCtx

/-! ## How it is written -/

def setLine (kv : Str × Str) : Str := kv.1 ++ '=' :: kv.2
def includeLine (name : Str) : Str := c! "include => " ++ name
def headerLine (name : Str) : Str := '[' :: (name ++ [']'])

/-- What stands behind the priority: `(label),App(...)`. -/
def behindPrio (s : CStep) : Str := labelText s.label ++ ',' :: s.app

/-- `exten => PAT,1(label),App(...)` and then ` same => n(label),App(...)`. -/
def extLines (e : CExt) : List Str :=
  (c! "exten => " ++ (e.pat ++ (c! ",1" ++ behindPrio e.first))) ::
    e.more.map fun s => c! " same => n" ++ behindPrio s

/-- An empty line, the header, the includes, the extensions. -/
def ctxLines (c : CCtx) : List Str :=
  [] :: headerLine c.name :: (c.includes.map includeLine ++ c.exts.flatMap extLines)

def fileLines (f : CFile) : List Str :=
  headerLine (c! "general") :: (f.general.map setLine ++
    [] :: headerLine (c! "globals") :: (f.globals.map setLine ++ f.contexts.flatMap ctxLines))

/-- The lines in UTF-8, each ended by LF. -/
def fileBytes (ls : List Str) : Bytes := ls.flatMap fun l => utf8 l ++ [10]

/-! ## What makes it clean -/

/-- Characters without a meaning for the reader of lines: neither control characters nor
the semicolon. -/
def lineChar (c : Char) : Bool := c ≠ ';' && c ≠ '\n' && c ≠ '\r' && !isIllegalCtrl c

/-- No such character in the line, and no white space at its end. -/
def GoodLine (l : Str) : Prop := (∀ c ∈ l, lineChar c = true) ∧ ∀ c, l.getLast? = some c → isBlank c = false

instance (l : Str) : Decidable (GoodLine l) :=
  inferInstanceAs (Decidable ((∀ c ∈ l, _) ∧ ∀ c, c ∈ l.getLast? → _))

/-- Nothing is reported about the application by itself, and these are its jumps. -/
def QuietApp (env : DEnv) (app : Str) (js : List Jump) : Prop :=
  ∀ sp w, ∃ ev sp', runApp env.toAEnv env.depth sp w (strV app) = ⟨ev, .ok (sp', js)⟩ ∧ evMsgs ev = []

/-- A jump given by texts goes from the extension `x` of the context `name` to this context,
extension and priority or label. -/
structure GoesTo (name x : Str) (j : Jump) (ctx ext p : Str) : Prop where
  context : (j.context = .none ∧ ctx = name) ∨ (j.context = .str ctx ∧ ctx ≠ [])
  exten : (j.exten = .none ∧ ext = x) ∨ (j.exten = .str ext ∧ ext ≠ [])
  prio : j.prio = .one (.str p)

/-- `p` is the priority of the step number `i` (counted from 0) or its label. -/
def Names (p : Str) (i : Nat) (s : CStep) : Prop :=
  (p ≠ [] ∧ (∀ d ∈ p, d.isDigit = true) ∧ decimal p = i + 1) ∨
  ((∃ c ∈ p, isDigitC c = false) ∧ s.label = some p)

/-- There is such a step. -/
def Lands (cs : List CCtx) (name x : Str) (j : Jump) : Prop :=
  ∃ ctx ext p, GoesTo name x j ctx ext p ∧
    ∃ c ∈ cs, c.name = ctx ∧ ∃ e ∈ c.exts, Dials e.pat ext ∧ ∃ i s, e.steps[i]? = some s ∧ Names p i s

structure GoodStep (env : DEnv) (cs : List CCtx) (name x : Str) (s : CStep) : Prop where
  label : ∀ l, s.label = some l → l ≠ [] ∧ ',' ∉ l
  app : ∃ js, QuietApp env s.app js ∧ ∀ j ∈ js, Lands cs name x j

/-- The extension can be read and is in canonical spelling (C28-C30); labels are used once. -/
structure GoodExt (env : DEnv) (cs : List CCtx) (name : Str) (e : CExt) : Prop where
  comma : ',' ∉ e.pat
  lead : NoLead e.pat
  pat : ∃ v, Pattern.parse e.pat = .ok v ∧ Pattern.isCanonical e.pat v = true ∧
    ∀ s ∈ e.steps, GoodStep env cs name (Pattern.exampleOf v) s
  labels : (e.steps.filterMap (·.label)).Nodup

/-- Two extensions with different canonical spellings. -/
def Different (a b : CExt) : Prop :=
  ∀ va vb, Pattern.parse a.pat = .ok va → Pattern.parse b.pat = .ok vb → Pattern.canonical va ≠ Pattern.canonical vb

structure GoodCtx (env : DEnv) (cs : List CCtx) (c : CCtx) : Prop where
  special : c.name ≠ c! "general" ∧ c.name ≠ c! "globals"
  bracket : ']' ∉ c.name
  includes : ∀ i ∈ c.includes, NoLead i
  exts : ∀ e ∈ c.exts, GoodExt env cs c.name e
  different : c.exts.Pairwise Different

/-- `key=value`. -/
structure GoodSetting (kv : Str × Str) : Prop where
  key : kv.1 ≠ [] ∧ NoLead kv.1 ∧ NoTrail kv.1 ∧ '=' ∉ kv.1 ∧ kv.1.head? ≠ some '['
  value : NoLead kv.2 ∧ kv.2.head? ≠ some '>'

structure GoodFile (env : DEnv) (f : CFile) : Prop where
  lines : ∀ l ∈ fileLines f, GoodLine l
  settings : ∀ kv ∈ f.general ++ f.globals, GoodSetting kv
  names : (f.contexts.map (·.name)).Nodup
  contexts : ∀ c ∈ f.contexts, GoodCtx env f.contexts c

/-! ## What is read -/

/-- Extension, priority, label and application of a step. -/
abbrev StepView := Str × Nat × Option Str × Str

def viewStep (s : Step) : StepView := (s.raw, s.prio, s.label, s.app)

/-- The steps that are meant: numbered from 1. -/
def meantSteps (e : CExt) : List StepView := e.steps.zipIdx.map fun p => (e.pat, p.2 + 1, p.1.label, p.1.app)

def viewCtx (c : DCtx) : Str × List Str × List StepView := (c.name, c.includes.map (·.1), c.steps.map viewStep)
def meantCtx (c : CCtx) : Str × List Str × List StepView := (c.name, c.includes, c.exts.flatMap meantSteps)

def viewSettings (c : CtxE × List VarE) : List (Str × Str) := c.2.map fun v => (v.key, v.value)

/-- The dialplan is the one meant. -/
structure AsMeant (f : CFile) (dp : Dialplan) : Prop where
  general : dp.general.map viewSettings = some f.general
  globals : dp.globals.map viewSettings = some f.globals
  contexts : dp.contexts.map viewCtx = f.contexts.map meantCtx

end ALint.Spec
