import Verif.Model.Dialplan

/-!
# Dialplans (specification)
-/

namespace ALint.Spec
open ALint

/-! ## Lines and headers -/

/-- The names of the headers, in order. -/
def headers : List Elem → List Str
  | [] => []
  | .ctx c :: es => c.name :: headers es
  | _ :: es => headers es

/-- The name of the last header, to begin with `cur`. -/
def lastHeader (cur : Option Str) : List Elem → Option Str
  | [] => cur
  | .ctx c :: es => lastHeader (some c.name) es
  | _ :: es => lastHeader cur es

/-- Every assignment with the name of the header it stands under. -/
def governed (cur : Option Str) : List Elem → List (Option Str × VarE)
  | [] => []
  | .ctx c :: es => governed (some c.name) es
  | .var v :: es => (cur, v) :: governed cur es
  | .empty _ _ :: es => governed cur es

/-- The assignments under headers of that name, in order. -/
def linesOf (name : Str) (es : List Elem) : List VarE :=
  ((governed none es).filter fun x => x.1 = some name).map (·.2)

/-- The assignments up to the next header. -/
def block : List Elem → List VarE
  | [] => []
  | .ctx _ :: _ => []
  | .var v :: es => v :: block es
  | .empty _ _ :: es => block es

/-- The assignments under the first header of that name (and not under a later one), if
there is a header of that name. -/
def firstBlock (name : Str) : List Elem → Option (List VarE)
  | [] => none
  | .ctx c :: es => if c.name = name then some (block es) else firstBlock name es
  | _ :: es => firstBlock name es

/-- `general` and `globals` are settings, not contexts. -/
def special (name : Str) : Bool := name = c! "general" || name = c! "globals"

/-- A line that defines a step. -/
def stepLine (v : VarE) : Bool := v.key = c! "exten" || v.key = c! "same"

/-- The step lines under headers of contexts. -/
def stepLines (es : List Elem) : List VarE :=
  ((governed none es).filter fun x => (x.1.map fun n => !special n).getD false && stepLine x.2).map (·.2)

/-! ## Messages -/

/-- The messages saying that the line is left out. -/
def dropKind : MK → Bool
  | .E_DP_PAT_MISSING | .E_DP_PRIO_MISSING | .E_DP_PRIO_INVALID | .E_DP_PRIO_DUPE | .I_NOTIMPL_HINT => true
  | _ => false

def drops (log : List Msg) : List Msg := log.filter fun m => dropKind m.kind

/-- The number of steps of a dialplan. -/
def stepCount (dp : Dialplan) : Nat := (dp.contexts.map fun c => c.steps.length).sum

/-! ## The text of a line -/

/-- The value of a text of ASCII digits. -/
def decimal (ds : Str) : Nat := ds.foldl (fun a d => 10 * a + (d.toNat - 48)) 0

example : decimal (c! "0120") = 120 := by decide

/-- The parts of a line: the extension (none: the one of the line before, `same`), the
priority (none: the next one, `n`), the label, the application. -/
structure Parts where
  exten : Option Str
  prio : Option Nat
  label : Option Str
  app : Str

/-- Spellings of a priority. -/
inductive PrioText : Option Nat → Str → Prop
  | next : PrioText none (c! "n")
  | num (ds : Str) (hne : ds ≠ []) (hd : ∀ d ∈ ds, d.isDigit = true) : PrioText (some (decimal ds)) ds

/-- `(label)`. -/
def labelText : Option Str → Str
  | none => []
  | some l => '(' :: (l ++ [')'])

/-- What stands in front of the priority. -/
def extenText : Option Str → Str
  | none => []
  | some raw => raw ++ [',']

/-- `exten => EXTEN,PRIO(LABEL),APP` or `same => PRIO(LABEL),APP`, where `(LABEL)` and `,APP`
may be missing. -/
inductive StepText (v : VarE) (p : Parts) : Prop
  | mk (ps : Str)
    (hkey : v.key = if p.exten.isSome then c! "exten" else c! "same")
    (hext : ∀ raw, p.exten = some raw → raw ≠ [] ∧ ',' ∉ raw)
    (hprio : PrioText p.prio ps)
    (hlabel : ∀ l, p.label = some l → ',' ∉ l)
    (hval : v.value = extenText p.exten ++ ps ++ labelText p.label ++ (',' :: p.app) ∨
      (p.app = [] ∧ v.value = extenText p.exten ++ ps ++ labelText p.label))

/-- The extension a line is about, in a context with these steps. -/
def patternFor (steps : List Step) : Option Str → Option Pattern.Values
  | some raw => (Pattern.parse raw).toOption
  | none => steps.getLast?.map (·.pat)

/-! ## Steps -/

/-- The same extension: the canonical spellings agree. -/
def SameExten (s t : Step) : Prop := Pattern.canonical s.pat = Pattern.canonical t.pat

instance (s t : Step) : Decidable (SameExten s t) := inferInstanceAs (Decidable (_ = _))

/-- The step carries that label (an empty label is none). -/
def Labelled (s : Step) (l : Str) : Prop := l ≠ [] ∧ s.label = some l

instance (s : Step) (l : Str) : Decidable (Labelled s l) := inferInstanceAs (Decidable (_ ∧ _))

/-- The elements of a file have been read: messages and state. -/
def After (env : DEnv) (sp : Option Str) (es : List Elem) (log : List Msg) (st : DState) : Prop :=
  feed (dialplanStep env) (.init sp) es = ⟨log, .ok st⟩

/-- One more element is read. -/
def Then (env : DEnv) (st : DState) (e : Elem) (log : List Msg) (st' : DState) : Prop :=
  dialplanStep env st e = ⟨log, .ok st'⟩

/-- Between the two states the context of that name got one more step. -/
def Adds (dp dp' : Dialplan) (name : Str) (s : Step) : Prop :=
  ∃ c c', dp.get name = some c ∧ dp'.get name = some c' ∧ c'.steps = c.steps ++ [s]

/-- Nothing got a step: the steps of every context are as before. -/
def AddsNothing (dp dp' : Dialplan) : Prop :=
  ∀ name, (dp.get name).map (·.steps) = (dp'.get name).map (·.steps)

/-! ## Listings -/

/-- A listing: every step once, by extension, in the order of the patterns (C27), and
within an extension in the order of the file. -/
structure Listing (steps l : List Step) : Prop where
  perm : l.Perm steps
  ordered : l.Pairwise fun s t => s.pat = t.pat ∨ Pattern.patLt s.pat t.pat = true
  stable : ∀ p, l.filter (·.pat = p) = steps.filter (·.pat = p)

/-- What a context can become: new, lines added, opened again, includes added, listed, in
any order. -/
inductive Built : DCtx → Prop
  | new (name : Str) (w : Where) : Built ⟨name, w, [], [], none, [], none⟩
  | add (c : DCtx) (last : Option Nat) (e : ExtLine) (a : Added) (h : Built c)
      (ha : (addExt last c e).val = .ok a) : Built a.ctx
  | again (c : DCtx) (o : CtxE) (c' : DCtx) (h : Built c) (hu : updateCtx c o = .ok c') : Built c'
  | incl (c : DCtx) (is : List (Str × Where)) (h : Built c) : Built { c with includes := is }
  | list (c : DCtx) (h : Built c) : Built c.byPattern.2

end ALint.Spec
