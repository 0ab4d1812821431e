import Verif.Spec.Lookup

/-!
# What is said about a dialplan (specification)
-/

namespace ALint.Spec
open ALint


/-! ## The text of a line -/

/-- What is in front of the first `c`, and what is behind it (if there is one). -/
def cut (c : Char) (s : Str) : Str × Option Str :=
  (s.takeWhile (· ≠ c), if c ∈ s then some (s.dropWhile (· ≠ c)).tail else none)

/-- The parts of an `exten` or `same` line: extension, priority, label and application. -/
structure Reading where
  exten : Option Str
  prio : Str
  label : Option Str
  app : Str

/-- `EXTEN,PRIO(LABEL),APP`, of which a `same` line has no `EXTEN`.  An empty extension counts
as none. -/
def readingOf (v : VarE) : Reading :=
  let first := if v.key = c! "exten" then cut ',' v.value else ([], some v.value)
  let rest := cut ',' (first.2.getD [])
  let number := cut '(' rest.1
  ⟨if first.1 = [] then none else some first.1, number.1, number.2.map List.dropLast, rest.2.getD []⟩

/-- The number in front, `none` for the next one. -/
def prioOf (text : Str) : Option Nat := if text = c! "n" then none else decNat 0 text

example : (fun r => (r.exten, r.prio, prioOf r.prio, r.label, r.app)) (readingOf
    ⟨c! "exten", c! "_X.,10(top),Dial(a,b)", true, false, ⟨[], 1, []⟩⟩) =
    (some (c! "_X."), c! "10", some 10, some (c! "top"), c! "Dial(a,b)") := by decide

/-! ## What came before -/

/-- A line that got a number; it was kept or refused. -/
structure Numbered where
  context : Str
  step : Step
  kept : Bool

/-- What came before a line: the accepted spelling of `Background`, where `[general]` and
`[globals]` are, the last header, the first context with the last place where its header is, the
lines that got a number, and whether one did since the last header. -/
structure Sofar where
  spelling : Option Str
  general : Option Where
  globals : Option Where
  header : Option Str
  first : Option (Str × Where)
  lines : List Numbered
  begun : Bool

def Sofar.none (spelling : Option Str) : Sofar := ⟨spelling, .none, .none, .none, .none, [], false⟩

/-- The steps of a context. -/
def Sofar.steps (s : Sofar) (name : Str) : List Step :=
  (s.lines.filter fun n => n.kept && n.context = name).map (·.step)

/-- A line more got a number. -/
def Sofar.number (s : Sofar) (n : Numbered) : Sofar := { s with lines := s.lines ++ [n], begun := true }

/-! ## Steps -/

/-- The number of a line, if it can get one: the given one, which is not 0; or the one after
the number of the line before, in whichever context that is. -/
def numberFor (s : Sofar) : Option Nat → Option Nat
  | .some n => if n = 0 then .none else .some n
  | .none => s.lines.getLast?.map fun l => l.step.prio + 1

/-- Why it cannot. -/
def unnumbered (w : Where) (raw : Str) : Option Nat → Msg
  | .some n => mkMsg .E_DP_PRIO_INVALID w [(c! "prio", natV n)]
  | .none => mkMsg .E_DP_PRIO_MISSING w [(c! "pat", strV raw)]

/-- The line is out of order.  `n`: it is the first below the header, or the step above is of
another extension; a number other than 1: the last step of that extension has neither this
number (which is reported otherwise) nor the one before. -/
def Disorder (s : Sofar) (name : Str) (pat : Pattern.Values) : Option Nat → Prop
  | .none => s.begun = false ∨ (s.steps name).getLast?.map (·.pat) ≠ some pat
  | .some n => n ≠ 1 ∧ ∀ t, ((s.steps name).filter (·.pat = pat)).getLast? = some t → t.prio ≠ n ∧ t.prio + 1 ≠ n

instance (s : Sofar) (name : Str) (pat : Pattern.Values) (prio : Option Nat) : Decidable (Disorder s name pat prio) := by
  cases prio with
  | none => unfold Disorder; infer_instance
  | some n =>
    unfold Disorder
    refine @instDecidableAnd _ _ inferInstance ?_
    cases h : ((s.steps name).filter (·.pat = pat)).getLast? with
    | none => exact .isTrue (by simp)
    | some t => exact decidable_of_iff (t.prio ≠ n ∧ t.prio + 1 ≠ n) (by simp)

/-- The priority as it is shown. -/
def prioShown : Option Nat → Arg
  | .none => strV (c! "<unset>")
  | .some n => natV n

/-- What is said about a step of the extension `raw` and what came before the line below: its
number, the order, a step of that extension with that number, or else with that label. -/
def stepSays (s : Sofar) (name : Str) (raw : Str) (pat : Pattern.Values) (prio : Option Nat) (label : Option Str) (app : Str)
    (comment : Bool) (w : Where) : List Msg × Sofar :=
  match numberFor s prio with
  | .none => ([unnumbered w raw prio], s)
  | .some n =>
    let order := if Disorder s name pat prio then
      [mkMsg .W_DP_PRIO_BADORDER w [(c! "pat", strV raw), (c! "prio", prioShown prio)]] else []
    let step : Step := ⟨raw, pat, n, label, app, comment, w⟩
    match (s.steps name).find? fun t => SameExten t step ∧ t.prio = n with
    | .some t => (order ++ [⟨.E_DP_PRIO_DUPE, w, [(c! "prio", natV n)], some t.at_⟩], s.number ⟨name, step, false⟩)
    | .none =>
      match (s.steps name).find? fun t => SameExten t step ∧ Labelled t (label.getD []) with
      | .some t => (order ++ [⟨.E_DP_LABEL_DUPE, w, [(c! "label", strV (label.getD []))], some t.at_⟩],
          s.number ⟨name, { step with label := some [] }, true⟩)
      | .none => (order, s.number ⟨name, step, true⟩)

/-! ## Lines -/

/-- A hint if the line has no arrow. -/
def arrowSays (v : VarE) : List Msg := if v.arrow then [] else [mkMsg .H_CONF_NO_ARROW v.at_ []]

/-- The extension with its values. -/
def extenOf (raw : Str) : Option (Str × Pattern.Values) := (Pattern.parse raw).toOption.map fun p => (raw, p)

/-- The extension a line is about: its own, or the one of the step above. -/
def extenFor (s : Sofar) (name : Str) : Option Str → Option (Str × Pattern.Values)
  | .some raw => extenOf raw
  | .none => (s.steps name).getLast?.map fun t => (t.raw, t.pat)

/-- A hint if the extension is not written canonically (C29). -/
def canonSays (w : Where) : Option (Str × Pattern.Values) → List Msg
  | .none => []
  | .some p => if Pattern.isCanonical p.1 p.2 then [] else
    [mkMsg .H_PAT_NON_CANONICAL w [(c! "pat", strV p.1), (c! "expected", strV (Pattern.canonical p.2))]]

/-- The application of a line (what is said about it is C93). -/
def appRun (env : DEnv) (s : Sofar) (v : VarE) : Tr (Option Str × List Jump) :=
  runApp env.toAEnv env.depth s.spelling v.at_ (strV (readingOf v).app)

def spellingAfter (s : Sofar) : Except Exc (Option Str × List Jump) → Sofar
  | .ok r => { s with spelling := r.1 }
  | .error _ => s

/-- What is said about an `exten` or `same` line. -/
def extenSays (env : DEnv) (s : Sofar) (name : Str) (v : VarE) : List Msg × Sofar :=
  let r := readingOf v
  if r.prio = c! "hint" then ([mkMsg .I_NOTIMPL_HINT v.at_ []], s)
  else if r.prio ≠ c! "n" ∧ isDigitS r.prio = false then
    ([mkMsg .E_DP_PRIO_INVALID v.at_ [(c! "prio", strV r.prio)]], s)
  else
    let run := appRun env s v
    let s := spellingAfter s run.val
    let front := evMsgs run.ev ++ canonSays v.at_ (r.exten.bind extenOf)
    match extenFor s name r.exten with
    | .none => (front ++ [mkMsg .E_DP_PAT_MISSING v.at_ []], s)
    | .some (raw, pat) =>
      let q := stepSays s name raw pat (prioOf r.prio) r.label r.app v.comment v.at_
      (front ++ q.1, q.2)

/-- What is said about a line in a context. -/
def lineSays (env : DEnv) (s : Sofar) (name : Str) (v : VarE) : List Msg × Sofar :=
  if v.key = c! "exten" ∨ v.key = c! "same" then
    let q := extenSays env s name v
    (arrowSays v ++ q.1, q.2)
  else if v.key = c! "include" then (arrowSays v, s)
  else if v.key = c! "switch" then (arrowSays v ++ [mkMsg .I_NOTIMPL_SWITCH v.at_ []], s)
  else if v.key = c! "ignorepat" then (arrowSays v ++ [mkMsg .I_NOTIMPL_IGNOREPAT v.at_ []], s)
  else ([mkMsg .E_CONF_KEY_INVALID v.at_ [(c! "key", strV v.key)]], s)

/-- The first context when there is one more header. -/
def firstWith (c : CtxE) : Option (Str × Where) → Option (Str × Where)
  | .none => some (c.name, c.at_)
  | .some (name, w) => if c.name = name then some (name, c.at_) else some (name, w)

/-- What is said about a header.  (A second `[general]` ends the reading with an exception.) -/
def headerSays (s : Sofar) (c : CtxE) : List Msg × Sofar :=
  if c.name = c! "general" then
    (if s.globals.isSome || s.first.isSome then [mkMsg .H_DP_GENERAL_MISPLACED c.at_ []] else [],
      { s with general := some c.at_, header := some c.name })
  else if c.name = c! "globals" then
    match s.globals with
    | .some w => ([⟨.E_DP_GLOBALS_DUPE, c.at_, [], some w⟩], { s with header := some c.name })
    | .none =>
      (if s.general.isNone || s.first.isSome then [mkMsg .H_DP_GLOBALS_MISPLACED c.at_ []] else [],
        { s with globals := some c.at_, header := some c.name })
  else
    (if c.templates.isEmpty then [] else [mkMsg .I_NOTIMPL_TEMPLATES c.at_ []],
      { s with header := some c.name, first := firstWith c s.first, begun := false })

/-- What is said about an element and what came before the next one. -/
def elemSays (env : DEnv) (s : Sofar) : Elem → List Msg × Sofar
  | .empty _ _ => ([], s)
  | .ctx c => headerSays s c
  | .var v =>
    match s.header with
    | .none => ([mkMsg .E_CONF_CTX_MISSING v.at_ []], s)
    | .some name => if special name then ([], s) else lineSays env s name v

/-- What is said about the elements in order, and what came before whatever follows. -/
def dialplanSays (env : DEnv) (s : Sofar) : List Elem → List Msg × Sofar
  | [] => ([], s)
  | e :: es =>
    let q := elemSays env s e
    let r := dialplanSays env q.2 es
    (q.1 ++ r.1, r.2)

/-! ## The whole -/

/-- At the end it is said if `[general]` or `[globals]` is missing, unless there is no context;
the file is the one of the first context. -/
def endSays (s : Sofar) : List Msg :=
  match s.first with
  | .none => []
  | .some (_, w) =>
    (if s.general.isNone then [mkMsg .H_DP_GENERAL_MISPLACED ⟨w.filename, 0, []⟩ []] else []) ++
    (if s.globals.isNone then [mkMsg .H_DP_GLOBALS_MISPLACED ⟨w.filename, 0, []⟩ []] else [])

/-- What is said about a jump. -/
inductive JumpSays (dp : Dialplan) (d : Dest) : List Msg → Prop
  | ok : JumpOk dp d → JumpSays dp d []
  /-- the context depends on variables, and no step has the label -/
  | noLabel (l : Str) : d.context.isVar = true → d.prio = .one (.str l) →
      (∀ c ∈ dp.contexts, ∀ s ∈ c.steps, ¬ Labelled s l) →
      JumpSays dp d [mkMsg .E_DP_GOTO_NOLABEL d.at_
        [(c! "context", .one d.context), (c! "exten", .one d.exten), (c! "label", d.prio)]]
  | noContext : d.context.isVar = false → (∀ c ∈ dp.contexts, d.context ≠ .str c.name) →
      JumpSays dp d [mkMsg .E_DP_GOTO_NOCONTEXT d.at_
        [(c! "context", .one d.context), (c! "exten", .one d.exten), (c! "prio", d.prio)]]
  /-- the extension depends on variables, and no step of the context has the label -/
  | noLabelThere (c : DCtx) (l : Str) : c ∈ dp.contexts → d.context = .str c.name → d.exten.isVar = true →
      d.prio = .one (.str l) → (∀ s ∈ c.steps, ¬ Labelled s l) →
      JumpSays dp d [mkMsg .E_DP_GOTO_CONTEXT_NOLABEL d.at_
        [(c! "context", .one d.context), (c! "exten", .one d.exten), (c! "label", d.prio)]]
  | noStep (c : DCtx) (x : Str) : c ∈ dp.contexts → d.context = .str c.name → d.exten = .str x →
      (∀ s, ¬ Findable dp c.name x d.prio s) →
      JumpSays dp d [mkMsg .W_DP_GOTO_CONTEXT_NOEXTEN d.at_
        [(c! "context", .one d.context), (c! "exten", .one d.exten), (c! "prio", d.prio)]]

/-- The list is the two other ones, each in its order, put together. -/
inductive Merges {α : Type} : List α → List α → List α → Prop
  | nil : Merges [] [] []
  | left (x : α) {a b c : List α} : Merges a b c → Merges (x :: a) b (x :: c)
  | right (x : α) {a b c : List α} : Merges a b c → Merges a (x :: b) (x :: c)

example : Merges [1, 2] [3, 4, 5] [3, 1, 4, 2, 5] := .right _ (.left _ (.right _ (.left _ (.right _ .nil))))

end ALint.Spec
