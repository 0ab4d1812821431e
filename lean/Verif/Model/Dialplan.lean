import Verif.Model.App
import Verif.Model.Vsw
import Verif.Model.Pattern

/-!
# Model of `asterisklint/dialplan.py`
-/

namespace ALint
open Pattern (Values)

/-! ## `Var.format(EXTEN=...)` -/

/-- The index a slice bound stands for in a sequence of length `len`.  Code: variable.py:268-269. -/
def sliceIdx (len : Nat) (i : Int) : Nat :=
  if i < 0 then (len + i).toNat else min len i.toNat

/-- `s[a:b]`; `none` for `b` is `s[a:]`.  Code: variable.py:268-269. -/
def pySlice (s : Str) (a : Int) (b : Option Int) : Str :=
  let i := sliceIdx s.length a
  let j := match b with
    | none => s.length
    | some b => sliceIdx s.length b
  (s.drop i).take (j - i)

/-- `SliceMixin.format`, variable.py:249-269, on the value: `_endpos` and the slice. -/
def sliceFormat (value : Str) (start length : V) : Except Exc Str :=
  match start, length with
  | .int s, .none => .ok (pySlice value s none)
  | .int s, .int n =>
    if n = 0 then .ok (pySlice value s none)
    else .ok (pySlice value s (some (if n < 0 then n else s + n)))
  | .int s, v => if v.truthy then .error .attributeError else .ok (pySlice value s none)
  | _, _ => .error .typeError

/-- `kwargs[key]` with `EXTEN` as the only key.  Code: variable.py:103, 106; dialplan.py:449. -/
def lookupExten (exten key : Str) : Except Exc Str :=
  if key = c! "EXTEN" then .ok exten else .error .keyError

/-- What the kinds of variables make of the looked up value.  Code: variable.py:91-106, 265-269. -/
def formatKind (k : Kind) (value : Str) (start length : V) : Except Exc Str :=
  match k with
  | .slice | .funcSlice => sliceFormat value start length
  | _ => .ok value

namespace V
mutual
/-- `v.format(EXTEN=exten)`: `Var.format` variable.py:91-106, `SliceMixin.format`
variable.py:265-269; a string stands for itself. -/
def format (exten : Str) : V → Except Exc Str
  | .str s => .ok s
  | .lst items => formatAll exten items
  | .atom k name s l =>
    match name with
    | .str key =>
      match lookupExten exten key with
      | .error e => .error e
      | .ok value => formatKind k value s l
    | .lst items =>
      match formatAll exten items with
      | .error e => .error e
      | .ok key =>
        match lookupExten exten key with
        | .error e => .error e
        | .ok value => formatKind k value s l
    | .atom k' n' s' l' =>
      match format exten (.atom k' n' s' l') with
      | .error e => .error e
      | .ok key =>
        match lookupExten exten key with
        | .error e => .error e
        | .ok value => formatKind k value s l
    | _ => .error .keyError
  | _ => .error .attributeError
/-- The parts of a joined variable in order, variable.py:92-99. -/
def formatAll (exten : Str) : List V → Except Exc Str
  | [] => .ok []
  | v :: vs =>
    match format exten v with
    | .error e => .error e
    | .ok a => (formatAll exten vs).map (a ++ ·)
end
end V

example : V.format (c! "0123") (.lst [.str (c! "a"), .atom .slice (.str (c! "EXTEN")) (.int (-2)) .none])
    = .ok (c! "a23") := by decide
example : V.format (c! "0123") (.atom .var (.str (c! "foo")) .none .none) = .error .keyError := by decide

/-! ## Lines -/

/-- An `Extension` (dialplan.py:537-549) as read from a line: a pattern of `None` ("same")
and a priority of `None` ("n") are `none`; `jumps` is `app.jump_destinations`. -/
structure ExtLine where
  pat : Option (Str × Values)
  prio : Option Nat
  label : Option Str
  app : Str
  jumps : List Jump
  comment : Bool
  at_ : Where

/-- What `DialplanVarset.from_varset` returns.  Code: dialplan.py:468-527. -/
inductive DVar where
  | nothing
  | ext (e : ExtLine)
  | include_ (name : Str) (at_ : Where)

/-- Surroundings: the loaders, and the depth of nested applications that fits Python's
stack.  Code: application.py:129, varfun.py:206. -/
structure DEnv extends AEnv where
  depth : Nat

/-- Messages of a trace.  Code: defines.py:81. -/
def evMsgs (ev : List Ev) : List Msg := ev.filterMap fun e => match e with
  | .msg m => some m
  | _ => none

/-- Everything else of a trace.  Code: application.py:79, varfun.py:124, 378. -/
def evUses (ev : List Ev) : List Ev := ev.filter fun e => match e with
  | .msg _ => false
  | _ => true

/-- The messages of a trace become those of the run; uses of variables, functions and
applications are handed on.  Sequencing; it has no code of its own. -/
def Tr.toRes {α : Type} (x : Tr α) : Res (α × List Ev) :=
  ⟨evMsgs x.ev, x.val.map fun a => (a, evUses x.ev)⟩

/-- `expect_varset_arrow`, dialplan.py:634-636. -/
def expectArrow (v : VarE) : Res Unit :=
  if v.arrow then .pure () else .emit (mkMsg .H_CONF_NO_ARROW v.at_ [])

/-- Pattern and rest of an `exten` or `same` line, dialplan.py:475-478; the empty pattern
is treated like `None`, dialplan.py:508. -/
def splitExten (v : VarE) : Except Exc (Option Str × Str) :=
  if v.key = c! "exten" then
    match splitOnce ',' v.value with
    | none => .error .valueError
    | some (p, rest) => .ok (if p.isEmpty then none else some p, rest)
  else .ok (none, v.value)

/-- Priority and application, dialplan.py:480-483. -/
def splitApp (rest : Str) : Str × Str :=
  match splitOnce ',' rest with
  | some p => p
  | none => (rest, [])

/-- Priority and text behind the parenthesis, dialplan.py:484-487. -/
def splitLabel (prio : Str) : Str × Option Str :=
  match splitOnce '(' prio with
  | some (p, l) => (p, some l)
  | none => (prio, none)

/-- The priority, dialplan.py:488-498; `none` is `return None`, `some none` is "n". -/
def readPrio (w : Where) (prio : Str) : Res (Option (Option Nat)) :=
  if prio = c! "n" then .pure (some none)
  else if isDigitS prio then
    match decNat 0 prio with
    | some n => .pure (some (some n))
    | none => .raise .valueError
  else if prio = c! "hint" then
    .bind (.emit (mkMsg .I_NOTIMPL_HINT w [])) fun _ => .pure none
  else .bind (.emit (mkMsg .E_DP_PRIO_INVALID w [(c! "prio", strV prio)])) fun _ => .pure none

/-- The label, dialplan.py:500-507; `none` is `return None`. -/
def readLabel (w : Where) : Option Str → Res (Option (Option Str))
  | none => .pure (some none)
  | some l =>
    if l.getLast? = some ')' then .pure (some (some l.dropLast))
    else .bind (.emit (mkMsg .E_DP_LABEL_INVALID w [])) fun _ => .pure none

/-- The exceptions of `Pattern.parse`.  Code: pattern.py:110-156. -/
def patExc : Pattern.Err → Exc
  | .typeError => .typeError
  | .valueError => .valueError
  | .indexError => .indexError

/-- `pattern and Pattern(pattern, where) or None`, dialplan.py:508. -/
def readPattern : Option Str → Except Exc (Option (Str × Values))
  | none => .ok none
  | some raw =>
    match Pattern.parse raw with
    | .ok v => .ok (some (raw, v))
    | .error e => .error (patExc e)

/-- A value or an exception without messages; it has no code of its own. -/
def Res.lift {α : Type} (x : Except Exc α) : Res α := ⟨[], x⟩

/-- `exten` and `same` lines behind the arrow check, dialplan.py:475-511.  Returns the
spelling of `Background`, the uses, and the extension. -/
def readExten (env : DEnv) (sp : Option Str) (v : VarE) : Res (Option Str × List Ev × DVar) :=
  .bind (.lift (splitExten v)) fun pr =>
    let pa := splitApp pr.2
    let pl := splitLabel pa.1
    .bind (readPrio v.at_ pl.1) fun prio =>
      match prio with
      | none => .pure (sp, [], .nothing)
      | some prio =>
        .bind (readLabel v.at_ pl.2) fun label =>
          match label with
          | none => .pure (sp, [], .nothing)
          | some label =>
            .bind (.lift (readPattern pr.1)) fun pat =>
            .bind (runApp env.toAEnv env.depth sp v.at_ (strV pa.2)).toRes fun r =>
            .pure (r.1.1, r.2, .ext ⟨pat, prio, label, pa.2, r.1.2, v.comment, v.at_⟩)

/-- `DialplanVarset.from_varset`, dialplan.py:467-527. -/
def fromVarset (env : DEnv) (sp : Option Str) (v : VarE) : Res (Option Str × List Ev × DVar) :=
  if v.key = c! "exten" ∨ v.key = c! "same" then
    .bind (expectArrow v) fun _ => readExten env sp v
  else if v.key = c! "include" then
    .bind (expectArrow v) fun _ => .pure (sp, [], .include_ v.value v.at_)
  else if v.key = c! "switch" then
    .bind (expectArrow v) fun _ =>
    .bind (.emit (mkMsg .I_NOTIMPL_SWITCH v.at_ [])) fun _ => .pure (sp, [], .nothing)
  else if v.key = c! "ignorepat" then
    .bind (expectArrow v) fun _ =>
    .bind (.emit (mkMsg .I_NOTIMPL_IGNOREPAT v.at_ [])) fun _ => .pure (sp, [], .nothing)
  else
    .bind (.emit (mkMsg .E_CONF_KEY_INVALID v.at_ [(c! "key", strV v.key)])) fun _ =>
    .pure (sp, [], .nothing)

/-! ## Contexts -/

/-- An `Extension` in a context: pattern and priority are known.  Code: dialplan.py:537-549. -/
structure Step where
  raw : Str
  pat : Values
  prio : Nat
  label : Option Str
  app : Str
  comment : Bool
  at_ : Where
deriving DecidableEq

/-- An entry of `pattern_cache`, dialplan.py:408-415: `labels` and `prios`, each with the
`where` of the extension (the only thing used of it). -/
structure PCache where
  labels : List (Str × Where)
  prios : List (Nat × Where)
deriving DecidableEq

/-- `DialplanContext`, dialplan.py:247-254. -/
structure DCtx where
  name : Str
  at_ : Where
  steps : List Step
  includes : List (Str × Where)
  lastPrio : Option Nat
  cache : List (Str × PCache)
  sorted : Option (List Values)
deriving DecidableEq

/-- An element of `Dialplan.jump_destinations`.  Code: dialplan.py:144-145. -/
structure Dest where
  context : V
  exten : V
  prio : Arg
  at_ : Where
deriving DecidableEq

/-- `Dialplan`, dialplan.py:96-104.  `contexts_by_name` (and `_prevcontexts` of the
aggregator) hold exactly the elements of `contexts` by their names; both are look-ups in
the list here. -/
structure Dialplan where
  general : Option (CtxE × List VarE)
  globals : Option (CtxE × List VarE)
  contexts : List DCtx
  lastPrio : Option Nat
  dests : List Dest
  allLabels : List Str
deriving DecidableEq

/-- `Dialplan.__init__`, dialplan.py:97-104. -/
def Dialplan.init : Dialplan := ⟨none, none, [], none, [], []⟩

/-- `get_context`, dialplan.py:141-142; `none` is the `KeyError`. -/
def Dialplan.get (dp : Dialplan) (name : Str) : Option DCtx := dp.contexts.find? (·.name = name)

/-- `Dialplan.has_label`, dialplan.py:138-139. -/
def Dialplan.hasLabel (dp : Dialplan) (label : Str) : Bool := dp.allLabels.contains label

/-- `DialplanContext.has_label`, dialplan.py:281-285. -/
def DCtx.hasLabel (c : DCtx) (label : Str) : Bool :=
  c.cache.any fun kv => kv.2.labels.any (·.1 = label)

/-! ### Listing -/

/-- Insertion into a sorted list.  Code: dialplan.py:278. -/
def insertPat (p : Values) : List Values → List Values
  | [] => [p]
  | q :: qs => if Pattern.patLt p q then p :: q :: qs else q :: insertPat p qs

/-- `sorted(...)` of patterns (`patLt` is a strict total order, C27, so any sorting gives the same).
Code: dialplan.py:277-278. -/
def sortPats : List Values → List Values
  | [] => []
  | p :: ps => insertPat p (sortPats ps)

/-- `list(sorted(list(set(...))))`, dialplan.py:277-278; of the order in which the set is
enumerated nothing is left after sorting distinct patterns. -/
def sortedPatterns (steps : List Step) : List Values := sortPats (steps.map (·.pat)).eraseDups

/-- `get_sorted_patterns`, dialplan.py:272-279: the patterns and the context with them
remembered. -/
def DCtx.getSorted (c : DCtx) : List Values × DCtx :=
  match c.sorted with
  | some l => (l, c)
  | none => (sortedPatterns c.steps, { c with sorted := some (sortedPatterns c.steps) })

/-- `by_pattern`, dialplan.py:263-270. -/
def DCtx.byPattern (c : DCtx) : List Step × DCtx :=
  let s := c.getSorted
  (s.1.flatMap fun p => c.steps.filter (·.pat = p), s.2)

/-! ### Adding -/

/-- `[i for i in self if i.pattern == pattern][-1]`, dialplan.py:375. -/
def lastOf (steps : List Step) (pat : Values) : Option Step :=
  (steps.filter (·.pat = pat)).getLast?

/-- The message of dialplan.py:365-367, 386-388, 394-396. -/
def badOrder (w : Where) (raw : Str) (prio : Arg) : Msg :=
  mkMsg .W_DP_PRIO_BADORDER w [(c! "pat", strV raw), (c! "prio", prio)]

/-- `not self.context_last_prio or self[-1].pattern != extension.pattern`,
dialplan.py:363-364. -/
def outOfOrder (c : DCtx) (pat : Values) : Except Exc Bool :=
  if c.lastPrio.getD 0 = 0 then .ok true
  else match c.steps.getLast? with
    | none => .error .indexError
    | some s => .ok (s.pat ≠ pat)

/-- The priority, dialplan.py:356-396; `none`: the extension is refused. `last` is
`Dialplan.last_prio`. -/
def resolvePrio (last : Option Nat) (c : DCtx) (raw : Str) (pat : Values) (e : ExtLine) :
    Res (Option Nat) :=
  match e.prio with
  | none =>
    if last.getD 0 = 0 then
      .bind (.emit (mkMsg .E_DP_PRIO_MISSING e.at_ [(c! "pat", strV raw)])) fun _ => .pure none
    else
      .bind (.lift (outOfOrder c pat)) fun bad =>
      .bind (if bad then .emit (badOrder e.at_ raw (strV (c! "<unset>"))) else .pure ()) fun _ =>
      .pure (some (last.getD 0 + 1))
  | some n =>
    if n < 1 then
      .bind (.emit (mkMsg .E_DP_PRIO_INVALID e.at_ [(c! "prio", natV n)])) fun _ => .pure none
    else if n ≠ 1 then
      match lastOf c.steps pat with
      | none => .bind (.emit (badOrder e.at_ raw (natV n))) fun _ => .pure (some n)
      | some prev =>
        if prev.prio + 1 ≠ n ∧ prev.prio ≠ n then
          .bind (.emit (badOrder e.at_ raw (natV n))) fun _ => .pure (some n)
        else .pure (some n)
    else .pure (some n)

/-- `d[key] = value` for a key that is present or not.  Code: dialplan.py:413, 415, 424, 436. -/
def putCache (key : Str) (p : PCache) : List (Str × PCache) → List (Str × PCache)
  | [] => [(key, p)]
  | (k, q) :: rest => if k = key then (k, p) :: rest else (k, q) :: putCache key p rest

/-- `if extension.label`.  Code: dialplan.py:412, 427. -/
def realLabel : Option Str → Option Str
  | some (c :: cs) => some (c :: cs)
  | _ => none

/-- One jump destination completed, dialplan.py:441-456. -/
def completeDest (ctx example_ : Str) (w : Where) (j : Jump) : Except Exc Dest :=
  let context := if j.context.truthy then j.context else .str ctx
  let exten : Except Exc V :=
    if !j.exten.truthy then .ok (.str example_)
    else if j.exten.isVar then
      match j.exten.format example_ with
      | .ok s => .ok (.str s)
      | .error .keyError => .ok j.exten
      | .error e => .error e
    else .ok j.exten
  let prio : Except Exc Arg :=
    match j.prio with
    | .one (.str s) =>
      if isDigitS s then
        match decNat 0 s with
        | some n => .ok (.one (.int n))
        | none => .error .valueError
      else .ok j.prio
    | p => .ok p
  match exten, prio with
  | .error e, _ => .error e
  | .ok _, .error e => .error e
  | .ok x, .ok p => .ok ⟨context, x, p, w⟩

/-- The loop of dialplan.py:441-456. -/
def completeDests (ctx example_ : Str) (w : Where) : List Jump → Except Exc (List Dest)
  | [] => .ok []
  | j :: js =>
    match completeDest ctx example_ w j with
    | .error e => .error e
    | .ok d => (completeDests ctx example_ w js).map (d :: ·)

/-- The effect of `add` on context and dialplan: the context, `last_prio`, new labels, new
destinations.  Code: dialplan.py:400-401, 414, 437, 455-458. -/
structure Added where
  ctx : DCtx
  last : Option Nat
  labels : List Str
  dests : List Dest

/-- The check against `pattern_cache`, dialplan.py:404-437: `none` for a duplicate
priority, else the new cache entry, the label kept and the labels to register. -/
def cacheCheck (c : DCtx) (key : Str) (prio : Nat) (label : Option Str) (w : Where) :
    Res (Option (PCache × Option Str × List Str)) :=
  match c.cache.lookup key with
  | none =>
    match realLabel label with
    | none => .pure (some (⟨[], [(prio, w)]⟩, label, []))
    | some l => .pure (some (⟨[(l, w)], [(prio, w)]⟩, label, [l]))
  | some pc =>
    match pc.prios.lookup prio with
    | some prev =>
      .bind (.emit ⟨.E_DP_PRIO_DUPE, w, [(c! "prio", natV prio)], some prev⟩) fun _ => .pure none
    | none =>
      let prios := pc.prios ++ [(prio, w)]
      match realLabel label with
      | none => .pure (some (⟨pc.labels, prios⟩, label, []))
      | some l =>
        match pc.labels.lookup l with
        | some prev =>
          .bind (.emit ⟨.E_DP_LABEL_DUPE, w, [(c! "label", strV l)], some prev⟩) fun _ =>
          .pure (some (⟨pc.labels, prios⟩, some [], []))
        | none => .pure (some (⟨pc.labels ++ [(l, w)], prios⟩, label, [l]))

/-- Storing, dialplan.py:400-458: pattern and priority are known. -/
def storeStep (c : DCtx) (raw : Str) (pat : Values) (prio : Nat) (e : ExtLine) : Res Added :=
  let c := { c with lastPrio := some prio }
  .bind (cacheCheck c (Pattern.canonical pat) prio e.label e.at_) fun r =>
    match r with
    | none => .pure ⟨c, some prio, [], []⟩
    | some (pc, label, labels) =>
      .bind (.lift (completeDests c.name (Pattern.exampleOf pat) e.at_ e.jumps)) fun dests =>
      .pure ⟨{ c with
          cache := putCache (Pattern.canonical pat) pc c.cache,
          steps := c.steps ++ [⟨raw, pat, prio, label, e.app, e.comment, e.at_⟩] },
        some prio, labels, dests⟩

/-- `if extension.pattern is None: ... self[-1].pattern`, dialplan.py:350-354. -/
def resolvePat (c : DCtx) (e : ExtLine) : Option (Str × Values) :=
  match e.pat with
  | some p => some p
  | none => c.steps.getLast?.map fun s => (s.raw, s.pat)

/-- `DialplanContext.add`, dialplan.py:343-458. -/
def addExt (last : Option Nat) (c : DCtx) (e : ExtLine) : Res Added :=
  let c := { c with sorted := none }
  match resolvePat c e with
  | none => .bind (.emit (mkMsg .E_DP_PAT_MISSING e.at_ [])) fun _ => .pure ⟨c, last, [], []⟩
  | some (raw, pat) =>
    .bind (resolvePrio last c raw pat e) fun r =>
      match r with
      | none => .pure ⟨c, last, [], []⟩
      | some prio => storeStep c raw pat prio e

/-- Replace the context of that name.  The object is changed in place, dialplan.py:627, 629. -/
def putCtx (c : DCtx) : List DCtx → List DCtx
  | [] => []
  | d :: ds => if d.name = c.name then c :: ds else d :: putCtx c ds

/-! ## Aggregator -/

/-- `_curcontext`: nothing yet, the object in `_general` or `_globals`, a `[globals]` that
was not stored, or a dialplan context.  Code: dialplan.py:578, 587, 590, 611, 617. -/
inductive Cur where
  | none | general | globals | detached
  | ctx (name : Str)
deriving DecidableEq

/-- The aggregator with what it does to the loaders: the spelling of `Background`, the
uses.  Code: dialplan.py:575-578. -/
structure DState where
  dp : Dialplan
  cur : Cur
  sp : Option Str
  uses : List Ev
deriving DecidableEq

/-- `add_general`, dialplan.py:118-127; `Context` has no `extend`. -/
def addGeneral (dp : Dialplan) (c : CtxE) : Res Dialplan :=
  match dp.general with
  | some g =>
    .bind (.emit ⟨.W_CONF_CTX_DUPE, c.at_, [], some g.1.at_⟩) fun _ => .raise .attributeError
  | none =>
    .bind (if dp.globals.isSome || !dp.contexts.isEmpty then
        .emit (mkMsg .H_DP_GENERAL_MISPLACED c.at_ []) else .pure ()) fun _ =>
    .pure { dp with general := some (c, []) }

/-- `add_globals`, dialplan.py:129-136, with the object that becomes `_curcontext`. -/
def addGlobals (dp : Dialplan) (c : CtxE) : Res (Dialplan × Cur) :=
  match dp.globals with
  | some g =>
    .bind (.emit ⟨.E_DP_GLOBALS_DUPE, c.at_, [], some g.1.at_⟩) fun _ => .pure (dp, .detached)
  | none =>
    .bind (if dp.general.isNone || !dp.contexts.isEmpty then
        .emit (mkMsg .H_DP_GLOBALS_MISPLACED c.at_ []) else .pure ()) fun _ =>
    .pure ({ dp with globals := some (c, []) }, .globals)

/-- `DialplanContext.update` and `Context.update`, dialplan.py:256-261,
configobj.py:62-67. -/
def updateCtx (c : DCtx) (other : CtxE) : Except Exc DCtx :=
  if other.comment then .error .assertionError
  else if !other.templates.isEmpty then .error .assertionError
  else .ok { c with lastPrio := none, sorted := none, at_ := other.at_ }

/-- `on_dialplancontext`, dialplan.py:607-617. -/
def onDialplanContext (dp : Dialplan) (c : CtxE) : Except Exc Dialplan :=
  match dp.get c.name with
  | some old =>
    match updateCtx old c with
    | .ok new => .ok { dp with contexts := putCtx new dp.contexts }
    | .error e => .error e
  | none => .ok { dp with contexts := dp.contexts ++ [⟨c.name, c.at_, [], [], none, [], none⟩] }

/-- `on_context`, dialplan.py:584-595; making a `DialplanContext` of a `Context` reports
templates once more (configobj.py:38-46, 58-60). -/
def onContext (st : DState) (c : CtxE) : Res DState :=
  if c.name = c! "general" then
    .bind (addGeneral st.dp c) fun dp => .pure { st with dp := dp, cur := .general }
  else if c.name = c! "globals" then
    .bind (addGlobals st.dp c) fun r => .pure { st with dp := r.1, cur := r.2 }
  else
    .bind (if c.templates.isEmpty then .pure () else .emit (mkMsg .I_NOTIMPL_TEMPLATES c.at_ [])) fun _ =>
    .bind (.lift (onDialplanContext st.dp c)) fun dp => .pure { st with dp := dp, cur := .ctx c.name }

/-- `H_PAT_NON_CANONICAL` of `on_dialplanvarset`, dialplan.py:622-626. -/
def canonCheck (e : ExtLine) : Res Unit :=
  match e.pat with
  | none => .pure ()
  | some (raw, v) =>
    if Pattern.isCanonical raw v then .pure ()
    else .emit (mkMsg .H_PAT_NON_CANONICAL e.at_
      [(c! "pat", strV raw), (c! "expected", strV (Pattern.canonical v))])

/-- The effect of `add` on the dialplan.  Code: dialplan.py:400, 414, 437, 455-456. -/
def Dialplan.withAdded (dp : Dialplan) (a : Added) : Dialplan :=
  { dp with
    contexts := putCtx a.ctx dp.contexts,
    lastPrio := a.last,
    allLabels := dp.allLabels ++ a.labels,
    dests := dp.dests ++ a.dests }

/-- `on_dialplanvarset`, dialplan.py:619-631, for the current context. -/
def onDVar (dp : Dialplan) (c : DCtx) : DVar → Res Dialplan
  | .nothing => .pure dp
  | .ext e =>
    .bind (canonCheck e) fun _ =>
    .bind (addExt dp.lastPrio c e) fun a => .pure (dp.withAdded a)
  | .include_ name w =>
    .pure { dp with contexts := putCtx { c with includes := c.includes ++ [(name, w)] } dp.contexts }

/-- `Context.add`, configobj.py:69-70. -/
def addVar (v : VarE) (c : CtxE × List VarE) : CtxE × List VarE := (c.1, c.2 ++ [v])

/-- `on_varset`, dialplan.py:597-605.  (The current context is always one of the
contexts.) -/
def onVarset (env : DEnv) (st : DState) (v : VarE) : Res DState :=
  match st.cur with
  | .none => .bind (.emit (mkMsg .E_CONF_CTX_MISSING v.at_ [])) fun _ => .pure st
  | .general => .pure { st with dp := { st.dp with general := st.dp.general.map (addVar v) } }
  | .globals => .pure { st with dp := { st.dp with globals := st.dp.globals.map (addVar v) } }
  | .detached => .pure st
  | .ctx name =>
    match st.dp.get name with
    | none => .raise .keyError
    | some c =>
      .bind (fromVarset env st.sp v) fun r =>
      .bind (onDVar st.dp c r.2.2) fun dp =>
      .pure ⟨dp, st.cur, r.1, st.uses ++ r.2.1⟩

/-- `DialplanAggregator`: `on_context`, `on_varset`, `on_emptyline`.
Code: dialplan.py:584-605, config.py:223-225. -/
def dialplanStep (env : DEnv) (st : DState) : Elem → Res DState
  | .ctx c => onContext st c
  | .var v => onVarset env st v
  | .empty _ _ => .pure st

/-- `on_begin`, dialplan.py:575-578. -/
def DState.init (sp : Option Str) : DState := ⟨.init, .none, sp, []⟩

/-- `get_where` and `on_complete`, dialplan.py:191-207. -/
def onComplete (dp : Dialplan) : Res Unit :=
  match dp.contexts with
  | [] => .pure ()
  | c :: _ =>
    let w : Where := ⟨c.at_.filename, 0, []⟩
    .bind (if dp.general.isNone then .emit (mkMsg .H_DP_GENERAL_MISPLACED w []) else .pure ()) fun _ =>
    if dp.globals.isNone then .emit (mkMsg .H_DP_GLOBALS_MISPLACED w []) else .pure ()

/-! ## Jumps -/

/-- Does the step fit the priority?  dialplan.py:296-306.  `could_match` gets `str` of
the priority and of the label (`None` without one); lists and `None` have no
`could_match`. -/
def prioFits (prio : Arg) (s : Step) : Except Exc Bool :=
  match prio with
  | .one (.int n) => .ok ((s.prio : Int) = n)
  | .one (.str l) => .ok (s.label = some l)
  | .one (.lst items) => .ok ((V.lst items).couldMatch (natStr s.prio) ||
      (V.lst items).couldMatch (s.label.getD (c! "None")))
  | .one (.atom k n a b) => .ok ((V.atom k n a b).couldMatch (natStr s.prio) ||
      (V.atom k n a b).couldMatch (s.label.getD (c! "None")))
  | _ => .error .attributeError

/-- The first step that fits.  Code: dialplan.py:295-306. -/
def firstFit (prio : Arg) : List Step → Except Exc (Option Step)
  | [] => .ok none
  | s :: ss =>
    match prioFits prio s with
    | .error e => .error e
    | .ok true => .ok (some s)
    | .ok false => firstFit prio ss

/-- The loop over the patterns, dialplan.py:292-306. -/
def matchHere (steps : List Step) (exten : Str) (prio : Arg) : List Values → Except Exc (Option Step)
  | [] => .ok none
  | p :: ps =>
    match Pattern.matchesExtension p exten with
    | none => .error .unicodeEncodeError
    | some false => matchHere steps exten prio ps
    | some true =>
      match firstFit prio (steps.filter (·.pat = p)) with
      | .error e => .error e
      | .ok (some s) => .ok (some s)
      | .ok none => matchHere steps exten prio ps

/-- The first result along a list of contexts.  Code: dialplan.py:309-319. -/
def firstOf {α : Type} (f : α → Except Exc (Option Step)) : List α → Except Exc (Option Step)
  | [] => .ok none
  | a :: as =>
    match f a with
    | .error e => .error e
    | .ok (some s) => .ok (some s)
    | .ok none => firstOf f as

/-- A context that does not exist is skipped, dialplan.py:309-315. -/
def matchIf (exists_ : Bool) (r : Except Exc (Option Step)) : Except Exc (Option Step) :=
  if exists_ then r else .ok none

/-- `match_pattern`, dialplan.py:287-341.  The number is the depth of calls left on
Python's stack; the exact limit is not modelled.  The list of sorted patterns is taken as
computed afresh (`getSorted_fresh` in Proofs: the remembered list is the same). -/
def matchPattern (dp : Dialplan) : Nat → Str → Str → Arg → Except Exc (Option Step)
  | 0, _, _, _ => .error .recursionError
  | depth + 1, ctx, exten, prio =>
    match dp.get ctx with
    | none => .ok none
    | some c =>
      match matchHere c.steps exten prio (sortedPatterns c.steps) with
      | .error e => .error e
      | .ok (some s) => .ok (some s)
      | .ok none =>
        match firstOf (fun i => matchIf (dp.get i.1).isSome (matchPattern dp depth i.1 exten prio)) c.includes with
        | .error e => .error e
        | .ok (some s) => .ok (some s)
        | .ok none =>
          if exten ≠ c! "i" then
            match prio with
            | .one (.int _) => matchPattern dp depth ctx (c! "i") (.one (.int 1))
            | _ => .ok none
          else .ok none

/-- The text of a priority that is a `str`.  Code: dialplan.py:158-163, 175-179. -/
def prioText : Arg → Option Str
  | .one (.str l) => some l
  | _ => none

/-- The arguments of the messages about jumps, dialplan.py:161-163, 168-169, 177-179, 187-189. -/
def destArgs (d : Dest) (last : Str) : List (Str × Arg) :=
  [(c! "context", .one d.context), (c! "exten", .one d.exten), (last, d.prio)]

/-- One turn of the loop of `walk_jump_destinations`, dialplan.py:154-189. -/
def walkDest (dp : Dialplan) (depth : Nat) (d : Dest) : Res Unit :=
  if d.context.isVar then
    match prioText d.prio with
    | some l => if dp.hasLabel l then .pure ()
      else .emit (mkMsg .E_DP_GOTO_NOLABEL d.at_ (destArgs d (c! "label")))
    | none => .pure ()
  else
    match (match d.context with | .str s => dp.get s | _ => none) with
    | none => .emit (mkMsg .E_DP_GOTO_NOCONTEXT d.at_ (destArgs d (c! "prio")))
    | some c =>
      if d.exten.isVar then
        match prioText d.prio with
        | some l => if c.hasLabel l then .pure ()
          else .emit (mkMsg .E_DP_GOTO_CONTEXT_NOLABEL d.at_ (destArgs d (c! "label")))
        | none => .pure ()
      else
        match d.exten with
        | .str x =>
          .bind (.lift (matchPattern dp depth c.name x d.prio)) fun r =>
            match r with
            | some _ => .pure ()
            | none => .emit (mkMsg .W_DP_GOTO_CONTEXT_NOEXTEN d.at_ (destArgs d (c! "prio")))
        -- not reached: destinations are completed with a text
        | _ => .raise .attributeError

/-- `walk_jump_destinations`, dialplan.py:147-189. -/
def walkDests (dp : Dialplan) (depth : Nat) : List Dest → Res Unit
  | [] => .pure ()
  | d :: ds => .bind (walkDest dp depth d) fun _ => walkDests dp depth ds

/-- `dialplan-check`, commands/dialplan-check.py:44-52, without `func_odbc.conf`: read the
file (at most `n` lines, `none`: not finished), complete, walk the jumps.  `env.depth` also
stands for the depth left for the look-up of jumps. -/
def checkDialplan (fs : FS) (env : DEnv) (sp : Option Str) (n : Nat) (path : Str) (content : Bytes) :
    Res (Option DState) :=
  .bind (pipeRun fs (dialplanStep env) n ⟨[openFrame path content], [], [], .init sp⟩) fun r =>
    match r with
    | none => .pure none
    | some st =>
      .bind (onComplete st.dp) fun _ =>
      .bind (walkDests st.dp env.depth st.dp.dests) fun _ => .pure (some st)

end ALint
