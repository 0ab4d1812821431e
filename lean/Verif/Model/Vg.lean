import Verif.Model.Dialplan

/-!
# Model of `contrib/commands/vg.py`

The command replaces the reader of all parsers by one that unfolds lines and looks for
comments differently, and makes contexts replace earlier ones of the same name.
-/

namespace ALint

/-- One character of `voipgrid_comment_split`, vg.py:62-87; the list is `arr` without the zero at
the bottom, its end first. -/
def vgStep (st : List Char) (c : Char) : List Char :=
  if c = '"' then
    if st.head? = some '"' then st.tail else '"' :: st
  else if c = '\'' then
    if st.head? = some '\'' then st.tail else '\'' :: st
  else if c = '(' then
    if st.head? = some '"' then st else '(' :: st
  else if c = ')' then
    if st.head? = some '"' then st
    else if st.head? = some '(' then st.tail else st
  else st

/-- The loop of `voipgrid_comment_split`, vg.py:61-89: the text in front of the semicolon that
ends it, and the rest. -/
def vgCut (st : List Char) : Str → Str × Str
  | [] => ([], [])
  | c :: cs =>
    if c = ';' ∧ st = [] then ([], c :: cs)
    else
      let r := vgCut (vgStep st c) cs
      (c :: r.1, r.2)

/-- `voipgrid_comment_split`, vg.py:48-91: warn?, data, comment. -/
def vgSplit (data : Str) : Bool × Str × Str :=
  if data = [] then (false, [], [])
  else moveMiddle (vgCut [] data).1 (vgCut [] data).2

/-- A line handed to the parser: place, data, comment.
Code: file.py:275, contrib/commands/vg.py:93-133. -/
abbrev Logical := Where × Str × Str

/-- The rest of a round after the first `yield`, vg.py:103-130: the messages, the new `prev`, and
the line yielded at once, if any. -/
def vgLine (prev : Option Logical) (w : Where) (data : Str) : List Msg × Option Logical × Option Logical :=
  let eol := data.getLast?.any isBlank
  let r := vgSplit (if eol then rstripP isBlank data else data)
  let m : List Msg := (if eol then [⟨.W_WSH_EOL, w, [], none⟩] else []) ++
    (if r.1 then [⟨.W_WSH_COMMENT, w, [], none⟩] else [])
  match prev with
  | some p =>
    (m ++ (if p.2.1 = [] then [⟨.W_WSH_BOL, w, [], none⟩] else []),
      some (p.1, p.2.1 ++ r.2.1, p.2.2 ++ r.2.2), none)
  | none =>
    if r.2.1.head? = some '#' then (m, none, some (w, r.2))
    else (m, some (w, r.2), none)

/-- What the parser, the checks of blank lines and the aggregator do with a line: the last part of
`lineStep` and `pipeStep`.  Code: config.py:112-128, configws.py:181-190, config.py:184-198. -/
def vgDeliver {σ : Type} (fs : FS) (agg : σ → Elem → Res σ) (st : PState σ) (l : Logical) : Res (PState σ) :=
  let p := parserStage l.1 l.2.1 l.2.2
  .bind (.emitAll p.1) fun _ =>
    match p.2 with
    | .elem e =>
      let v := vswStep st.vsw e
      .bind (.emitAll v.2.2) fun _ =>
      .bind (feed agg st.agg v.2.1) fun s => .pure ⟨st.frames, st.ff, v.1, s⟩
    | .pp pp =>
      let r := runPP fs l.1 st.frames pp
      .bind (.emitAll r.1) fun _ =>
      .bind (.lift r.2) fun frames => .pure ⟨frames, st.ff, st.vsw, st.agg⟩

/-- Delivering a line, if there is one.  Code: contrib/commands/vg.py:93-133. -/
def vgDeliverOpt {σ : Type} (fs : FS) (agg : σ → Elem → Res σ) (st : PState σ) : Option Logical → Res (PState σ)
  | none => .pure st
  | some l => vgDeliver fs agg st l

/-- One round of `VoipgridCommentReader.__iter__`, vg.py:96-130, for a line that was read and
decoded: `prev` is yielded unless the line continues it. -/
def vgRound {σ : Type} (fs : FS) (agg : σ → Elem → Res σ) (st : PState σ) (prev : Option Logical) (w : Where) (data : Str) :
    Res (PState σ × Option Logical) :=
  if prev.isSome && startsBlank data then
    let r := vgLine prev w data
    .bind (.emitAll r.1) fun _ => .pure (st, r.2.1)
  else
    .bind (vgDeliverOpt fs agg st prev) fun st =>
    let r := vgLine none w data
    .bind (.emitAll r.1) fun _ =>
    .bind (vgDeliverOpt fs agg st r.2.2) fun st => .pure (st, r.2.1)

/-- The readers below: a line is decoded, checked for control characters, its end removed
(`fileStage` without the comments).  Code: file.py:77-178, contrib/commands/vg.py:140-144. -/
def vgRead (ff : List FInfo) (w : Where) : Res (List FInfo × Str) :=
  let e := encodingStage w
  .bind (.emitAll e.1) fun _ =>
  .bind (.lift e.2) fun data =>
    let f := ffStage ff w data
    .bind (.emitAll (ctrlStage w data ++ f.2.1)) fun _ => .pure (f.1, f.2.2)

/-- Iterating a parser with that reader for at most `n` lines; at the end `prev` is yielded after
the file formats were checked (vg.py:132-133); `none` in the value: not finished. -/
def vgRun {σ : Type} (fs : FS) (agg : σ → Elem → Res σ) : Nat → PState σ → Option Logical → Res (Option σ)
  | 0, _, _ => .pure none
  | n + 1, st, prev =>
    match nextLine st.frames with
    | none =>
      .bind (.emitAll (ffEnd st.ff)) fun _ =>
      .bind (vgDeliverOpt fs agg st prev) fun st =>
        let v := vswEnd st.vsw
        .bind (.emitAll v.2) fun _ =>
        .bind (feed agg st.agg v.1) fun s => .pure (some s)
    | some (w, frames) =>
      .bind (vgRead st.ff w) fun r =>
      .bind (vgRound fs agg ⟨frames, r.1, st.vsw, st.agg⟩ prev w r.2) fun s => vgRun fs agg n s.1 s.2

/-! ## Contexts -/

/-- `VoipgridFileDialplanParser.on_context`, vg.py:170-186 (names of contexts are distinct, so all of
that name is the one removed). -/
def vgOnContext (st : DState) (c : CtxE) : Res DState :=
  if c.name = c! "general" then
    if st.dp.general.isSome then .raise .assertionError else onContext st c
  else if c.name = c! "globals" then
    if st.dp.globals.isSome then .raise .assertionError else onContext st c
  else onContext { st with dp := { st.dp with contexts := st.dp.contexts.filter (·.name ≠ c.name) } } c

/-- The aggregator of dialplans with that.  Code: contrib/commands/vg.py:167-186, dialplan.py:573-631. -/
def vgDialplanStep (env : DEnv) (st : DState) : Elem → Res DState
  | .ctx c => vgOnContext st c
  | .var v => onVarset env st v
  | .empty _ _ => .pure st

/-- `vg dialplan-check`.  Code: contrib/commands/vg.py:220-228, commands/dialplan-check.py:44-58. -/
def vgCheck (fs : FS) (env : DEnv) (sp : Option Str) (n : Nat) (path : Str) (content : Bytes) : Res (Option DState) :=
  .bind (vgRun fs (vgDialplanStep env) n ⟨[openFrame path content], [], [], .init sp⟩ none) fun r =>
    match r with
    | none => .pure none
    | some st =>
      .bind (onComplete st.dp) fun _ =>
      .bind (walkDests st.dp env.depth st.dp.dests) fun _ => .pure (some st)

/-- A context of `_contexts`, an object of its own, with its assignments.
Code: config.py:204, 214; contrib/commands/vg.py:156-163. -/
abbrev CtxObj := Nat × CtxE × List VarE

/-- `VoipgridFileConfigParser.on_context` and that of `func_odbc.conf`, vg.py:156-163, 193-200, with
config.py:211-215: contexts are compared as objects (they have no `__eq__`); `obj` is the new one.  The
`ValueError` if it is not in the list is caught. -/
def vgConfigContext (st : List CtxObj) (obj : Nat) (c : CtxE) : List CtxObj :=
  (if st.any (·.1 = obj) then st.eraseP (·.1 = obj) else st) ++ [(obj, c, [])]

/-- The contexts when all have been read, each being a new object.
Code: contrib/commands/vg.py:156-163. -/
def vgConfigContexts (st : List CtxObj) : List CtxE → List CtxObj
  | [] => st
  | c :: cs => vgConfigContexts (vgConfigContext st st.length c) cs

end ALint
