import Verif.Model.Config

/-!
# Model of `asterisklint/configws.py` and of `ConfigAggregator` (config.py)
-/

namespace ALint

/-- `VswContext`, configws.py:30-42.  A blank is (has comment, where). -/
structure Vsw where
  filename : Str
  bof : Bool
  blanks : List (Bool × Where)
  lastVarsets : Nat

/-- `group_blanks`, configws.py:138-145: maximal runs with equal comment flag. -/
def groupBlanks : List (Bool × Where) → List (Bool × List Where)
  | [] => []
  | (c, w) :: rest =>
    match groupBlanks rest with
    | (c', ws) :: gs => if c = c' then (c, w :: ws) :: gs else (c, [w]) :: (c', ws) :: gs
    | [] => [(c, [w])]

/-- The loop configws.py:100-103: a message for every comment-less group that is
too long, at its last line. -/
def longGroups (kind : MK) (maxBlanks : Nat) (gs : List (Bool × List Where)) : List Msg :=
  gs.flatMap fun g =>
    if !g.1 && maxBlanks < g.2.length then
      match g.2.getLast? with
      | some w => [⟨kind, w, [], none⟩]
      | none => []
    else []

/-- The messages of `flush_blanks`, configws.py:78-106. -/
def flushMsgs (bof : Bool) (blanks : List (Bool × Where)) (w : Where) (kind : MK)
    (minBlanks maxBlanks : Nat) : List Msg :=
  if blanks.length < minBlanks then [⟨kind, w, [], none⟩]
  else
    match groupBlanks blanks with
    | [] => []
    | g :: gs =>
      if bof && !g.1 then
        (match g.2.head? with
          | some w => [⟨.W_WSV_BOF, w, [], none⟩]
          | none => []) ++ longGroups kind maxBlanks gs
      else longGroups kind maxBlanks (g :: gs)

/-- A blank line as an element, configobj.py:31-35. -/
def blankElem (b : Bool × Where) : Elem := .empty b.1 b.2

/-- `VswContext.handle`, configws.py:47-76: new state, elements passed on, messages. -/
def Vsw.handle (s : Vsw) (e : Elem) : Vsw × List Elem × List Msg :=
  match e with
  | .empty c w => ({ s with blanks := s.blanks ++ [(c, w)] }, [], [])
  | .ctx c =>
    let min := if s.lastVarsets ≤ 2 then 0 else 1
    ({ s with bof := false, blanks := [], lastVarsets := 0 },
      s.blanks.map blankElem ++ [.ctx c],
      flushMsgs s.bof s.blanks c.at_ .H_WSV_CTX_BETWEEN min 2)
  | .var v =>
    ({ s with bof := false, blanks := [], lastVarsets := s.lastVarsets + 1 },
      s.blanks.map blankElem ++ [.var v],
      flushMsgs s.bof s.blanks v.at_ .H_WSV_VARSET_BETWEEN 0 1)

/-- `VswContext.handle_eof`, configws.py:108-136: elements passed on, messages. -/
def Vsw.eof (s : Vsw) (report : Bool) : List Elem × List Msg :=
  let gs := groupBlanks s.blanks
  match gs.getLast? with
  | none => ([], [])
  | some (c, ws) =>
    if c then (s.blanks.map blankElem, longGroups .H_WSV_CTX_BETWEEN 2 gs)
    else
      let front := longGroups .H_WSV_CTX_BETWEEN 2 gs.dropLast
      if report then
        (s.blanks.map blankElem,
          front ++ match s.blanks.getLast? with
            | some b => [⟨.W_WSV_EOF, b.2, [], none⟩]
            | none => [])
      else ((s.blanks.take (s.blanks.length - ws.length)).map blankElem, front)

/-- The pops of `VswContextStack.handle`, configws.py:153-156 (top first). -/
def vswPop (name : Str) : List Vsw → List Vsw × List Elem × List Msg
  | [] => ([], [], [])
  | s :: ss =>
    if s.filename = name then (s :: ss, [], [])
    else
      let r := vswPop name ss
      let e := s.eof true
      (r.1, e.1 ++ r.2.1, e.2 ++ r.2.2)

/-- `VswContextStack.handle`, configws.py:149-160. -/
def vswStep (st : List Vsw) (e : Elem) : List Vsw × List Elem × List Msg :=
  if st.any (fun s => s.filename = e.at_.filename) then
    let p := vswPop e.at_.filename st
    match p.1 with
    | [] => (p.1, p.2.1, p.2.2)
    | s :: ss =>
      let h := s.handle e
      (h.1 :: ss, p.2.1 ++ h.2.1, p.2.2 ++ h.2.2)
  else
    let h := (⟨e.at_.filename, true, [], 0⟩ : Vsw).handle e
    (h.1 :: st, h.2.1, h.2.2)

/-- `VswContextStack.handle_eof`, configws.py:165-171. -/
def vswEndFrom (first : Bool) : List Vsw → List Elem × List Msg
  | [] => ([], [])
  | s :: ss =>
    let e := s.eof first
    let r := vswEndFrom false ss
    (e.1 ++ r.1, e.2 ++ r.2)

/-- `VswContextStack.end`, configws.py:165-171. -/
def vswEnd (st : List Vsw) : List Elem × List Msg := vswEndFrom true st

/-- The whole checker over a sequence of elements, configws.py:181-190. -/
def vswRun (st : List Vsw) : List Elem → List Elem × List Msg
  | [] => vswEnd st
  | e :: es =>
    let h := vswStep st e
    let r := vswRun h.1 es
    (h.2.1 ++ r.1, h.2.2 ++ r.2)

/-! ## `ConfigAggregator` -/

/-- `_contexts` with their varsets; `_curcontext` is the last one, config.py:203-215. -/
abbrev AggState := List (CtxE × List VarE)

/-- `Context.add` on the last context, configobj.py:69-70. -/
def addToLast (v : VarE) : AggState → AggState
  | [] => []
  | [(c, vs)] => [(c, vs ++ [v])]
  | x :: y :: rest => x :: addToLast v (y :: rest)

/-- `on_context`, `on_varset`, `on_emptyline`, config.py:211-225. -/
def aggStep (st : AggState) : Elem → AggState × List Msg
  | .ctx c => (st ++ [(c, [])], [])
  | .var v =>
    match st with
    | [] => ([], [⟨.E_CONF_CTX_MISSING, v.at_, [], none⟩])
    | _ => (addToLast v st, [])
  | .empty _ _ => (st, [])

/-- The loop of `ConfigAggregator.__iter__`, config.py:184-198. -/
def aggRun (st : AggState) : List Elem → AggState × List Msg
  | [] => (st, [])
  | e :: es =>
    let a := aggStep st e
    let r := aggRun a.1 es
    (r.1, a.2 ++ r.2)

/-! ## The pipeline -/

/-- Everything a parser object holds while it is being iterated.
Code: file.py:61-63, 140, configws.py:185, and the fields of the aggregator, config.py:203-205. -/
structure PState (σ : Type) where
  frames : List Frame
  ff : List FInfo
  vsw : List Vsw
  agg : σ

/-- Exceptions of the `on_*` methods are wrapped, config.py:188-198. -/
def wrapExc {α : Type} (r : Res α) : Res α :=
  ⟨r.log, match r.val with
    | .ok a => .ok a
    | .error e => .error (.programmingError e)⟩

/-- Handing elements to the aggregator one by one.  Code: config.py:184-198. -/
def feed {σ : Type} (agg : σ → Elem → Res σ) (s : σ) : List Elem → Res σ
  | [] => Res.pure s
  | e :: es => Res.bind (wrapExc (agg s e)) (fun s' => feed agg s' es)

/-- One line through the whole chain; `none` at the end of the input.
Code: file.py:77-88, 96-102, 115-121, 141-176, 264-275; config.py:112-128, 184-198; configws.py:181-190.
-/
def pipeStep {σ : Type} (fs : FS) (agg : σ → Elem → Res σ) (st : PState σ) :
    Option (Res (PState σ)) :=
  match nextLine st.frames with
  | none => none
  | some (w, frames) =>
    let l := lineStep fs st.ff frames w
    some (Res.bind (Res.emitAll l.1) fun _ =>
      match l.2 with
      | .error e => Res.raise e
      | .ok (r, none) => Res.pure ⟨r.frames, r.ff, st.vsw, st.agg⟩
      | .ok (r, some e) =>
        let v := vswStep st.vsw e
        Res.bind (Res.emitAll v.2.2) fun _ =>
          Res.bind (feed agg st.agg v.2.1) fun s => Res.pure ⟨r.frames, r.ff, v.1, s⟩)

/-- The end of the input: file formats, blank lines, aggregator.
Code: file.py:178, configws.py:189-190, config.py:200-201. -/
def pipeEnd {σ : Type} (agg : σ → Elem → Res σ) (st : PState σ) : Res σ :=
  Res.bind (Res.emitAll (ffEnd st.ff)) fun _ =>
    let v := vswEnd st.vsw
    Res.bind (Res.emitAll v.2) fun _ => feed agg st.agg v.1

/-- Iterating a parser for at most `n` lines; `none` in the value: not finished.
Code: config.py:183-201. -/
def pipeRun {σ : Type} (fs : FS) (agg : σ → Elem → Res σ) : Nat → PState σ → Res (Option σ)
  | 0, _ => Res.pure none
  | n + 1, st =>
    match pipeStep fs agg st with
    | none => Res.bind (pipeEnd agg st) fun s => Res.pure (some s)
    | some r => Res.bind r fun st' => pipeRun fs agg n st'

end ALint
