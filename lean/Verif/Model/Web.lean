import Verif.Model.Dialplan
import Verif.Py.Sort
import Verif.Model.Reader

/-!
# Model of `web/wsgi.py`

The part of falcon used (routing, reading JSON, turning exceptions into responses) is not
modelled: a request is what it boils down to, and all exceptions are one response.  `falcon`
handles one request after the other (`EnvironmentCheckMiddleware`, wsgi.py:59-64).
-/

namespace ALint

/-- The state of the process that matters: `MessageDefManager.raised`, in the order of issue,
and the spelling of `Background`.  Code: defines.py:37, app/vall/builtin.py:37-51. -/
structure WebState where
  raised : List Msg
  sp : Option Str

/-- `'extensions.conf'`, wsgi.py:119. -/
def webName : Str := c! "extensions.conf"

/-- The opener, wsgi.py:24-35, for files other than the one uploaded: not reached by
`pipeStep`, see `webRun`. -/
def webFs (data : Bytes) : FS := fun p => if p = webName then some data else some []

/-- Does the next line include another file, so that the opener raises?  Code: web/wsgi.py:30-33. -/
def opensOther {σ : Type} (st : PState σ) : Bool :=
  match nextLine st.frames with
  | none => false
  | some (w, _) => match opens w with
    | none => false
    | some p => p ≠ webName

/-- Iterating the parser, at most `n` lines.  `HttpNotImplementedError` (any exception would do)
is raised after the messages for that line.  Code: web/wsgi.py:125-127. -/
def webRun (data : Bytes) (env : DEnv) : Nat → PState DState → Res (Option DState)
  | 0, _ => Res.pure none
  | n + 1, st =>
    match pipeStep (webFs data) (dialplanStep env) st with
    | none => Res.bind (pipeEnd (dialplanStep env) st) fun s => Res.pure (some s)
    | some r => Res.bind r fun st' =>
        if opensOther st then Res.raise .notImplementedError else webRun data env n st'

/-- Parsing and walking, wsgi.py:125-129. -/
def webCheck (env : DEnv) (sp : Option Str) (n : Nat) (data : Bytes) : Res (Option DState) :=
  .bind (webRun data env n ⟨[openFrame webName data], [], [], .init sp⟩) fun r =>
    match r with
    | none => .pure none
    | some st =>
      .bind (onComplete st.dp) fun _ =>
      .bind (walkDests st.dp env.depth st.dp.dests) fun _ => .pure (some st)

/-- `<` on the keys `(filename, lineno, class name)`, wsgi.py:42-43. -/
def keyLt (m m' : Msg) : Bool :=
  strLt m.at_.filename m'.at_.filename ||
    (m.at_.filename == m'.at_.filename &&
      (m.at_.lineno < m'.at_.lineno ||
        (m.at_.lineno == m'.at_.lineno && strLt m.kind.name m'.kind.name)))

/-- `list.sort` is stable: an element goes before those not smaller.  Code: web/wsgi.py:42-43. -/
def insertMsg (m : Msg) : List Msg → List Msg
  | [] => [m]
  | x :: xs => if keyLt x m then x :: insertMsg m xs else m :: x :: xs

/-- `ret.sort(key=...)`, web/wsgi.py:42-43. -/
def sortMsgs : List Msg → List Msg
  | [] => []
  | m :: ms => insertMsg m (sortMsgs ms)

/-- The values of the `defaultdict` by class, one after the other, wsgi.py:39-41. -/
def byClass (raised : List Msg) : List Msg :=
  (raised.map (·.kind)).eraseDups.flatMap fun k => raised.filter (fun m => m.kind = k)

/-- `collect_messages`, wsgi.py:38-45, without the reset. -/
def collectMessages (raised : List Msg) : List Msg := sortMsgs (byClass raised)

/-- One entry of a report.  Code: web/wsgi.py:135-139. -/
structure Entry where
  line : Int
  cls : Str
  desc : List Rendered
deriving DecidableEq

/-- wsgi.py:131-139: another file name is a `KeyError`. -/
def entries : List Msg → Option (List Entry)
  | [] => some []
  | m :: ms =>
    match m.render with
    | .error _ => none
    | .ok t => if m.at_.filename = webName then (entries ms).map (⟨m.at_.lineno, m.kind.name, t⟩ :: ·) else none

/-- The requests, web/wsgi.py:85, 102, 109, 153-155. -/
inductive Request where
  | index
  | healthz
  /-- a body that is too large, no JSON, without the file ... -/
  | invalid
  | check (text : Str)

/-- The responses, web/wsgi.py:87-88, 103-104, 141-144. -/
inductive Response where
  | index
  | healthz
  | refused
  /-- an exception other than for an invalid body -/
  | failed
  | report (es : List Entry)
  /-- no answer within the given number of lines -/
  | never
deriving DecidableEq

/-- One request.  `lost` is the spelling of `Background` when a check raises: it is not tracked
by `checkDialplan`, and taken to be anything.  Code: web/wsgi.py:85-144. -/
def webStep (env : DEnv) (n : Nat) (lost : Option Str) (st : WebState) : Request → WebState × Response
  | .index => (st, .index)
  | .healthz => (st, .healthz)
  | .invalid => (st, .refused)
  | .check text =>
    let r := webCheck env st.sp n (utf8 text)
    match r.val with
    | .error _ => (⟨st.raised ++ r.log, lost⟩, .failed)
    | .ok none => (⟨st.raised ++ r.log, lost⟩, .never)
    | .ok (some s) =>
      (⟨[], s.sp⟩, match entries (collectMessages (st.raised ++ r.log)) with
        | none => .failed
        | some es => .report es)

/-- A history of requests, each with its `lost`.  Code: web/wsgi.py:85-144. -/
def webAfter (env : DEnv) (n : Nat) (st : WebState) : List (Request × Option Str) → WebState
  | [] => st
  | (q, lost) :: qs => webAfter env n (webStep env n lost st q).1 qs

/-- The responses.  Code: web/wsgi.py:85-144. -/
def webResponses (env : DEnv) (n : Nat) (st : WebState) : List (Request × Option Str) → List Response
  | [] => []
  | (q, lost) :: qs => (webStep env n lost st q).2 :: webResponses env n (webStep env n lost st q).1 qs

end ALint
