import Verif.Model.Web

/-!
# Model of the front of `web/wsgi.py`

What is done with a request before the text in it is checked: the middleware, the hook on the
length, and taking the text out of the JSON value.  Of falcon it is taken that the middleware comes first,
then the responder for path and method is found (404, 405 if there is none; `OPTIONS` is answered with 200
by falcon itself), then the hook and the responder
are called; that `falcon.HTTPError` is answered with its status and any other exception with 500; and that
`req.media` is the JSON value of the body or raises an `HTTPError`.  Reading JSON is not modelled.
-/

namespace ALint

/-- Texts of Python, which may have surrogates: code points.  Code: web/wsgi.py:122. -/
abbrev Points := List Nat

/-- The code points of a text.  Code: web/wsgi.py:122. -/
def points (s : Str) : Points := s.map Char.toNat

/-- `s.encode('utf-8')` can only be done for texts without surrogates, which are those of Lean.
Code: web/wsgi.py:122. -/
def scalars : Points → Option Str
  | [] => some []
  | n :: ns => if h : n.isValidChar then (scalars ns).map (Char.ofNatAux n h :: ·) else none

/-- What `json.loads` gives; `num` is any number.  The members of an object are in the order of the text.
Code: `req.media`, web/wsgi.py:122. -/
inductive Json where
  | null
  | bool (b : Bool)
  | num
  | str (s : Points)
  | arr (xs : List Json)
  | obj (members : List (Points × Json))

/-- `x[name]`: the last member of that name counts.  `KeyError` if there is none, `TypeError` if `x` is
no `dict`.  Code: web/wsgi.py:122. -/
def Json.get (name : Str) : Json → Except Exc Json
  | .obj ms => match ms.reverse.lookup (points name) with
    | some v => .ok v
    | none => .error .keyError
  | _ => .error .typeError

/-- `x.encode('utf-8')`, as the text of which it is the encoding.  Code: web/wsgi.py:122. -/
def Json.encode : Json → Except Exc Str
  | .str s => match scalars s with
    | some s => .ok s
    | none => .error .unicodeEncodeError
  | _ => .error .attributeError

/-- `req.media['files'][filename].encode('utf-8')`, wsgi.py:122. -/
def Json.upload (j : Json) : Except Exc Str :=
  match j.get (c! "files") with
  | .error e => .error e
  | .ok fs => match fs.get webName with
    | .error e => .error e
    | .ok f => f.encode

/-- The routes, wsgi.py:160-162. -/
inductive WebRoute where
  | index
  | healthz
  | check
deriving DecidableEq

/-- The methods of HTTP told apart, web/wsgi.py:85, 102, 109. -/
inductive WebMethod where
  | get
  | post
  | options
  | other
deriving DecidableEq

/-- A request as falcon presents it.  Code: web/wsgi.py:48-64, 109-122. -/
structure WebQuery where
  /-- `req.env['wsgi.multithread']` -/
  multithread : Bool
  route : Option WebRoute
  method : WebMethod
  /-- `req.content_length` -/
  length : Option Nat
  /-- `req.media`, or the status of the `HTTPError` it raises -/
  media : Except Nat Json

/-- The limit, wsgi.py:109. -/
def maxBody : Nat := 64 * 1024

/-- The answer: a status alone, or what `webStep` answers.  Code: web/wsgi.py:85-144. -/
inductive WebAnswer where
  | status (n : Nat)
  | done (r : Response)
deriving DecidableEq

/-- `max_body`, wsgi.py:48-57: is the request refused? -/
def tooLarge (limit : Nat) : Option Nat → Bool
  | some n => limit < n
  | none => false

/-- A path without responder for the method: `OPTIONS` is answered with the methods there are.
Code: web/wsgi.py:151-155; falcon's own. -/
def noResponder : WebMethod → WebAnswer
  | .options => .status 200
  | _ => .status 405

/-- One request, wsgi.py:60-65, 84-122, 154-162. -/
def frontStep (env : DEnv) (n : Nat) (lost : Option Str) (st : WebState) (q : WebQuery) : WebState × WebAnswer :=
  if q.multithread then (st, .status 400)
  else match q.route with
  | none => (st, .status 404)
  | some .index => if q.method = .get then (st, .done .index) else (st, noResponder q.method)
  | some .healthz => if q.method = .get then (st, .done .healthz) else (st, noResponder q.method)
  | some .check =>
    if q.method ≠ .post then (st, noResponder q.method)
    else if tooLarge maxBody q.length then (st, .status 413)
    else match q.media with
    | .error s => (st, .status s)
    | .ok j => match j.upload with
      | .error _ => (st, .status 500)
      | .ok text =>
        let r := webStep env n lost st (.check text)
        (r.1, .done r.2)

/-- The state after a history of requests, each with its `lost`.  Code: web/wsgi.py:149-155. -/
def frontAfter (env : DEnv) (n : Nat) (st : WebState) : List (WebQuery × Option Str) → WebState
  | [] => st
  | (q, lost) :: qs => frontAfter env n (frontStep env n lost st q).1 qs

end ALint
