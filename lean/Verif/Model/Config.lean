import Verif.Model.File

/-!
# Model of `asterisklint/config.py` (`ConfigParser`) and `configobj.py`
-/

namespace ALint

/-- `Context`, configobj.py:37-60, without its list of varsets. -/
structure CtxE where
  name : Str
  templates : Str
  comment : Bool
  at_ : Where
deriving DecidableEq

/-- `Varset`, configobj.py:88-109 (`key` is the attribute `variable`). -/
structure VarE where
  key : Str
  value : Str
  arrow : Bool
  comment : Bool
  at_ : Where
deriving DecidableEq

/-- The elements yielded by `ConfigParser`: `Context`, `Varset`, `EmptyLine`
(configobj.py:31-34). -/
inductive Elem where
  | ctx (c : CtxE)
  | var (v : VarE)
  | empty (comment : Bool) (at_ : Where)
deriving DecidableEq

/-- The attribute `where` of the elements, configobj.py:31-35, 48-60, 89-109. -/
def Elem.at_ : Elem → Where
  | .ctx c => c.at_
  | .var v => v.at_
  | .empty _ w => w

/-- What a regular expression of `ConfigParser.regexes` makes of a line.  Code: config.py:85-110. -/
inductive Reading where
  /-- the groups (bolspace, name, templates) of the first two expressions -/
  | header (bolspace name templates : Str)
  /-- the groups (variable = key, separator, value) of the next two -/
  | assign (key separator value : Str)
  /-- the last one -/
  | blank
deriving DecidableEq, Repr

/-- `^(\s*)\[([^]]*)\]\s*\(([^)\+])\)$`, config.py:87.  The line contains no LF
(it was split there and its terminator removed), so `$` is the end of the text.
No backtracking can succeed: `[` is not white space, `]` ends the name. -/
def reTemplate (data : Str) : Option Reading :=
  match lstripP isSpace data with
  | '[' :: r =>
    match splitOnce ']' r with
    | some (name, tail) =>
      match lstripP isSpace tail with
      | ['(', c, ')'] =>
        if c = ')' ∨ c = '+' then none
        else some (.header (data.takeWhile isSpace) name [c])
      | _ => none
    | none => none
  | _ => none

/-- `^(\s*)\[([^]]*)\]$`, config.py:92. -/
def reHeader (data : Str) : Option Reading :=
  match lstripP isSpace data with
  | '[' :: r =>
    match splitOnce ']' r with
    | some (name, []) => some (.header (data.takeWhile isSpace) name [])
    | _ => none
  | _ => none

/-- `^([^=]*?)(\s*=>\s*)(.*)$`, config.py:97.  The first group has no `=`, so the
`=` is the first one of the line; the group is as short as possible, so all white
space before the `=` goes to the separator. -/
def reArrow (data : Str) : Option Reading :=
  match splitOnce '=' data with
  | some (p, '>' :: q) =>
    let var := rstripP isSpace p
    some (.assign var (p.drop var.length ++ c! "=>" ++ q.takeWhile isSpace) (q.dropWhile isSpace))
  | _ => none

/-- `^([^=]*?)(\s*=\s*)(.*)$`, config.py:102. -/
def reEquals (data : Str) : Option Reading :=
  match splitOnce '=' data with
  | some (p, q) =>
    let var := rstripP isSpace p
    some (.assign var (p.drop var.length ++ c! "=" ++ q.takeWhile isSpace) (q.dropWhile isSpace))
  | none => none

/-- `^\s*$`, config.py:107. -/
def reBlank (data : Str) : Option Reading :=
  if data.all isSpace then some .blank else none

/-- The first expression that matches, config.py:114-121. -/
def readLine (data : Str) : Option Reading :=
  (reTemplate data).orElse fun _ => (reHeader data).orElse fun _ =>
    (reArrow data).orElse fun _ => (reEquals data).orElse fun _ => reBlank data

/-- `variable.startswith((' ', '\t'))`, configobj.py:100. -/
def startsBlank : Str → Bool
  | c :: _ => isBlank c
  | [] => false

/-- The functions beside the expressions, config.py:88-109, with the constructors
`Context` (configobj.py:48-60), `Varset` (configobj.py:89-109), `EmptyLine`. -/
def mkElem (comment : Bool) (w : Where) : Reading → Elem × List Msg
  | .header bol name tmpl =>
    (.ctx ⟨name, tmpl, comment, w⟩,
      (if bol.isEmpty then [] else [⟨.W_WSH_BOL, w, [], none⟩]) ++
      (if tmpl.isEmpty then [] else [⟨.I_NOTIMPL_TEMPLATES, w, [], none⟩]))
  | .assign var sep value =>
    let clean := stripP isSpace sep
    let arrow := clean = c! "=>"
    let m1 :=
      if clean = c! "=>" then
        if sep ≠ c! " => " then [⟨.W_WSH_OBJSET, w, [], none⟩] else []
      else if clean = c! "=" then
        if sep ≠ c! "=" then [⟨.W_WSH_VARSET, w, [], none⟩] else []
      else []
    let lead := startsBlank var
    let var' := if lead then lstripP isBlank var else var
    (.var ⟨var', value, arrow, comment, w⟩,
      m1 ++ (if lead && var' != c! "same" then [⟨.W_WSH_BOL, w, [], none⟩] else []))
  | .blank => (.empty comment w, [])

/-! ## The preprocessor -/

/-- `os.path.dirname` on POSIX.  Code: config.py:176. -/
def dirname (p : Str) : Str :=
  let head := (p.reverse.dropWhile (· ≠ '/')).reverse
  if head.all (· = '/') then head else rstripP (· = '/') head

/-- `os.path.join(a, b)` on POSIX.  Code: config.py:176-177. -/
def pathJoin (a b : Str) : Str :=
  match b with
  | '/' :: _ => b
  | _ =>
    match a.getLast? with
    | none => b
    | some '/' => a ++ b
    | some _ => a ++ '/' :: b

/-- What `preprocessor` does besides issuing messages.  Code: config.py:130-180. -/
inductive PP where
  | nothing
  /-- `self.include(path)`; `must` is `error_if_not_exists`, `name` the text used
  in the warning -/
  | open_ (path : Str) (must : Bool) (name : Str)
deriving DecidableEq, Repr

/-- The command word and the rest, config.py:136-143. -/
def ppCommand (text : Str) : Option (Str × Str) :=
  if (c! "#include").isPrefixOf text then some (text.take 8, text.drop 8)
  else if (c! "#tryinclude").isPrefixOf text then some (text.take 11, text.drop 11)
  else if (c! "#exec").isPrefixOf text then some (text.take 5, text.drop 5)
  else none

/-- Quotes, config.py:162-168: W_PP_QUOTE_BAD?, the argument.  `rest` is not
empty. -/
def ppUnquote (rest : Str) : Bool × Str :=
  match rest.head?, rest.getLast? with
  | some a, some z =>
    if a = '"' ∧ z = '"' then (false, (rest.drop 1).dropLast)
    else if a = '<' ∧ z = '>' then (false, (rest.drop 1).dropLast)
    else if a = '<' ∨ a = '"' ∨ z = '"' ∨ z = '>' then (true, rest)
    else (false, rest)
  | _, _ => (false, rest)

/-- The characters skipped behind a directive, config.py:149-151. -/
def isLowCtl (c : Char) : Bool := decide (c.toNat ≤ 32)

/-- `preprocessor`, config.py:130-180, up to the opening of the file. -/
def preprocessor (w : Where) (data : Str) : List Msg × PP :=
  let text := lstripP isSpace data
  let m0 : List Msg :=
    if text.length = data.length then [] else [⟨.W_WSH_BOL, w, [], none⟩]
  let bad : List Msg := [⟨.E_CONF_BAD_LINE, w, [(c! "startswith", .one (.str (text.take 16)))], none⟩]
  match ppCommand text with
  | none => (m0 ++ bad, .nothing)
  | some (cmd, rest) =>
    match rest with
    | [] => (m0 ++ bad, .nothing)
    | r0 :: _ =>
      if !isLowCtl r0 then (m0 ++ bad, .nothing)
      else if rest.all isLowCtl then (m0 ++ bad, .nothing)
      else
        let sep := rest.takeWhile isLowCtl
        let m1 : List Msg :=
          if !sep.all (· = ' ') && !sep.all (· = '\t') then [⟨.W_WSH_CTRL, w, [], none⟩] else []
        let q := ppUnquote (rest.dropWhile isLowCtl)
        let m2 : List Msg := if q.1 then [⟨.W_PP_QUOTE_BAD, w, [], none⟩] else []
        if cmd = c! "#exec" then
          (m0 ++ m1 ++ m2 ++ [⟨.W_PP_EXEC, w, [(c! "cmd", .one (.str q.2))], none⟩], .nothing)
        else
          (m0 ++ m1 ++ m2,
            .open_ (pathJoin (dirname w.filename) q.2) (cmd = c! "#include") q.2)

/-- What happens to one logical line in `ConfigParser.__iter__`,
config.py:113-128: an element is yielded, or something is done. -/
inductive LineOut where
  | elem (e : Elem)
  | pp (p : PP)
deriving DecidableEq

/-- One round of `ConfigParser.__iter__`, config.py:112-128. -/
def parserStage (w : Where) (data comment : Str) : List Msg × LineOut :=
  match readLine data with
  | some r =>
    let e := mkElem (!comment.isEmpty) w r
    (e.2, .elem e.1)
  | none =>
    if (lstripP isSpace data).head? = some '#' then
      let r := preprocessor w data
      (r.1, .pp r.2)
    else
      ([⟨.E_CONF_BAD_LINE, w, [(c! "startswith", .one (.str (data.take 16)))], none⟩], .pp .nothing)

/-! ## The file system and the reader loop -/

/-- Readable files; `none` is any `OSError` of `open(..., 'rb')`.  Code: file.py:68, config.py:175-180. -/
abbrev FS := Str → Option Bytes

/-- Executing the directive, config.py:173-180.  A NUL in the path makes `open`
raise `ValueError`, which is not caught. -/
def runPP (fs : FS) (w : Where) (frames : List Frame) : PP → List Msg × Except Exc (List Frame)
  | .nothing => ([], .ok frames)
  | .open_ path must name =>
    if path.any (fun c => c.toNat = 0) then ([], .error .valueError)
    else match fs path with
      | some content => ([], .ok (openFrame path content :: frames))
      | none =>
        (if must then [⟨.W_PP_INCLUDE_MISSING, w, [(c! "filename", .one (.str name))], none⟩] else [],
          .ok frames)

/-- The state of the reader part of the pipeline.  Code: file.py:61-63, 140. -/
structure RState where
  frames : List Frame
  ff : List FInfo

/-- One round: read a line, take it through all stages.  Result: the messages and
either an exception or the new state with the element yielded, if any.
Code: file.py:78-88, 96-102, 115-121, 141-176, 264-275, config.py:112-128. -/
def lineStep (fs : FS) (ff : List FInfo) (frames : List Frame) (w : Where) :
    List Msg × Except Exc (RState × Option Elem) :=
  let f := fileStage ff w
  match f.2 with
  | .error e => (f.1, .error e)
  | .ok (ff', data, comment) =>
    let p := parserStage w data comment
    match p.2 with
    | .elem e => (f.1 ++ p.1, .ok (⟨frames, ff'⟩, some e))
    | .pp pp =>
      let r := runPP fs w frames pp
      match r.2 with
      | .error e => (f.1 ++ p.1 ++ r.1, .error e)
      | .ok frames' => (f.1 ++ p.1 ++ r.1, .ok (⟨frames', ff'⟩, none))

end ALint
