import Verif.Model.Command

/-!
# Model of `commands/func_odbc-annotate.py` and of `OdbcQuery` (func_odbc.py)

The package `sqlparse` is a parameter; it may be absent.  Simplification: its functions do not
raise, and what is asked about a token is answered by fields of the token.
-/

namespace ALint

/-- What the code looks at in an item of a list of columns: whether it has `get_alias` (an
`Identifier` or a `Function` does, a single token does not), what that gives, and its text.
Code: func_odbc.py:129-131. -/
structure SqlItem where
  hasAlias : Bool
  alias_ : Option Str
  text : Str
deriving DecidableEq

/-- Kinds of tokens, func_odbc.py:116-127. -/
inductive SqlKind where
  /-- `Function` or `Identifier`, which have `get_alias` -/
  | one (alias_ : Option Str) (text : Str)
  /-- `IdentifierList` with the items of `get_identifiers` -/
  | many (items : List SqlItem)
  | other
deriving DecidableEq

/-- What the code looks at in a token of a statement.  Code: func_odbc.py:81, 88-127. -/
structure SqlToken where
  /-- `match(Keyword.DML, 'SELECT')` -/
  isSelect : Bool
  /-- `match(Whitespace, r'\s+', regex=True)` -/
  isSpace : Bool
  /-- `match(Keyword, 'FROM')` -/
  isFrom : Bool
  kind : SqlKind
deriving DecidableEq

/-- `sqlparse`: `format` with the arguments of func_odbc.py:68-71, and `parse`, which gives the
tokens of each statement. -/
structure SqlParse where
  format : Str → Str
  parse : Str → List (List SqlToken)

/-- `x or y`, where the empty text and `None` are false.  Code: func_odbc.py:130. -/
def orText : Option Str → Option Str → Option Str
  | some (c :: cs), _ => some (c :: cs)
  | _, y => y

/-- `if x`, and `OdbcQuery.from_query`, func_odbc.py:57-59. -/
def queryFrom (key : Str) : Option Str → List (Str × Str)
  | some (c :: cs) => [(key, stripP isSpace (c :: cs))]
  | _ => []

/-- `sorted(get_queries().items())`, func_odbc.py:156-167: by key, which are distinct. -/
def OdbcFn.queries (f : OdbcFn) : List (Str × Str) :=
  queryFrom (c! "insert") (f.get (c! "insertsql")) ++
  queryFrom (c! "read") (orText (f.get (c! "readsql")) (f.get (c! "read"))) ++
  queryFrom (c! "write") (orText (f.get (c! "writesql")) (f.get (c! "write")))

/-- `_identifiers_to_columns`, func_odbc.py:129-131. -/
def columnNames : List SqlItem → Except Exc (List Str)
  | [] => .ok []
  | t :: ts =>
    if t.hasAlias then (columnNames ts).map (((orText t.alias_ none).getD t.text) :: ·)
    else .error .attributeError

/-- `_tokens_to_identifiers` and `_token_to_identifiers`, func_odbc.py:88-127. -/
def identifiersOf : List SqlToken → Except Exc (List SqlItem)
  | _ :: space :: what :: rest =>
    if space.isSpace then
      let from_ : Bool := match rest with
        | [] => true
        | _ :: t :: _ => t.isFrom
        | [_] => false
      if from_ then
        match what.kind with
        | .one a t => .ok [⟨true, a, t⟩]
        | .many items => .ok items
        | .other => .error .typeError
      else .error .notImplementedError
    else .error .assertionError
  | _ => .error .assertionError

/-- `select_columns`, func_odbc.py:75-86. -/
def selectColumns (sql : SqlParse) (query : Str) : Except Exc (Option (List Str)) :=
  match sql.parse query with
  | [tokens] =>
    match tokens with
    | [] => .error .indexError
    | t :: _ =>
      if t.isSelect then
        match identifiersOf tokens with
        | .error e => .error e
        | .ok items => (columnNames items).map some
      else .ok none
  | _ => .error .assertionError

/-- `'{:2d}'.format(n)` for a natural number. -/
def padTwo (n : Nat) : Str := if n < 10 then ' ' :: natStr n else natStr n

/-- The lines for the columns, commands/func_odbc-annotate.py:56-59; `n` of them are shown. -/
def columnLines (n : Nat) : List Str → List Str
  | [] => []
  | c :: cs => (c! "-- " ++ padTwo (n + 1) ++ c! ". " ++ c) :: columnLines (n + 1) cs

/-- Lines printed, and the end if that is it.  The output of commands/func_odbc-annotate.py:45-64. -/
abbrev Shown := List Str × Option CmdEnd

/-- Going on printing.  Code: commands/func_odbc-annotate.py:45-64. -/
def Shown.then (a b : Shown) : Shown :=
  match a.2 with
  | some e => (a.1, some e)
  | none => (a.1 ++ b.1, b.2)

/-- One query, commands/func_odbc-annotate.py:53-63. -/
def showQuery (sql : Option SqlParse) (q : Str × Str) : Shown :=
  Shown.then ([c! "-- FUNCTION TYPE: " ++ q.1], none) <|
  match sql with
  | none => ([], some (.stopped .importError))
  | some sql =>
    let cols : Shown := if q.1 = c! "read" then
        match selectColumns sql q.2 with
        | .error e => ([], some (.raised e))
        | .ok (some (c :: cs)) => (c! "-- COLUMNS:" :: columnLines 0 (c :: cs), none)
        | .ok _ => ([], none)
      else ([], none)
    let text := sql.format q.2
    cols.then ([if text.getLast? = some ';' then text else text ++ [';']], none)

/-- The loop over the queries, commands/func_odbc-annotate.py:52-63. -/
def showQueries (sql : Option SqlParse) : List (Str × Str) → Shown
  | [] => ([], none)
  | q :: qs => (showQuery sql q).then (showQueries sql qs)

/-- One function, commands/func_odbc-annotate.py:49-64. -/
def showFunction (sql : Option SqlParse) (f : OdbcFn) : Shown :=
  Shown.then ([c! "-- " ++ f.funcName, c! "-- ."], none) <|
  (showQueries sql f.queries).then ([[]], none)

/-- The loop over the functions, each of which is finalized (func_odbc.py:253-256) before it is
shown.  What was logged, printed, and the end. -/
def annotateAll (sql : Option SqlParse) : FEnv → List OdbcFn → List Msg × List Str × CmdEnd
  | _, [] => ([], [], .exit 0)
  | env, f :: fs =>
    let r := f.finalize env
    match r.val with
    | .error e => (r.log, [], .raised e)
    | .ok env =>
      let s := showFunction sql f
      match s.2 with
      | some e => (r.log, s.1, e)
      | none =>
        let rest := annotateAll sql env fs
        (r.log ++ rest.1, s.1 ++ rest.2.1, rest.2.2)

/-- commands/func_odbc-annotate.py:43-47. -/
def annotateHead : List Str :=
  [c! "-- BEWARE: This output format is not standardized yet", c! "-- NOT FOR MACHINE CONSUMPTION", []]

/-- What is seen, with nothing on the standard error output but what is printed although muted.
Code: commands/func_odbc-annotate.py:39-64. -/
def annotateRun (sh : Shell) (log : List Msg) (out : List Str) (fin : CmdEnd) : CmdRun :=
  ⟨out, (managerAfter { sh with muted := true } log).printed.flatMap fun p => messageLines sh p.1 p.2, fin⟩

/-- `func_odbc-annotate`, commands/func_odbc-annotate.py:39-64.  The whole file is read before
the first function is given. -/
def annotate (sh : Shell) (sql : Option SqlParse) (fs : FS) (env : FEnv) (n : Nat) (path : Str) : CmdRun :=
  match fs path with
  | none => annotateRun sh [] [] (.stopped .osError)
  | some content =>
    let r := pipeRun fs odbcStep n ⟨[openFrame path content], [], [], []⟩
    match r.val with
    | .error e => annotateRun sh r.log annotateHead (.raised e)
    | .ok none => annotateRun sh r.log annotateHead (.stopped .unfinished)
    | .ok (some fns) =>
      let a := annotateAll sql env fns.reverse
      annotateRun sh (r.log ++ a.1) (annotateHead ++ a.2.1) a.2.2

end ALint
