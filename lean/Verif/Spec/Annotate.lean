import Verif.Model.Annotate
import Verif.Spec.Odbc
import Verif.Spec.Config

/-!
# What func_odbc-annotate shows (specification)
-/

namespace ALint.Spec
open ALint

/-- A text that is not empty. -/
def filled (o : Option Str) : Option Str := o.filter (· ≠ [])

/-- The text without white space at its ends. -/
structure StripsTo (s t : Str) : Prop where
  parts : ∃ a b, s = a ++ t ++ b ∧ Spaces a ∧ Spaces b
  ends : ∀ c, t.head? = some c ∨ t.getLast? = some c → isSpace c = false

/-- The statements of a section: `key` for the type and the settings it is taken from, the
first one that is not empty. -/
def statementOf (s : CtxE × List VarE) (settings : List Str) : Option Str :=
  settings.findSome? fun k => filled (settingOf s.2 k)

/-- A column of a statement: its alias, or else its text. -/
def columnName (alias_ : Option Str) (text : Str) : Str := (filled alias_).getD text

/-- The tokens of a statement that selects: after `SELECT` and white space comes `what`; then
nothing, or something and `FROM`. -/
def Selects (tokens : List SqlToken) (what : SqlToken) : Prop :=
  ∃ sel space rest, tokens = sel :: space :: what :: rest ∧ sel.isSelect = true ∧ space.isSpace = true ∧
    (rest = [] ∨ ∃ x f more, rest = x :: f :: more ∧ f.isFrom = true)

/-- A statement can be shown, with these columns: it is a single one; it does not select, or it
selects columns up to `FROM` or the end. -/
inductive ColumnsOf (sql : SqlParse) (query : Str) : List Str → Prop
  | noSelect (t : SqlToken) (ts : List SqlToken) : sql.parse query = [t :: ts] → t.isSelect = false →
      ColumnsOf sql query []
  | one (tokens : List SqlToken) (what : SqlToken) (a : Option Str) (text : Str) : sql.parse query = [tokens] →
      Selects tokens what → what.kind = .one a text → ColumnsOf sql query [columnName a text]
  | many (tokens : List SqlToken) (what : SqlToken) (items : List SqlItem) : sql.parse query = [tokens] →
      Selects tokens what → what.kind = .many items → (∀ i ∈ items, i.hasAlias = true) →
      ColumnsOf sql query (items.map fun i => columnName i.alias_ i.text)

/-- Why there are no columns. -/
inductive ColumnsFail (sql : SqlParse) (query : Str) : Exc → Prop
  | single : (sql.parse query).length ≠ 1 → ColumnsFail sql query .assertionError
  | empty : sql.parse query = [[]] → ColumnsFail sql query .indexError
  | short (tokens : List SqlToken) : sql.parse query = [tokens] → (tokens.head?.any (·.isSelect)) = true →
      (tokens.length < 3 ∨ ∃ t, tokens[1]? = some t ∧ t.isSpace = false) → ColumnsFail sql query .assertionError
  | keyword (tokens : List SqlToken) : sql.parse query = [tokens] → (tokens.head?.any (·.isSelect)) = true →
      (∃ t, tokens[1]? = some t ∧ t.isSpace = true) →
      (tokens.length = 4 ∨ ∃ t, tokens[4]? = some t ∧ t.isFrom = false) → ColumnsFail sql query .notImplementedError
  | kind (tokens : List SqlToken) (what : SqlToken) : sql.parse query = [tokens] → Selects tokens what →
      what.kind = .other → ColumnsFail sql query .typeError
  | item (tokens : List SqlToken) (what : SqlToken) (items : List SqlItem) : sql.parse query = [tokens] →
      Selects tokens what → what.kind = .many items → (∃ i ∈ items, i.hasAlias = false) →
      ColumnsFail sql query .attributeError

/-- The lines for a statement: its type, the columns if it reads and has any, and the statement
itself, which ends with a semicolon. -/
inductive StatementShown (sql : SqlParse) (type query : Str) : List Str → Prop
  | plain (text : Str) : (type = c! "read" → ColumnsOf sql query []) →
      (text = sql.format query ∧ [';'] <:+ text ∨ ¬ [';'] <:+ sql.format query ∧ text = sql.format query ++ [';']) →
      StatementShown sql type query [c! "-- FUNCTION TYPE: " ++ type, text]
  | columns (text c : Str) (cs : List Str) : type = c! "read" → ColumnsOf sql query (c :: cs) →
      (text = sql.format query ∧ [';'] <:+ text ∨ ¬ [';'] <:+ sql.format query ∧ text = sql.format query ++ [';']) →
      StatementShown sql type query
        ([c! "-- FUNCTION TYPE: " ++ type, c! "-- COLUMNS:"] ++
          ((c :: cs).zipIdx 1).map (fun p => c! "-- " ++ (if p.2 < 10 then c! " " else []) ++ natStr p.2 ++ c! ". " ++ p.1) ++
          [text])

/-- The lines for a type of statement, if the section has one. -/
inductive TypeShown (sql : Option SqlParse) (s : CtxE × List VarE) (type : Str) (settings : List Str) : List Str → Prop
  | absent : statementOf s settings = none → TypeShown sql s type settings []
  | present (p : SqlParse) (text query : Str) (lines : List Str) : sql = some p → statementOf s settings = some text →
      StripsTo text query → StatementShown p type query lines → TypeShown sql s type settings lines

/-- The lines for a section. -/
inductive SectionShown (sql : Option SqlParse) (s : CtxE × List VarE) : List Str → Prop
  | mk (i r w : List Str) :
      TypeShown sql s (c! "insert") [c! "insertsql"] i →
      TypeShown sql s (c! "read") [c! "readsql", c! "read"] r →
      TypeShown sql s (c! "write") [c! "writesql", c! "write"] w →
      SectionShown sql s ([c! "-- " ++ odbcName s, c! "-- ."] ++ i ++ r ++ w ++ [[]])

/-- A type of statement the section has cannot be shown, with this end. -/
inductive TypeStops (sql : Option SqlParse) (s : CtxE × List VarE) (type : Str) (settings : List Str) : CmdEnd → Prop
  | noParser (text : Str) : statementOf s settings = some text → sql = none →
      TypeStops sql s type settings (.stopped .importError)
  | columns (p : SqlParse) (text query : Str) (e : Exc) : statementOf s settings = some text → sql = some p →
      StripsTo text query → type = c! "read" → ColumnsFail p query e → TypeStops sql s type settings (.raised e)

/-- A section cannot be shown to its end: the lines that are shown, and the end. -/
inductive SectionStops (sql : Option SqlParse) (s : CtxE × List VarE) : List Str → CmdEnd → Prop
  | insert (e : CmdEnd) : TypeStops sql s (c! "insert") [c! "insertsql"] e →
      SectionStops sql s [c! "-- " ++ odbcName s, c! "-- .", c! "-- FUNCTION TYPE: insert"] e
  | read (i : List Str) (e : CmdEnd) : TypeShown sql s (c! "insert") [c! "insertsql"] i →
      TypeStops sql s (c! "read") [c! "readsql", c! "read"] e →
      SectionStops sql s ([c! "-- " ++ odbcName s, c! "-- ."] ++ i ++ [c! "-- FUNCTION TYPE: read"]) e
  | write (i r : List Str) (e : CmdEnd) : TypeShown sql s (c! "insert") [c! "insertsql"] i →
      TypeShown sql s (c! "read") [c! "readsql", c! "read"] r →
      TypeStops sql s (c! "write") [c! "writesql", c! "write"] e →
      SectionStops sql s ([c! "-- " ++ odbcName s, c! "-- ."] ++ i ++ r ++ [c! "-- FUNCTION TYPE: write"]) e

/-- The name of the function cannot be one: it has a NUL. -/
def BadName (s : CtxE × List VarE) : Prop := DefinesOdbc s ∧ ∃ c ∈ odbcName s, c.toNat = 0

/-- The lines for these sections, and the end. -/
inductive SectionsShown (sql : Option SqlParse) : List (CtxE × List VarE) → List Str → CmdEnd → Prop
  | all : SectionsShown sql [] [] (.exit 0)
  | name (s : CtxE × List VarE) (ss : List (CtxE × List VarE)) : BadName s →
      SectionsShown sql (s :: ss) [] (.raised .valueError)
  | stops (s : CtxE × List VarE) (ss : List (CtxE × List VarE)) (part : List Str) (e : CmdEnd) : ¬ BadName s →
      SectionStops sql s part e → SectionsShown sql (s :: ss) part e
  | shown (s : CtxE × List VarE) (ss : List (CtxE × List VarE)) (block rest : List Str) (e : CmdEnd) : ¬ BadName s →
      SectionShown sql s block → SectionsShown sql ss rest e → SectionsShown sql (s :: ss) (block ++ rest) e

end ALint.Spec
