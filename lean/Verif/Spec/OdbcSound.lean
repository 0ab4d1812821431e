import Verif.Spec.OdbcLog
import Verif.Spec.Passed

/-!
# A sound func_odbc.conf (specification)
-/

namespace ALint.Spec
open ALint

/-- What is said about the lines, in order, with what is said about templates (cf. `odbcSays`). -/
def odbcTells (above : Option (List VarE)) : List Elem → List Msg
  | [] => []
  | .empty _ _ :: es => odbcTells above es
  | .ctx c :: es =>
    (if GoodOdbcName c.name then [] else [⟨.W_ODBC_BADTOKENS, c.at_, [(c! "name", .one (.str c.name))], none⟩]) ++
    (if c.templates = [] then [] else [⟨.I_NOTIMPL_TEMPLATES, c.at_, [], none⟩]) ++
    odbcTells (some []) es
  | .var v :: es =>
    (if v.arrow then [⟨.H_CONF_HAS_ARROW, v.at_, [], none⟩] else []) ++
    belowSays v above ++
    odbcTells (above.map (· ++ [v])) es

/-- A section that is fine. -/
structure SoundSection (s : CtxE × List VarE) : Prop where
  name : GoodOdbcName s.1.name
  templates : s.1.templates = []
  /-- the settings are known and not the old names; they have no arrow -/
  known : ∀ v ∈ s.2, v.arrow = false ∧ v.key ∈ odbcSettings ∧ v.key ∉ [c! "read", c! "write"]
  /-- the statements have no semicolon at their end -/
  statements : ∀ v ∈ s.2, v.key ∈ [c! "readsql", c! "writesql", c! "insertsql"] → ¬ [';'] <:+ v.value
  /-- the settings come in the usual order, each once -/
  order : s.2.Pairwise fun u v => odbcSettings.idxOf u.key < odbcSettings.idxOf v.key
  /-- there is something to read or to write -/
  defines : ∃ v ∈ s.2, v.key = c! "readsql" ∨ v.key = c! "writesql"

/-- A file that is fine: all settings are in sections, and the sections are fine. -/
structure SoundOdbc (es : List Elem) : Prop where
  first : settingsBelow es = []
  sections : ∀ s ∈ sectionsOf es, SoundSection s

end ALint.Spec
