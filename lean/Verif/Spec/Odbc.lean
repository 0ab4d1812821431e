import Verif.Model.Config

/-!
# func_odbc.conf (specification)
-/

namespace ALint.Spec
open ALint

/-- The lines `key=value` before the next header. -/
def settingsBelow : List Elem → List VarE
  | [] => []
  | .ctx _ :: _ => []
  | .var v :: es => v :: settingsBelow es
  | .empty _ _ :: es => settingsBelow es

/-- The sections of a file: header and lines below it. -/
def sectionsOf : List Elem → List (CtxE × List VarE)
  | [] => []
  | .ctx c :: es => (c, settingsBelow es) :: sectionsOf es
  | .var _ :: es => sectionsOf es
  | .empty _ _ :: es => sectionsOf es

/-- The settings func_odbc.conf knows. -/
def odbcSettings : List Str := [c! "prefix", c! "synopsis", c! "dsn", c! "escapecommas", c! "mode",
  c! "rowlimit", c! "readhandle", c! "writehandle", c! "readsql", c! "writesql", c! "insertsql",
  c! "read", c! "write"]

/-- What is reported about unknown and repeated settings, in the order of the lines: the
kind, the line, the setting, and the line it was first seen at. -/
def settingReports (before : List VarE) : List VarE → List (MK × Where × Str × Option Where)
  | [] => []
  | v :: vs =>
    (if v.key ∉ odbcSettings then [(.E_CONF_KEY_INVALID, v.at_, v.key, none)]
      else match before.find? (fun u => u.key == v.key) with
        | some u => [(.E_CONF_KEY_DUPE, v.at_, v.key, some u.at_)]
        | none => []) ++ settingReports (before ++ [v]) vs

/-- The value of a setting: that of its first line. -/
def settingOf (vs : List VarE) (key : Str) : Option Str := (vs.find? (fun u => u.key == key)).map (·.value)

/-- The name of the function a section defines: the prefix (`ODBC` when absent or empty), an
underscore, and the name of the section. -/
def odbcName (s : CtxE × List VarE) : Str :=
  let p := (settingOf s.2 (c! "prefix")).getD []
  (if p = [] then c! "ODBC" else p) ++ '_' :: s.1.name

/-- A section defines a function when it has a statement to read or write with. -/
def DefinesOdbc (s : CtxE × List VarE) : Prop :=
  ∃ v ∈ s.2, v.key ∈ [c! "readsql", c! "writesql", c! "read", c! "write"]

instance (s : CtxE × List VarE) : Decidable (DefinesOdbc s) := by unfold DefinesOdbc; infer_instance

/-- The functions defined by the sections. -/
def odbcNames (ss : List (CtxE × List VarE)) : List Str := (ss.filter (DefinesOdbc ·)).map odbcName

end ALint.Spec
