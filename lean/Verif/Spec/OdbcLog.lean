import Verif.Spec.Odbc

/-!
# What is said about a func_odbc.conf (specification)
-/

namespace ALint.Spec
open ALint

/-- The first line of each known setting, below the lines `above`. -/
def firstsBelow (above : List VarE) : List VarE → List VarE
  | [] => []
  | v :: vs =>
    (if v.key ∈ odbcSettings ∧ ∀ u ∈ above, u.key ≠ v.key then [v] else []) ++ firstsBelow (above ++ [v]) vs

/-- The first line of each known setting. -/
def firsts (vs : List VarE) : List VarE := firstsBelow [] vs

/-- The setting belongs before the last one that counted so far. -/
def Late (above : List VarE) (key : Str) : Prop :=
  ∃ u, (firsts above).getLast? = some u ∧ odbcSettings.idxOf key < odbcSettings.idxOf u.key

instance (above : List VarE) (key : Str) : Decidable (Late above key) :=
  match h : (firsts above).getLast? with
  | none => .isFalse (by rintro ⟨u, h1, _⟩; rw [h] at h1; cases h1)
  | some u =>
    if h2 : odbcSettings.idxOf key < odbcSettings.idxOf u.key then .isTrue ⟨u, h, h2⟩
    else .isFalse (by rintro ⟨u', h1, h3⟩; rw [h] at h1; cases h1; exact h2 h3)

/-- What is said about the setting `v` below the lines `above` of its section. -/
def settingSays (above : List VarE) (v : VarE) : List Msg :=
  if v.key ∉ odbcSettings then [⟨.E_CONF_KEY_INVALID, v.at_, [(c! "key", .one (.str v.key))], none⟩]
  else match above.find? (fun u => u.key == v.key) with
    | some u => [⟨.E_CONF_KEY_DUPE, v.at_, [(c! "key", .one (.str v.key))], some u.at_⟩]
    | none =>
      (if Late above v.key then [⟨.W_CONF_KEY_LATE, v.at_, [(c! "key", .one (.str v.key))], none⟩] else []) ++
      (if v.key ∈ [c! "read", c! "write"] then [⟨.W_ODBC_LEGACY, v.at_, [], none⟩] else []) ++
      (if v.key ∈ [c! "readsql", c! "writesql", c! "insertsql", c! "read", c! "write"] ∧ [';'] <:+ v.value
        then [⟨.W_ODBC_TAILSEMI, v.at_, [], none⟩] else [])

/-- The name consists of groups of capitals and digits with single underscores between. -/
def GoodOdbcName (name : Str) : Prop :=
  ∀ g ∈ List.splitOn '_' name, g ≠ [] ∧ ∀ c ∈ g, ('A' ≤ c ∧ c ≤ 'Z') ∨ ('0' ≤ c ∧ c ≤ '9')

instance (name : Str) : Decidable (GoodOdbcName name) := by unfold GoodOdbcName; infer_instance

/-- The same, or that the line is in no section. -/
def belowSays (v : VarE) : Option (List VarE) → List Msg
  | none => [⟨.E_CONF_CTX_MISSING, v.at_, [], none⟩]
  | some vs => settingSays vs v

/-- What is said about the lines, in order; `above` holds the settings above in the same
section (`none`: no section has begun). -/
def odbcSays (above : Option (List VarE)) : List Elem → List Msg
  | [] => []
  | .empty _ _ :: es => odbcSays above es
  | .ctx c :: es =>
    (if GoodOdbcName c.name then [] else [⟨.W_ODBC_BADTOKENS, c.at_, [(c! "name", .one (.str c.name))], none⟩]) ++
    odbcSays (some []) es
  | .var v :: es =>
    (if v.arrow then [⟨.H_CONF_HAS_ARROW, v.at_, [], none⟩] else []) ++
    belowSays v above ++
    odbcSays (above.map (· ++ [v])) es

/-- The sections that define nothing. -/
def nothingDefined (es : List Elem) : List Msg :=
  ((sectionsOf es).filter (fun s => ¬ DefinesOdbc s)).map fun s => ⟨.E_ODBC_NOSQL, s.1.at_, [], none⟩

/-- A name in the directory of a file: the file has no directory; it is in the root; it is in
a directory (all slashes between become one). -/
inductive InSameDir (name : Str) : Str → Str → Prop
  | here (base : Str) : '/' ∉ base → InSameDir name base name
  | root (k : Nat) (base : Str) : '/' ∉ base →
      InSameDir name (List.replicate (k + 1) '/' ++ base) (List.replicate (k + 1) '/' ++ name)
  | inDir (dir : Str) (c : Char) (k : Nat) (base : Str) : c ≠ '/' → '/' ∉ base →
      InSameDir name (dir ++ [c] ++ List.replicate (k + 1) '/' ++ base) (dir ++ [c] ++ '/' :: name)

/-- The messages about the contents of a func_odbc.conf. -/
def odbcOwn (m : Msg) : Bool :=
  m.kind ∈ [.E_CONF_KEY_INVALID, .E_CONF_KEY_DUPE, .W_CONF_KEY_LATE, .W_ODBC_LEGACY, .W_ODBC_TAILSEMI,
    .W_ODBC_BADTOKENS, .H_CONF_HAS_ARROW, .E_CONF_CTX_MISSING, .E_ODBC_NOSQL]

end ALint.Spec
