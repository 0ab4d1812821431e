import Verif.Spec.OdbcParts
import Verif.Spec.Anywhere

/-!
# The order of the settings of a function (specification)
-/

namespace ALint.Spec
open ALint

/-- The lines are settings with these names, lines that are none at all, comments and blank lines. -/
def SettingLines (keys : List Str) (told : List Told) : Prop :=
  ∀ x ∈ told, x.gives = .nothing ∨ (∃ b w, x.gives = .elem (.empty b w)) ∨ ∃ v : VarE, x.gives = .elem (.var v) ∧ v.key ∈ keys

/-- What is said, but for the warnings that a setting should come earlier. -/
def butLate (log : List Msg) : List Msg := log.filter fun m => m.kind ≠ .W_CONF_KEY_LATE

/-- A function: the name of the section, and the value of every setting. -/
def fnValues (f : OdbcFn) : Str × Str × (Str → Option Str) :=
  (f.name, f.templates, fun k => (f.sets.find? fun v => v.key == k).map (·.value))

end ALint.Spec
