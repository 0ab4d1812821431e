import Verif.Spec.OdbcParts
import Verif.Spec.Odbc
import Verif.Spec.Disregarded

/-!
# Settings of a func_odbc.conf that are disregarded (specification)
-/

namespace ALint.Spec
open ALint

/-- Settings that are disregarded below the sections `fns`: those above the first header, those not known, and those the last section
already has. -/
def OdbcDisregarded (fns : List OdbcFn) (v : VarE) : Prop :=
  fns = [] ∨ v.key ∉ odbcSettings ∨ ∃ f, fns.getLast? = some f ∧ ∃ u ∈ f.sets, u.key = v.key

/-- The lines are such settings, lines that are none at all (`#exec`, or not understood), comments and blank lines. -/
def OdbcDisregardedLines (fns : List OdbcFn) (told : List Told) : Prop :=
  ∀ x ∈ told, x.gives = .nothing ∨ (∃ b w, x.gives = .elem (.empty b w)) ∨ ∃ v : VarE, x.gives = .elem (.var v) ∧ OdbcDisregarded fns v

end ALint.Spec
