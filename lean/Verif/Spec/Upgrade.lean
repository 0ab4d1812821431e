import Verif.Model.Dialplan

/-!
# Knowing more applications and functions (specification)
-/

namespace ALint.Spec
open ALint

/-- Everything the one knows, the other knows as well, as the same thing. -/
structure KnowsMore (env env' : DEnv) : Prop where
  lower : env'.lower = env.lower
  depth : env'.depth = env.depth
  apps : ∀ k a, env.apps k = some a → env'.apps k = some a
  funcs : ∀ k f, env.funcs k = some f → env'.funcs k = some f

/-- The entries that stand for anything unknown. -/
structure HasUnknown (env : DEnv) : Prop where
  lowerApp : env.lower (c! "Unknown") = c! "unknown"
  lowerFunc : env.lower (c! "UNKNOWN") = c! "unknown"
  app : ∃ a, env.apps (c! "unknown") = some a ∧ a.name = c! "Unknown" ∧ a.beh ≠ .background
  func : ∃ f, env.funcs (c! "unknown") = some f ∧ f.name = c! "UNKNOWN"

/-- Nothing is reported missing. -/
def NothingMissing (log : List Msg) : Prop :=
  ∀ m ∈ log, m.kind ≠ .E_APP_MISSING ∧ m.kind ≠ .E_FUNC_MISSING

end ALint.Spec
