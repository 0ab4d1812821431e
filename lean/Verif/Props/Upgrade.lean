import Verif.Proofs.More
import Verif.Props.Registry

/-!
# C79: going to a newer version, or to one that knows more
-/

namespace ALint.Props
open ALint Spec

/-- C79: with more applications and functions known, nothing changes for a dialplan in which
none is reported missing: the same messages, the same dialplan, the same failure if any. -/
theorem C79_more (fs : FS) (env env' : DEnv) (hk : KnowsMore env env') (hu : HasUnknown env) (sp : Option Str) (n : Nat)
    (path : Str) (content : Bytes) (h : NothingMissing (checkDialplan fs env sp n path content).log) :
    checkDialplan fs env' sp n path content = checkDialplan fs env sp n path content :=
  (keptR_check hk hu fs sp n path content).same h

/-- C79: everything that comes with version 11 comes with version 13. -/
theorem C79_applications (a : AppInfo) (h : Comes .v11 appModFiles a) : Comes .v13 appModFiles a := by
  obtain ⟨m, hm, hv, ha⟩ := h
  have : ∀ m ∈ appModFiles, FileComes .v11 m → FileComes .v13 m := by decide +kernel
  exact ⟨m, hm, this m hm hv, ha⟩

theorem C79_functions (f : FuncInfo) (h : Comes .v11 funcModFiles f) : Comes .v13 funcModFiles f := by
  obtain ⟨m, hm, hv, ha⟩ := h
  have : ∀ m ∈ funcModFiles, FileComes .v11 m → FileComes .v13 m := by decide +kernel
  exact ⟨m, hm, this m hm hv, ha⟩

theorem loaded_unknown {v : Ver} {env : DEnv} (h : Loaded v env.toAEnv) : HasUnknown env where
  lowerApp := (lower_unknown h.lower).1
  lowerFunc := (lower_unknown h.lower).2
  app := ⟨_, (loaded_apps h _ _).2 ⟨(comes_unknown v).1, (lower_unknown h.lower).1⟩, rfl, by simp⟩
  func := ⟨_, (loaded_funcs h _ _).2 ⟨(comes_unknown v).2, (lower_unknown h.lower).2⟩, rfl⟩

/-- C79: a dialplan in which version 11 misses nothing is checked the same way by version 13,
whatever the order in which the directories were listed. -/
theorem C79_upgrade (fs : FS) (env env' : DEnv) (h11 : Loaded .v11 env.toAEnv) (h13 : Loaded .v13 env'.toAEnv)
    (hl : env'.lower = env.lower) (hd : env'.depth = env.depth) (sp : Option Str) (n : Nat) (path : Str) (content : Bytes)
    (h : NothingMissing (checkDialplan fs env sp n path content).log) :
    checkDialplan fs env' sp n path content = checkDialplan fs env sp n path content := by
  refine C79_more fs env env' ⟨hl, hd, ?_, ?_⟩ (loaded_unknown h11) sp n path content h
  · intro k a ha
    obtain ⟨h1, h2⟩ := (loaded_apps h11 k a).1 ha
    exact (loaded_apps h13 k a).2 ⟨C79_applications a h1, hl ▸ h2⟩
  · intro k f hf
    obtain ⟨h1, h2⟩ := (loaded_funcs h11 k f).1 hf
    exact (loaded_funcs h13 k f).2 ⟨C79_functions f h1, hl ▸ h2⟩

/-- C79: the order in which the directories are listed has no influence on a check. -/
theorem C79_order (fs : FS) (v : Ver) (env env' : DEnv) (h1 : Loaded v env.toAEnv) (h2 : Loaded v env'.toAEnv)
    (hl : env'.lower = env.lower) (hd : env'.depth = env.depth) (sp : Option Str) (n : Nat) (path : Str) (content : Bytes) :
    checkDialplan fs env' sp n path content = checkDialplan fs env sp n path content := by
  have ha : env'.apps = env.apps := by
    funext k
    refine Option.ext fun a => ?_
    rw [loaded_apps h1 k a, loaded_apps h2 k a, hl]
  have hf : env'.funcs = env.funcs := by
    funext k
    refine Option.ext fun a => ?_
    rw [loaded_funcs h1 k a, loaded_funcs h2 k a, hl]
  have : env' = env := by
    obtain ⟨⟨⟨l, f⟩, a⟩, d⟩ := env
    obtain ⟨⟨⟨l', f'⟩, a'⟩, d'⟩ := env'
    dsimp only at ha hf hl hd
    subst ha hf hl hd
    rfl
  rw [this]

/-! ## Examples -/

def shippedD (v : Ver) : DEnv := { shipped v with depth := 5 }

def exStasis (app : Str) : Bytes :=
  (c! "[general]\n[globals]\n[a]\nexten => s,1," ++ app ++ c! "(x)\n").map Char.toNat

/-- The hypothesis holds: version 11 knows `NoOp` … -/
example : NothingMissing (checkDialplan (fun _ => none) (shippedD .v11) none 9 (c! "f") (exStasis (c! "NoOp"))).log := by
  have : (checkDialplan (fun _ => none) (shippedD .v11) none 9 (c! "f") (exStasis (c! "NoOp"))).log = [] := by
    decide +kernel
  rw [this]
  intro m hm
  cases hm

/-- … and it is needed: `Stasis` is missing from version 11, and known to version 13. -/
example : (checkDialplan (fun _ => none) (shippedD .v11) none 9 (c! "f") (exStasis (c! "Stasis"))).log.map (·.kind) =
    [.E_APP_MISSING] ∧
    (checkDialplan (fun _ => none) (shippedD .v13) none 9 (c! "f") (exStasis (c! "Stasis"))).log = [] := by
  decide +kernel

end ALint.Props
