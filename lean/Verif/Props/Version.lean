import Verif.Model.Version

/-!
# C60: the Asterisk version
-/

namespace ALint.Props
open ALint

/-- The version an operation names, if any: not the empty text, and listing modules names
none. -/
def named : VersionOp → Option Str
  | .request (some v) => if v = [] then none else some v
  | _ => none

/-- The modules in a listing: one for each file `name.py`, in order. -/
def ModuleOf (submod version file mod : Str) : Prop :=
  ∃ name, file = name ++ c! ".py" ∧ mod = c! "asterisklint." ++ submod ++ '.' :: version ++ '.' :: name

/-- The answer expected when the version in effect is `v`. -/
def Expected (v : Str) (o : VersionOp) (a : VersionAns) : Prop :=
  match o with
  | .request _ => if named o = none ∨ named o = some v then a = .version v else a = .refused
  | .mods submod dir => ∃ l, a = .mods l ∧
      (∀ m, m ∈ l ↔ ∃ file ∈ dir submod v, ModuleOf submod v file m)

theorem given_named (v : Option Str) : given v = named (.request v) := by
  cases v with
  | none => rfl
  | some s =>
    cases s with
    | nil => rfl
    | cons c s => simp [given, named]

theorem mem_listMods (dir : Str → Str → List Str) (submod v m : Str) :
    m ∈ listMods dir submod v ↔ ∃ file ∈ dir submod v, ModuleOf submod v file m := by
  unfold listMods ModuleOf
  simp only [List.mem_map, List.mem_filter]
  constructor
  · rintro ⟨file, ⟨h1, h2⟩, rfl⟩
    obtain ⟨name, rfl⟩ := List.isSuffixOf_iff_suffix.1 h2
    exact ⟨_, h1, name, rfl, by simp⟩
  · rintro ⟨_, h1, name, rfl, rfl⟩
    refine ⟨_, ⟨h1, List.isSuffixOf_iff_suffix.2 ⟨name, rfl⟩⟩, by simp⟩

theorem expected_later (v : Str) (o : VersionOp) :
    (versionStep (some v) o).1 = some v ∧ Expected v o (versionStep (some v) o).2 := by
  cases o with
  | request w =>
    refine ⟨rfl, ?_⟩
    simp only [versionStep, versionCall, versionReinit, Expected, given_named]
    cases named (.request w) with
    | none => simp
    | some s => by_cases h : s = v <;> simp [h]
  | mods submod dir => exact ⟨rfl, _, rfl, mem_listMods dir submod v⟩

theorem expected_first (o : VersionOp) :
    (versionStep none o).1 = some ((named o).getD (c! "v13")) ∧
      Expected ((named o).getD (c! "v13")) o (versionStep none o).2 := by
  cases o with
  | request w =>
    simp only [versionStep, versionCall, versionInit, Expected, given_named]
    refine ⟨rfl, ?_⟩
    cases named (.request w) with
    | none => simp [defaultVersion]
    | some s => simp
  | mods submod dir => exact ⟨rfl, _, rfl, mem_listMods dir submod _⟩

theorem expected_all (v : Str) (os : List VersionOp) :
    (versionRun (some v) os).length = os.length ∧
    ∀ (i : Nat) o a, os[i]? = some o → (versionRun (some v) os)[i]? = some a → Expected v o a := by
  induction os with
  | nil => simp [versionRun]
  | cons o os ih =>
    rw [versionRun, (expected_later v o).1]
    refine ⟨by simp [ih.1], fun i o' a h1 h2 => ?_⟩
    cases i with
    | zero =>
      simp only [List.getElem?_cons_zero, Option.some.injEq] at h1 h2
      subst h1 h2
      exact (expected_later v o).2
    | succ i =>
      simp only [List.getElem?_cons_succ] at h1 h2
      exact ih.2 i o' a h1 h2

/-- C60: in a history of operations, every answer is that for the version named first (by the
first operation, else the default): a request for another version is refused, other requests
give that version, and modules listed are those of that version. -/
theorem C60_version (o : VersionOp) (os : List VersionOp) :
    (versionRun none (o :: os)).length = (o :: os).length ∧
    ∀ (i : Nat) o' a, (o :: os)[i]? = some o' → (versionRun none (o :: os))[i]? = some a →
      Expected ((named o).getD (c! "v13")) o' a := by
  rw [versionRun, (expected_first o).1]
  have ih := expected_all ((named o).getD (c! "v13")) os
  refine ⟨by simp [ih.1], fun i o' a h1 h2 => ?_⟩
  cases i with
  | zero =>
    simp only [List.getElem?_cons_zero, Option.some.injEq] at h1 h2
    subst h1 h2
    exact (expected_first o).2
  | succ i =>
    simp only [List.getElem?_cons_succ] at h1 h2
    exact ih.2 i o' a h1 h2

/-- Setting a version first, asking for another, listing. -/
example : versionRun none [.request (some (c! "v11")), .request (some (c! "v13")), .request (some []), .request none,
      .mods (c! "app") (fun _ v => [v ++ c! "_a.py", c! "b.pyc"])] =
    [.version (c! "v11"), .refused, .version (c! "v11"), .version (c! "v11"),
      .mods [c! "asterisklint.app.v11.v11_a"]] := by decide

/-- Listing first fixes the default. -/
example : versionRun none [.mods (c! "func") (fun _ _ => [c! "f.py"]), .request (some (c! "v11"))] =
    [.mods [c! "asterisklint.func.v13.f"], .refused] := by decide

end ALint.Props
