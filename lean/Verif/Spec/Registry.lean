import Verif.Model.Load

/-!
# What is registered (specification)
-/

namespace ALint.Spec
open ALint

/-- Lower-casing is the usual one for texts of ASCII characters (`str.lower`). -/
def LowersAscii (lower : Str → Str) : Prop := ∀ s : Str, (∀ c ∈ s, c.toNat < 128) → lower s = s.map Char.toLower

/-- A listing of the directory: the files of that version in any order, and others that are
no Python files. -/
def ListsFiles {α : Type} (files : List (ModFile α)) (listing : List Str) : Prop :=
  (listing.filter fun i => (c! ".py").isSuffixOf i).Perm (files.map (·.file))

/-- The directory of that version has the file. -/
def FileComes {α : Type} (v : Ver) (m : ModFile α) : Prop := (v = .v11 → m.v11 = true) ∧ (v = .v13 → m.v13 = true)

instance {α : Type} (v : Ver) (m : ModFile α) : Decidable (FileComes v m) := by unfold FileComes; infer_instance

/-- The application or function comes with that version. -/
def Comes {α : Type} (v : Ver) (all : List (ModFile α)) (a : α) : Prop := ∃ m ∈ all, FileComes v m ∧ a ∈ m.regs

end ALint.Spec
