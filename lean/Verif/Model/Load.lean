import Verif.Model.Registry

/-!
# Model of `AppLoader.load_all` (application.py:61-65) and `FuncLoader.load_all` (varfun.py:106-110)
-/

namespace ALint

/-- `load_all` with `list_app_mods` or `list_func_mods` (version.py:43-65): `listing` is what
`os.listdir` gives for the directory of the version, in any order; names that do not end in
`.py` are skipped; importing a module runs its file, after which its `register` is called. -/
def loadAll {α : Type} (lower : Str → Str) (name : α → Str) (files : List (ModFile α)) (listing : List Str) : Loader α :=
  ((listing.filter fun i => (c! ".py").isSuffixOf i).filterMap fun n => files.find? fun m => m.file = n).foldl
    (fun l m => m.regs.foldl (fun l a => l.register (lower (name a)) a) l) Loader.empty

/-- The versions that come with the program: directories `v11` and `v13`.
Code: version.py:57-62; the directories of asterisklint/app and asterisklint/func. -/
inductive Ver where
  | v11 | v13
deriving DecidableEq

/-- Is the file in the directory of that version?  Code: version.py:57-62. -/
def ModFile.within {α : Type} (v : Ver) (m : ModFile α) : Bool :=
  match v with
  | .v11 => m.v11
  | .v13 => m.v13

/-- The files of a directory.  Code: version.py:60-65. -/
def modFiles {α : Type} (v : Ver) (all : List (ModFile α)) : List (ModFile α) := all.filter (·.within v)

end ALint
