import Verif.Py.Str

/-!
# Model of `asterisklint/version.py` and of the metaclass in `asterisklint/cls.py`
-/

namespace ALint

/-- `AsteriskVersion.DEFAULT`, version.py:32. -/
def defaultVersion : Str := c! "v13"

/-- Truth of an optional string: `None` and `''` are false.  Code: version.py:35, 38. -/
def given (v : Option Str) : Option Str := v.filter (fun s => !s.isEmpty)

/-- `AsteriskVersion.__init__`, version.py:34-35; the object is its attribute `version`. -/
def versionInit (v : Option Str) : Str := (given v).getD defaultVersion

/-- `AsteriskVersion.reinit`, version.py:37-41; `false` is the `RuntimeError`. -/
def versionReinit (cur : Str) (v : Option Str) : Bool :=
  match given v with
  | none => true
  | some s => s == cur

/-- `Singleton.__call__`, cls.py:38-46, for `AsteriskVersion`.  The state is the entry of
`_instances` for this class; the answer is the version of the object returned, `none` an
exception. -/
def versionCall (inst : Option Str) (v : Option Str) : Option Str × Option Str :=
  match inst with
  | none => (some (versionInit v), some (versionInit v))
  | some cur => (some cur, if versionReinit cur v then some cur else none)

/-- `AsteriskVersion._list_mods`, version.py:57-65, with `_get_path`; `dir` lists the files
of the directory `submod/version` of the package (`os.listdir`, at that time). -/
def listMods (dir : Str → Str → List Str) (submod version : Str) : List Str :=
  ((dir submod version).filter (fun i => (c! ".py").isSuffixOf i)).map fun i =>
    c! "asterisklint." ++ submod ++ c! "." ++ version ++ c! "." ++ i.take (i.length - 3)

/-- What the program does with versions: ask for one (`AsteriskVersion(v)`), or list the
modules of the applications or functions (`AsteriskVersion().list_app_mods()` as in
application.py:62 and varfun.py:107). -/
inductive VersionOp where
  | request (v : Option Str)
  | mods (submod : Str) (dir : Str → Str → List Str)

/-- The answers.  Code: version.py:34-65. -/
inductive VersionAns where
  | refused
  | version (v : Str)
  | mods (l : List Str)
deriving DecidableEq

/-- One operation.  Code: version.py:34-65, cls.py:38-46. -/
def versionStep (inst : Option Str) : VersionOp → Option Str × VersionAns
  | .request v => let r := versionCall inst v
    (r.1, match r.2 with | none => .refused | some v => .version v)
  | .mods submod dir => let r := versionCall inst none
    (r.1, match r.2 with | none => .refused | some v => .mods (listMods dir submod v))

/-- A history of operations.  Code: version.py:34-65, cls.py:38-46. -/
def versionRun (inst : Option Str) : List VersionOp → List VersionAns
  | [] => []
  | o :: os => (versionStep inst o).2 :: versionRun (versionStep inst o).1 os

end ALint
