import Verif.Model.Ident
import Verif.Model.Command

/-!
# Model of `commands/ident-scan.py`: the program
-/

namespace ALint

/-- `print_contexts` and `print_labels`, ident-scan.py:90-100, with the sorting of lines 57-62. -/
def identNames (env : IEnv) (title : Str) (names : List Str) : List Str :=
  title :: (sortBy (nameLt env) names).map (c! "  " ++ ·) ++ [[]]

/-- The name if a variable is counted.  Code: varfun.py:378. -/
def varName? : Ev → Option Str
  | .var name _ => some name
  | _ => none

/-- The place if it is that variable.  Code: varfun.py:378. -/
def varPlace? (name : Str) : Ev → Option Where
  | .var n w => if n = name then some w else none
  | _ => none

/-- The keys of `loader._variables` in the order of their insertion, varfun.py:378. -/
def varNames (uses : List Ev) : List Str := (uses.filterMap varName?).eraseDups

/-- `loader._variables[name]`.  Code: varfun.py:378, commands/ident-scan.py:65. -/
def varPlaces (uses : List Ev) (name : Str) : List Where := uses.filterMap (varPlace? name)

/-- A line of `print_variables`, ident-scan.py:105-107. -/
def variableLine (name : Str) (places : List Where) : Str :=
  c! "  " ++ padRight 32 name ++ c! "  [" ++ natStr places.length ++ c! " times in " ++
    natStr (places.map (·.filename)).eraseDups.length ++ c! " files]"

/-- `print_variables`, ident-scan.py:102-108, with the sorting of lines 64-65. -/
def identVariables (env : IEnv) (uses : List Ev) : List Str :=
  c! "Variables encountered:" ::
    (sortBy (nameLt env) (varNames uses)).map (fun n => variableLine n (varPlaces uses n)) ++ [[]]

/-- The lines about similar identifiers, ident-scan.py:138-145. -/
def similarText : List (Str × List Str) → List Str
  | [] => []
  | l :: ls => c! "Identifiers with similar names include:" :: (l :: ls).map (fun p =>
      c! "  " ++ padRight 32 p.1 ++ c! "  [similar to: " ++ joinStr (c! ", ") p.2 ++ c! "]") ++ [[]]

/-- The options, whether `editdistance` can be imported, and the order in which a set of texts is
enumerated.  Code: commands/ident-scan.py:27-30, 40-46, 76-80. -/
structure IdentArgs where
  verbose : Bool
  installed : Bool
  labelOrder : List Str → List Str
  idOrder : List Str → List Str

/-- What is printed, ident-scan.py:67-80. -/
def identOut (env : IEnv) (args : IdentArgs) (st : DState) : List Str :=
  (if args.verbose then
    identNames env (c! "Contexts encountered:") (st.dp.contexts.map (·.name)) ++
    identNames env (c! "Labels encountered:") (args.labelOrder st.dp.allLabels.eraseDups) ++
    identVariables env st.uses else []) ++
  if args.installed then similarText (similarLines env (args.idOrder (identifiers st))) else []

/-- `ident-scan`, ident-scan.py:49-88. -/
def identScan (sh : Shell) (ienv : IEnv) (args : IdentArgs) (fs : FS) (env : DEnv) (n : Nat) (path : Str) : CmdRun :=
  program { sh with muted := true }
    (andThen (readDialplan fs env n path) fun st =>
      if args.installed || args.verbose then .pure (.ok st) else .pure (.error .importError))
    (identOut ienv args)
    fun _ st => if args.installed then identExit (similarLines ienv (args.idOrder (identifiers st))) else 0

end ALint
