import Verif.Model.Entry

/-!
# Model of the exit status of `asterisklint`, scripts/asterisklint
-/

namespace ALint

/-- `sys.exit(status)`, scripts/asterisklint:35.  An exception that is not caught ends Python with status 1.
`none` if the program has not ended within the given number of lines. -/
def CmdEnd.status : CmdEnd → Option Nat
  | .exit k => some k
  | .raised _ => some 1
  | .stopped .osError => some 1
  | .stopped .importError => some 1
  | .stopped .unfinished => none

/-- `sys.exit(main(sys.argv[1:], os.environ))`, scripts/asterisklint:35, main.py:149-194.  `programs` has the function `main` of each
file of a command.  Only the status: what is printed is that of the parts. -/
def wholeStatus (w : CmdWorld) (path : List Str) (home : Option Str) (programs : Str → List Str → CmdRun) (tx : ArgTexts)
    (version : List Str) (negNum : Str → Bool) (argv : List Str) : Option Nat :=
  match mainRun w path home argv with
  | .ran file args => (programs file args).fin.status
  | .listed _ => some 0
  | .noSuch => some 1
  | .raised => some 1
  | .usage args => (entryRun tx version (entryParser negNum) args).fin.status

end ALint
