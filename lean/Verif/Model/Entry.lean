import Verif.Model.Args
import Verif.Model.Main

/-!
# Model of `asterisklint` without a command, main.py:184-194
-/

namespace ALint

/-- The parser, main.py:185-193: the argument `command` is required.  Both actions exit. -/
def entryParser (negNum : Str → Bool) : ArgParser :=
  ⟨helpOpts ++ [(c! "-V", .flag (c! "version")), (c! "--version", .flag (c! "version"))], [], negNum⟩

/-- What the parser does.  Code: main.py:180-194. -/
inductive EntryOut where
  | help
  | version
  /-- an error message, exit status 2 -/
  | refused
  /-- the arguments are accepted, and nothing more is done -/
  | nothing
deriving DecidableEq

/-- The actions `help` and `version` exit.  Code: main.py:185-188. -/
def OptAct.exits : OptAct → EntryOut
  | .help => .help
  | .flag _ => .version
  | .unique _ => .refused

/-- The loop A:2092-2134.  The first option that is one exits; else `stray` is whether there was one that is none, and
`words` how many words there were that are no options, of which one is the command and more are refused.
Simplified: when which of the words is matched does not matter here. -/
def entryLoop (p : ArgParser) : Bool → Nat → List ArgItem → EntryOut
  | stray, words, [] => if !stray && words == 1 then .nothing else .refused
  | stray, words, .dashes :: rest => entryLoop p stray words rest
  | stray, words, .plain _ :: rest => entryLoop p stray (words + 1) rest
  | _, words, .opt _ t :: rest =>
    match t.act with
    | none => entryLoop p true words rest
    | some act =>
      match (match t.val with
        | some v => matchExplicit p rest act (t.name[1]? ≠ some '-') (t.sep.getD []) v
        | none => matchFollowing act rest : OptMatch) with
      | .error _ => .refused
      | .ok (acts, _, _) => match acts with
        | [] => .refused
        | (a, _) :: _ => a.exits

/-- `parser.parse_args(args)`, main.py:194. -/
def entryParse (p : ArgParser) (args : List Str) : EntryOut :=
  match classify p args with
  | .error _ => .refused
  | .ok items => entryLoop p false 0 items

/-- What is printed, and the exit status: `main` returns `None` at its end.
Code: main.py:149-194, scripts/asterisklint:34. -/
def entryRun (tx : ArgTexts) (version : List Str) (p : ArgParser) (args : List Str) : CmdRun :=
  match entryParse p args with
  | .help => ⟨tx.help, [], .exit 0⟩
  | .version => ⟨version, [], .exit 0⟩
  | .refused => ⟨[], tx.usage args, .exit 2⟩
  | .nothing => ⟨[], [], .exit 0⟩

end ALint
