import Verif.Model.Command
import Verif.Model.IdentShow
import Verif.Model.Annotate

/-!
# Model of the command lines of the commands

`mainutil.py`: `MainBase.parse_args` and `UniqueStore`; `create_argparser` of the commands in
`asterisklint/commands`.  What `argparse` does with these parsers is modelled after CPython 3.11
(`Lib/argparse.py`, lines below with `A:`); not modelled are the texts of the usage and error messages.
Lists of what is left of the command line are used instead of indices into it.
-/

namespace ALint

/-- What an option does: show the help and exit, `store_true`, and `UniqueStore` (with the name of the
attribute).  The first two take no value, the last takes one.
Code: mainutil.py:38-43 and `add_argument` in the commands. -/
inductive OptAct where
  | help
  | flag (dest : Str)
  | unique (dest : Str)
deriving DecidableEq

/-- A parser with the given option strings, in the order in which they were added, and one positional
argument with `nargs='?'` and a default.
Code: `create_argparser`, e.g. commands/dialplan-check.py:27-42. -/
structure ArgParser where
  opts : List (Str × OptAct)
  default : Str
  /-- does it look like a negative number (A:2288)? -/
  negNum : Str → Bool

/-- The option tuples of A:2243-2340; `act` is `none` if there is no such option. -/
structure OptTuple where
  act : Option OptAct
  name : Str
  sep : Option Str
  val : Option Str
deriving DecidableEq

/-- `self._option_string_actions.get(name)`.  Used by mainutil.py:29-31 through argparse. -/
def ArgParser.find (p : ArgParser) (name : Str) : Option OptAct := p.opts.lookup name

/-- `arg.partition('=')`: what is before the first `=`, and what is behind it if there is one.
Used by mainutil.py:29-31 through argparse. -/
def splitEq : Str → Str × Option Str
  | [] => ([], none)
  | c :: s => if c = '=' then ([], some s) else ((c :: (splitEq s).1), (splitEq s).2)

/-- `_get_option_tuples`, A:2300-2340. -/
def optionTuples (p : ArgParser) (arg : Str) : List OptTuple :=
  if arg.take 2 = c! "--" then
    let (pre, val) := splitEq arg
    (p.opts.filter fun o => pre.isPrefixOf o.1).map fun o => ⟨some o.2, o.1, val.map fun _ => c! "=", val⟩
  else
    p.opts.filterMap fun o =>
      if o.1 = arg.take 2 then some ⟨some o.2, o.1, some [], some (arg.drop 2)⟩
      else if arg.isPrefixOf o.1 then some ⟨some o.2, o.1, none, none⟩
      else none

/-- Why no settings come out: the help was shown (exit status 0), or the arguments are refused with a
message about the usage (exit status 2).  Code: mainutil.py:29-35. -/
inductive ArgStop where
  | help
  | refused
deriving DecidableEq

/-- `_parse_optional`, A:2243-2298: `none` for what is no option; refused if it is ambiguous. -/
def parseOptional (p : ArgParser) (arg : Str) : Except ArgStop (Option OptTuple) :=
  if arg.head? ≠ some '-' then .ok none
  else match p.find arg with
  | some a => .ok (some ⟨some a, arg, none, none⟩)
  | none =>
    if arg.length = 1 then .ok none
    else match splitEq arg with
    | (name, some v) =>
      match p.find name with
      | some a => .ok (some ⟨some a, name, some (c! "="), some v⟩)
      | none => abbreviated
    | (_, none) => abbreviated
where
  /-- A:2270-2298 -/
  abbreviated : Except ArgStop (Option OptTuple) :=
    match optionTuples p arg with
    | [t] => .ok (some t)
    | _ :: _ :: _ => .error .refused
    | [] => if p.negNum arg ∨ ' ' ∈ arg then .ok none else .ok (some ⟨none, arg, none, none⟩)

/-- An argument as classified in A:1935-1962: `A`, `-` or `O`. -/
inductive ArgItem where
  | plain (s : Str)
  | dashes
  | opt (s : Str) (t : OptTuple)
deriving DecidableEq

/-- A:1935-1962. -/
def classify (p : ArgParser) : List Str → Except ArgStop (List ArgItem)
  | [] => .ok []
  | a :: args =>
    if a = c! "--" then .ok (.dashes :: args.map .plain)
    else match parseOptional p a with
      | .error e => .error e
      | .ok t => match classify p args with
        | .error e => .error e
        | .ok items => .ok ((match t with | none => .plain a | some t => .opt a t) :: items)

/-- The namespace: the positional argument, the values stored by `UniqueStore`, and the flags set.
Code: mainutil.py:31, 43. -/
structure ArgSpace where
  path : Str
  stored : List (Str × Str)
  flags : List Str
deriving DecidableEq

/-- `take_action` for an option, A:1971-1990; `args` is the value, if it takes one.
`UniqueStore.__call__`, mainutil.py:41-44. -/
def takeAction (ns : ArgSpace) (act : OptAct) (args : List Str) : Except ArgStop ArgSpace :=
  match act with
  | .help => .error .help
  | .flag d => .ok { ns with flags := ns.flags ++ [d] }
  | .unique d =>
    if (ns.stored.lookup d).isSome then .error .refused
    else .ok { ns with stored := (d, args.headD []) :: ns.stored }

/-- `take_action` for several options in turn, A:2063-2064. -/
def takeActions (ns : ArgSpace) : List (OptAct × List Str) → Except ArgStop ArgSpace
  | [] => .ok ns
  | (a, args) :: acts => match takeAction ns a args with
    | .error e => .error e
    | .ok ns => takeActions ns acts

/-- What comes out of matching an option: the actions, what is not recognised, and what is left.
Used by mainutil.py:29-31 through argparse (`consume_optional`). -/
abbrev OptMatch := Except ArgStop (List (OptAct × List Str) × List Str × List ArgItem)

/-- Matching an option with what follows it, A:2046-2058 (and A:2193-2225). -/
def matchFollowing (act : OptAct) (rest : List ArgItem) : OptMatch :=
  match act with
  | .unique _ => match rest with
    | .plain v :: rest => .ok ([(act, [v])], [], rest)
    | _ => .error .refused
  | _ => .ok ([(act, [])], [], rest)

/-- `action_tuples` with one more action in front.
Used by mainutil.py:29-31 through argparse (`consume_optional`). -/
def OptMatch.after (act : OptAct) : OptMatch → OptMatch
  | .error e => .error e
  | .ok (acts, extras, rest) => .ok ((act, []) :: acts, extras, rest)

/-- An option with an explicit value, A:2005-2044.  `short` is `option_string[1] not in chars`. -/
def matchExplicit (p : ArgParser) (rest : List ArgItem) : (act : OptAct) → (short : Bool) → (sep val : Str) → OptMatch
  | act, _, _, [] => match act with
    | .unique _ => .ok ([(act, [[]])], [], rest)
    | _ => .error .refused
  | act, short, sep, c :: s => match act with
    | .unique _ => .ok ([(act, [c :: s])], [], rest)
    | _ =>
      if !short then .error .refused
      else if !sep.isEmpty ∨ c = '-' then .error .refused
      else match p.find ['-', c] with
        | none => .ok ([(act, [])], ['-' :: c :: s], rest)
        | some act' => OptMatch.after act <| match s with
          | [] => matchFollowing act' rest
          | '=' :: s => matchExplicit p rest act' true (c! "=") s
          | d :: s => matchExplicit p rest act' true [] (d :: s)

/-- `consume_optional`, A:1986-2065: the namespace, what is not recognised, and what is left. -/
def consumeOptional (p : ArgParser) (ns : ArgSpace) (s : Str) (t : OptTuple) (rest : List ArgItem) :
    Except ArgStop (ArgSpace × List Str × List ArgItem) :=
  match t.act with
  | none => .ok (ns, [s], rest)
  | some act =>
    match (match t.val with
      | some v => matchExplicit p rest act (t.name[1]? ≠ some '-') (t.sep.getD []) v
      | none => matchFollowing act rest : OptMatch) with
    | .error e => .error e
    | .ok (acts, extras, rest) => match takeActions ns acts with
      | .error e => .error e
      | .ok ns => .ok (ns, extras, rest)

/-- Zero or more `-`.  Used by mainutil.py:29-31 through argparse. -/
def spanDashes : List ArgItem → List Str × List ArgItem
  | .dashes :: rest => (c! "--" :: (spanDashes rest).1, (spanDashes rest).2)
  | rest => ([], rest)

/-- Matching `(-*A?-*)`, A:2351-2352: the arguments and what is left. -/
def matchOptional (items : List ArgItem) : List Str × List ArgItem :=
  let (d, rest) := spanDashes items
  let (a, rest) := match rest with
    | .plain s :: rest => ([s], rest)
    | rest => ([], rest)
  let (e, rest) := spanDashes rest
  (d ++ a ++ e, rest)

/-- `consume_positionals`, A:2071-2090, with `_get_values`, A:2475-2502, which drops a `--`.  `open_` is whether the positional
argument is still to be matched. -/
def consumePositionals (p : ArgParser) (ns : ArgSpace) (open_ : Bool) (items : List ArgItem) : ArgSpace × List ArgItem :=
  if open_ then
    let (args, rest) := matchOptional items
    ({ ns with path := (args.erase (c! "--")).head?.getD p.default }, rest)
  else (ns, items)

/-- Is it an option?  (The letters `O` and `A` of `arg_strings_pattern` in argparse, used by
mainutil.py:29-31.) -/
def ArgItem.isOpt : ArgItem → Bool
  | .opt _ _ => true
  | _ => false

/-- The text as given, used by mainutil.py:29-31 through argparse. -/
def ArgItem.text : ArgItem → Str
  | .plain s => s
  | .dashes => c! "--"
  | .opt s _ => s

/-- The loop A:2092-2134, at most `n` rounds: while there are options left; then the rest. -/
def argLoop (p : ArgParser) : Nat → ArgSpace → Bool → List Str → List ArgItem → Except ArgStop (ArgSpace × List Str)
  | 0, ns, _, extras, _ => .ok (ns, extras)
  | n + 1, ns, open_, extras, items =>
    if items.any ArgItem.isOpt then
      match items with
      | [] => .ok (ns, extras)
      | .opt s t :: rest => match consumeOptional p ns s t rest with
        | .error e => .error e
        | .ok (ns, ex, rest) => argLoop p n ns open_ (extras ++ ex) rest
      | items =>
        let (ns, rest) := consumePositionals p ns open_ items
        if rest.length < items.length then argLoop p n ns false extras rest
        else argLoop p n ns false (extras ++ (items.takeWhile (!·.isOpt)).map ArgItem.text) (items.dropWhile (!·.isOpt))
    else
      let (ns, rest) := consumePositionals p ns open_ items
      .ok (ns, extras ++ rest.map ArgItem.text)

/-- `parse_args`, mainutil.py:31-33 and A:1873-1878. -/
def parseArgs (p : ArgParser) (args : List Str) : Except ArgStop ArgSpace :=
  match classify p args with
  | .error e => .error e
  | .ok items => match argLoop p (items.length + 1) ⟨p.default, [], []⟩ true [] items with
    | .error e => .error e
    | .ok (ns, []) => .ok ns
    | .ok (_, _ :: _) => .error .refused

/-- `-h` and `--help`, which every parser has, A:1782-1788. -/
def helpOpts : List (Str × OptAct) := [(c! "-h", .help), (c! "--help", .help)]

/-- commands/dialplan-check.py:27-42, commands/modules-show.py:50-67. -/
def checkParser (negNum : Str → Bool) : ArgParser :=
  ⟨helpOpts ++ [(c! "--func-odbc", .unique (c! "func_odbc"))], c! "./extensions.conf", negNum⟩

/-- commands/dialplan-show.py:26-40. -/
def showParser (negNum : Str → Bool) : ArgParser :=
  ⟨helpOpts ++ [(c! "--reverse", .flag (c! "reverse"))], c! "./extensions.conf", negNum⟩

/-- commands/ident-scan.py:34-47. -/
def identParser (negNum : Str → Bool) : ArgParser :=
  ⟨helpOpts ++ [(c! "-v", .flag (c! "verbose")), (c! "--verbose", .flag (c! "verbose"))], c! "./extensions.conf", negNum⟩

/-- commands/func_odbc-check.py:26-36, commands/func_odbc-annotate.py:26-37. -/
def odbcParser (negNum : Str → Bool) : ArgParser := ⟨helpOpts, c! "./func_odbc.conf", negNum⟩

/-! ## The commands with their arguments -/

/-- The texts of argparse: the help, and what it says about the usage and about what is wrong with
the arguments (not modelled).  Used by mainutil.py:29-31, 42. -/
structure ArgTexts where
  help : List Str
  usage : List Str → List Str

/-- `MainBase.__call__`, mainutil.py:35-37.  The help goes to the standard output and the exit status is 0
(A:1121-1123), other complaints go to the standard error output and the exit status is 2 (A:2624-2640). -/
def withArgs (tx : ArgTexts) (p : ArgParser) (args : List Str) (run : ArgSpace → CmdRun) : CmdRun :=
  match parseArgs p args with
  | .error .help => ⟨tx.help, [], .exit 0⟩
  | .error .refused => ⟨[], tx.usage args, .exit 2⟩
  | .ok ns => run ns

/-- `args.func_odbc`, which is `None` if not given.  Code: commands/dialplan-check.py:37-41, 46. -/
def ArgSpace.odbcArg (ns : ArgSpace) : Option Str := ns.stored.lookup (c! "func_odbc")

/-- commands/dialplan-check.py:61. -/
def dialplanCheckMain (sh : Shell) (tx : ArgTexts) (negNum : Str → Bool) (fs : FS) (env : DEnv) (n : Nat) (args : List Str) : CmdRun :=
  withArgs tx (checkParser negNum) args fun ns => dialplanCheck sh fs env n ns.odbcArg ns.path

/-- commands/modules-show.py:144. -/
def modulesMain (sh : Shell) (tx : ArgTexts) (negNum : Str → Bool) (fs : FS) (env : DEnv) (n : Nat) (args : List Str) : CmdRun :=
  withArgs tx (checkParser negNum) args fun ns => modulesProgram sh fs env n ns.odbcArg ns.path

/-- commands/dialplan-show.py:51. -/
def dialplanShowMain (sh : Shell) (tx : ArgTexts) (negNum : Str → Bool) (reprStr : Str → Str) (fs : FS) (env : DEnv) (n : Nat)
    (args : List Str) : CmdRun :=
  withArgs tx (showParser negNum) args fun ns =>
    dialplanShow sh reprStr fs env n (ns.flags.contains (c! "reverse")) ns.path

/-- commands/ident-scan.py:149; `args.verbose` comes from the command line. -/
def identMain (sh : Shell) (tx : ArgTexts) (negNum : Str → Bool) (ienv : IEnv) (iargs : IdentArgs) (fs : FS) (env : DEnv) (n : Nat)
    (args : List Str) : CmdRun :=
  withArgs tx (identParser negNum) args fun ns =>
    identScan sh ienv { iargs with verbose := ns.flags.contains (c! "verbose") } fs env n ns.path

/-- commands/func_odbc-check.py:51. -/
def odbcCheckMain (sh : Shell) (tx : ArgTexts) (negNum : Str → Bool) (fs : FS) (env : DEnv) (n : Nat) (args : List Str) : CmdRun :=
  withArgs tx (odbcParser negNum) args fun ns => odbcCheck sh fs env n ns.path

/-- commands/func_odbc-annotate.py:67. -/
def annotateMain (sh : Shell) (tx : ArgTexts) (negNum : Str → Bool) (sql : Option SqlParse) (fs : FS) (env : FEnv) (n : Nat)
    (args : List Str) : CmdRun :=
  withArgs tx (odbcParser negNum) args fun ns => annotate sh sql fs env n ns.path

end ALint
