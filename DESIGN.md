# asterisklint: formal model and proofs (Lean 4)

This file says what is modelled, how each property of `properties.jsonl` is proved, what the
proofs showed to be false of the code, and what has to be trusted.  `MANIFEST.json` lists the
theorems per property, `AXIOMS.md` the axioms of each theorem, `seeded/LOG.jsonl` the wrong
programs the theorems were tested against.

## Layout

* `lean/Verif/Py/*`     - the small part of Python used by the code: strings as lists of code
  points, `split`, `strip`, `isdigit`, `int`, UTF-8, the values handled by the argument parser.
* `lean/Verif/Model/*`  - the code of /repo, function by function; every definition cites file
  and lines and says where it simplifies.
* `lean/Verif/Spec/*`   - small independent specifications (grammars, languages, relations)
  used in the property statements; they do not use the functions of the model they specify.
* `lean/Verif/Proofs/*` - lemmas.
* `lean/Verif/Props/*`  - the property theorems, named `Cnn_...`, each with `example`s showing
  that the hypotheses are met by non-trivial values.  `Cnn_violated...` is the negation of a
  property, with a concrete input; `Cnn_..._partial` is a part of a property.
* `tools/*`             - scripts that write `MANIFEST.json` and `AXIOMS.md`.

## Trusted base

* Lean's kernel (4.33.0).
* The axioms `propext`, `Quot.sound` and `Classical.choice`, and no others.  There is no own
  axiom, no `sorry`, no `native_decide`, no `bv_decide`, no `implemented_by`, no `unsafe`.
  Which theorem uses which of the three: `AXIOMS.md`.
* That the statements mean what the English says.  They use the model (the code) and the
  definitions in `Spec` or at the top of the `Props` file.
* That the model is the code.  This is argued by the citations only: the code was never run.
  In particular the semantics of Python built-ins (`str.split`, `re`, `str.format`, `list.sort`,
  `bytes.decode`, `int`, tuple comparison, `os.path`) is taken from the documentation.

## Modelling conventions

* `str` is `List Char`.  Text comes from decoding bytes, so there are no surrogates.  `bytes` is
  `List Nat`.
* Exceptions are values (`Except Exc`).  `Exc.hang` stands for a loop that does not end.
* Messages issued (`E_...(where)`) go to a log, in order.  A message is recorded before it is
  formatted; formatting may raise.  Both effects are in the model (`Res.emit`, `Tr.emit`).
* Mutable objects become values that are threaded through.  Generators become step functions for
  one element.  The pipeline is pulled one line at a time, so the order of effects is the same.
* Loops are structural recursion, or take fuel.  Either the fuel is proved to suffice
  (`parseBytes`, `lookbackFuel`, `parseItems`, `callFunc`, ...), or Python itself could run for
  ever or exhaust its stack there, and the fuel is part of the statement (`pipeRun`,
  `runApp`, `matchPattern`).
* Singletons (`AppLoader`, `FuncLoader`, `VarLoader`, `MessageDefManager`) are a trace of events
  in the checks (`Ev`), and state machines of their own in `Model/Loader` and `Model/Message`.
* Parameters: the file system, the environment, `str.lower`, the tables of registered
  applications and functions, `repr` of a text, the depth of Python's stack, what paths mean and
  which system calls fail (mutator).

## What is modelled

| Code | Model | Not modelled |
|------|-------|--------------|
| `where.py` | `Where` in Model/Message, `Where.text` in Model/Command | |
| `defines.py` | Model/Message: `on_message`, `reset`, muting, `format`, all 84 message texts; Model/Repr: `repr` of the values in texts; Model/Command: what is printed, with `show_line` and `show_previous` | callbacks (only as the log), `repr` of a value and the text of an object without `__str__` (parameters) |
| `file.py` | Model/File, Model/Reader: all readers, UTF-8 and cp1252 decoding; Model/Handles: opening and closing with a limit on open files | closing by the garbage collector after an exception |
| `config.py`, `configobj.py` | Model/Config, Model/Vsw: the five regular expressions as functions, `preprocessor`, `runPP`, `Context`, `Varset`, aggregator | `__repr__` |
| `configws.py` | Model/Vsw: all | |
| `pattern.py` | Model/Pattern: all | attribute caching |
| `variable.py`, `expression.py`, `function.py` | Py/Value, Model/Var, Model/Varfun, Model/Dialplan (`format`) | `Var.__eq__`, `TypeError` for foreign items of `join` |
| `varfun.py` | Model/Varfun, Model/Loader, Model/Load | Python's import machinery |
| `application.py` | Model/App, Model/Loader, Model/Load | Python's import machinery |
| `app/base.py`, `func/base.py`, `app/vall/{builtin,app_stack,app_exec,app_originate}.py`, `func/vall/{func_logic,func_audiohookinherit,func_math}.py` | Model/App, Model/Varfun: every class with behaviour of its own | |
| the other files of `app/`, `func/` | Model/Registry (generated from the source): every class registered, with its behaviour | most theorems hold for any table (`AEnv.apps`, `FEnv.funcs`), C78 is about these |
| `dialplan.py` | Model/Dialplan, Model/Show: all | |
| `func_odbc.py` | Model/Odbc; Model/Annotate (`OdbcQuery`, `get_queries`) | what `sqlparse` does (a parameter; it does not raise) |
| `mainutil.py` | `odbcFile` in Model/Odbc, `readOdbc` in Model/Command; `parse_args`, `UniqueStore` in Model/Args, with `argparse` as in CPython 3.11 | the texts of help and usage messages |
| `version.py`, `cls.py` | Model/Version | |
| `main.py`, `scripts/asterisklint` | Model/Wrap (`wrap`), Model/Main, Model/Entry (its use of `argparse`), Model/Whole (exit status) | the texts of help and usage, the import machinery, Python before 3.5 |
| `helper/mutator.py` | Model/Mutator: `process`, `process_file` as system calls, each of which may fail or be interrupted; Model/Ask: asking for permission, the prints | power failure, other processes |
| `commands/dialplan-check`, `dialplan-show`, `func_odbc-check` | Model/Command as programs with output and exit status, from `checkDialplan`, `showDialplan`, `loadOdbc`, `Manager.exitStatus`; their command lines in Model/Args | texts of `argparse` |
| `contrib/make_patterns_canonical.py` | Model/Canon, Model/CanonProgram; Model/Ask: what it prints | arguments |
| `web/wsgi.py` | Model/Web: state between requests, opener, report; Model/WebFront: middleware, size limit, taking the text out of the JSON value | `falcon` (routing, `OPTIONS`, exceptions to statuses), reading JSON |
| `web/index.html` | Model/Page: the functions of the script from the text area to the HTML of the result | browser and jQuery; the static page; scrolling |
| `commands/ident-scan` | Model/Ident, Model/IdentShow (the program), Model/Args | texts of `argparse`; `editdistance` is taken to be the Levenshtein distance |
| `commands/modules-show` | Model/Modules, Model/Command, Model/Args | texts of `argparse` |
| `contrib/commands/vg.py` | Model/Vg: the reader, contexts, `dialplan-check` under it | loading the command |
| `alinttest.py` | Model/Testing: `assertLinted`, `tearDown`, `ignoreLinted`, `print_untested`, `GenerateTestCases` | `unittest` itself; documentation strings of generated tests; `create_instance_and_load_single_file` |
| `contrib/convert_dp_104_to_1100.py` | Model/Convert; Model/Ask: what it prints | faults while reading (but for opening the first file) |
| `commands/func_odbc-annotate` | Model/Annotate, Model/Args | texts of `argparse` |

Simplifications are stated at the definitions.  The most important ones:

* `Python`'s recursion limit is a number `depth` (any), not 1000 frames.
* Most theorems leave the text of `repr` open (`Rendered.repr`); it is computed in Model/Repr, but for the quotes around the
  text of a list in `W_FUNC_BALANCE`.
* The limit of 4300 digits for `int` in recent Python versions is left out.
* Identity of objects matters only in `Var.__eq__`, which no modelled code relies on.

## Properties

`P` proved, `p` proved in part.  Where a property is false of the code, the negation is a theorem
and the rest of the property is proved under the weakest conditions that were found.

### Reading files

* **C01** P.  `physLines`: concatenation, numbering, one LF at the end of each but the last; the
  conditions determine the lines (`C01_unique`).
* **C02** P.  The stack machine refines the recursive expansion relation `Spec.Expands`; for the
  loop alone with any include function and for the whole pipeline; beginnings of the expansion for
  runs that raise or do not end.
* **C03** P.  Ends iff the expansion is finite; with finitely many files iff no reachable file
  reaches itself.  Files can always be opened here; a limit is C101.
* **C04** p.  Windows-1252 as a table of characters in Spec/File (`C04_cp1252`).  `C04_violated`: bytes 81 8d 8f 90 9d are undefined in cp1252 and abort the run.
* **C05**, **C06**, **C07** P.  C07 by induction on the tree of includes.
* **C08**, **C09**, **C10** P.  Specification by the first unescaped semicolon; the fast path
  equals the general one.
* **C11**, **C12** P.  Line shapes as predicates; equivalences for every line.
* **C13** p.  `C13_violated`: the regular expression lacks a `+`, only one character is accepted
  between the parentheses.
* **C14** P.  **C15** p: a NUL in the name raises `ValueError` (`C15_violated`).
* **C16**, **C17**, **C18** P.  Invariants over any sequence of elements of any mix of files; the
  layout rule of C17 is in Spec/Vsw.

### Messages

* **C19**, **C20**, **C21** P.  Induction on histories.
* **C22** p.  `E_DP_LABEL_INVALID` and `W_FUNC_DYNAMIC` are issued without a value their text
  wants.  For every other kind: all values are supplied, in any run of a check.
* **C66** P.  Every message is at a line of a file that was read; so are those about `func_odbc.conf`
  (`C66_located_odbc`), and all of a run of `dialplan-check` (`C66_located_program`).

### Patterns

* **C23**, **C24**, **C27**, **C31** P.
* **C25** p.  A pattern without wildcard also matches longer extensions (`C25_violated`); outside
  Latin-1 matching raises.  The exact behaviour is proved.
* **C26**, **C28**, **C29**, **C30** p.  False for sets that start with a dash, for texts whose
  canonical spelling starts with an underscore, and outside ASCII; proved for all others
  (`Spec.Expressible`).

### Variables and functions

* **C32**, **C34**, **C38**, **C39** P.
* **C33** p.  Leading zeros, `${}`, a missing parenthesis and `${F(x)$[:3]}` do not print back.
* **C35** p.  A lone variable is split by its name.
* **C36** p.  `${foo:${x}:2}` raises `TypeError`, `${a:²}` `ValueError`.
* **C37** p.  Exact if every occurrence of a variable is free; too generous for repeated ones.

### Applications

* **C40** - **C46** P.
* **C47** p.  `Goto` and `GotoIf` with more than three arguments never end.

* **C71** p (end of `Props/Layout.lean`): messages of a line from its text.  Violated by the
  argument `"`, a single quote mark, which is taken for an empty name.
* **C72** p: invariant of the stack of files against the file read alone (`Proofs/VswFiles.lean`).
  The end-of-file hint is wrong in both directions.

### Dialplan

* **C48** - **C51**, **C53**, **C55**, **C56**, **C67** P.
* **C68** p: `Spec/Jumps.lean` says what a jump is completed to; invariant over the sections
  (`Proofs/Jumps.lean`).  Violated by `${EXTEN:${n}}`.
* **C52** p.  Within an extension the listing keeps the order of lines, not of priorities.
* **C54** p.  Contexts that include each other exhaust the stack.  Exactly when: the search comes
  to a context a second time (`Spec/Stumbles.lean`), by a relation without circles as the measure
  of the depth.
* **C57** p.  Ten witnesses of inputs that abort the check; the exact condition for a whole check
  (lines: `BadLine`, elements: `Trouble`, jumps: `Stumbles`), given that the includes of files
  end and the depth of calls is enough for the number of contexts.  `C57_tells_partial` states the same in
  terms of the files alone: `Fatal` (`Spec/Fatal.lean`) replaces `Trouble`, referring to the elements before (`Sofar`,
  C94) and to `LineSays` (C93, deep enough for the number of question marks) instead of the program's state;
  jumps stumble in `viewOf`, the steps and includes of the specification.  The proof goes through
  `trouble_fatal` (element by element, by `Agrees`) and `LookAlike` (a search sees steps and includes only).

### Calls and assignments

* **C91** P: `Spec/Calls.lean`: `TextSays` lists, for a text as written (`Txt` of C77), what is to be
  said; `FuncSays` and `AssignSays` for one call and one assignment (mutual, because of `SET`).
  The proof is by induction on `TextSays` (`Proofs/Calls.lean`).  `C91_special` reads off the table which
  functions have their own checks.  `Spec/Reading.lean` does the same for any text, however odd: `TextReads`
  (what is made of each substitution: `CurlySays`, of `name:start:length`: `SliceSays`, of the parts of
  a call: `CallParts`) and `BreaksOff` (a substitution that is not closed).  `C91_exact` and `C91_breaks`
  are equivalences: the check ends in that way with those events if and only if the specification
  derives them.  What is left are texts whose check ends with another exception; these are those of
  C57 (`Trouble`).
* **C92** p: `C92_exact_partial`: an equivalence for any data (`AssignSays` covers functions with variables in
  their arguments, checked wrongly, and data that is one single substitution, looked into).
  `C92_set_partial` is its form for data written as in C77.  Partial because the English claim is
  violated.
* **C93** p: `Spec/AppSays.lean` says for an application as written (`LineSays`) what is to be said about it,
  in terms of the pieces of its data (`Pieces` of C42/C43) and of `TextSays`; mutual with `AppSays` for
  the kinds of applications and `LinesSay` for the actions of `ExecIf`.  `C93_exact_partial` is an equivalence
  for any application: a run ends with these events and destinations, at some depth, exactly if
  `LineSays` allows them.  `C93_said_partial` for any depth, or else the stack is exhausted;
  `C93_enough_partial`: every depth above the number of question marks in the text is enough (`Proofs/Marks.lean`:
  every action of a condition has fewer of them); so with such a depth (`C93_depth_partial`) `LineSays` also says
  exactly when there is an internal error.  `ArgsDescribed`, the hypothesis, holds for the applications of the
  program (`C93_described_all`).  The rules follow the code where it does not do as the English says: not
  once but twice, variables in actions of `ExecIf` (`C93_violated_twice`); the commas are lost from an old-style
  action (`C93_violated_old`).
* **C94** P: `Spec/DialplanLog.lean` goes through the elements once (`dialplanSays`), keeping what a reader
  would (`Sofar`: the lines that got a number, where `[general]`, `[globals]` and the first context are), and
  says what is to be said about each.  The messages about an application are taken from the modelled
  `runApp` here; what they are is C93.  `Agrees` relates `Sofar` to the caches of the code; preserved by every
  element.  `C94_check`: a report is a merge (`Merges`) of what a plain reader of the lines says and of
  `dialplanSays`, then `endSays`, then `JumpSays` for each jump.  `Spec/DialplanTells.lean` does the same by rules that
  do not mention `runApp`: the messages about an application are those of `LineSays` (C93); uses of variables, functions
  and applications and the destinations of jumps (`CompletedAs`: exactly the code's, also where C68 is violated) come
  along.  `C94_tells`, `C94_tells_check`: every run without exception is as the rules have it; `C94_unique`: the rules
  leave no choice.  `C94_files` has no state of the program left: jumps are looked up in `viewOf`.
* **C95** P: `Spec/Annotate.lean` says by rules which lines belong to a section (`SectionShown`), where a section
  stops (`SectionStops`) and how sections follow each other (`SectionsShown`), in terms of the settings of the
  sections of the file and of an arbitrary SQL parser.  `C95_shows`: output and end are those the rules allow, and no
  others (the rules are shown to be total and without choice).  `C95_all`: the end is 0 exactly if all sections can
  be shown.  `C95_silent`, `C95_semicolon`.
* **C96** P: `Spec/LineLog.lean` says by rules what is said about a line and what it comes to (`LineTells`): decoding,
  terminator, comment, the shapes of C11/C71, directives with the path they name (`PathFrom`).  `C96_unique`,
  `C96_total`: the rules leave no choice and cover every line that can be decoded (and names no path with a NUL).
  `C96_files`: after a run without exception the log is the messages of all lines of the include tree, merged with the
  terminator messages of the tree (C07) and the hints about blank lines (`HintsFor`, from C17 and C72 by showing that a
  tree without a file twice is `Nested`); which lines those are and what they include is fixed by the rules
  (`KnowsIncludes`, `KnowsText` quantify over any function that agrees with them; `C96_knows` shows there is one).
  `C96_alone`: the same for a file without includes, where the hints are those of its layout without exception.
  `C96_check`: with C94, all messages of a check of a dialplan.  Induction on the lines read, through all stages.
  `C96_order` (`Spec/Issued.lean`: `Issued`): the same in the order in which they are issued, line by line: bytes,
  terminators, layout, blank lines, dialplan; then what is missing, then the jumps.  Upon which later line the end of a
  file or blank lines are spoken about is left open (in the order fixed by C07/C72).

### Others

* **C58** P, **C59** p (names that differ in case displace each other).
* **C60** P, **C63** P.
* **C61** p: a relative link is resolved against the working directory, and the file found there is
  overwritten.  **C62** P: at every step and for every failure.
* **C64** p: messages and the spelling of `Background` leak into later requests.
* **C90** P: `Spec/Web.lean` says which lines include a file.  A check that ends has read every line
  (C02), opened nothing but itself (`webRun_own`), and not even that (C03).
* **C69** p: `Spec/Ident.lean` (edit distance by alignments); sorting lemmas in `Proofs/Sort.lean`.
* **C70** P: `Spec/Modules.lean` (layout of the listing); invariant that what the application of a
  step uses is recorded (`Proofs/Modules.lean`).
* **C73** p, **C74** p.  File system and loader are parameters (`CmdWorld`).  The command run and the
  list are characterised by `FirstWith` over the search path.  Violated for unknown names (exception
  instead of message) and for a command called `ls`.
* **C75** p.  `Pieces` says what it is to cut text at the top-level delimiters, and is unique
  (`pieces_unique`); `PartsReport`, `BlankToks` and `Constant` say what is reported (`Spec/Cond.lean`).
  Data with a variable without a name is excluded (`Sound`), because the check fails there; `ExecIf` in
  the old style fails after its message.  What is said about the actions of `GosubIf` and `ExecIf` is
  exact in C93 (`GosubSays`, `LinesSay`).
* **C76** the whole check, from bytes to the end of the look-up of jumps.  `Spec/Clean.lean` says what
  is meant (`CFile`), how it is written (`fileLines`), what makes it clean (`GoodFile`) and what is
  read (`AsMeant`).  Proved line by line through all stages (`Runs`, `pipe_file`) with an invariant of
  the aggregator (`Base`, `InCtx`, `InExt`).  That an application causes no message is a hypothesis
  (`QuietApp`), discharged for literal arguments by `C76_plain`, `C76_set`, `C76_goto`, `C76_gosub`, `C76_args`,
  and for arguments with substitutions (C77) by `C76_plain_text`, `C76_set_text`, `C76_args_text`,
  `C76_gotoif`, `C76_gosubif`, `C76_execif`, `C76_iftime`.
* **C77** `Spec/Text.lean`: the syntax tree (`Txt`), how it is written, what it means, what it uses, and
  when it is in order (`GoodTxt`; functions are those that only want balanced arguments).  Induction
  over the tree; that joining only depends on the tokens (`join_determined`) is the key lemma.
* **C78** `Model/Registry.lean` is written by `tools/registry.py`, which reads the classes and
  `register` calls of all application and function modules with Python's `ast`: names, module,
  behaviour, and the versions whose directory has the file.  `loadAll` registers them in the order the
  directory lists them; that order is arbitrary (`ListsFiles`).  Names are distinct even in lower case
  (checked by `decide +kernel` on the whole table), so the order does not matter; how `lower` treats
  non-ASCII letters is left open (`LowersAscii`).
* **C79** a relation between two runs (`Kept`: if the first reports nothing missing, the second is the
  same) through every function that looks up applications or functions, up to whole files.  The tables
  of version 11 are contained in those of version 13 (checked on the whole table).
* **C80** p: text in order is an inductive predicate (`Nests`); induction over it shows what the stack of the
  loop does.  Quotes of one kind inside the other hide comments (violated).
* **C81** p: `Folded` says how lines form groups (exists, unique); the reader, which is one line ahead, is related to
  handing the unfolded lines to the parser one by one (`Tells`: same value, messages up to order), by induction
  over the lines.  Across `#include` violated.
* **C82** p: an invariant on the places of steps and includes of a context, over the elements read, which are shown not
  to depend on the aggregator.  Leftovers: violated. `C82_exact_partial`: each context in
  the end equals the one the ordinary aggregator makes of its last section alone (a simulation of the two aggregators on the
  current context), and contexts are in the order of the last headers.
* **C83** the reader one line ahead against the plain one (`vgRun_ordinary`, induction on the number of lines,
  delivering commutes with reading as nothing but directives touches the open files), and both aggregators agree as long as no name
  repeats (`Same`).
* **C84** P: `Spec/OdbcLog.lean` writes the report as a function of the elements read (`odbcSays`,
  `nothingDefined`); the lines kept by the reader are shown to be the first ones of each setting (`firsts`).
* **C85** P: Model/Command makes programs of the commands (what is written, how it ends);
  Spec/Command says what printing a list of messages means (`Said`, `PrintedAs`) and which value of
  `ALINT_IGNORE` leaves out a name.  The heart is Proofs/Tidy: through all functions of the model,
  either all messages issued have a text or only the last one has not and then the computation
  failed there.
* **C86** P: Model/IdentShow makes a program of ident-scan. `C86_lists`: the three lists against
  `Spec.ListsNames` (each name once, sorted, one line each), with labels and identifiers enumerated in
  any order; `C86_program`: what follows, the exit status, ImportError, no messages.
* **C87** P: a test is a list of steps (a message, a check, an exception); `Spec.GoesWell` says when
  it goes well, with counts of names. Invariant: the manager holds the messages since the last check
  (`Tally`). `C87_alone`/`C87_suite`: no influence between tests; `C87_untested`; `C87_ignore`.
* **C88** p: `C88_generated` says which method each name has; `C88_all_partial` under different
  names, `C88_names` when names are different; violated otherwise.
* **C89** p: the second half holds, trivially as it turns out: `C89_untouched_partial` says that no run
  of the converter, on any dialplan, changes any file.  A dialplan read to the end has no report of an
  old-style `ExecIf` (`calm_readDialplan`, a walk over everything that issues messages), the report of
  any other application makes `process_issue` raise, and its line exists (C66), so that it is reached.
* **C65** p: a canonical spelling with a comma, semicolon or line feed breaks the line; escaped and cp1252
  patterns are not changed; the meaning may change.
* **C97** p: `Model/CanonProgram.lean` is the whole program on a disk.  `Spec/CanonProgram.lean` says which lines have a
  hint (`HintAt`), what replacing the first occurrence means (`Swapped`) and which files are read (`FilesRead`).
  `C97_rewritten_partial`: the files afterwards, if every file is read once and files with hints are at entries of their
  own (`SitsAt`: under that name, or one link away, if the text of the link names them from the current directory).  Hints come only from the `exten` lines of the include tree, one for a line, in order
  (`Proofs/CanonHints.lean`: an invariant through everything that issues messages; `Proofs/Expansion.lean`: line
  numbers increase in a file); then C61 for each file.  `C97_untouched`: when nothing is written.  Violated without
  these conditions: a file read twice keeps lines with hints (`C97_violated_twice`), a file under two names has more than
  the pattern replaced (`C97_violated_names`), behind other links the wrong entry is replaced (`C97_violated_links`).  `Spec/CanonAgain.lean` says when two dialplans are the same up to the
  spelling of patterns (`SamePlan`) and when the canonical spellings can stand in their places (`Fit`).
  `C97_again_partial`: the rewritten files are read again as the same dialplan, without a hint, and a second run changes
  nothing, if no other file read is reached through the entry of a file with hints.  Proof: the rewritten files expand to the same tree
  with every line rewritten (`expand_each`; C01 for the lines, C65 for each of them), so the elements are the same but for
  the patterns, and the aggregator on them goes through the same states up to the spelling of patterns (`feed_sim`).
  Without `Fit` a step may be lost (`C97_violated_again`).
* **C98** P: `Spec/Shown.lean` says how each byte is written, which quotes are used and when a line is cut;
  `C98_shown` that this is what is shown, and nothing else is; `C98_printable`, `C98_read_back` (by a reader of such
  texts) and `C98_cut` follow.  `C98_dialplan_check` puts it together with C85 and C66.
* **C99** P: `Model/Ask.lean` has what is said, asked and done to the disk in one list, in order; every system call,
  print and question may fail.  `C99_permission`: before the disk is touched the names were shown and the answer is `y`.
  `C99_refused`: the rest of the answers.  `C99_announced`: at every moment, what differs was announced.  `C99_screen`:
  what is on the screen, if nothing fails.  `C99_done`: when Done is said.  `C99_listed`: the files shown.  `C99_effect`:
  the disk afterwards is that of C97.  Proved by following the run (`mutatorTalk_cases`), and by an invariant for each
  file (`rewriting_all`).

* **C100** P: `Model/Handles.lean` lists what is done to files (opened, refused, closed, a line delivered);
  `Spec/Handles.lean` says which files are open after a list of such acts, or that it makes no sense.
  `C100_nested`: any number of rounds makes sense, and the files open are those in the middle of being read.  `C100_room`:
  never more than allowed.  `C100_closed`: reading ends, all closed.
* **C101** P: `ExpandIn` is the include expansion cut off at a depth, with the lines refused their file.  `C101_ends`,
  `C101_unique`: reading ends with just its lines, and refused lines get the messages of a line whose file is missing.
  `C101_refused`, `C101_self_include`: when lines are refused.  `C101_same`, `C101_check`: otherwise the model with a
  limit and the one without (used everywhere else) agree.  The limit counts the files of one reading; handles the
  process has open besides make it smaller.

* **C102** p: `Spec/WebForever.lean`.  `C102_violated`: a text whose first line (but for comments and the like) is
  `#include extensions.conf` is never answered, for every number of steps; the uploaded text is no file, so no limit on
  open files helps, and the server handles one request at a time.  `C102_answered_partial`, `C102_never`,
  `C102_others`: all other requests are answered, at the latest after the lines of the text.
* **C103**: `Model/Args.lean` follows `argparse` of CPython 3.11 step by step (classification of the words, abbreviations,
  groups of letters, `--`, the matching of what is no option), for the parsers the commands make.  It was compared with
  the real module on 100 000 random command lines.  Whether a word looks like a negative number is a parameter.
  `Spec/Args.lean` reads a command line from left to right (`LineGoes`).  `C103_exact` is an equivalence;
  `C103_words`, `C103_once`, `C103_settings` say what holds of accepted lines, `C103_check_usage` and `C103_check_twice` are the
  cases a user knows, and `C103_dialplan_check` etc. join the command lines with the programs of C85.
* **C104** p: `Spec/WebFront.lean` (`Asks`, `Uploads`).  `C104_asks`, `C104_other`, `C104_unique`: exactly the requests that ask are
  checked; `C104_status_partial`; `C104_history`: what later requests find.  `C104_malformed`, `C104_violated`: a body that is JSON but
  without the text is answered with 500.
* **C105** p: `Spec/Page.lean` reads HTML (`HtmlReads`, shown to be unique) and says what is on the page (`pageToks`).
  `C105_escaped`, `C105_no_markup`, `C105_no_markup_failed` for all texts and reports; `C105_page` for results in order;
  `C105_posted`, `C105_lines`: both sides number the lines alike; `C105_server_partial` joins C64, C66 and the page, for a server no
  earlier request of which failed.  `C105_violated_leak`: else a message may be counted but not shown.
* **C106** p: `Spec/Entry.lean` on top of the words of C103 (`WordIs`).  `C106_exact`: what becomes of a line, exactly;
  `C106_status`: the only way to end silently; `C106_options_partial`: no line of proper options does; `C106_violated`: some
  lines do.  A Python port of the model was compared with the argparse of Python 3.11 on 60 000 random lines: no difference.
  `Props/ArgUsage.lean` (`Spec/ArgUsage.lean`): `C106_asked`, `C103_files`, `C103_show_usage`, `C103_ident_usage`, `C103_help`,
  `C103_no_other` name the options and defaults literally.
* **C107** P: `Spec/OneLine.lean` (the text of a report, signature of a message).  `Flat` (no line feed) is carried through
  everything that can become an argument of a message: lines, names of files, elements, patterns and their examples, variables,
  destinations, contexts (`Proofs/Flat.lean`, `FlatRun.lean`, `FlatLine.lean`, `FlatDialplan.lean`).  `C107_dialplan_check`,
  `C107_func_odbc_check`: no line has a line feed, so the text splits in one way only; `C107_heading_tells`: the first line of
  a message tells file, line, name and text; `C107_report_tells`, `C107_same_report`: equal reports, same messages.
  Assumed: `repr` and `str` of Python give texts without line feed (`OneLineTexts`); paths given by the user are without
  line feed (the last `example` shows what happens otherwise) and, for reading the names back, without blanks.
* **C108** p: `Model/Repr.lean` (Python's `repr` of texts, numbers, `None` and lists; for variables, whose classes have no
  `__repr__`, a text by a parameter), `Spec/SameReport.lean` (`ShowsObject`: a variable under `!r` or in a list).  `Addressless` is
  carried along with the places of messages (`Proofs/Uses.lean`, `Supplies.lean`, `Located.lean`).  `C108_func_odbc`: equal runs;
  `C108_messages`: same end, same messages; `C108_same_partial`: equal runs if no message shows a variable;
  `C108_kinds_partial`: only eight classes can; `C108_violated`, `C108_violated_kinds`: all eight do.
* **C109** P: `Spec/Quoted.lean`.  `repr` of a text can be read back whatever stands behind it (`Proofs/Quote.lean`, by a reader of
  escapes), numbers end where no digit follows, and in all texts no field is followed by a digit.  `C109_quote_tells`,
  `C109_quote_visible`, `C109_line_tells`, `C109_dialplan_check`.  Also `C107_python_texts`.
* **C110** P: `Spec/Locality.lean` says which files are read and which names are included (`FileRead`, `FileNamed`), by what a
  line comes to according to `Spec/LineLog.lean`.  By induction over the lines: all open files are files read, and a line is the only
  place where another one is asked for.  `C110_reading` holds for any consumer; from it one theorem per command.  With the files
  that are not included taken away, C66 gives `C66_read` and `C66_read_odbc`: messages are about lines of files that are read.
* **C111** P: `Spec/Passed.lean` says what it means for a line, an element and a dialplan to be fine, without messages.  `C111_line`
  and `C111_elem` are equivalences with "nothing is said" of C96 and C94; `C111_silent` and `C111_fine` are the two directions for a
  whole check, the latter for files included once (as in C96, see C72).  `C111_passed` is about the command.  An include of a
  lone `"` counts as fine, because nothing is said about it (C71).
* **C112** P: Model/Whole puts the parts together: `main.py` (C73, C106), the command line (C103), the check (C85), the exit
  status (C20).  `C112_status` has equivalences for 0 and 2; `C112_passed` adds C111; `C112_position` is about the place of the command.
* **C113** P: `odbcTells` gives what is said about sections and settings, also about templates; `C113_says`: all messages are
  those about the lines (`FilesSay`, C96) interleaved with these, then the sections without a statement.  `sound_iff`: nothing of
  the latter kinds is said if and only if the file is sound in the sense of `SoundOdbc`, whence `C113_iff`, `C113_silent`,
  `C113_status`, `C113_passed`, `C113_dialplan`.
* **C114** P: the reading of the longer file simulates that of the shorter one with more lines in the outermost file
  (`lengthen`) up to where the shorter one ends (`pipeRun_longer`); what is said there is of the kinds in `SaidLast`, whence
  `C114_before`.  A file whose reading ends does not include itself (`expand_not_self`, by the number of lines), so that what is on
  disk under its name does not matter otherwise (C110); `C114_lines` by uniqueness of the expansion and of what a line gives.
  `C114_jumps`: contexts, steps and includes only grow (`grown_feed`), and `JumpOk` is monotone in them (`Grown.jumpOk`).
- **C115** Comments can be reworded. `Spec/Wording.lean` says when two lines are the same for the check (`SameLine`,
  in terms of `DecodesAs`, `Unterminated`, `Content`, ... of C96), what the same files (`SameFiles`), the same messages (`SameMsg`:
  kind, values, file, line number, earlier place) and the same outcome (`SameOutcome`) are, and what a reworded comment is
  (`Reworded`). `Proofs/Bare.lean` proves that everything behind the reading of lines commutes with leaving the text of the line out
  of all places (parametricity: aggregator, blank lines, completion, jumps). `Proofs/Wording.lean` runs two pipelines side by side.
  `C115_same_data` is the general form, `C115_comments` the one about comments.
- **C116** Line terminators. The same simulation with the four messages about terminators left out of the comparison:
  `C116_same_data`, `C116_terminators`, and `C116_dos` for texts saved with CR LF.
- **C117** Including is like writing in place. `Spec/Splice.lean` says when lines of one file are replaced (`Replaced`) and
  when that is the content of an included file for the line that includes it (`Inlined`; the two files are in the same
  directory, since names are resolved from there). `Proofs/Splice.lean` writes a check as a function of the list of lines
  with what each says and gives (`tellAll`), shows that replacing places commutes with it (`Proofs/Bare.lean`, for any
  function on places), and compares the expansions (C02) of both files. `C117_inlined`, `C117_outlined`; messages about
  terminators and the number of blank lines are left out (`substance`) since these depend on the end of a file.
- **C118** Comment and blank lines. The same tools; `Idle` says that nothing is to be said about the new lines.
  `C118_inserted`, `C118_removed` give the exact line numbers (`lowered`), also when the file is included several times.
  `idle_blank`, `idle_comment`, `idle_more` show which lines are `Idle`.
- **C119** Another directory. Both checks are mapped to a common one in which each file of the directory has its name
  within it (`tagged`, injective, so nothing that is found by name changes); the pipeline commutes with such renamings.
  `path_within` shows that resolving a relative name commutes with putting a directory in front. The hypothesis `MovedTo`
  says in terms of the text of the lines that nothing is included by a path from the root; a name such as `../x` is
  allowed, then the files above the directory must correspond as well. `C119_moved` gives the whole list of messages.
- **C120** Ways to write the next step. `next_spelled` shows that behind an accepted step all four spellings lead to the same
  call (`nextAdded`), `justAdded_above` finds the state behind the line above from what the theorem says about whole checks
  of the files up to there (the invariants of C18-C24), and `replaced_line` carries one changed line through the
  rest of the check. Partial: behind a line that was refused, `same` is the extension of the last line that was not
  (`C120_violated`). Extensions written in another than their canonical spelling are left out, as there is a message about them.
- **C121** The order of the contexts. `along_section` reads a section from two states that agree on its context and shows
  that the same is said and that nothing else changes but for what is appended to the labels and jumps; `sections_shuffled` is an
  induction over permutations; `walkDests_perm` shows that every jump is judged by itself. Lines are moved between places as in
  C118. Partial: the first step of a section must have an extension and a priority of its own, as `n` otherwise goes on from
  the context above (`C121_violated`); and if `Background` is used, its spelling must have been chosen in the beginning of
  the file, as otherwise the first use decides which of the others is complained about (`C121_violated_spelling`).
- **C122** The order of the extensions. `over_block` reads the lines of an extension from a state whose current context has more
  steps of other extensions and shows that the context grows by the same steps and the same messages are given; `blocks_run` does
  this for a list of extensions. So after reading all of them the context has the same steps in another order
  (`DpLike`), and what looks at a context — jumps (`like_walk`), the end of the file (`like_complete`) and the listing
  (`like_show`, by `sortedPatterns_perm`: the sorted list of different patterns is unique) — does not notice. `parts_moved` carries this over to
  files. Partial: an extension starting with priority `n` continues the numbers of the extension above (`C122_violated`),
  an extension with steps in the context already is not independent of its place (`C122_violated_again`), and the
  spelling of `Background` must be settled before (as in `C121_violated_spelling`).
- **C123** Contexts in pieces. Any order: the induction of C121 needs only that two neighbouring sections belong to different contexts
  when they change places (`Regrouped`); a list with the same pieces of every context in the same order is reached by
  such changes (`regrouped_of`). The repeated header: the context is updated, which differs from leaving it alone in
  its place, its last priority and its sorted patterns (`Near`, `near_again`); lines up to the first step with an extension and a priority of its own
  do not look at these, that step makes the last priority the same (`near_body`), and so does a header (`near_header`).
  `part_replaced` carries this over to files. Partial: a first step with the priority `n` is said to be out of order
  (`C123_violated`), a header with a comment or templates stops the check (`C123_violated_comment`), and the spelling of
  `Background` must be settled before (as in `C121_violated_spelling`).
- **C124** Includes anywhere in their context. An `include` line appends to the includes of the current context and does nothing else
  (`step_include`); adding a step neither looks at the includes nor changes them (`addExt_incl`), so that handling any other line of the
  context commutes with it, also when that fails (`others_tell`). Both orders end in the very same state and give the same messages in
  another order (`swap_tell`), whatever follows. The lines are found in the other file as for C123 (`part_swapped`). Spec:
  Spec/Anywhere.lean.  Moving an include past another include changes the order of the includes and is not claimed.
- **C125** Lines that are disregarded. Each of them leaves the state as it is, and what is said about it is about it
  (`step_disregarded`, `lineTells_place`), so the lines below are read from the same state (`whole_around`). Taken out: the
  messages are those of the file with the lines without one contiguous piece, all of it about these lines (`LinesLess`). Put in: the check
  succeeds as well, and the first half applies. `part_exchanged` carries this over to files. Spec: Spec/Disregarded.lean. Assignments in
  `[general]` and the first `[globals]` are kept, so they are not disregarded. Steps that are refused (a duplicate priority) are no such lines
  either: they do change what `n` means below (C126).
- **C126** Steps that are refused. That lines have not become part of the dialplan is said by what the check shows: the contexts, includes
  and steps are those that were there in front of them (`NotTaken`). Every line of a context either adds to the number of includes and
  steps or leaves all of the content as it is, up to the last priorities, the spelling of `Background` and what has been used
  (`var_sizes`, `lines_sizes`: `Alongside`); all it says is about its line (`var_place`). If the last priorities and the spelling agree as
  well (`SameForNext`), whatever follows goes the same way (`near_of`, `near_tell`, `tell_uses`). The last priorities may differ if the next
  line is a step with an extension and a priority of its own, which does not depend on them and settles both (`own_last`, `goes_own`), or if
  there is no next line: `C126_taken_own_partial`, `C126_added_own_partial`. Carried over to files by `part_exchanged`, as C125.
  Spec: Spec/Refused.lean. Partial: a refused duplicate does change the last priority (`C126_violated`) and may settle the spelling of
  `Background` (`C126_violated_spelling`).
- **C127** The exit status and the layout. The status is 0 if and only if all that is said about the definitions of functions and about the
  dialplan is ignored (`check_exit`, from C20). The definitions are the same, since the files they are read from are the same
  (`readOdbc_at`, from the proof of C110) and more steps than needed change nothing (`loadOdbc_fuel`). What is said about the dialplan is,
  apart from messages that are ignored, of the same kinds by C117, C118, C124 and C125. Spec: Spec/Status.lean.
- **C128** The order of the functions. A reading is told line by line for any kind of file (`tellBy`, `pipeRun_tellsBy`,
  `pipeRun_of_tellsBy`, as for dialplans). Up to order, all that is said about a func_odbc.conf is what is said about the lines, what
  `odbcTells` says, and the sections that define nothing (`load_tells`, `load_of_tells`; C113). At a header all of this starts afresh
  (`sections_header`, `tells_header`), so it is the same for the parts in any order (`parts_gist`), and places do not matter (`gist_re`).
  The functions are entered one after the other, the last one for a lowered name counts (`register_perm`). Spec: Spec/OdbcParts.lean.
- **C129** Layout of a func_odbc.conf. As C117 and C118, for the reading told line by line of C128 (`load_tellsAll`, `load_of_tellsAll`):
  lines that give nothing and say nothing can be skipped (`loadTell_skip`), and what is read and said is the same with other places
  (`loadTell_bare`, `loadTell_same`). The exit status of func_odbc-check follows as in C127. For dialplan-check the functions known are
  the same, so that the dialplan, which does not read the file, is checked exactly as before (`dialplanChecks_alike`, with C110).
  Spec: Spec/Splice.lean, Spec/OdbcParts.lean, `Relaid` in Props/OdbcSplice.lean.
- **C130** Disregarded settings. As C125, for a func_odbc.conf: each such line leaves what is known as it was, and what is said is about this
  line (`step_odbcDisregarded`, `odbcDisregarded_tell`), so that what follows goes the same way (`load_around`); carried over to files by
  `odbc_exchanged`. The exit status: `odbcChecks_so`, `dialplanChecks_so`, as in C129. Spec: Spec/OdbcIdle.lean.
- **C131** The order of settings. What is said of a setting depends on the settings above it only through the first line of the same name,
  but for the warning that it is late (`settingSays_butLate`), so two groups without a common name can change places (`tells_two`), and the
  first setting of each name stays the same (`SameSets`), and with it what is read (`names_same`, `values_same`); carried over to files as in
  C128 (`odbc_swapped`). The exit status: `odbc_exit`, `dialplanChecks_by`. Not claimed for groups with a name in common: of these the first counts. Spec: Spec/OdbcOrder.lean.
- **C132** A function taken out. Sections are read each for itself (`sections_next`, `tells_next`), so all that is said is what is said about the
  section and what is said about the rest (`gist_next`), and the former is about its lines (`gist_at`); of the names that are made known one
  is missing (`register_without`). Carried over to files as in C128 (`odbc_without`). The other direction, putting a section in, is the same
  statement read backwards, for a file that can be read with it. Spec: Spec/OdbcWithout.lean.

## Violations found

All of them are theorems (`..._violated...`) about the model, read off the code by hand:

* Files: undefined cp1252 bytes abort; a file that includes itself is read until no more
  files can be opened, and is then said not to be found (C101); a NUL in an
  include raises; templates of more than one character are not recognised;
  `#include "` passes for an empty name in quotes;
  the end-of-file hint is missing for a file followed directly by another included file, and is
  given for a file that ends with an include after a blank line.
* `vg`: `'` inside `"…"`, or `"` or `(` inside `'…'`, hides a comment; a line with a blank after `#include` is
  joined to the included file; a second `[general]` ends the program with `AssertionError`; contexts of other files are
  never replaced as objects are compared; jumps and labels of a replaced context are kept.
* Web: a posted text that includes `extensions.conf`, its own name, is never answered.
* Messages: two kinds cannot be formatted (`KeyError`).
* Dialplan: a second `[general]`; a re-opened context with comment or template; `exten =>` without
  comma; digits such as `²`; an unclosed or empty set; an extension outside Latin-1 in a jump;
  a list as priority of `Gosub`; contexts that include each other; a jump to `${EXTEN:${n}}`.
* Variables: `${}`; `${(x)}`; `${A${B}(x)}`; `${foo:${x}:2}`.
* Applications: `Goto(a,b,c,d)` never ends; `GotoIf(${}?1)` and `GotoIf($[]?1)` end the check; so does
  `ExecIf(a,b,c)` (old style), right after its message, so that `contrib/convert_dp_104_to_1100.py`,
  which collects these messages, never rewrites anything (C89).
* func_odbc: names that differ in case only; a NUL in a name.
* GenerateTestCases: tuples of arguments that give the same name (`('a_b', 'c')`, `('a', 'b_c')`):
  only the last one is tested (C88_violated).
* ident-scan: only neighbours are compared, so similar names are missed; with three names that
  differ in case only the output depends on the hash order of a set.
* Commands: an unknown command ends with a traceback; a file `ls.py` is listed but never run; one
  module that cannot be loaded makes `ls` fail.
* Mutator: relative links, links to links (C97_violated_links); web: leaks between requests; make_patterns_canonical: see C65; a file
  that is read twice keeps lines with hints or is changed twice (C97).
* Assignments: `Set($[a=b])` passes for an assignment; the arguments of a function that is written to
  are checked for balance piece by piece if they have variables (`Set(LEN(a(${x}))=1)` is reported,
  `Set(LEN(a(${x})=1)` is not); `Set(a)=1)`, `Set(${y}(a)=1)` and `Set(INC(${x})=1)` end the program.
* ExecIf: a variable in an action is reported, and counted as used, twice (C93).
* GotoIf, GosubIf: of an old-style action `a,1` the comma is lost, and the label `a1` is looked for (C93).
* Web: `{}` as body is an internal error (C104); a message left by an earlier request may be counted but not
  shown (C105).
* `asterisklint -`, `asterisklint -- -x` and `asterisklint '-a b'` print nothing and exit with status 0 (C106).
* C108: a message about `Goto(1|${X})` reads `… and data <asterisklint.variable.Var object at 0x7f…>`: the classes of variables
  have no `__repr__` and eight message classes show them with `!r` or in a list (`E_APP_ARG_BADOPT`, `E_APP_ARG_DUPEOPT`,
  `E_APP_ARG_IFSTYLE`, `E_APP_ARG_PIPEDELIM`, `W_APP_BALANCE`, `W_FUNC_BALANCE`, `E_DP_GOTO_NOCONTEXT`,
  `W_DP_GOTO_CONTEXT_NOEXTEN`).  Reports on the same files differ from run to run, and do not tell which text is meant.
* `same` behind a refused line is not the extension of that line but of the last accepted one (C120): below
  `exten => 1,1,NoOp()`, a duplicate `exten => 2,1,NoOp()` and `same => n,NoOp()`, the last line is filed as step 2 of
  extension 1.
* `n` in the first step of a context goes on from the last step of the context above (C121): `exten => 2,n,NoOp()` at the top of
  a context is step 2 below a context that ends with a step 1, and refused in front of it.  Likewise the context with
  the first use of `Background` decides how it must be spelled in all others.
* The order of the extensions matters (C122) if the first step of one has the priority `n` — it goes on from the extension above,
  whatever that is — and if an extension is written in two places: the second `exten => 5,1,…` is refused, but a line
  `same => n,…` below it becomes a step of the extension that got the last step before — here another one, `6` — with the number behind
  the refused priority.
* A context cannot be written in pieces at will (C123): if the first step below a repeated header has the priority `n`, there is a
  warning that it is out of order, although it gets the next number; a comment beside the repeated header stops the check with an AssertionError.
* A step that is refused because there is one with its extension and priority still sets the last priority (C126): the priority `n` of the step
  below is counted from it, which may lead to that step being refused as well (`C126_violated`). Being read before it is refused, it also
  settles the spelling of `Background` (`C126_violated_spelling`).

## Testing the theorems

`seeded/LOG.jsonl` has one line per wrong program: a realistic bug put into the model in a copy,
everything rebuilt with failing proofs replaced by `sorry`, and the property theorems listed that
then depend on `sorry` (which is: could no longer be proved as they stand).  Where a claim that had
become false was not among them, a theorem was tightened or added.
