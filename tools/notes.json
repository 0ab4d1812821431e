{
"C01": ["proved", "Lines of a file read on its own; the four conditions are shown to determine the lines."],
"C02": ["proved", "For the reader loop with any include function, for finished runs of the whole pipeline, and (as beginnings of the expansion) for runs that raise or never end."],
"C03": ["proved", "Iff with finite expansion; with finitely many files iff no reachable file includes itself; self-inclusion shown to deliver lines for ever; both directions for the whole pipeline."],
"C04": ["partial", "False of the code: bytes 81 8d 8f 90 9d in a line that is not UTF-8 abort the run (C04_violated). Exact behaviour for all lines in C04_valid and C04_invalid."],
"C05": ["proved", "All lines."],
"C06": ["proved", "All lines, any reader state; the three forms cover every line."],
"C07": ["proved", "For every finite include expansion (a file below itself is impossible there) and any text for each line."],
"C08": ["proved", "All texts not ending in a space or TAB."],
"C09": ["proved", "Spec by AllEscaped/CommentAt, which is shown to cover all lines exclusively; fast path equals general path."],
"C10": ["proved", "White space at line end means space or TAB, as in the code."],
"C100": ["proved", ""],
"C101": ["proved", ""],
"C102": ["partial", "Violated: a posted text that includes its own name (extensions.conf) is never answered (C102_violated, for every number of steps). Answered if no line does so."],
"C103": ["proved", "argparse is modelled after CPython 3.11 for the parsers of the commands; texts of help and usage are not modelled; whether a word looks like a negative number is a parameter."],
"C104": ["partial", "Violated: a body that is JSON but has not the expected form is answered with 500 instead of a client error (C104_violated, C104_malformed). Everything else is proved; routing and JSON reading of falcon are taken as given."],
"C105": ["partial", "Violated after a failed request: a leaked message for a line the text has not is counted but not shown (C105_violated_leak). Proved for servers no earlier request of which failed, went on for ever or used Background; browser and jQuery are taken to put the HTML on the page."],
"C106": ["partial", "Violated: a single dash, one word behind -- and a dashed word with a blank are taken as the command, and nothing is done (C106_violated). C106_exact and C106_status cover all lines; C106_options_partial covers those of proper options. The texts of help, version and usage are parameters."],
"C107": ["proved", "Text of repr/str assumed to be without line feed (stated as OneLineTexts); paths given by the user without line feed."],
"C108": ["partial", "Violated by eight classes of messages that show variables by the repr of object, with a memory address (C108_violated, C108_violated_kinds). Proved: equal runs otherwise, same messages and exit status always, only these eight classes, func_odbc-check always equal."],
"C109": ["proved", "For the 23 classes whose values all stand under !r (three more can show variables, C108), and for any message whose values are shown as themselves."],
"C11": ["proved", "Line shapes are given in Spec/Config.lean (IsHeader, IsTemplate, IsAssign); the theorems are equivalences for every line."],
"C110": ["proved", "for every command that reads config files; symbolic links and relative names are as in FS: a file is what its name gives"],
"C111": ["proved", "both directions; the converse for files included once, since blank lines of files included again are C72"],
"C112": ["proved", "the status of an uncaught exception is 1, as Python does; signals are not modelled"],
"C113": ["proved", "that two sections do not define the same function is not among what is checked (see C59)"],
"C114": ["proved", "What is said at the end of a check is excepted from the first part, as in the statement: kinds W_FILE_DOS_EOFCRLF, W_FILE_UNIX_NOLF, W_WSV_EOF, H_WSV_CTX_BETWEEN, messages without a line number, and jumps."],
"C115": ["proved", "Two runs side by side; of a line only data, presence of a comment, encoding, control characters, blanks and terminator matter. C115_comments: comments reworded in any lines of any files."],
"C116": ["proved", "The same without the four messages about terminators; C116_dos for whole files saved with CR LF."],
"C117": ["proved", "Both directions, for whole lines and files in the same directory; messages about terminators and the number of blank lines are left out of the comparison since they depend on the ends of files."],
"C118": ["proved", "With exact line numbers; Idle (nothing to say about the new lines) is shown for blank lines and for comments without control characters and trailing blanks."],
"C119": ["proved", "whole log of checkDialplan, all outcomes; files included by a path from the root are excluded by hypothesis"],
"C12": ["proved", "For key = value and key => value with trimmed parts; the side conditions (no '=' in the key, value not starting with '>' after '=', no header shape) are those of the English statement."],
"C120": ["partial", "Behind a line that adds a step, for extensions in canonical spelling. Violated behind a refused line (C120_violated): `same` is then the extension of the last accepted line."],
"C121": ["partial", "Any permutation of sections of a file (distinct contexts, no includes inside) gives the same messages in some order and the same contexts in some order. Conditions: the first step of each section has its own extension and priority (C121_violated shows why), and the spelling of Background is settled before the sections (C121_violated_spelling)."],
"C122": ["partial", "Proved for extensions at the end of a section whose first step has its own priority, which have no other steps in the context, and with the spelling of Background settled before; C122_violated and C122_violated_again show that the first two conditions are needed, C121_violated_spelling the third."],
"C123": ["partial", "C123_pieces_partial: any order that keeps the pieces of each context in order. C123_divided_partial, C123_joined_partial: the header of the context once more, or once less. Missing: pieces whose first step has the priority n or is a same line (C123_violated), repeated headers with comments or templates (C123_violated_comment), a spelling of Background chosen within the sections (C121_violated_spelling)."],
"C124": ["proved", "C124_down, C124_up: include lines moved down or up past other lines of their context. Both orders read the same dialplan and give the same messages, whatever follows."],
"C125": ["proved", "C125_taken, C125_added: disregarded lines taken out or put in anywhere. The messages differ by messages about these lines; the dialplan read is the same."],
"C126": ["partial", "Proved for any number of lines of a context that do not become part of the dialplan, whatever follows, if the last priority and the spelling of Background are the same behind them as in front of them: so for steps refused before their priority is settled and for repetitions of the last priority. The last priority may also change, if the next line is a step with an extension and a priority of its own or there is none (C126_taken_own_partial, C126_added_own_partial). Violated otherwise: a refused duplicate changes what n means below (C126_violated) and may settle the spelling of Background (C126_violated_spelling)."],
"C127": ["proved", "For including and inlining (C127_inlined, C127_outlined), comment lines and blank lines (C127_inserted, C127_removed), include lines (C127_down, C127_up): the same exit status. For lines that are disregarded: 0 stays 0 when they are taken out, 1 stays 1 when they are put in (C127_taken, C127_added). The check is taken to come to its end with the one version; that it does with the other is part of the conclusion."],
"C128": ["proved", "all permutations of parts beginning with a header; functions with names alike but for letters are handled in the statement"],
"C129": ["proved", "C129_inserted, C129_removed: blank lines and comments. C129_inlined, C129_outlined: an included file and its lines. Same messages (C117, C118: about the same text at its new place), same functions and settings, same table of functions. C129_status: exit status of func_odbc-check. C129_dialplan: of dialplan-check. C128_dialplan (with C128): the order of the functions and the exit status of dialplan-check."],
"C13": ["partial", "Violated: a header with two or more template characters is not recognised (C13_violated). The single-character case is proved."],
"C130": ["proved", "C130_taken, C130_added: lines taken out and put in. C130_status_taken, C130_status_added: exit status of func_odbc-check. C130_dialplan_taken, C130_dialplan_added: of dialplan-check. What is disregarded depends on the section the lines are in: the functions read from what is above them."],
"C131": ["proved", "C131_swapped: functions, values of settings and messages. C131_status: exit status of func_odbc-check. C131_dialplan: of dialplan-check. Groups that have a name in common are not covered: of settings with the same name the first counts."],
"C132": ["proved", "C132_without: messages, functions and what is known afterwards. C132_status: exit status of func_odbc-check."],
"C14": ["proved", "Which line opens which file, how names are joined to the directory of the including file, and that no other line opens a file."],
"C15": ["partial", "Violated: a name with a NUL byte raises ValueError, which is not an OSError (C15_violated). Proved for names without NUL."],
"C16": ["proved", "For any sequence of elements of any mix of files, through the vertical-space checker and the aggregator. C16_dialplan: the dialplan read does not depend on blank lines."],
"C17": ["proved", "Hints equal those of the layout rule in Spec/Vsw.lean, for one file in any layout; a file with nothing but blank lines gets the end-of-file hint only."],
"C18": ["proved", "Grouping equation for all sequences, with the decomposition shown to exist for every sequence."],
"C19": ["proved", "All values of the variable."],
"C20": ["proved", "For every history of issued messages."],
"C21": ["proved", "For every history of issue and reset operations."],
"C22": ["partial", "False of the code: E_DP_LABEL_INVALID and W_FUNC_DYNAMIC are issued without the value their text refers to (two witnesses). Proved for every other kind of message of any dialplan check; a message with its values can fail to print only over a value that has no text; messages of reading config files always print."],
"C23": ["proved", "Exact set of accepted texts; both rejecting branches shown."],
"C24": ["proved", "Text-level invariance for dashes outside sets and for x/z/n; a dash before a leading underscore is shown to matter (it is then not a pattern)."],
"C25": ["partial", "Exact characterisation proved: accepted iff a prefix is in the language. The code accepts overlong extensions for patterns (C25_violated) and raises outside Latin-1 (C25_raises)."],
"C26": ["partial", "Proved for plain extensions and for patterns in which no set has the dash as its first character; otherwise false of the code (C26_violated)."],
"C27": ["proved", "Strict total order on all values; literals before patterns; specific first."],
"C28": ["partial", "Proved for all texts that the canonical spelling can express; false otherwise (three witnesses)."],
"C29": ["partial", "C29_hint: when the hint is given and what it says, for every text (dashes aside, compared with the canonical spelling). That the canonical spelling is canonical: proved for expressible texts (is_canonical: also without bracket characters); false otherwise (two witnesses)."],
"C30": ["partial", "Left-to-right proved for expressible texts, right-to-left for all; false otherwise (C30_violated)."],
"C31": ["proved", "Equivalence relation on all parsed texts, and same texts describe the same extensions."],
"C32": ["proved", "Recursive equations for the first ${ or $[, with Encloses as the specification of the first balanced closing bracket; VarParseError exactly for texts that are not Closed (or an earlier exception); termination. The issue of E_APP_PARSE_ERROR is proved with the applications."],
"C33": ["partial", "Violated: leading zeros of numbers (C33_violated_zeros), ${} cannot be printed (C33_violated_empty), a missing parenthesis is added (C33_violated_paren), ${F(x)$[:3]} prints as a substring (C33_violated_tail). Proved whenever no message about a dropped part is issued, numbers behind colons have no leading zeros and there is no ${}, $[] or $[:."],
"C34": ["proved", "text, iteration, string case and compactness of Var.join for all lists of strings and variables"],
"C35": ["partial", "proved for strings and for all sequences of strings and variables; violated for a lone variable or expression, whose name is split (C35_violated)"],
"C36": ["partial", "Violated: ${foo:${x}:2} raises TypeError and ${a:²} ValueError. Validity, acceptance of legal parts and reporting of illegal ones are proved for every text; that nothing is raised under the conditions of C36_returns_partial."],
"C37": ["partial", "exact for all texts when each occurrence of a variable is free (C37_occurrences; C37_lines also with line feeds in text or value) and when no variable occurs twice; sound in general; violated as an equivalence for repeated variables (C37_violated)"],
"C38": ["proved", "balance check equals an inductive grammar of nested brackets and quotes, for every text"],
"C39": ["proved", "Uses is the specification of the variables named; exact unless INC or DEC, which count their argument in addition (C39_each); reports for every run, failed ones included."],
"C40": ["proved", "For data with or without variables; token level (characters and variables) and string level."],
"C41": ["proved", "Every non-empty list of texts and every delimiter that is not itself special."],
"C42": ["proved", "Boundary characterised by an independent definition of top level (escapes, quotes, brackets; variables have no letters); also with quote removal, and for plain text."],
"C43": ["proved", "A single empty argument counts as none given. The checks never fail. Options and counts of App, counts of Goto and Gosub."],
"C44": ["proved", "Histories of register and get refine to the stateless look-up, given that only one object is registered as unknown. An application written exactly Unknown is silent (C44_unknown)."],
"C45": ["proved", "For AppLoader and FuncLoader, which have the same code; the module called unknown is left out."],
"C46": ["proved", "Runs are sequences of uses of any applications."],
"C47": ["partial", "Violated: Goto and GotoIf with more than three arguments loop for ever. Proved for at most three arguments; Gosub for any number."],
"C48": ["proved", "For all sequences of elements read without an internal error, and for the command on any content. C48_unique: no two steps of a context with equal priority and equal canonical extension. C48_kept: steps once stored stay. C48_dupe/C48_stored/C48_line: what a well-formed line does: a taken place is reported with E_DP_PRIO_DUPE at the line (previous = the earlier step) and dropped, a free one is stored. C48_count: number of steps plus number of dropping reports = number of step lines."],
"C49": ["proved", "C49_positive: every stored priority is at least 1. C49_number: a written number k>=1 is the priority the line gets (stored or reported as duplicate with that number), 0 is reported and dropped. C49_next: n gets one more than the step line before, whatever (headers, includes, other assignments) is between. C49_first_next, C49_first_same: n before any step in the dialplan, same in a context without steps: reported and dropped. The line before is the line before in the file, also across contexts: that is what the code does."],
"C50": ["proved", "C50_unique, C50_label (both directions: duplicate reported with the earlier location and label removed; free label kept and nothing reported), C50_no_label, C50_known (dialplan-wide and per context)."],
"C51": ["proved", "C51_names, C51_lines, C51_special, and C51_check for the command on any content. Includes are exactly the include lines, steps an ordered selection of the step lines (which ones: C48), of several [globals] only the first is kept, and a second [general] is not survived (C57)."],
"C52": ["partial", "C52_listing (the listing is a rearrangement grouped and ordered by pattern, insertion order within a group, for every context built by any history of additions, re-openings and listings), C52_listing_read, C52_grouped. Violated in full: within a group the listing keeps insertion order, not priority order (C52_violated_order). C52_priorities_partial: without order or duplicate reports each extension is listed as 1,2,3,..."],
"C53": ["proved", "C53_exact, C53_here: look-up against an independently defined relation (Findable), exact in both directions whenever the look-up ends."],
"C54": ["partial", "Violated: C54_violated_cycle, two contexts including each other and an unmatched extension exhaust any depth. C54_acyclic_partial: when includes are well-founded the look-up ends. C54_exact_partial: for extensions within Latin-1 and priorities that are numbers or texts, exactly the look-ups that come to a context a second time do not end."],
"C55": ["proved", "C55_at_most_one, C55_exact, C55_unknown, C55_walk."],
"C56": ["proved", "C56_roundtrip: for every extension without comma that the pattern parser accepts, every decimal priority or n, every label without comma, every application text accepted by the application parser; also same lines."],
"C57": ["partial", "False of the code: ten witnesses. Proved: the exact conditions under which reading a dialplan (C57_reading), looking at a recorded jump (C57_destination) and a whole check (C57_exact_partial) end with an internal error, given that includes of files end and the depth of calls suffices for the number of contexts; C57_tells_partial states them by rules about the files that do not mention the program, with a depth that suffices for the question marks in a line as well; and conditions under which a check ends with a report."],
"C58": ["proved", "For every file that loads: functions correspond one by one to the sections, with the first line per known setting; the unknown-setting and repeated-setting messages are exactly those of the other lines, in order."],
"C59": ["partial", "False of the code for names that differ in letter case only: the last one displaces the others (C59_violated_case). Proved: defined names without such a twin are accepted, also in whole dialplan checks; nothing else becomes accepted; earlier names stay accepted unless displaced; loading ends iff no defined name has a NUL; which file is loaded (C59_file)."],
"C60": ["proved", "For every history of requests and module listings, including listings that import version packages."],
"C61": ["partial", "Proved for a target that is no link, or a link whose text leads to the file from the working directory. Violated for a relative link to a file of another directory: the rewritten content overwrites the file that the link text names seen from the working directory (C61_violated_link)."],
"C62": ["proved", "Every prefix of the operations, every failing operation and every sequence of files."],
"C63": ["proved", "Every text, width and pair of indents."],
"C64": ["partial", "Proved for histories whose earlier requests ended without an internal error and without using Background. Violated otherwise: messages leak into the next response, an unprintable message makes the next request fail, and the spelling of Background is remembered. C64_report says what the response of a fresh server contains: all messages of the check, in the order of lines."],
"C65": ["partial", "Proved for every line of valid UTF-8 whose pattern has no escaped semicolon, whose canonical spelling expresses it (C28, C29) and can stand in that place: the new line is the old one but for the pattern in front of the first comma; C65_file_partial: exactly the lines with a hint are so replaced. Violated otherwise: a range expanded to a comma, semicolon or line feed breaks the line, an escaped or cp1252 pattern is not changed, the meaning may change."],
"C66": ["proved", "For every message of every check, for reading config files alone (C66_located_files), for func_odbc.conf (C66_located_odbc) and for dialplan-check as a whole (C66_located_program)."],
"C67": ["proved", "C67_show with the independent descriptions ShowsStep and ShowsCtx, which fix every character of the lines; repr of the context name is a parameter."],
"C68": ["partial", "Proved for every sequence of elements; the reports for every check. Violated by ${EXTEN:${n}}, which is taken as all of EXTEN although it depends on n. Jumps of an application inside ExecIf are not jumps of the step (as in the code)."],
"C69": ["partial", "Everything listed is right, for any order of the set; exact and independent of the order if no two identifiers differ in case only, for pairs with no other identifier between them (by name or by length). Violated: pairs that are not neighbours are missed; three names differing in case only give an output that depends on hash order. editdistance.eval is assumed to give the Levenshtein distance (Spec.Distance)."],
"C70": ["proved", "C70_output and C70_exit are about the state after reading the dialplan and its messages; C70_program shows that modules-show, func_odbc.conf included, prints that. A first name of more than 50 characters is printed after an empty line (pre in ModuleText). Completeness: C70_needed for the application a step calls, C70_needed_function for functions called at any depth in data written in order, C70_func_odbc for functions defined in func_odbc.conf; applications nested in ExecIf are covered as far as they are recorded as used."],
"C71": ["partial", "The messages of one logical line. Missing: a directive whose argument is a single double quote, which is not reported (C71_violated_quote)."],
"C72": ["partial", "Stated for the sequence of elements of all files. Proved: all hints except the end-of-file hint, and when exactly that one is given (SeenOver). It is missing or spurious in some nestings (C72_violated_missed, C72_violated_spurious)."],
"C73": ["partial", "Exact conditions for running, refusing and no command, for every world and argument list. Violated: a well-formed name without a file ends with an uncaught ImportError (C73_violated_unknown). COMMAND_RE also admits a line feed at the end (NameLike)."],
"C74": ["partial", "The list is exact; what is listed is what runs if directory listings agree with the files, except for the name ls, which is listed but never run (C74_violated_builtin). A module that cannot be loaded ends ls with an exception (C74_ends)."],
"C75": ["partial", "exact for data whose variables all have a name (the check fails otherwise: C75_violated_nameless); ExecIf in the old style fails after its message (C75_violated_execif); what is said about the actions of GosubIf and ExecIf is exact in C93 (C93_exact_partial)"],
"C76": ["proved", "The silent run and the dialplan read for every clean file; applications shown quiet: plain, Set, Goto, Gosub, argument lists, and with substitutions plain, Set, argument lists, GotoIf, GosubIf, GotoIfTime and ExecIf."],
"C77": ["proved", "For every well-formed text with functions that only check balance."],
"C78": ["proved", "The tables are generated from the source tree by tools/registry.py; found, accepted, corrected and missing for every order of listing; a silent use for every application except Background."],
"C79": ["proved", "Any two registries, one containing the other; the real tables of both versions; whole checks."],
"C80": ["partial", "for text in order in which double quotes hold no single ones and single quotes neither double ones nor opening parentheses; otherwise violated (C80_violated_double, C80_violated_single)"],
"C81": ["partial", "exact for one file; a line after #include is joined to the last line of the included file (C81_violated_include)"],
"C82": ["partial", "each context in the end is what its last section read alone gives (C82_exact_partial); jumps and labels of the replaced context stay (C82_violated_jumps), a second [general] ends the program (C82_violated_general), other files keep all contexts (C82_violated_config)"],
"C83": ["proved", "whole checks, with includes; equal result, messages equal up to order"],
"C84": ["proved", "C84_says: for every file that loads, the messages of these kinds are exactly those of the specification odbcSays, in order, followed by the sections that define nothing. W_/I_ messages about the layout of files and templates (which the parser issues too) are not among these kinds."],
"C85": ["proved", "C85_dialplan_check and C85_func_odbc_check: output and exit status, by an invariant through all of the code that only the last message of a run can be one without a text; the lines below the heading are described as well (C98). C85_messages: which messages these are. C85_muting: comparison with the run without ALINT_IGNORE. C85_silent: dialplan-show, modules-show. argparse is not modelled; repr of values is a parameter."],
"C86": ["proved", "C86_lists: contexts, labels, variables with counts, for every order of enumeration. C86_program: output, exit status and failures of the whole program. The similar names themselves are C69."],
"C87": ["proved", "C87_test, C87_failing, C87_ignore, C87_alone, C87_suite, C87_untested. Of unittest it is taken that _outcome tells whether the test method raised (which holds for the versions the code was written for)."],
"C88": ["partial", "Violated (C88_violated): arguments that give the same name overwrite each other. C88_generated says exactly which method each name has; C88_all_partial is the property if the names differ, C88_names a sufficient condition for that."],
"C89": ["partial", "Violated (C89_violated_execif, C89_violated_other): the converter never rewrites anything. The report of an old-style ExecIf is always followed by an exception that ends the reading, and for every other application process_issue raises NotImplementedError. C89_untouched_partial: whatever the dialplan, answer and faults, no entry of the disk but one temporary file is ever changed, and without faults the disk is in the end as it was."],
"C90": ["proved", "C90_includes_refused: no report for a text with an include line; C90_answered: an answer for a text without one, once its lines are read."],
"C91": ["proved", "C91_exact: for any text whatsoever, reading it ends normally with certain events and a certain value if and only if TextReads (Spec/Reading.lean) derives them; C91_breaks: the same for texts with a substitution that is not closed. C91_said: the events for a text as it should be written (TextSays) are exactly those listed; C91_unique: there is one such list; C91_regular relates the two; C91_special: which functions have checks of their own."],
"C92": ["partial", "C92_exact_partial: for any data, Set ends normally with certain events if and only if these are those of the text, the assignment and the balance check; C92_set_partial: for data as it should be written. The English claim is violated: C92_violated_inside (an = inside an expression counts), C92_violated_balance (arguments with variables of a function that is written to), C92_violated_crash."],
"C93": ["partial", "C93_exact_partial: an equivalence for every application text and every run that ends; C93_depth_partial: with a stack deeper than the number of question marks the run ends exactly when the rules apply. The rules follow the code where the English claim is false of it: mistakes in variables inside an ExecIf action are said twice (C93_violated_twice), and an old-style action loses its commas (C93_violated_old)."],
"C94": ["proved", "For checks that end (an exception ends a check earlier: C57). C94_tells, C94_tells_check and C94_files are about a specification without any part of the program, for applications that are described (as those that come with the program are, C93_described_all). What is said about the lines of the files is C96."],
"C95": ["proved", "The SQL parser is a parameter that does not raise."],
"C96": ["proved", "Hints about blank lines of several files: if no file is read twice (C72); for one file always."],
"C97": ["partial", "Proved: what becomes of all files, if every file is read once and the files with hints are at entries of their own, under their names or behind a link whose text names them from the current directory (violated otherwise: C97_violated_twice, C97_violated_names, C97_violated_links); when nothing is touched; and, if no other file read is reached through one with hints and the canonical spellings can stand in their places (violated otherwise: C97_violated_again), that reading again gives the same dialplan up to the spelling of patterns, without hints, and that a second run changes nothing."],
"C98": ["proved", "C98_shown: the text shown is the one described in Spec/Shown, for all bytes. C98_printable, C98_read_back, C98_cut: consequences. C98_dialplan_check: for every message printed."],
"C99": ["proved", "C99_permission, C99_refused: nothing is touched before the names were shown and without the answer y. C99_announced: at every moment, also when something fails. C99_screen: what is on the screen. C99_done: when Done is said. C99_listed: the files shown by make_patterns_canonical. C99_effect: the disk afterwards is the one described in C97."]
}
