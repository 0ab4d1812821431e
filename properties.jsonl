{"id": "C01", "title": "Physical lines reassemble the file", "statement": "Reading a config file yields its physical lines numbered 1,2,3,... such that concatenating the yielded raw lines gives exactly the file's bytes; every yielded line is non-empty, has no LF except possibly as its last byte, and only the last line may lack the LF.", "quantifier": "every file content (finite byte sequence), including empty files and files without final newline", "why_tests_cant": "The byte contents form an infinite set; a unit test fixes a handful of small files.", "anchors": ["asterisklint/file.py:BinFileReader.__iter__", "asterisklint/where.py:Where"]}
{"id": "C02", "title": "Includes are expanded in place, depth first", "statement": "When a config file pulls in other files, the stream of (file, line number, line) the parser sees is exactly the depth-first, in-place expansion: all lines of the included file come directly after the include line and before the next line of the including file, each line is reported under its own file name and its own line number, and no line is lost, duplicated or reordered.", "quantifier": "every set of files, every root file and every include relation for which the expansion is finite, any nesting depth and any number of repeated inclusions of one file", "why_tests_cant": "Depth and shape of the include tree are unbounded; tests exercise one or two nesting levels.", "anchors": ["asterisklint/file.py:BinFileReader.include", "asterisklint/file.py:BinFileReader.__iter__", "asterisklint/config.py:ConfigParser.preprocessor"]}
{"id": "C03", "title": "Reading terminates exactly when the expansion is finite", "statement": "As long as files can be opened, the reader reaches end of input if and only if the include expansion of the root file is finite; in particular a file that (directly or indirectly) includes itself makes the reader go on opening files, with no bound or diagnostic of its own. (What ends it in practice is the limit on open files of the system: C101.)", "quantifier": "every set of files and root file; every number of steps", "why_tests_cant": "Non-termination cannot be observed by a terminating test, and termination must hold for all finite include trees.", "anchors": ["asterisklint/file.py:BinFileReader.__iter__", "asterisklint/file.py:BinFileReader.include"]}
{"id": "C04", "title": "Any bytes decode to text, with one complaint per bad line", "statement": "A line that is valid UTF-8 is decoded to exactly the text it encodes and no message is issued; a line that is not valid UTF-8 yields exactly one E_FILE_UTF8_BAD for that line and is then read as cp1252; decoding never aborts the run.", "quantifier": "every line of bytes", "why_tests_cant": "There are infinitely many byte lines, and the failing ones (undefined cp1252 bytes after invalid UTF-8) are rare.", "anchors": ["asterisklint/file.py:EncodingReader.__iter__"]}
{"id": "C05", "title": "Control characters are reported exactly when present", "statement": "W_FILE_CTRL_CHAR is issued for a line if and only if the line contains a code point below 0x20 other than TAB, LF and CR; it is issued once per line; the line itself passes through unchanged.", "quantifier": "every text line", "why_tests_cant": "All code points at all positions of arbitrarily long lines.", "anchors": ["asterisklint/file.py:NoCtrlReader.__iter__"]}
{"id": "C06", "title": "Only the line terminator is removed", "statement": "The text handed to the parser for a line is the line minus its final CRLF or final LF and nothing else; a lone CR or blanks before the terminator survive.", "quantifier": "every line", "why_tests_cant": "Arbitrary line contents and terminators, including repeated CRs.", "anchors": ["asterisklint/file.py:FileformatReader.__iter__"]}
{"id": "C07", "title": "File format warnings are per file", "statement": "The DOS/Unix and end-of-file newline warnings issued for a file depend only on that file's own lines: with any nesting of included files between its lines, the warnings are those the file would get when linted alone, issued at the corresponding position (own lines in order, the end-of-file warnings of an included file before anything about the next line of the including file).", "quantifier": "every finite include tree in which a file does not directly include a file of the same name, every mixture of line endings", "why_tests_cant": "Interleavings of files are unbounded; a test covers one interleaving.", "anchors": ["asterisklint/file.py:FileformatReader.__iter__", "asterisklint/file.py:FileformatReader._pop_fileinfo"]}
{"id": "C08", "title": "Escaped semicolons round-trip", "statement": "Escaping every semicolon of any text as backslash-semicolon and reading the line gives back exactly that text with an empty comment (text without trailing white space).", "quantifier": "every text, including text with backslashes next to semicolons", "why_tests_cant": "Infinitely many placements of backslashes and semicolons.", "anchors": ["asterisklint/file.py:AsteriskCommentReader.asterisk_comment_split", "asterisklint/file.py:AsteriskCommentReader._lookback_comment_split"]}
{"id": "C09", "title": "A comment starts at the first unescaped semicolon", "statement": "The data part of a line is everything before the first semicolon that is not directly preceded by a backslash, with each escaped semicolon reduced to a plain one and trailing blanks moved to the comment; the comment part is the rest of the line verbatim. The fast path for lines without a backslash gives the same data, comment and warnings as the general path.", "quantifier": "every line (already right-stripped)", "why_tests_cant": "Requires agreement of two implementations on all inputs.", "anchors": ["asterisklint/file.py:AsteriskCommentReader._simple_comment_split", "asterisklint/file.py:AsteriskCommentReader._lookback_comment_split", "asterisklint/file.py:AsteriskCommentReader._move_middle_space_to_comment"]}
{"id": "C10", "title": "White space around comments and at line end is reported exactly", "statement": "W_WSH_EOL is issued for a line iff it ends in white space, and W_WSH_COMMENT iff a comment directly follows a non-blank data character; each at most once per line, and the data the parser sees never ends in a blank or TAB.", "quantifier": "every line", "why_tests_cant": "All lines; the conditions interact with escapes.", "anchors": ["asterisklint/file.py:AsteriskCommentReader.__iter__", "asterisklint/file.py:AsteriskCommentReader._simple_comment_split"]}
{"id": "C11", "title": "Every config line gets exactly one reading", "statement": "Each logical line is classified as exactly one of: context header, context header with template, arrow assignment, plain assignment, blank, or other (handed to the preprocessor), according to a fixed grammar: a header is an optional indent, '[', a name without ']', ']' up to the end of line; otherwise the first '=' decides (followed by '>' or not); otherwise blank iff only white space.", "quantifier": "every line of text without LF", "why_tests_cant": "Regular expressions are compared with a grammar on all strings.", "anchors": ["asterisklint/config.py:ConfigParser.regexes", "asterisklint/config.py:ConfigParser.__iter__"]}
{"id": "C12", "title": "Assignments round-trip", "statement": "Writing 'name => value' or 'name = value' for any name without '=' and white space at its ends, not shaped like a header, and any value without leading white space is read back as exactly that name, value and separator kind, with no spacing hint in the canonical spelling.", "quantifier": "every name and value meeting the stated lexical conditions", "why_tests_cant": "All names and values, including values with further '=' or '>' characters.", "anchors": ["asterisklint/config.py:ConfigParser.regexes", "asterisklint/configobj.py:Varset"]}
{"id": "C13", "title": "Context headers with templates are recognised", "statement": "A line '[name](options)' is read as a context header named name that carries options, and assignments following it belong to that context.", "quantifier": "every name without ']' and every non-empty options text", "why_tests_cant": "All option texts; the present tests only use none.", "anchors": ["asterisklint/config.py:ConfigParser.regexes", "asterisklint/configobj.py:Context"]}
{"id": "C14", "title": "Include directives name the right file", "statement": "#include and #tryinclude accept a file name bare, in double quotes or in angle brackets, and open that name relative to the directory of the file containing the directive (absolute names unchanged); a directive without a following separator or without argument is reported as a bad line and opens nothing; #exec never opens a file.", "quantifier": "every directive line, every file name and every including file name", "why_tests_cant": "Unbounded file names and spacing.", "anchors": ["asterisklint/config.py:ConfigParser.preprocessor", "asterisklint/file.py:BinFileReader.include"]}
{"id": "C15", "title": "A missing include is a warning, a missing tryinclude is silent", "statement": "If the named file cannot be opened, #include issues exactly one W_PP_INCLUDE_MISSING and #tryinclude issues nothing; in both cases reading continues with the next line of the same file.", "quantifier": "every file name and every file system", "why_tests_cant": "All file systems and positions.", "anchors": ["asterisklint/config.py:ConfigParser.preprocessor", "asterisklint/file.py:BinFileReader.include"]}
{"id": "C16", "title": "Blank and comment lines never change what is parsed", "statement": "The sequence of context headers and assignments delivered by the vertical-space checker is exactly the sequence it received, in order, and the contexts finally built are the same as if all blank and comment-only lines were absent.", "quantifier": "every sequence of lines over any nesting of included files", "why_tests_cant": "Arbitrary interleavings of blanks, comments, contexts and files.", "anchors": ["asterisklint/configws.py:VerticalSpaceWarner.__iter__", "asterisklint/configws.py:VswContextStack.handle", "asterisklint/configws.py:VswContext", "asterisklint/config.py:ConfigAggregator.__iter__"]}
{"id": "C17", "title": "Vertical white space hints follow the documented layout", "statement": "For a single file, the blank-line hints are exactly those of the layout rule: blank lines (without comment) at the start of the file give one begin-of-file hint, blank lines at its end one end-of-file hint, a run of two or more consecutive pure blank lines before an assignment (three or more before a context header or at the end of the file) gives one hint per such run, and a context header directly following a context with three or more assignments gives a missing-blank-line hint; no other blank-line hints are issued.", "quantifier": "every sequence of blanks, comments, headers and assignments in one file", "why_tests_cant": "Unbounded run lengths and combinations.", "anchors": ["asterisklint/configws.py:VswContext"]}
{"id": "C18", "title": "Assignments belong to the nearest preceding header", "statement": "Every assignment is attached, in order, to the context opened by the last header before it; assignments before the first header are each reported with E_CONF_CTX_MISSING and belong to no context; no assignment is lost or duplicated.", "quantifier": "every sequence of headers and assignments", "why_tests_cant": "Unbounded sequences.", "anchors": ["asterisklint/config.py:ConfigAggregator.__iter__"]}
{"id": "C19", "title": "ALINT_IGNORE mutes exactly the listed messages", "statement": "A message type is muted iff one of the non-empty comma separated tokens of ALINT_IGNORE (taken verbatim, blanks included) equals its name, or ends in an underscore and is a prefix of its name.", "quantifier": "every value of ALINT_IGNORE and every message type name", "why_tests_cant": "All environment strings.", "anchors": ["asterisklint/defines.py:MessageDefManager"]}
{"id": "C20", "title": "The exit status reflects unmuted messages", "statement": "dialplan-check and func_odbc-check exit with status 1 iff at least one message of an unmuted type was issued during the run, i.e. iff at least one message line was written to the standard error output; otherwise with status 0.", "quantifier": "every sequence of messages issued and every ALINT_IGNORE value", "why_tests_cant": "All message histories.", "anchors": ["asterisklint/commands/dialplan-check.py:Main.handle_args", "asterisklint/defines.py:MessageDefManager"]}
{"id": "C21", "title": "Every issued message is recorded once, in order", "statement": "After any sequence of issued messages the recorded messages of each type are exactly the issued ones of that type in issue order, muted or not; resetting forgets all of them and nothing else.", "quantifier": "every sequence of issue and reset operations", "why_tests_cant": "All histories.", "anchors": ["asterisklint/defines.py:MessageDefManager.on_message", "asterisklint/defines.py:MessageDefManager.reset", "asterisklint/defines.py:MessageDef.__init__"]}
{"id": "C22", "title": "Issuing a message never fails", "statement": "Every place that issues a message supplies all values its text refers to, so that issuing it cannot raise.", "quantifier": "every message issued for any input", "why_tests_cant": "Needs a check of every message site against every template.", "anchors": ["asterisklint/defines.py:MessageDef", "asterisklint/dialplan.py:DialplanVarset.from_varset", "asterisklint/varfun.py:FuncLoader.process_read_function"]}
{"id": "C23", "title": "Which extension patterns are accepted", "statement": "Constructing a pattern from a non-empty extension text succeeds for every text that does not start with an underscore, and for a text starting with an underscore iff every '[' outside a set has a matching ']' and no set is empty; otherwise construction raises.", "quantifier": "every extension text", "why_tests_cant": "All strings.", "anchors": ["asterisklint/pattern.py:Pattern.parse", "asterisklint/pattern.py:Pattern.parse_pattern", "asterisklint/pattern.py:Pattern.parse_range_list"]}
{"id": "C24", "title": "Dashes and letter case are insignificant in patterns", "statement": "Inserting or removing dashes outside sets, and changing the case of the class letters x, z and n in a pattern, does not change the pattern's identity, order or what it matches.", "quantifier": "every pattern text and every insertion position", "why_tests_cant": "All strings and positions.", "anchors": ["asterisklint/pattern.py:Pattern.parse", "asterisklint/pattern.py:Pattern.parse_pattern"]}
{"id": "C25", "title": "Pattern matching follows the dial plan language", "statement": "A dialled extension matches a pattern iff it belongs to the language described by the pattern: literals match themselves, X/Z/N and sets match one listed character, '.' matches one or more remaining characters, '!' zero or more, and without a wildcard the lengths must be equal (dashes ignored).", "quantifier": "every accepted pattern and every ASCII extension", "why_tests_cant": "Infinitely many patterns and extensions.", "anchors": ["asterisklint/pattern.py:Pattern.matches_extension", "asterisklint/pattern.py:Pattern.values"]}
{"id": "C26", "title": "A pattern matches its own example", "statement": "The example extension derived from a pattern is matched by that pattern.", "quantifier": "every accepted pattern", "why_tests_cant": "All patterns; fails only for unusual sets.", "anchors": ["asterisklint/pattern.py:Pattern.example", "asterisklint/pattern.py:Pattern.matches_extension"]}
{"id": "C27", "title": "Pattern order is a strict total order, specific first", "statement": "Comparing patterns is irreflexive, transitive and total, agrees with equality, never fails, puts plain extensions before patterns, and at the first position where two patterns differ the one whose set has fewer characters comes first (all wildcards after all sets, '.' before '!', longer before its own prefix among patterns).", "quantifier": "every pair and triple of accepted patterns", "why_tests_cant": "All pairs and triples.", "anchors": ["asterisklint/pattern.py:Pattern.__lt__", "asterisklint/pattern.py:Pattern.__eq__", "asterisklint/pattern.py:Pattern.values"]}
{"id": "C28", "title": "The suggested canonical spelling means the same", "statement": "The canonical spelling suggested for a pattern is itself accepted and describes the same extensions as the original.", "quantifier": "every accepted pattern", "why_tests_cant": "All patterns, including unusual sets.", "anchors": ["asterisklint/pattern.py:Pattern.canonical_pattern", "asterisklint/pattern.py:Pattern._canonical_pattern_range", "asterisklint/pattern.py:Pattern._canonical_pattern_add_range"]}
{"id": "C29", "title": "Canonicalising is idempotent and silences the hint", "statement": "A pattern written in its canonical spelling is considered canonical (no H_PAT_NON_CANONICAL) and its canonical spelling is itself.", "quantifier": "every accepted pattern", "why_tests_cant": "All patterns.", "anchors": ["asterisklint/pattern.py:Pattern.is_canonical", "asterisklint/pattern.py:Pattern.canonical_pattern"]}
{"id": "C30", "title": "Equal canonical spelling means same extensions", "statement": "Two extension texts have the same canonical spelling iff they match the same extensions in the sense of matches_same, so the duplicate-priority check groups exactly the equivalent spellings.", "quantifier": "every pair of accepted patterns", "why_tests_cant": "All pairs.", "anchors": ["asterisklint/pattern.py:Pattern.canonical_pattern", "asterisklint/pattern.py:Pattern.matches_same", "asterisklint/dialplan.py:DialplanContext.add"]}
{"id": "C31", "title": "matches_same is an equivalence relation", "statement": "matches_same is reflexive, symmetric and transitive and is implied by equality.", "quantifier": "every pair and triple of accepted patterns", "why_tests_cant": "All triples.", "anchors": ["asterisklint/pattern.py:Pattern.matches_same"]}
{"id": "C32", "title": "Substitution brackets are matched correctly", "statement": "Parsing an argument text finds, for each ${ or $[, the first position at which brackets of the same kind are balanced again; parsing fails (E_APP_PARSE_ERROR) iff some ${ or $[ is never closed in this sense, and always terminates.", "quantifier": "every argument text", "why_tests_cant": "Unbounded nesting.", "anchors": ["asterisklint/varfun.py:VarLoader.parse_variables", "asterisklint/varfun.py:VarLoader._find_brackets_end"]}
{"id": "C33", "title": "Parsed variable expressions print back to their source", "statement": "Turning a parsed argument back into text gives exactly the source text.", "quantifier": "every argument text that parses", "why_tests_cant": "Unbounded nesting of variables, expressions and functions.", "anchors": ["asterisklint/variable.py:Var.__str__", "asterisklint/variable.py:SliceMixin.__str__", "asterisklint/expression.py:Expr.__str__", "asterisklint/varfun.py:VarLoader.parse_variables"]}
{"id": "C34", "title": "Joining pieces preserves text", "statement": "Var.join of any pieces prints as the concatenation of the printed pieces, iterates as the concatenation of their iterations, and returns a plain string whenever no variable is involved; no empty string or two adjacent strings remain in the result.", "quantifier": "every list of strings and variable expressions", "why_tests_cant": "Unbounded lists.", "anchors": ["asterisklint/variable.py:Var.join", "asterisklint/variable.py:strjoin"]}
{"id": "C35", "title": "Splitting and joining are inverse", "statement": "Splitting a mixed text on a token and joining the pieces with the token gives back the same text; no piece contains the token when unlimited, and at most maxsplit+1 pieces are produced, cut at the leftmost tokens.", "quantifier": "every mixed text, token and limit", "why_tests_cant": "Unbounded texts.", "anchors": ["asterisklint/variable.py:Var.split", "asterisklint/variable.py:Var._split"]}
{"id": "C36", "title": "Substring arguments are validated", "statement": "Whatever a ${name:start:length} expression contains, the parsed substring has a numeric (or variable) start and a non-zero length that does not reach behind the end for a negative start; illegal values are reported and dropped, and nothing raises.", "quantifier": "every slice text", "why_tests_cant": "All texts for start and length.", "anchors": ["asterisklint/varfun.py:VarLoader.split_variable_slice", "asterisklint/variable.py:SliceMixin.__init__"]}
{"id": "C37", "title": "could_match is exact", "statement": "A text with variables could match a value iff there is some choice of values for the variables that makes the text equal to the value.", "quantifier": "every mixed text and every value without LF", "why_tests_cant": "Existential over all variable values.", "anchors": ["asterisklint/variable.py:Var.could_match"]}
{"id": "C38", "title": "The balance check accepts exactly balanced text", "statement": "The balance check passes iff the text is generated by the grammar of properly nested (), {}, [] with single and double quoted stretches in which brackets do not count.", "quantifier": "every text", "why_tests_cant": "Unbounded nesting.", "anchors": ["asterisklint/variable.py:variable_check_balance"]}
{"id": "C39", "title": "Variable use is counted per occurrence", "statement": "Every ${name} with plain name that is parsed adds exactly one use of name at that place, and names with characters outside letters, digits and underscore are each reported once.", "quantifier": "every argument text", "why_tests_cant": "Unbounded texts.", "anchors": ["asterisklint/varfun.py:VarLoader.count_var", "asterisklint/varfun.py:VarLoader._process_variable"]}
{"id": "C40", "title": "Argument splitting loses nothing", "statement": "Splitting application data into arguments keeping quotes and backslashes gives at least one argument, and joining the arguments with the delimiter gives back the data exactly.", "quantifier": "every application data text (with or without variables) and delimiter", "why_tests_cant": "Unbounded data.", "anchors": ["asterisklint/app/base.py:AppBase.separate_args"]}
{"id": "C41", "title": "Quoted arguments round-trip", "statement": "Backslash-escaping the special characters of any list of arguments, joining with the delimiter and splitting with quote removal gives back exactly the list.", "quantifier": "every non-empty list of texts", "why_tests_cant": "Unbounded lists and texts.", "anchors": ["asterisklint/app/base.py:AppBase.separate_args"]}
{"id": "C42", "title": "Delimiters split only at top level", "statement": "A delimiter separates two arguments iff it is not backslash-escaped, not inside double quotes and not inside round or square brackets; text without brackets, quotes and backslashes is split at every delimiter.", "quantifier": "every data text", "why_tests_cant": "Unbounded nesting.", "anchors": ["asterisklint/app/base.py:AppBase.separate_args"]}
{"id": "C43", "title": "Argument counts and options are checked exactly", "statement": "E_APP_ARG_FEW (MANY) is issued iff fewer than the minimum (more than the maximum) arguments are given; E_APP_ARG_BADOPT iff an option letter outside the allowed set occurs, E_APP_ARG_DUPEOPT iff an option letter occurs twice; each once.", "quantifier": "every argument list and option set", "why_tests_cant": "All argument lists.", "anchors": ["asterisklint/app/base.py:MinMaxArgsMixin.split_args", "asterisklint/app/base.py:AppOptions.validate"]}
{"id": "C44", "title": "Application names are resolved case-insensitively", "statement": "An application use is accepted silently iff its exact name is registered; it gives W_APP_BAD_CASE iff a registered name differs only in letter case; otherwise E_APP_MISSING; exactly one outcome, and looking up a name never changes the outcome of any later look-up.", "quantifier": "every history of registrations and look-ups", "why_tests_cant": "All histories.", "anchors": ["asterisklint/application.py:AppLoader.get", "asterisklint/app/base.py:AppBase.check_availability"]}
{"id": "C45", "title": "The used-modules report is complete and minimal", "statement": "The list of used modules is sorted, free of duplicates, and contains a module iff some application or function of that module was looked up; it does not depend on the order of the look-ups.", "quantifier": "every history of look-ups", "why_tests_cant": "All histories and orders.", "anchors": ["asterisklint/application.py:AppLoader.used_modules", "asterisklint/varfun.py:FuncLoader.used_modules"]}
{"id": "C46", "title": "Background may be spelled consistently either way", "statement": "In any run, the first of Background/BackGround that is used silently fixes the accepted spelling; afterwards exactly the uses with a different spelling are reported.", "quantifier": "every sequence of uses", "why_tests_cant": "All histories.", "anchors": ["asterisklint/app/vall/builtin.py:Background.check_availability"]}
{"id": "C47", "title": "Jump applications always produce a destination", "statement": "Goto, GotoIf and Gosub terminate for any arguments and record destinations (context, extension, priority) in which given arguments are right-aligned and missing leading parts are absent.", "quantifier": "every argument list", "why_tests_cant": "Termination for all argument counts.", "anchors": ["asterisklint/app/vall/builtin.py:Goto.__call__", "asterisklint/app/vall/builtin.py:GotoIf", "asterisklint/app/vall/app_stack.py:Gosub"]}
{"id": "C48", "title": "No duplicate priorities in a context", "statement": "In every context of the parsed dialplan there are no two steps with the same priority and the same (canonical) extension; the earlier definition is kept and each later one is reported with E_DP_PRIO_DUPE and dropped.", "quantifier": "every sequence of dialplan lines", "why_tests_cant": "Invariant over all histories.", "anchors": ["asterisklint/dialplan.py:DialplanContext.add"]}
{"id": "C49", "title": "Priorities are resolved and positive", "statement": "Every step in the parsed dialplan has an integer priority of at least 1; an n priority gets one more than the priority of the line before it; a first n or same is reported.", "quantifier": "every sequence of dialplan lines", "why_tests_cant": "Invariant over all histories.", "anchors": ["asterisklint/dialplan.py:DialplanContext.add", "asterisklint/dialplan.py:DialplanVarset.from_varset"]}
{"id": "C50", "title": "Labels are unique and known", "statement": "In every context no two steps of the same (canonical) extension carry the same label, a later duplicate is reported and loses its label, and a label is known to the dialplan iff some step carries it.", "quantifier": "every sequence of dialplan lines", "why_tests_cant": "Invariant over all histories.", "anchors": ["asterisklint/dialplan.py:DialplanContext.add", "asterisklint/dialplan.py:Dialplan.all_labels"]}
{"id": "C51", "title": "Contexts are merged by name", "statement": "The dialplan has at most one context per name, in order of first appearance; lines after a re-opened header are appended to the existing context; general and globals are kept apart.", "quantifier": "every sequence of headers and lines", "why_tests_cant": "Invariant over all histories.", "anchors": ["asterisklint/dialplan.py:Dialplan.add", "asterisklint/dialplan.py:DialplanAggregator.on_context"]}
{"id": "C52", "title": "The dialplan listing shows every step once", "statement": "Listing a context by pattern shows every step exactly once, grouped by pattern, groups in pattern order, steps of a group ordered by priority, however additions and listings are interleaved.", "quantifier": "every interleaving of additions and listings", "why_tests_cant": "Cache coherence over all histories.", "anchors": ["asterisklint/dialplan.py:DialplanContext.by_pattern", "asterisklint/dialplan.py:DialplanContext.get_sorted_patterns"]}
{"id": "C53", "title": "Jump destinations resolve soundly and completely", "statement": "Looking up (extension, priority or label) in a context returns a step only if that step is in the context or a context it includes (transitively), its pattern matches the extension (or the i fallback) and its priority or label fits; and it returns one whenever the context itself has such a step for the extension.", "quantifier": "every dialplan, context, extension and priority", "why_tests_cant": "All dialplans and include graphs.", "anchors": ["asterisklint/dialplan.py:DialplanContext.match_pattern"]}
{"id": "C54", "title": "Destination look-up terminates", "statement": "Looking up a jump destination terminates for every dialplan.", "quantifier": "every include graph between contexts", "why_tests_cant": "Non-termination (cyclic includes) cannot be observed by a terminating test.", "anchors": ["asterisklint/dialplan.py:DialplanContext.match_pattern"]}
{"id": "C55", "title": "At most one complaint per jump", "statement": "Each recorded jump destination yields at most one unreachable-destination warning, none when context and extension are variable and the priority is numeric, and none when the look-up succeeds.", "quantifier": "every dialplan and jump list", "why_tests_cant": "All dialplans.", "anchors": ["asterisklint/dialplan.py:Dialplan.walk_jump_destinations"]}
{"id": "C56", "title": "Extension lines round-trip", "statement": "An extension line built from a pattern without comma, a numeric priority, an optional label and an application is read back with exactly these parts.", "quantifier": "every pattern, priority, label and application text meeting the lexical conditions", "why_tests_cant": "All texts.", "anchors": ["asterisklint/dialplan.py:DialplanVarset.from_varset"]}
{"id": "C57", "title": "Odd input never aborts the linter", "statement": "Whatever the config files contain, linting a dialplan ends with a report instead of an internal error.", "quantifier": "every file content", "why_tests_cant": "All inputs.", "anchors": ["asterisklint/dialplan.py", "asterisklint/varfun.py", "asterisklint/pattern.py", "asterisklint/app"]}
{"id": "C58", "title": "func_odbc settings are unique and known", "statement": "Every parsed ODBC function keeps at most one value per setting (the first one), only known settings, in file order; each unknown or repeated one is reported and dropped.", "quantifier": "every sequence of settings", "why_tests_cant": "All histories.", "anchors": ["asterisklint/func_odbc.py:OdbcFunction.add", "asterisklint/func_odbc.py:OdbcFunction.check_order"]}
{"id": "C59", "title": "Defined ODBC functions are known afterwards", "statement": "After loading func_odbc definitions every defined function name (with its prefix) is accepted by the dialplan linter, and nothing else becomes accepted.", "quantifier": "every func_odbc file content and every dialplan", "why_tests_cant": "All contents.", "anchors": ["asterisklint/func_odbc.py:FuncOdbcAggregator", "asterisklint/varfun.py:FuncLoader"]}
{"id": "C60", "title": "The Asterisk version is fixed once", "statement": "In any history of version requests the effective version is the first one set (or the default), never changes, and a request for a different version is refused.", "quantifier": "every history", "why_tests_cant": "All histories.", "anchors": ["asterisklint/version.py:AsteriskVersion", "asterisklint/cls.py:Singleton"]}
{"id": "C61", "title": "Rewriting a file touches only the reported lines", "statement": "Applying a rewriter to a file for issues on strictly increasing lines replaces exactly those lines by the rewriter's output and leaves every other byte of the file unchanged.", "quantifier": "every file and issue list", "why_tests_cant": "All files.", "anchors": ["asterisklint/helper/mutator.py:FileMutatorBase.process_file"]}
{"id": "C62", "title": "Rewriting is all or nothing", "statement": "At every point where the process may be interrupted or an operation may fail during a rewrite, the target file has either its complete old or its complete new content.", "quantifier": "every crash point and failing operation", "why_tests_cant": "All crash points.", "anchors": ["asterisklint/helper/mutator.py:FileMutatorBase.process_file"]}
{"id": "C63", "title": "Help text wrapping keeps the words and the width", "statement": "Wrapping a text keeps its words in order, and every line fits the width unless it is a single word.", "quantifier": "every text and width", "why_tests_cant": "All texts.", "anchors": ["asterisklint/main.py:wrap"]}
{"id": "C64", "title": "Web requests do not influence each other", "statement": "The response to a web request depends only on that request.", "quantifier": "every history of requests", "why_tests_cant": "All histories.", "anchors": ["web/wsgi.py:DialplanCheck", "web/wsgi.py:collect_messages", "asterisklint/app/vall/builtin.py:Background"]}
{"id": "C65", "title": "Canonicalising patterns in place is safe", "statement": "Rewriting the non-canonical patterns of a dialplan file in place gives a file whose affected lines carry the canonical spelling, parse to the same steps and are no longer reported.", "quantifier": "every dialplan line with a non-canonical pattern", "why_tests_cant": "All lines.", "anchors": ["contrib/make_patterns_canonical.py", "asterisklint/helper/mutator.py"]}
{"id": "C67", "title": "Showing a dialplan shows every step once", "statement": "dialplan-show prints every context once, in file order (or reversed), and under it one line per step in listing order with its priority and application; the text of an extension stands exactly on the first line of its group; every include of the context gets one line.", "quantifier": "every dialplan read from any file", "why_tests_cant": "All dialplans.", "anchors": ["asterisklint/commands/dialplan-show.py", "asterisklint/dialplan.py:Dialplan.format_as_dialplan_show", "asterisklint/dialplan.py:DialplanContext.format_as_dialplan_show"]}
{"id": "C66", "title": "Every message points at a line that exists", "statement": "Every message of a dialplan check, and of the func_odbc.conf read with it, names a file that was linted or can be included, a line number of that file and the bytes of that line; so does the earlier place it refers back to. The only messages without a line are those that [general] or [globals] is missing, which name line 0 of such a file.", "quantifier": "every message of every check of any content, including checks that end with an internal error", "why_tests_cant": "All contents, all message sites, includes to any depth.", "anchors": ["asterisklint/where.py", "asterisklint/file.py", "asterisklint/config.py", "asterisklint/configws.py", "asterisklint/dialplan.py"]}
{"id": "C68", "title": "The jumps checked are those of the dialplan", "statement": "For every step of the dialplan each Goto/Gosub-like jump of its application is recorded once, in order, as a destination: a missing context is the context of the step, a missing extension and ${EXTEN} (or a part of it) an extension that the pattern of the step stands for, numbers as numbers; an extension that depends on other variables stays unknown. Nothing else is recorded, and the reports about jumps of a check are exactly those about the recorded destinations.", "quantifier": "every sequence of sections and settings, every check of any file content", "why_tests_cant": "All dialplans, all applications with jumps, all orders.", "anchors": ["asterisklint/application.py:App.jump_destinations", "asterisklint/dialplan.py:DialplanContext.add", "asterisklint/dialplan.py:Dialplan.walk_jump_destinations", "asterisklint/variable.py:Var.format", "asterisklint/variable.py:VarSlice.format"]}
{"id": "C69", "title": "Similar identifiers are listed as such", "statement": "ident-scan lists two different contexts, labels or variables as similar exactly if they are at most two edits apart regardless of case (and not too short for that), are not the same name in upper and lower case and not ARGn; on both sides, each identifier once and in order. An identifier that differs from another in case only is listed if its case is mixed. It exits with 1 exactly if something is listed, and the output is the same in every run.", "quantifier": "every set of identifiers, every order in which Python enumerates it, every dialplan", "why_tests_cant": "All sets of identifiers and all enumerations of a hash set.", "anchors": ["asterisklint/commands/ident-scan.py:Main.print_distance", "asterisklint/commands/ident-scan.py:Main.handle_args"]}
{"id": "C70", "title": "modules-show lists the modules that are needed", "statement": "modules-show lists, in order and each once, every module that provides an application or function in use, with the names used of it, and prints one load line for each of them that is not built in. A step that calls a known application, or whose data calls a known function at any depth, is enough for the load line of its module; a call of a function defined in func_odbc.conf is enough for that of func_odbc. Names that are not known are listed once, in order, and the exit code is 1 exactly if there is one. Names are wrapped on lines of at most 52 characters and a comma, none lost and none broken.", "quantifier": "every set of applications and functions, every dialplan read, every collection of messages", "why_tests_cant": "All registries, all sets of used names and all lengths of names; wrapping depends on sums of lengths.", "anchors": ["asterisklint/commands/modules-show.py:Main.handle_args", "asterisklint/commands/modules-show.py:Main.print_modules_used", "asterisklint/commands/modules-show.py:Main.print_load_statements", "asterisklint/commands/modules-show.py:Main.print_unknowns", "asterisklint/application.py:AppLoader.used_modules", "asterisklint/varfun.py:FuncLoader.used_modules"]}
{"id": "C71", "title": "Layout messages of a line are exact", "statement": "What is said about the layout of a line is determined by its text: an arrow without exactly one space on either side, an equals sign with white space around it, an indented assignment (unless it is 'same'), an indented header or directive, a template, a separator of a directive that is neither spaces nor tabs, quotes of a file name that do not match, #exec; each is reported exactly once if it is so and not otherwise, and any line that is none of header, assignment, blank or directive is reported as bad with its beginning.", "quantifier": "every logical line, every position", "why_tests_cant": "All lines; exactness in both directions.", "anchors": ["asterisklint/config.py:ConfigParser.__iter__", "asterisklint/config.py:ConfigParser.preprocessor", "asterisklint/configobj.py:Varset", "asterisklint/configobj.py:Context"]}
{"id": "C72", "title": "Includes do not disturb the hints about blank lines", "statement": "What is reported about blank lines at the beginning, between items and at the end of a file does not depend on which other files are included by it or include it: it is what is reported if the lines of the file are read alone. A file whose last line is blank gets the end-of-file hint and no other file does.", "quantifier": "every nesting of files each read once, every layout of each of them", "why_tests_cant": "All trees of files and all layouts; the state of one file must survive that of others.", "anchors": ["asterisklint/configws.py:VswContextStack.handle", "asterisklint/configws.py:VswContextStack.handle_eof", "asterisklint/configws.py:VswContext"]}
{"id": "C73", "title": "The named command is run", "statement": "The first argument that does not start with a dash names the command. The file that is run is <name>.py in the directory asterisklint/commands below the first entry of the search path that has it, where ~/.asterisklint comes first if it exists; it gets the other arguments unchanged and in order. No file outside those directories is ever run, whatever the name. A name that is not that of a command gives a message and status 1.", "quantifier": "every argument list, search path, home directory and content of the file system", "why_tests_cant": "All arguments and file systems, in particular all names (path traversal).", "anchors": ["asterisklint/main.py:main", "asterisklint/main.py:load_command", "asterisklint/main.py:COMMAND_RE", "asterisklint/main.py:list_command_dirs"]}
{"id": "C74", "title": "ls lists the commands that can be run", "statement": "ls shows every available command exactly once, grouped by directory, in order, with the description found in the file that would be run under that name; and each of them can be run. A command that cannot be loaded is shown with an error.", "quantifier": "every search path and content of the file system", "why_tests_cant": "All file systems, with the same command in several directories.", "anchors": ["asterisklint/main.py:list_commands", "asterisklint/main.py:load_command"]}
{"id": "C75", "title": "Conditions of the If applications are checked exactly", "statement": "For GotoIf, GosubIf, ExecIf, GotoIfTime and ExecIfTime: two parts around one top-level question mark are accepted; more are reported as too many; none is reported as old style if there is a top-level comma, else as too few. An empty (blank) condition is reported; for the first three so is a condition with constant text in it, blanks at the ends aside. Nothing else is reported about parts and condition. The actions are the non-empty ones among the first two parts between top-level colons. The check goes on after each of these messages.", "quantifier": "every argument text with any variables in it", "why_tests_cant": "All texts with nesting, quoting and escapes, and all positions of blanks and variables.", "anchors": ["asterisklint/app/base.py:IfStyleApp.split_args", "asterisklint/app/base.py:VarCondIfStyleApp.split_args", "asterisklint/app/vall/builtin.py:GotoIf", "asterisklint/app/vall/app_exec.py:ExecIf", "asterisklint/app/vall/app_stack.py:GosubIf", "asterisklint/variable.py:Var.strip"]}
{"id": "C76", "title": "A clean dialplan passes silently and is read as written", "statement": "Write a dialplan in the ordinary layout: [general] and [globals] first with key=value lines, an empty line before each further context header, then include lines and extensions (exten => PAT,1(label),App(...), then same => n(label),App(...)). If contexts have different names, extensions in a context are canonical and different, labels within an extension are unique, every application is one about which nothing is to be said, and every jump goes to a step that exists, then dialplan-check reports nothing at all, and the dialplan read has exactly these settings, contexts, includes, and steps numbered 1, 2, 3, ... with their labels and applications.", "quantifier": "all dialplans of this form, with any number of settings, contexts, includes, extensions and steps, and all registries of applications", "why_tests_cant": "The absence of false alarms is a claim about all good inputs; sample dialplans can only show that some pass.", "anchors": ["asterisklint/file.py:FileReader", "asterisklint/config.py:ConfigAggregator", "asterisklint/dialplan.py:DialplanAggregator", "asterisklint/dialplan.py:Dialplan.walk_jump_destinations", "asterisklint/application.py:App", "asterisklint/commands/dialplan-check.py:Main"]}
{"id": "C77", "title": "Well-formed substitutions are understood as written, silently", "statement": "Data made of plain text, ${name}, ${name:start}, ${name:start:length}, ${FUNC(args)} and $[expression], nested to any depth, with names of letters, digits and underscores, sensible numbers, known functions spelled as registered with balanced arguments, and level brackets in the text inside substitutions, is parsed without any message into exactly the sequence of texts and variables it stands for; exactly the variables and functions occurring in it are recorded as used, in order; and what is read prints as the text that was written (when the numbers have no leading zeros).", "quantifier": "all such data, of any length and nesting depth, and all registries of functions", "why_tests_cant": "That no well-formed input is rejected or misread concerns infinitely many nested texts; samples cover a few shapes.", "anchors": ["asterisklint/varfun.py:VarLoader.parse_variables", "asterisklint/varfun.py:VarLoader.parse_variables", "asterisklint/variable.py:Var.join", "asterisklint/variable.py:Var.__str__"]}
{"id": "C78", "title": "What comes with the program is found, whatever order the directory lists", "statement": "After loading the modules for a version, in whatever order the directory lists the files, exactly the applications and functions defined in the files for that version are found, each under its name in lower case and none replacing another. Each is accepted silently when spelled as defined; in another spelling the proper one is suggested; any other name is reported as missing. Every application that comes with the program (except Background, which asks for one of two spellings consistently) has some use that causes no message at all.", "quantifier": "all names, both versions, all orders of listing, all applications and functions in the source tree, all behaviours of lower() outside ASCII", "why_tests_cant": "Tests see one directory order and a few names; that no two of several hundred classes collide and that every one is reachable and usable silently is a statement about all of them, and about all other names.", "anchors": ["asterisklint/application.py:AppLoader.load_all", "asterisklint/application.py:AppLoader.register", "asterisklint/application.py:AppLoader.get", "asterisklint/varfun.py:FuncLoader", "asterisklint/version.py:AsteriskVersion.list_app_mods", "asterisklint/app/vall", "asterisklint/func/vall"]}
{"id": "C79", "title": "Going to a version that knows more changes nothing that was known", "statement": "If a check of a dialplan reports no application and no function as missing, then the same check with a version that knows at least those applications and functions (in particular version 13 instead of 11) gives exactly the same messages, the same dialplan and the same outcome. All applications and functions of version 11 come with version 13, and the order in which the directories are listed has no influence on any check.", "quantifier": "all dialplans, file systems, versions and orders of listing", "why_tests_cant": "It compares two runs for every possible dialplan; any place where a look-up influences other checks could break it.", "anchors": ["asterisklint/application.py:AppLoader.get", "asterisklint/varfun.py:FuncLoader.get", "asterisklint/version.py:AsteriskVersion", "asterisklint/commands/dialplan-check.py"]}
{"id": "C80", "title": "With vg, a semicolon starts a comment exactly if it is not nested", "statement": "Under the vg command a semicolon starts a comment if and only if it is not inside parentheses, single quotes or double quotes. The blanks in front of the comment belong to the comment, nothing of the line is lost, and a missing blank in front of a comment is reported.", "quantifier": "all lines with quotes and parentheses in order, of any nesting depth", "why_tests_cant": "Nesting is unbounded and the three kinds of brackets interact; samples cover a few combinations.", "anchors": ["contrib/commands/vg.py:VoipgridCommentReader.voipgrid_comment_split"]}
{"id": "C81", "title": "With vg, folded lines are read as one line", "statement": "Under the vg command a line that starts with a blank continues the one before it in its file: each line together with all its continuations is read as one line, at the place of the first, made of the data of all without the blanks at their ends, followed by the comments of all. Lines starting with # stand for themselves. No line is lost, read twice or joined otherwise, and the other messages about the lines of the file are unaffected.", "quantifier": "all files without includes, all parsers reading them", "why_tests_cant": "It ranges over all sequences of lines and all ways of splitting them into groups, including the end of the file.", "anchors": ["contrib/commands/vg.py:VoipgridCommentReader.__iter__"]}
{"id": "C82", "title": "With vg, a context replaces an earlier one of the same name", "statement": "Under the vg command a context replaces all contexts of the same name that came before it: in the end it has only what its lines after its last header say, in dialplans as in other files, and nothing of the earlier one is checked any more.", "quantifier": "all dialplans and configuration files, all positions of headers in them", "why_tests_cant": "Leftovers depend on what came before, in any number of earlier contexts.", "anchors": ["contrib/commands/vg.py:VoipgridFileDialplanParser.on_context", "contrib/commands/vg.py:VoipgridFileConfigParser.on_context", "contrib/commands/vg.py:VoipgridFileFuncOdbcParser.on_context"]}
{"id": "C83", "title": "With vg, ordinary dialplans are checked as without it", "statement": "If no line starts with white space or contains a backslash, quotes and parentheses before the first semicolon are in order, and no context is opened twice, then a check under the vg command ends with the same dialplan and reports the same messages as without it (perhaps in another order).", "quantifier": "all such dialplans, including files they include, all registries", "why_tests_cant": "It compares two readers, one of which is a line ahead, on every possible input.", "anchors": ["contrib/commands/vg.py:VoipgridCommentReader", "asterisklint/file.py:AsteriskCommentReader", "asterisklint/commands/dialplan-check.py"]}
{"id": "C84", "title": "What is said about a func_odbc.conf is exactly what is wrong with it", "statement": "Reading a func_odbc.conf reports, line by line: a section name that is not groups of capitals and digits joined by single underscores; an arrow instead of an equals sign; a setting before any section; an unknown setting; a setting given before, with the place of the first; a setting that belongs before the last one that counted; a legacy setting (read, write); a statement that ends in a semicolon. At the end it reports each section without a statement to read or write with. None of these is reported otherwise, none is left out, and they come in this order.", "quantifier": "all func_odbc.conf files that load, including files they include, all registries", "why_tests_cant": "Order, duplicates and lateness depend on all lines of the section above, in any number; exactness means the absence of further messages on every input.", "anchors": ["asterisklint/func_odbc.py:OdbcFunction.add", "asterisklint/func_odbc.py:OdbcFunction.check_order", "asterisklint/func_odbc.py:OdbcFunction.finalize", "asterisklint/func_odbc.py:FuncOdbcAggregator"]}
{"id": "C85", "title": "The commands print every message that is not muted, and their exit status says so", "statement": "dialplan-check and func_odbc-check print, for each message in the order issued, one line 'file:line NAME: text', unless ALINT_IGNORE asks to leave out messages with that name; dialplan-check first those of func_odbc.conf (the one given, or the one beside the dialplan if there is one), then those of the dialplan checked with the functions defined there. The exit status is 1 if something was printed and 0 otherwise. If a run ends with a traceback, all messages but possibly the last one were printed. Another value of ALINT_IGNORE changes nothing but which of these lines are left out and the exit status. dialplan-show and modules-show print no messages, whatever the settings.", "quantifier": "all files and file systems, all registries, all values of ALINT_IGNORE, all settings of the manager", "why_tests_cant": "It ranges over all inputs and all values of the variable; that no message is lost before a traceback depends on every place where a message is issued.", "anchors": ["asterisklint/defines.py:MessageDefManager.on_message", "asterisklint/commands/dialplan-check.py:Main.handle_args", "asterisklint/commands/func_odbc-check.py:Main.handle_args", "asterisklint/commands/dialplan-show.py:Main.handle_args", "asterisklint/commands/modules-show.py:Main.handle_args", "asterisklint/mainutil.py:load_func_odbc_functions"]}
{"id": "C86", "title": "ident-scan lists every context, label and variable once, with counts, and its exit status says whether similar names were found", "statement": "With --verbose ident-scan first prints the names of all contexts, then all labels of steps, then all variables used, each name exactly once and sorted without regard to case; for a variable the number of its uses and the number of different files with such a use. After that it prints exactly what it prints without --verbose: the identifiers with similar names, or nothing. The exit status is 1 exactly if similar names were printed. No lint messages are printed. If editdistance is missing, the lists are printed with exit status 0, and without --verbose the run ends with ImportError.", "quantifier": "all dialplan files and what they include, all registries, all orders in which sets are enumerated", "why_tests_cant": "It is about the completeness of lists over arbitrary dialplans, and about every order in which Python may enumerate a set.", "anchors": ["asterisklint/commands/ident-scan.py:Main.handle_args", "asterisklint/commands/ident-scan.py:Main.print_contexts", "asterisklint/commands/ident-scan.py:Main.print_labels", "asterisklint/commands/ident-scan.py:Main.print_variables", "asterisklint/commands/ident-scan.py:Main.print_distance", "asterisklint/varfun.py:VarLoader"]}
{"id": "C87", "title": "A test with assertLinted succeeds exactly if the messages are those expected, and tests do not disturb each other", "statement": "A test derived from ALintTestCase succeeds exactly if it raises nothing, every assertLinted gives for each kind of message not ignored the number of messages of that kind issued since the assertLinted before it (and names no other kind), and no message that is not ignored is left at the end. ignoreLinted takes names and prefixes followed by one asterisk, and rejects other uses of the asterisk; a mark on the class takes precedence over one on the method. No message is printed, no message of a test is visible to the next one, so the result of a test does not depend on other tests. The runner lists, sorted, all kinds of messages no test has issued, and no others if all tests succeed.", "quantifier": "all tests (any sequence of messages, checks and exceptions), all suites, all values given to ignoreLinted, all values of ALINT_IGNORE", "why_tests_cant": "It is about the meaning of tests: all sequences of messages and checks, and all orders of tests.", "anchors": ["asterisklint/alinttest.py:ALintTestCase.assertLinted", "asterisklint/alinttest.py:ALintTestCase.tearDown", "asterisklint/alinttest.py:ALintTestResult.print_untested", "asterisklint/alinttest.py:ignoreLinted", "asterisklint/defines.py:MessageDefManager.reset"]}
{"id": "C88", "title": "GenerateTestCases makes a test of every tuple of arguments", "statement": "For every tuple of arguments in the list the class gets a test method that calls the function with exactly these arguments; the other methods of the class stay.", "quantifier": "all lists of tuples of arguments, all classes", "why_tests_cant": "A test that is lost is not noticed by running the tests.", "anchors": ["asterisklint/alinttest.py:GenerateTestCases"]}
{"id": "C89", "title": "Converting old-style conditions rewrites their lines and nothing else", "statement": "After convert_dp_104_to_1100.py has been run on a dialplan and the question answered with y, every application reported for an old-style condition (E_APP_ARG_IFSTYLE) is written in the new form (condition, question mark, application with its arguments in parentheses), and everything else on the disk is as it was.", "quantifier": "all dialplans on all disks, all answers, all faults", "why_tests_cant": "Which lines are rewritten depends on every message of every file read and on what happens after the message; a test sees one dialplan.", "anchors": ["contrib/convert_dp_104_to_1100.py:Aggregator", "contrib/convert_dp_104_to_1100.py:ConvertDp104To1100Mutator", "asterisklint/helper/mutator.py:FileMutatorBase", "asterisklint/app/base.py:IfStyleApp"]}
{"id": "C90", "title": "The web check never passes over an include", "statement": "A text posted to the web interface with a line that is an #include or #tryinclude of any file, whatever its name and whatever was checked before, never gets a report, so a report always covers the whole dialplan; a text without such a line is answered after its lines have been read once.", "quantifier": "all posted texts, all positions and spellings of the include, all histories of requests", "why_tests_cant": "Any line at any position may be the include, and it may be reached or not, depending on everything before it.", "anchors": ["web/wsgi.py:UploadedFileOpener", "web/wsgi.py:DialplanCheck.on_post", "asterisklint/file.py:BinFileReader.__iter__"]}
{"id": "C91", "title": "Variables and function calls are checked exactly", "statement": "In the data of an application, made of literal text, ${name}, ${name:start:length}, ${f(args)}, ${f(args):start:length} and $[expression], nested in any way, exactly these things are reported: a variable name with anything but letters, digits and underscores; a function nobody knows; a function written in another case; unbalanced brackets or quotes in the arguments of a function; an argument of AUDIOHOOK_INHERIT that is not one of its names; an argument of INC or DEC that is not a variable name; and what is wrong with the assignment inside SET (C92). a substring with a wrong number of parts, a start or length that is no number or makes no sense; a function call without its closing parenthesis or with something behind it. A text with a substitution that is not closed is not read any further than that, and what is in front of it is checked. Each once, at the line, in the order of writing, a function after its arguments; and every variable, function, and variable named in INC or DEC is recorded as used. (INC and DEC are given plain text.)", "quantifier": "all texts, of any length and depth, whose check does not end with another exception (those are in C57); all tables of functions", "why_tests_cant": "Texts nest without bound and each message depends on the whole of what is inside; tests check one function call at a time.", "anchors": ["asterisklint/varfun.py:VarLoader.parse_variables", "asterisklint/varfun.py:VarLoader.count_var", "asterisklint/varfun.py:FuncLoader.process_read_function", "asterisklint/varfun.py:FuncLoader.get", "asterisklint/func/base.py:FuncBase.__call__", "asterisklint/func/vall/func_math.py", "asterisklint/func/vall/func_audiohookinherit.py"]}
{"id": "C92", "title": "Assignments are checked exactly", "statement": "Set(...) reports exactly: no data at all; no = in the data; a blank in front of the =; for an assignment to a function, name(args)=value, the same about the function as if it were called with these arguments; and unbalanced brackets or quotes in the data. Only an = written in the data itself counts, not one inside a substitution. Nothing else is reported, whatever the value.", "quantifier": "all data of the form of C91, all tables of functions and applications", "why_tests_cant": "Where the first = is, and whether a function is meant, depends on the whole text with its substitutions.", "anchors": ["asterisklint/varfun.py:VarLoader.parse_assignment", "asterisklint/varfun.py:FuncLoader.process_write_function", "asterisklint/app/vall/builtin.py:Set", "asterisklint/func/vall/func_logic.py:SET"]}
{"id": "C93", "title": "Exactly what is wrong with an application is said about it", "statement": "For an application as it is written in a dialplan, these things and no others are reported, each once and in this order: missing parentheses (not for NoOp); white space behind the name (then nothing else) or in front of it; no name; a name nobody knows, or in another case (for Background: other than the spelling first used); what there is to say about variables and functions in the data (C91), or that the data cannot be read because a ${ or $[ is not closed; and then by kind of application: unbalanced brackets or quotes; the assignment (C92); too few or too many arguments, options that are unknown or given twice, a pipe in the only argument; an open parenthesis behind the priority of Gosub; the parts of a condition, an empty or constant condition; and for ExecIf the same about the applications inside, to any depth. It jumps to exactly the destinations written, right-aligned, the arguments of Gosub left out.", "quantifier": "all texts of applications, nested in ExecIf to any depth; all tables of applications and functions in which an application with described arguments has at least one; all chosen spellings of Background; whenever the check comes to an end with the application (when it does not is C57 and C75)", "why_tests_cant": "Each message depends on the whole text and on the kind of application; that nothing else is said in any case cannot be seen from examples.", "anchors": ["asterisklint/application.py:App", "asterisklint/application.py:AppLoader.get", "asterisklint/app/base.py:AppBase", "asterisklint/app/base.py:MinMaxArgsMixin", "asterisklint/app/base.py:AppArgsMixin", "asterisklint/app/base.py:NoPipeDelimiterMixin", "asterisklint/app/base.py:IfStyleApp", "asterisklint/app/base.py:VarCondIfStyleApp", "asterisklint/app/vall/builtin.py", "asterisklint/app/vall/app_stack.py", "asterisklint/app/vall/app_exec.py"]}
{"id": "C94", "title": "Exactly what is wrong with a dialplan is said about it", "statement": "When a dialplan check ends, its report is: what is said about the lines of the files and about templates, put together with exactly the following, in the order of the lines. A line in front of every header. [general] behind [globals] or a context, [globals] in front of [general] or behind a context, [globals] again, a header with templates. In a context: a line without arrow; a switch, an ignorepat, a hint; an unknown key. For exten and same: a priority that is no number; what there is to say about the application (C93); an extension not written canonically; no extension to go with; no line with a number above to count from, or the number 0; n as the first line below a header or below a step of another extension, or a number that is not 1 and does not follow the last step of that extension; the same number as, or else the same label as, an earlier step of that extension, with the place of it. A line is a step of its context if and only if it has an extension and a number no step of that extension has. Behind all that: missing [general] or [globals], if there is a context; then for every jump, in order, the one thing that is wrong with its destination, if any (C55).", "quantifier": "all files, all tables of applications and functions, all sequences of lines, all earlier spellings of Background; the check ends without an exception (C57)", "why_tests_cant": "Whether something is said about a line depends on all lines above it, in any context; a wrong or missing message shows only for particular histories, and that nothing else is ever said cannot be seen from examples.", "anchors": ["asterisklint/dialplan.py:DialplanAggregator", "asterisklint/dialplan.py:DialplanContext.add", "asterisklint/dialplan.py:DialplanVarset.from_varset", "asterisklint/dialplan.py:Dialplan.add_general", "asterisklint/dialplan.py:Dialplan.add_globals", "asterisklint/dialplan.py:Dialplan.on_complete", "asterisklint/dialplan.py:Dialplan.walk_jump_destinations"]}
{"id": "C95", "title": "func_odbc-annotate shows every statement of every function once", "statement": "For a func_odbc.conf that can be read, func_odbc-annotate prints a title and then one block for each section, in the order of the file: the name of the function; for each of insert, read and write, in this order, for which the section has a statement that is not empty (of two settings for the same type the newer name counts, unless it is empty; of two lines for the same setting the first counts), the type, for read the columns selected, numbered from 1, each under its alias or else its own text, and the formatted statement, which ends with exactly the semicolon it has or gets one; and an empty line. It ends with status 0 if and only if every section can be shown like this. Otherwise it ends with an exception at the first section for which this is not so, after printing all blocks before it and the lines up to the type at fault. It never prints a message about the file.", "quantifier": "all files, all parsers of SQL (the package may be absent), all settings of the message system", "why_tests_cant": "The output depends on any number of sections, any combination of settings in them and on whatever the parser makes of a statement; that no statement is left out, doubled or put under another function, and at which of them the program ends, holds or fails for particular combinations only.", "anchors": ["asterisklint/commands/func_odbc-annotate.py:Main.handle_args", "asterisklint/func_odbc.py:OdbcQuery", "asterisklint/func_odbc.py:OdbcFunction.get_queries", "asterisklint/func_odbc.py:OdbcFunction.get_function_name"]}
{"id": "C96", "title": "What is said about the lines of the files is exact", "statement": "For every line of the files read (the file given and, in place, the files its lines include) exactly these messages are issued, in this order: a bad encoding if its bytes are not UTF-8, a control character other than TAB, LF and CR, a blank at its end, a comment glued to what is in front of it, and then, depending on how it is read: indentation of a header (and that templates are not supported), of an assignment (unless its key is same) or of a directive; white space around the arrow or the equals sign other than the usual; for a directive an odd separator, quotes that do not match (a single double quote excepted), the command of #exec, the name of a file to #include that is not there; for any other line that is not blank one message with its first 16 characters. What the line comes to (a header, an assignment, a blank line, each with its parts, an included file with its path, or nothing) is fixed by the line as well. Besides these there are only the messages about line terminators, which are those of each file on its own in the nesting of the files, and about blank lines, which are, if no file is read twice, those the layout of each file asks for, except for a blank line at the end of a file whose end the checker does not notice. All messages of a check of a dialplan are those about the lines in their order, put together with those about terminators and blank lines and with those of C94 in their order. They come line by line: first what there is to say about the bytes of the line, then about the ends of files and the terminator of the line, then about its layout, then about blank lines in front of it, then what the dialplan says about it; when all lines are read, what is left about ends of files and blank lines, then what is missing, then the jumps.", "quantifier": "all files and nestings of files, all bytes; whenever the run ends without an exception", "why_tests_cant": "It is a statement about the absence of any other message and about all combinations of properties of a line; tests look for single messages in particular lines.", "anchors": ["asterisklint/file.py:FileReader", "asterisklint/file.py:AsteriskCommentReader", "asterisklint/config.py:ConfigParser", "asterisklint/config.py:ConfigParser.preprocessor", "asterisklint/configobj.py:Varset", "asterisklint/configobj.py:Context", "asterisklint/configws.py:VswContextStack"]}
{"id": "C97", "title": "Making the patterns of a dialplan canonical, from beginning to end", "statement": "When make_patterns_canonical is run on a dialplan that can be read, the answer is y and nothing fails, then afterwards every file that had hints about patterns has as many lines as before; a line without a hint is as it was, and in a line with a hint exactly the first occurrence behind the first equals sign of the pattern named by the hint is replaced by the spelling the hint expects. There is at most one hint for a line. Owner and mode of these files, and all other files, are as before, and no temporary file is left. When the answer is no, when there is nothing to replace, or when the dialplan cannot be read, nothing on the disk is touched. When every such spelling can stand in its place, reading the files again gives the same dialplan up to the spelling of patterns, no hint is left, and a second run changes nothing.", "quantifier": "all dialplans, include nestings, disks, path lookups and users; whenever the file system does not fail", "why_tests_cant": "The lines of all files, all nestings of includes and all messages have to be related to what is written; a test compares the result for single files.", "anchors": ["contrib/make_patterns_canonical.py:Aggregator.on_message", "contrib/make_patterns_canonical.py:MakePatternsCanonicalMutator.process_issue", "asterisklint/helper/mutator.py:FileMutatorBase.request_permission_and_process", "asterisklint/pattern.py:H_PAT_NON_CANONICAL"]}
{"id": "C98", "title": "The line shown below a message can be read back", "statement": "If lines are to be shown, dialplan-check prints right below the heading of every message it prints the line of the file the message is about, as Python writes bytes but without the b: only printable ASCII characters and no line break, whatever is in the file; from these the bytes of the line, line ending included, can be read back, so that different lines are shown differently. Only if that is more than 63 characters is it cut, after 63 of them, and dots at the end tell so; dots at the end mean nothing else. Below that the earlier place is named if there is one and that is asked for, and nothing else is printed.", "quantifier": "all lines of any bytes and any length, all files, all messages", "why_tests_cant": "All byte sequences; that different lines are never shown alike is a claim about pairs of lines.", "anchors": ["asterisklint/defines.py:MessageDefManager.on_message", "asterisklint/where.py:Where"]}
{"id": "C99", "title": "No file is rewritten without its name being shown and a yes", "statement": "make_patterns_canonical and convert_dp_104_to_1100 touch nothing on the disk unless they have shown the names of all files with issues, asked whether to update them, and got exactly y as an answer: with any other answer, or at the end of the input, everything stays as it is. After a y, at every moment the only entries of the disk that differ from what they were are temporary ones and the names (or, for a symbolic link, the target) of files with issues for which `Overwriting ...` has been printed before. If nothing fails, exactly this is on the screen: the title, the files with issues one below the other, the question, and then one `Overwriting` line for each file and Done, or Aborted; nothing at all about files when there are none. Done is printed only after every one of these files has been rewritten. The files shown by make_patterns_canonical are those with a hint, sorted, each once.", "quantifier": "all dialplans, disks, links, answers and users; wherever a system call, print or question fails or is interrupted", "why_tests_cant": "Every moment of every run is meant, including those in which something fails; tests of the interactive path do not exist and would try a few answers.", "anchors": ["asterisklint/helper/mutator.py:FileMutatorBase.request_permission_and_process", "contrib/make_patterns_canonical.py:MakePatternsCanonicalMutator", "contrib/convert_dp_104_to_1100.py:ConvertDp104To1100Mutator"]}
{"id": "C100", "title": "Every file opened is closed again", "statement": "While files are read, only the file opened last and not yet closed delivers lines, and only it is closed, after its last line and before the file that included it goes on. Never are more files open than the system allows. When reading has come to an end, each file has been closed exactly as often as it was opened.", "quantifier": "every set of files, root file, limit on the number of open files (at least one), and every number of steps", "why_tests_cant": "Leaked handles show only in long chains of includes or at the limit, and the order of closing is not observed by any test.", "anchors": ["asterisklint/file.py:BinFileReader.__iter__", "asterisklint/file.py:BinFileReader.include"]}
{"id": "C101", "title": "A limit on open files ends any nesting of includes", "statement": "If the system allows only so many files to be open at once, reading ends whatever the files include, even if a file includes itself. The lines read are those of the include expansion cut off where it is nested as deep as files can be open; for a line there that names an existing file the messages are the ones for a file that could not be found (none for #tryinclude), and reading goes on behind it. No line is cut off like this if and only if the expansion without limit is finite and nowhere nested that deep, and then the limit changes nothing of what a check reports. If a file includes itself, some line is.", "quantifier": "every set of files, root file and limit (at least one); every consumer of the elements read; any of these may raise", "why_tests_cant": "All nestings, including infinite ones, and all limits are meant; tests run with a few files.", "anchors": ["asterisklint/file.py:BinFileReader.include", "asterisklint/config.py:ConfigParser.preprocessor"]}
{"id": "C102", "title": "Every web request is answered", "statement": "Every request to the web interface gets a response after finitely many steps, whatever text is posted and whatever was asked before.", "quantifier": "all requests, posted texts and histories of requests", "why_tests_cant": "A request that is never answered cannot be observed by a test that ends; and all texts are meant.", "anchors": ["web/wsgi.py:DialplanCheck.on_post", "web/wsgi.py:UploadedFileOpener", "asterisklint/file.py:BinFileReader.__iter__"]}
{"id": "C103", "title": "A command line means what it says", "statement": "What the commands dialplan-check, dialplan-show, modules-show, ident-scan, func_odbc-check and func_odbc-annotate take from their command line is determined by it in the documented way: the first word that belongs to no option is the file, any further one is an error, and without one the default file is used; options may stand before or behind the file, may be abbreviated as long as only one is meant, and take a value with = or as the next word; words behind -- are no options. An option like --func-odbc given twice, in whichever spelling, is an error. No word is ignored: in an accepted command line every word is the file, an option or its value, flags are set exactly if given and values are the ones given. If the command line is refused the exit status is 2, nothing is read and nothing is written to standard output, and the exit status is 2 in no other case.", "quantifier": "all lists of words as command line, all files; for every parser whose options are single letters without value or long words", "why_tests_cant": "There are infinitely many command lines; tests try a few of them.", "anchors": ["asterisklint/mainutil.py:MainBase.parse_args", "asterisklint/mainutil.py:UniqueStore", "asterisklint/commands/dialplan-check.py:Main.create_argparser", "asterisklint/commands/dialplan-show.py:Main.create_argparser", "asterisklint/commands/modules-show.py:Main.create_argparser", "asterisklint/commands/ident-scan.py:Main.create_argparser", "asterisklint/commands/func_odbc-check.py:Main.create_argparser", "asterisklint/commands/func_odbc-annotate.py:Main.create_argparser"]}
{"id": "C104", "title": "Which web requests are checked", "statement": "The web server checks a text exactly if it is single-threaded and the request is a POST to /dialplan-check whose declared length is at most 65536 bytes and whose JSON body has the text as the member extensions.conf of the member files; then it is that text that is checked. Any other request has no effect on later ones and yields no report: it is answered with one of the two fixed pages or with a status that says what is wrong (400, 404, 405, 413, or that of an invalid body), a client's mistake being answered with a client error.", "quantifier": "all requests, all JSON bodies, all histories of requests", "why_tests_cant": "Tests post a few bodies; that no other request is checked or changes what later ones get is about all of them.", "anchors": ["web/wsgi.py:max_body", "web/wsgi.py:EnvironmentCheckMiddleware", "web/wsgi.py:DialplanCheck.on_post", "web/wsgi.py:application"]}
{"id": "C105", "title": "The web page shows every message at its line", "statement": "The web page shows the text that was checked line by line, with the numbers the server uses, and each message of the report once: below the line it is about, or above the listing if it is about none, in the colour of its severity. Text and messages are shown as they are: nothing in them, nor in an error response, becomes markup.", "quantifier": "all contents of the text area, all reports", "why_tests_cant": "The page has no tests; that no text whatsoever injects markup or shifts a message to another line is about all texts and reports.", "anchors": ["web/index.html:getTextarea", "web/index.html:logInput", "web/index.html:logSadness", "web/index.html:newMessage", "web/index.html:htmlEsc", "web/index.html:onSuccess", "web/index.html:onFail"]}
{"id": "C106", "title": "Without a command the program says what it needs", "statement": "Called without a command, asterisklint shows its help or its version, whichever is asked for first, and exits with status 0; otherwise, whatever the arguments are, it complains on standard error and exits with status 2. It never ends successfully without having done anything.", "quantifier": "all lists of arguments", "why_tests_cant": "Which arguments count as options is decided by argparse's rules (abbreviations, joined letters, -- and negative numbers); that none of the infinitely many argument lists slips through unnoticed is a statement about all of them.", "anchors": ["asterisklint/main.py:main"]}
{"id": "C107", "title": "The report can be read line by line", "statement": "Each thing dialplan-check and func_odbc-check print about the checked files is a line of its own: whatever is in the files, no text from them (arguments, patterns, names, undecodable bytes, carriage returns) ever puts a line feed into a line of the report. So the report can be split into its lines again, and the report alone tells which messages there were, about which lines of which files, in which order: two runs with equal reports had the same ones. (The paths given by the user are without line feeds, for the last part also without blanks.)", "quantifier": "all file systems, settings, versions of Asterisk data, paths without line feed; for the last part all pairs of runs", "why_tests_cant": "Editors and CI jobs parse this report; that no content of a file can forge or break a line of it is a statement about all files and about pairs of runs.", "anchors": ["asterisklint/defines.py:MessageDefManager.on_message", "asterisklint/defines.py:MessageDef", "asterisklint/where.py:Where", "asterisklint/dialplan.py:DialplanAggregator", "asterisklint/func_odbc.py:FuncOdbcAggregator", "asterisklint/file.py:FileReader"]}
{"id": "C108", "title": "The same files give the same report", "statement": "Running dialplan-check or func_odbc-check twice on the same files gives the same report and the same exit status: nothing in the report depends on where Python happens to put its objects in memory. (For dialplan-check this holds for the exit status, for which messages there are, about which lines and in which order, and for all texts but those of eight named classes: these show a variable by Python's repr of an object without one of its own, with its memory address in it, so that reports differ from run to run.)", "quantifier": "all file systems, environments and arguments; all assignments of texts (addresses) to variable objects", "why_tests_cant": "A test compares message classes, or one run with an expected text; that two runs agree is a statement about pairs of runs, over all inputs and memory layouts.", "anchors": ["asterisklint/defines.py:MessageDefManager.on_message", "asterisklint/app/__init__.py", "asterisklint/func/__init__.py", "asterisklint/app/base.py:AppOptions.validate", "asterisklint/app/vall/app_stack.py:_GosubMixin", "asterisklint/variable.py:Var"]}
{"id": "C109", "title": "The text of a message tells the values in it", "statement": "In messages that show their values in quotes the text tells the values: two equal lines of reports on whatever files come from messages with the same file, line, name and the same values, whatever quotes, backslashes, control characters or other characters are in the values. What is shown in quotes has no control characters in it. (File names without blanks.)", "quantifier": "all pairs of messages of 23 classes issued by dialplan-check on all file systems; all texts; all notions of printable characters", "why_tests_cant": "That no two different values can be confused is injectivity over all texts of Unicode characters, in the midst of arbitrary other text.", "anchors": ["asterisklint/defines.py:MessageDefManager.on_message", "asterisklint/defines.py:MessageDef"]}
{"id": "C110", "title": "Only the files asked for matter", "statement": "What a command prints and its exit status depend only on the file given to it, on func_odbc.conf (as given, or beside the dialplan, for the commands that read it), and on the files that lines of these files include, directly or through other included files. Whatever other files there are, and whatever is in them, makes no difference. The lines that messages are about are lines of those files.", "quantifier": "all pairs of file systems with the same files under those names, all dialplans, all options, all commands that read config files (dialplan-check, modules-show, dialplan-show, ident-scan, func_odbc-check, func_odbc-annotate)", "why_tests_cant": "It compares runs on all file systems that differ elsewhere; a test can only add a few files and look.", "anchors": ["asterisklint/file.py:BinFileReader.include", "asterisklint/config.py:ConfigParser.preprocessor", "asterisklint/mainutil.py:load_func_odbc_functions", "asterisklint/commands/dialplan-check.py:main"]}
{"id": "C111", "title": "A silent check means a sound dialplan", "statement": "If a check comes to its end without a message, then every line read is UTF-8 without stray control characters and without trailing white space, is a header, an assignment in the usual spelling, a blank line or an include of a file that is there; headers come in the expected order, every step has an extension in canonical spelling, a valid priority in order, no number or label used twice, and an application about which nothing is to be said; [general] and [globals] are there; and every jump leads somewhere. Conversely nothing is said about such a dialplan (each file included once).", "quantifier": "all files, dialplans, tables of applications and functions, include structures", "why_tests_cant": "It says that nothing that should be reported is ever missed in combination; tests show single faults being reported.", "anchors": ["asterisklint/dialplan.py:DialplanAggregator", "asterisklint/config.py:ConfigParser", "asterisklint/file.py:FileReader", "asterisklint/commands/dialplan-check.py:main"]}
{"id": "C112", "title": "Exit status 0 of asterisklint means checked and fine", "statement": "asterisklint with the command dialplan-check exits with status 2 exactly if the command line is refused, and with 0 exactly if help was asked for or the file was there, was read to its end with the functions of func_odbc.conf, and all messages were of kinds in ALINT_IGNORE. A file that is missing, an internal error or a command that is not found never give status 0. Options may be written before or behind the command.", "quantifier": "all command lines, search paths, file systems, dialplans, values of ALINT_IGNORE", "why_tests_cant": "Scripts rely on the status in all circumstances; tests run a few command lines.", "anchors": ["scripts/asterisklint", "asterisklint/main.py:main", "asterisklint/mainutil.py:MainBase", "asterisklint/commands/dialplan-check.py:main"]}
{"id": "C113", "title": "A silent func_odbc-check means sound definitions", "statement": "If func_odbc-check ends with status 0 and nothing is ignored, then the file was there and read to its end, every line read is fine in itself, no setting stands in front of the first section, and every section has a name of permitted characters and no templates, only known settings under their current names, each once and in the usual order, no statement with a semicolon at its end, and something to read or to write. The same holds for the file whose functions dialplan-check uses. Conversely about such sections and settings nothing is said: all messages are about the lines.", "quantifier": "all files, include structures, sections and settings", "why_tests_cant": "It says that no combination of faults is passed over; tests show single faults being reported.", "anchors": ["asterisklint/func_odbc.py:FuncOdbcAggregator", "asterisklint/func_odbc.py:OdbcFunction", "asterisklint/commands/func_odbc-check.py:main"]}
{"id": "C114", "title": "Adding lines to the end of a dialplan file", "statement": "If lines are added to the end of a dialplan file whose last line is complete, and both checks end, then the lines read before are read again, each giving the same and getting the same messages, followed by the new ones; what the check said before is said again in the same order and before anything new, except for what can only be said at the end (about the last line of a file, the blank lines there, what the dialplan lacks, and jumps). No jump gets broken: a complaint about a jump is about a jump on a new line, or there was a complaint about a jump on that line before.", "quantifier": "all dialplans, include structures and texts added", "why_tests_cant": "It relates two checks of arbitrary files; tests run single files and compare with expected output.", "anchors": ["asterisklint/file.py:BinFileReader", "asterisklint/config.py:ConfigParser", "asterisklint/configws.py:VswContextStack", "asterisklint/dialplan.py:DialplanAggregator", "asterisklint/dialplan.py:Dialplan.walk_jump_destinations"]}
{"id": "C115", "title": "Comments can be reworded", "statement": "Changing the texts of comments in the files of a dialplan changes nothing about its check: the same messages with the same values are issued about the same lines of the same files in the same order, the check ends the same way, and the same contexts, includes and steps are read. More generally, of a line only this matters: the data in front of its comment, whether there is a comment, whether the line is UTF-8, contains control characters, ends in blanks or has its comment glued to the data, and its terminator.", "quantifier": "all file systems and all others with the same files line by line up to the wording of comments, any number of changed lines in any files, all dialplans, all tables of applications and functions", "why_tests_cant": "A comment could be noticed anywhere: a backslash in it switches the way the whole line is split, its characters could be counted, and every later check could look at the text of the line which is carried along for display. Tests compare a few pairs of files.", "anchors": ["asterisklint/file.py:AsteriskCommentReader", "asterisklint/config.py:ConfigParser", "asterisklint/configws.py:VswContextStack", "asterisklint/dialplan.py:DialplanAggregator", "asterisklint/where.py:Where"]}
{"id": "C116", "title": "Line terminators only matter for the messages about them", "statement": "Changing the terminators of lines (LF, CR LF, or none on the last line) changes nothing about the check but the four messages about terminators. In particular files saved with CR LF for LF get the same other messages about the same lines in the same order, and the same dialplan is read from them.", "quantifier": "all file systems, any number of lines in any files with other terminators, all dialplans, all tables of applications and functions", "why_tests_cant": "The terminator is looked at once per line, and what was found out about a file is kept while others are included; a CR that stays in the data shows up only in those few places that look at the end of a value.", "anchors": ["asterisklint/file.py:FileformatReader", "asterisklint/config.py:ConfigParser", "asterisklint/dialplan.py:DialplanAggregator"]}
{"id": "C117", "title": "Including a file is like writing its lines there", "statement": "Writing the lines of a file in place of the line that includes it (or the other way round: moving whole lines to a file of their own in the same directory, and including it) changes nothing about the check of a dialplan but file names and line numbers, the messages about line terminators and those about the number of blank lines: the same other messages with the same values are issued about the same lines in the same order, the check still comes to its end, and the same contexts, includes and steps are read.", "quantifier": "all file systems, all files with an including line anywhere in them, all contents of the included file (which may include others, even the same ones again), all dialplans, all tables of applications and functions", "why_tests_cant": "An included file could leave traces anywhere: in the current context or extension, in the place names are resolved from, in line numbers, in what is kept about the files still open. Tests compare a few pairs of files.", "anchors": ["asterisklint/file.py:FileReader", "asterisklint/file.py:BinFileReader.include", "asterisklint/config.py:ConfigParser.preprocessor", "asterisklint/config.py:ConfigAggregator", "asterisklint/dialplan.py:DialplanAggregator"]}
{"id": "C118", "title": "Comment lines and blank lines only move line numbers", "statement": "Putting blank lines and lines with only a comment anywhere into a file, or removing them, changes nothing but the line numbers of what is below them in that file, by exactly the number of lines put in, and the messages about terminators and the number of blank lines: all other messages are the same, in the same order, with the same values, about the same lines, and the same contexts, includes and steps are read.", "quantifier": "all file systems, all files (also one that is included several times), all places in it, any number of blank or comment lines, all dialplans, all tables of applications and functions", "why_tests_cant": "A blank or comment line could end an extension or a context, be counted as a priority, or shift the place of a message by the wrong amount, depending on what is around it.", "anchors": ["asterisklint/file.py:FileReader", "asterisklint/file.py:AsteriskCommentReader", "asterisklint/config.py:ConfigParser", "asterisklint/configobj.py:EmptyLine", "asterisklint/dialplan.py:DialplanAggregator"]}
{"id": "C119", "title": "A dialplan can be moved to another directory", "statement": "Moving all files of a dialplan to another directory, keeping their names within it, changes nothing about the check but the names of the files: if none of the files includes another one by a path from the root, the same messages (also those about terminators and blank lines, and those that mention an earlier line) are issued in the same order about the same lines of the same files, and the same dialplan is read or the same error ends the check.", "quantifier": "all file systems, all pairs of directories (the current one, the root or any other), all files and directories within them, all dialplans, all tables of applications and functions", "why_tests_cant": "Which file an include means depends on the directory of the including file, and what is kept about open files is found by name; a wrong join of a path, or two names taken for the same one, shows only for particular combinations of directories, names and nested includes.", "anchors": ["asterisklint/config.py:ConfigParser.preprocessor", "asterisklint/file.py:FileReader", "asterisklint/file.py:BinFileReader.include", "asterisklint/file.py:FileformatReader", "asterisklint/configws.py:VerticalSpaceWarner"]}
{"id": "C120", "title": "`same` is the extension of the line above, `n` the next priority", "statement": "Below a line that adds a step, the next line may be written in four ways that come to the same: with `same` or with `exten` and the extension of the line above, and with `n` or with the number behind the priority of the line above. Writing the line in another of these ways changes no other line's meaning, no message about any line (but for the text of the line itself) and nothing in the dialplan that is read.", "quantifier": "all file systems, all files, all lines before and behind, all extensions (patterns included, in their canonical spelling), priorities, labels and applications, all tables of applications and functions", "why_tests_cant": "What `same` and `n` stand for depends on all lines read before, on what is kept about the last context, pattern and priority, and the choice must not influence any later line; tests try a few short contexts.", "anchors": ["asterisklint/dialplan.py:DialplanContext.add", "asterisklint/dialplan.py:DialplanAggregator", "asterisklint/dialplan.py:DialplanVarset"]}
{"id": "C121", "title": "The order of the contexts of a dialplan does not matter", "statement": "A dialplan file consists of a beginning and of sections, each with the header of another context. Putting the sections in another order changes nothing but the order of the contexts in the dialplan that is read, the order of the messages and the numbers of the lines in them: every message is still given, with the same words about the same line, and no other (apart from those about blank lines and line terminators).", "quantifier": "all file systems, all beginnings (with includes of other files), any number of sections of any length and content without includes of files, all permutations of them, all tables of applications and functions", "why_tests_cant": "There are n! orders of n sections, and any of the things kept from line to line (last priority, labels, jumps, spellings) could let a section influence a later one.", "anchors": ["asterisklint/dialplan.py:DialplanContext.add", "asterisklint/dialplan.py:Dialplan.walk_jump_destinations", "asterisklint/dialplan.py:Dialplan.on_complete", "asterisklint/dialplan.py:DialplanAggregator.on_dialplancontext", "asterisklint/app/vall/builtin.py:Background"]}
{"id": "C122", "title": "The order of the extensions of a context does not matter", "statement": "The extensions at the end of a context, each written as a first step with a priority of its own and further steps of the same extension, can be put in any order: every message is still given, with the same words about the same line, and no other (apart from those about blank lines and line terminators), and `dialplan show` prints exactly the same text.", "quantifier": "all file systems, all beginnings of the file (with includes of other files), any number of extensions (patterns included) of any number of steps, all permutations of them, all tables of applications and functions", "why_tests_cant": "There are n! orders, the listing is sorted by pattern, priority and label, and what is kept from line to line (last pattern, last priority, labels, spellings, the priorities seen) could let an extension influence one below; tests try a few short contexts in the order they are written.", "anchors": ["asterisklint/dialplan.py:DialplanContext.add", "asterisklint/dialplan.py:DialplanContext.by_pattern", "asterisklint/dialplan.py:DialplanContext.format_as_dialplan_show", "asterisklint/dialplan.py:Dialplan.walk_jump_destinations", "asterisklint/pattern.py:Pattern"]}
{"id": "C123", "title": "A context can be written in pieces", "statement": "A context may be written in several sections of a dialplan file. A section can be made into two by writing the header of its context once more between two of its lines, and two pieces that stand directly below one another can be made into one by leaving the second header out; the sections of a file can be put in any order that keeps the pieces of each context in order. This changes nothing but the numbers of the lines (and for other orders the order of the contexts and of the messages): every message is still given, with the same words about the same line, and no other (apart from those about blank lines and line terminators), and every context has the same includes and the same steps in the same order.", "quantifier": "all file systems, all beginnings of the file (with includes of other files), any number of sections of any length, any number of pieces of each context, all orders that keep the pieces in order, all tables of applications and functions", "why_tests_cant": "A context that is met again is not made anew but updated, with some of what was kept from line to line (last priority, sorted patterns, place) set back and some not; whether that shows depends on all lines below and on the order of all sections.", "anchors": ["asterisklint/dialplan.py:DialplanContext.update", "asterisklint/configobj.py:Context.update", "asterisklint/dialplan.py:DialplanAggregator.on_dialplancontext", "asterisklint/dialplan.py:DialplanContext.add"]}
{"id": "C124", "title": "An include line can stand anywhere in its context", "statement": "The `include` lines of a dialplan context can stand above, below or between its steps: moving some of them past lines of the context that are not `include` lines, up or down, changes nothing but the numbers of the lines and the order of the messages. Every message is still given, with the same words about the same line, and no other (apart from those about blank lines and line terminators), and every context has the same includes and the same steps in the same order. In particular `same` and the priority `n` refer to the same step as before, across the include.", "quantifier": "all file systems, all beginnings of the file (with includes of other files), any number of include lines, any number of other lines of any kind (without directives that include files) they are moved past, everything that may follow, all tables of applications and functions", "why_tests_cant": "The line is handed to the context that is also the place where the last extension, the last priority, the labels and the sorted patterns are kept; whether an include disturbs one of these shows only in later lines, which may be anything.", "anchors": ["asterisklint/dialplan.py:DialplanAggregator.on_dialplanvarset", "asterisklint/dialplan.py:DialplanContext.add_include", "asterisklint/dialplan.py:DialplanVarset.from_varset", "asterisklint/dialplan.py:DialplanContext.add"]}
{"id": "C125", "title": "A line that is disregarded has no effect on anything else", "statement": "Some lines of a dialplan file are disregarded: lines that are not understood, `#exec`, assignments above the first header, assignments in a second `[globals]`, and those of a dialplan context that are neither steps nor includes (`switch`, `ignorepat`, unknown keys). Taking such lines out, wherever they stand, takes away exactly messages about these lines; putting such lines in adds only messages about these lines. Every other message is still given, in the same order with the same words about the same line (apart from those about blank lines and line terminators), and the same dialplan is read: `same` and the priority `n` in the lines below refer to the same steps.", "quantifier": "all file systems, all beginnings of the file (with includes of other files), any number of disregarded lines, everything that may follow, all tables of applications and functions", "why_tests_cant": "A line is disregarded by code that has already changed something (opened a section, read the key, parsed the value) and the state it could leave behind shows only in later lines, which may be anything.", "anchors": ["asterisklint/dialplan.py:DialplanVarset.from_varset", "asterisklint/dialplan.py:DialplanAggregator.on_varset", "asterisklint/dialplan.py:Dialplan.add_globals", "asterisklint/config.py:ConfigParser", "asterisklint/config.py:ConfigParser.preprocessor"]}
{"id": "C126", "title": "A step that is refused has no effect on anything else", "statement": "A step of a dialplan context that is refused (there is already a step with its extension and priority, its priority is not allowed or missing, `same` without an extension above) does not become part of the dialplan, and nothing else is affected by its line: taking such lines out takes away only messages about these lines, putting such lines in adds only messages about these lines. Every other message is still given, in the same order with the same words about the same line (apart from those about blank lines and line terminators), and the same dialplan is read. In particular the jumps and the label of the refused step are not recorded, and `same` and the priority `n` in the lines below refer to the same steps.", "quantifier": "all file systems, all beginnings of the file (with includes of other files), any number of lines that do not become part of the dialplan, everything that may follow, all tables of applications and functions", "why_tests_cant": "A step is refused at four places of a long function, some of them after parts of the state have been changed; what is left behind shows only in later lines, which may be anything.", "anchors": ["asterisklint/dialplan.py:DialplanContext.add", "asterisklint/dialplan.py:DialplanVarset.from_varset", "asterisklint/dialplan.py:DialplanAggregator.on_dialplanvarset"]}
{"id": "C127", "title": "The exit status does not depend on how the lines are laid out", "statement": "Let ALINT_IGNORE mute the messages about blank lines and line terminators. Then the exit status of dialplan-check stays the same when a file is written in place of the line that includes it or lines are moved to a file of their own, when comment lines and blank lines are put in or taken away, and when include lines are moved within their context. Taking out lines that are disregarded does not make a check fail that passed, and putting them in does not make a check pass that failed. The functions may be defined in a func_odbc.conf, which must not be or include the file that is changed.", "quantifier": "all file systems, all dialplans whose check comes to its end, all values of ALINT_IGNORE that mute these messages, all tables of applications and functions, with or without a func_odbc.conf", "why_tests_cant": "It compares two runs of the whole program on all pairs of inputs that are related in this way.", "anchors": ["asterisklint/commands/dialplan-check.py:main", "asterisklint/defines.py:MessageDefManager", "asterisklint/mainutil.py:load_func_odbc_functions", "asterisklint/file.py:FileReader"]}
{"id": "C128", "title": "The order of the functions of a func_odbc.conf does not matter", "statement": "The sections of a func_odbc.conf can be put in any order. The file can still be read; every message is still given, with the same words about the same line, and no other (apart from those about blank lines and line terminators), in another order; the same functions are read, with the same settings; and afterwards the dialplan can use the same functions. Of functions whose names differ only in capital and small letters the last one settles how the name is to be written; if there are none, exactly the same functions are known. The exit status of func_odbc-check is the same, if ALINT_IGNORE mutes the messages about blank lines and line terminators.", "quantifier": "all file systems, all beginnings of the file (with includes of other files), any number of parts that each begin with a header and include no files, with any lines in them, all orders of these parts, all tables of functions known before, all values of ALINT_IGNORE that mute the messages named", "why_tests_cant": "ranges over all files and all permutations of any number of sections; a test covers some files and swaps", "anchors": ["asterisklint/func_odbc.py: FuncOdbcAggregator.on_context, on_varset, on_yield, OdbcFunction.add, check_order, finalize", "asterisklint/config.py: ConfigAggregator", "asterisklint/varfun.py: FuncLoader.register", "asterisklint/commands/func_odbc-check.py: Main.handle_args"]}
{"id": "C129", "title": "Including files and comments in a func_odbc.conf changes nothing else", "statement": "In a func_odbc.conf, the lines of an included file can be written in place of the line that includes it, and lines can be moved to a file of their own that is included; blank lines and comments can be put in or taken away anywhere. The file can still be read; the messages are the same, in the same order and with the same words, about the same text at its new place (apart from those about blank lines and line terminators); the same functions with the same settings are read, and the dialplan can use the same functions. If ALINT_IGNORE mutes the messages about blank lines and line terminators, the exit status of func_odbc-check, and of dialplan-check for a dialplan that is read with these definitions, is the same. The latter also holds if the functions are put in another order and no two names differ only in capital and small letters.", "quantifier": "all file systems, all func_odbc.conf files with all includes in them, all places in the file, all files included there and all blank lines and comments put there, all dialplans that do not read the func_odbc.conf as part of the dialplan, all tables of functions and applications, all values of ALINT_IGNORE that mute the messages named", "why_tests_cant": "ranges over all files and all edits of them; a test compares a few pairs of files", "anchors": ["asterisklint/func_odbc.py: FuncOdbcAggregator", "asterisklint/config.py: ConfigParser, ConfigAggregator", "asterisklint/file.py: BinFileReader.include", "asterisklint/commands/func_odbc-check.py: Main.handle_args", "asterisklint/commands/dialplan-check.py: Main.handle_args"]}
{"id": "C130", "title": "Disregarded settings of a func_odbc.conf have no effect on anything else", "statement": "Settings above the first section, settings that are not known, and settings the section already has are disregarded, together with lines that are not understood, comments and blank lines. Such lines can be taken out of a func_odbc.conf or put in anywhere: the messages about them go or come, and all other messages stay the same, in the same order and with the same words (apart from those about blank lines and line terminators); the same functions with the same settings are read, and the dialplan can use the same functions. If ALINT_IGNORE mutes the messages about blank lines and line terminators, func_odbc-check, and dialplan-check with these definitions, still end with status 0 when such lines are taken out, and still end with status 1 when they are put in.", "quantifier": "all file systems, all func_odbc.conf files with all includes in them, all places in the file, any number of such lines, all tables of functions known before, all dialplans that do not read the func_odbc.conf as part of the dialplan, all values of ALINT_IGNORE that mute the messages named", "why_tests_cant": "ranges over all files, all places and all such lines; a test compares a few pairs of files", "anchors": ["asterisklint/func_odbc.py: OdbcFunction.add, check_order, FuncOdbcAggregator.on_varset", "asterisklint/config.py: ConfigAggregator.on_varset", "asterisklint/commands/func_odbc-check.py: Main.handle_args", "asterisklint/commands/dialplan-check.py: Main.handle_args"]}
{"id": "C131", "title": "The order of the settings of a func_odbc.conf section matters only for the warning that a setting should come earlier", "statement": "In a func_odbc.conf, two neighbouring groups of settings that have no name in common (with comments, blank lines and lines that are not understood among them) can change places. The file is still read, the dialplan can use the same functions, every function has the same name and the same value of every setting, and the same messages are given in some order and with the same words, apart from those about blank lines and line terminators, and apart from the warning that a setting is expected earlier (W_CONF_KEY_LATE). If ALINT_IGNORE mutes these messages, func_odbc-check, and dialplan-check with these definitions, end with the same status.", "quantifier": "all file systems, all func_odbc.conf files with all includes in them, all places in the file, any number of settings in either group with any names and values, all tables of functions known before, all values of ALINT_IGNORE that mute the messages named", "why_tests_cant": "ranges over all files, all places and all pairs of groups of settings; a test compares a few pairs of files", "anchors": ["asterisklint/func_odbc.py: OdbcFunction.add, check_order, FuncOdbcAggregator.on_varset, FuncOdbcAggregator.on_context", "asterisklint/commands/func_odbc-check.py: Main.handle_args"]}
{"id": "C132", "title": "A function can be taken out of a func_odbc.conf without any effect on the others", "statement": "If a section of a func_odbc.conf (a header and the lines up to the next header or the end of the file) is taken out, the file is still read; of the messages exactly those about the lines of the section disappear, and all others are given with the same words, in some order (apart from those about blank lines and line terminators); all other functions are read with the same settings, in the same order; and every function the dialplan could use before can still be used in the same way, except the one that was taken out: that name is known as it was before the file was read, unless another section defines it too. If ALINT_IGNORE mutes the messages about blank lines and line terminators and func_odbc-check ended with status 0, it still does.", "quantifier": "all file systems, all func_odbc.conf files with all includes in other places, all sections that include no files, with any lines in them, all tables of functions known before, all values of ALINT_IGNORE that mute the messages named", "why_tests_cant": "ranges over all files and all sections in them; a test compares a few pairs of files", "anchors": ["asterisklint/func_odbc.py: FuncOdbcAggregator.on_context, on_varset, on_yield, OdbcFunction.add, check_order, finalize", "asterisklint/config.py: ConfigAggregator", "asterisklint/varfun.py: FuncLoader.register", "asterisklint/commands/func_odbc-check.py: Main.handle_args"]}
