{
 "claims": [
  {
   "property": "C01",
   "status": "proved",
   "theorems": [
    "ALint.Props.C01_lines",
    "ALint.Props.C01_unique"
   ],
   "note": "Lines of a file read on its own; the four conditions are shown to determine the lines."
  },
  {
   "property": "C02",
   "status": "proved",
   "theorems": [
    "ALint.Props.C02_expansion",
    "ALint.Props.C02_pipeline",
    "ALint.Props.C02_beginning",
    "ALint.Props.C02_unique"
   ],
   "note": "For the reader loop with any include function, for finished runs of the whole pipeline, and (as beginnings of the expansion) for runs that raise or never end."
  },
  {
   "property": "C03",
   "status": "proved",
   "theorems": [
    "ALint.Props.C03_terminates_iff",
    "ALint.Props.C03_self_include",
    "ALint.Props.C03_finite_iff",
    "ALint.Props.C03_pipeline_never",
    "ALint.Props.C03_pipeline_ends"
   ],
   "note": "Iff with finite expansion; with finitely many files iff no reachable file includes itself; self-inclusion shown to deliver lines for ever; both directions for the whole pipeline."
  },
  {
   "property": "C04",
   "status": "partial",
   "theorems": [
    "ALint.Props.C04_valid",
    "ALint.Props.C04_invalid",
    "ALint.Props.C04_cp1252",
    "ALint.Props.C04_violated",
    "ALint.Props.C04_decodes_partial"
   ],
   "note": "False of the code: bytes 81 8d 8f 90 9d in a line that is not UTF-8 abort the run (C04_violated). Exact behaviour for all lines in C04_valid and C04_invalid."
  },
  {
   "property": "C05",
   "status": "proved",
   "theorems": [
    "ALint.Props.C05_ctrl"
   ],
   "note": "All lines."
  },
  {
   "property": "C06",
   "status": "proved",
   "theorems": [
    "ALint.Props.C06_terminator"
   ],
   "note": "All lines, any reader state; the three forms cover every line."
  },
  {
   "property": "C07",
   "status": "proved",
   "theorems": [
    "ALint.Props.C07_formats",
    "ALint.Props.C07_own",
    "ALint.Props.C07_alone"
   ],
   "note": "For every finite include expansion (a file below itself is impossible there) and any text for each line."
  },
  {
   "property": "C08",
   "status": "proved",
   "theorems": [
    "ALint.Props.C08_roundtrip"
   ],
   "note": "All texts not ending in a space or TAB."
  },
  {
   "property": "C09",
   "status": "proved",
   "theorems": [
    "ALint.Props.C09_cases",
    "ALint.Props.C09_no_comment",
    "ALint.Props.C09_comment",
    "ALint.Props.C09_fast_path"
   ],
   "note": "Spec by AllEscaped/CommentAt, which is shown to cover all lines exclusively; fast path equals general path."
  },
  {
   "property": "C10",
   "status": "proved",
   "theorems": [
    "ALint.Props.C10_messages",
    "ALint.Props.C10_data_end"
   ],
   "note": "White space at line end means space or TAB, as in the code."
  },
  {
   "property": "C11",
   "status": "proved",
   "theorems": [
    "ALint.Props.C11_header",
    "ALint.Props.C11_assign",
    "ALint.Props.C11_blank",
    "ALint.Props.C11_other",
    "ALint.Props.C11_parts_unique",
    "ALint.Props.C11_elements"
   ],
   "note": "Line shapes are given in Spec/Config.lean (IsHeader, IsTemplate, IsAssign); the theorems are equivalences for every line."
  },
  {
   "property": "C12",
   "status": "proved",
   "theorems": [
    "ALint.Props.C12_arrow",
    "ALint.Props.C12_equals",
    "ALint.Props.C12_not_header"
   ],
   "note": "For key = value and key => value with trimmed parts; the side conditions (no '=' in the key, value not starting with '>' after '=', no header shape) are those of the English statement."
  },
  {
   "property": "C13",
   "status": "partial",
   "theorems": [
    "ALint.Props.C13_violated",
    "ALint.Props.C13_single_partial"
   ],
   "note": "Violated: a header with two or more template characters is not recognised (C13_violated). The single-character case is proved."
  },
  {
   "property": "C14",
   "status": "proved",
   "theorems": [
    "ALint.Props.C14_opens",
    "ALint.Props.C14_absolute",
    "ALint.Props.C14_relative",
    "ALint.Props.C14_no_directory",
    "ALint.Props.C14_root_directory",
    "ALint.Props.C14_bad",
    "ALint.Props.C14_only_includes",
    "ALint.Props.C14_beside"
   ],
   "note": "Which line opens which file, how names are joined to the directory of the including file, and that no other line opens a file."
  },
  {
   "property": "C15",
   "status": "partial",
   "theorems": [
    "ALint.Props.C15_missing_partial",
    "ALint.Props.C15_present",
    "ALint.Props.C15_violated"
   ],
   "note": "Violated: a name with a NUL byte raises ValueError, which is not an OSError (C15_violated). Proved for names without NUL."
  },
  {
   "property": "C16",
   "status": "proved",
   "theorems": [
    "ALint.Props.C16_delivered",
    "ALint.Props.C16_contexts",
    "ALint.Props.C16_dialplan"
   ],
   "note": "For any sequence of elements of any mix of files, through the vertical-space checker and the aggregator. C16_dialplan: the dialplan read does not depend on blank lines."
  },
  {
   "property": "C17",
   "status": "proved",
   "theorems": [
    "ALint.Props.C17_hints",
    "ALint.Props.C17_layout_exists",
    "ALint.Props.C17_bof",
    "ALint.Props.C17_eof"
   ],
   "note": "Hints equal those of the layout rule in Spec/Vsw.lean, for one file in any layout; a file with nothing but blank lines gets the end-of-file hint only."
  },
  {
   "property": "C18",
   "status": "proved",
   "theorems": [
    "ALint.Props.C18_grouping",
    "ALint.Props.C18_exhaustive",
    "ALint.Props.C18_conserved"
   ],
   "note": "Grouping equation for all sequences, with the decomposition shown to exist for every sequence."
  },
  {
   "property": "C19",
   "status": "proved",
   "theorems": [
    "ALint.Props.C19_muted_iff",
    "ALint.Props.C19_covers_every_value"
   ],
   "note": "All values of the variable."
  },
  {
   "property": "C20",
   "status": "proved",
   "theorems": [
    "ALint.Props.C20_exit_status",
    "ALint.Props.C20_exit_status_iff_output"
   ],
   "note": "For every history of issued messages."
  },
  {
   "property": "C21",
   "status": "proved",
   "theorems": [
    "ALint.Props.C21_recorded",
    "ALint.Props.C21_reset_keeps_printed"
   ],
   "note": "For every history of issue and reset operations."
  },
  {
   "property": "C22",
   "status": "partial",
   "theorems": [
    "ALint.Props.C22_violated_label",
    "ALint.Props.C22_violated_dynamic",
    "ALint.Props.C22_supplied_partial",
    "ALint.Props.C22_printing",
    "ALint.Props.C22_files"
   ],
   "note": "False of the code: E_DP_LABEL_INVALID and W_FUNC_DYNAMIC are issued without the value their text refers to (two witnesses). Proved for every other kind of message of any dialplan check; a message with its values can fail to print only over a value that has no text; messages of reading config files always print."
  },
  {
   "property": "C23",
   "status": "proved",
   "theorems": [
    "ALint.Props.C23_literal_accepted",
    "ALint.Props.C23_pattern_accepted_iff",
    "ALint.Props.C23_empty_rejected"
   ],
   "note": "Exact set of accepted texts; both rejecting branches shown."
  },
  {
   "property": "C24",
   "status": "proved",
   "theorems": [
    "ALint.Props.C24_dash_in_pattern",
    "ALint.Props.C24_case_in_pattern",
    "ALint.Props.C24_dash_in_literal",
    "ALint.Props.C24_leading_dash",
    "ALint.Props.C24_dash_in_extension"
   ],
   "note": "Text-level invariance for dashes outside sets and for x/z/n; a dash before a leading underscore is shown to matter (it is then not a pattern)."
  },
  {
   "property": "C25",
   "status": "partial",
   "theorems": [
    "ALint.Props.C25_literal",
    "ALint.Props.C25_pattern_partial",
    "ALint.Props.C25_described_accepted",
    "ALint.Props.C25_exact_length",
    "ALint.Props.C25_violated",
    "ALint.Props.C25_raises"
   ],
   "note": "Exact characterisation proved: accepted iff a prefix is in the language. The code accepts overlong extensions for patterns (C25_violated) and raises outside Latin-1 (C25_raises)."
  },
  {
   "property": "C26",
   "status": "partial",
   "theorems": [
    "ALint.Props.C26_literal",
    "ALint.Props.C26_pattern_partial",
    "ALint.Props.C26_violated"
   ],
   "note": "Proved for plain extensions and for patterns in which no set has the dash as its first character; otherwise false of the code (C26_violated)."
  },
  {
   "property": "C27",
   "status": "proved",
   "theorems": [
    "ALint.Props.C27_irreflexive",
    "ALint.Props.C27_transitive",
    "ALint.Props.C27_trichotomy",
    "ALint.Props.C27_literal_before_pattern",
    "ALint.Props.C27_specific_first"
   ],
   "note": "Strict total order on all values; literals before patterns; specific first."
  },
  {
   "property": "C28",
   "status": "partial",
   "theorems": [
    "ALint.Props.C28_canonical_same_meaning_partial",
    "ALint.Props.C28_violated_rejected",
    "ALint.Props.C28_violated_underscore",
    "ALint.Props.C28_violated_non_ascii"
   ],
   "note": "Proved for all texts that the canonical spelling can express; false otherwise (three witnesses)."
  },
  {
   "property": "C29",
   "status": "partial",
   "theorems": [
    "ALint.Props.C29_idempotent_partial",
    "ALint.Props.C29_is_canonical_partial",
    "ALint.Props.C29_violated_bracket",
    "ALint.Props.C29_violated_idempotent",
    "ALint.Props.C29_hint"
   ],
   "note": "C29_hint: when the hint is given and what it says, for every text (dashes aside, compared with the canonical spelling). That the canonical spelling is canonical: proved for expressible texts (is_canonical: also without bracket characters); false otherwise (two witnesses)."
  },
  {
   "property": "C30",
   "status": "partial",
   "theorems": [
    "ALint.Props.C30_same_gives_same_canonical",
    "ALint.Props.C30_same_canonical_iff_partial",
    "ALint.Props.C30_same_canonical_describes_partial",
    "ALint.Props.C30_violated"
   ],
   "note": "Left-to-right proved for expressible texts, right-to-left for all; false otherwise (C30_violated)."
  },
  {
   "property": "C31",
   "status": "proved",
   "theorems": [
    "ALint.Props.C31_reflexive",
    "ALint.Props.C31_implied_by_equality",
    "ALint.Props.C31_symmetric",
    "ALint.Props.C31_transitive",
    "ALint.Props.C31_same_describes"
   ],
   "note": "Equivalence relation on all parsed texts, and same texts describe the same extensions."
  },
  {
   "property": "C32",
   "status": "proved",
   "theorems": [
    "ALint.Props.C32_reported",
    "ALint.Props.C32_reported_text",
    "ALint.Props.C32_plain",
    "ALint.Props.C32_curly",
    "ALint.Props.C32_square",
    "ALint.Props.C32_unique",
    "ALint.Props.C32_closed",
    "ALint.Props.C32_unclosed",
    "ALint.Props.C32_iff",
    "ALint.Props.C32_terminates"
   ],
   "note": "Recursive equations for the first ${ or $[, with Encloses as the specification of the first balanced closing bracket; VarParseError exactly for texts that are not Closed (or an earlier exception); termination. The issue of E_APP_PARSE_ERROR is proved with the applications."
  },
  {
   "property": "C33",
   "status": "partial",
   "theorems": [
    "ALint.Props.C33_roundtrip_partial",
    "ALint.Props.C33_no_colons",
    "ALint.Props.C33_violated_zeros",
    "ALint.Props.C33_violated_empty",
    "ALint.Props.C33_violated_paren",
    "ALint.Props.C33_violated_tail"
   ],
   "note": "Violated: leading zeros of numbers (C33_violated_zeros), ${} cannot be printed (C33_violated_empty), a missing parenthesis is added (C33_violated_paren), ${F(x)$[:3]} prints as a substring (C33_violated_tail). Proved whenever no message about a dropped part is issued, numbers behind colons have no leading zeros and there is no ${}, $[] or $[:."
  },
  {
   "property": "C34",
   "status": "proved",
   "theorems": [
    "ALint.Props.C34_text",
    "ALint.Props.C34_iter",
    "ALint.Props.C34_string",
    "ALint.Props.C34_compact"
   ],
   "note": "text, iteration, string case and compactness of Var.join for all lists of strings and variables"
  },
  {
   "property": "C35",
   "status": "partial",
   "theorems": [
    "ALint.Props.C35_rejoin_partial",
    "ALint.Props.C35_unlimited_partial",
    "ALint.Props.C35_limited_partial",
    "ALint.Props.C35_violated"
   ],
   "note": "proved for strings and for all sequences of strings and variables; violated for a lone variable or expression, whose name is split (C35_violated)"
  },
  {
   "property": "C36",
   "status": "partial",
   "theorems": [
    "ALint.Props.C36_valid_partial",
    "ALint.Props.C36_legal",
    "ALint.Props.C36_reported",
    "ALint.Props.C36_returns_partial",
    "ALint.Props.C36_constructed",
    "ALint.Props.C36_violated_type",
    "ALint.Props.C36_violated_digit"
   ],
   "note": "Violated: ${foo:${x}:2} raises TypeError and ${a:²} ValueError. Validity, acceptance of legal parts and reporting of illegal ones are proved for every text; that nothing is raised under the conditions of C36_returns_partial."
  },
  {
   "property": "C37",
   "status": "partial",
   "theorems": [
    "ALint.Props.C37_occurrences",
    "ALint.Props.C37_lines",
    "ALint.Props.C37_complete",
    "ALint.Props.C37_exact_partial",
    "ALint.Props.C37_violated"
   ],
   "note": "exact for all texts when each occurrence of a variable is free (C37_occurrences; C37_lines also with line feeds in text or value) and when no variable occurs twice; sound in general; violated as an equivalence for repeated variables (C37_violated)"
  },
  {
   "property": "C38",
   "status": "proved",
   "theorems": [
    "ALint.Props.C38_balance"
   ],
   "note": "balance check equals an inductive grammar of nested brackets and quotes, for every text"
  },
  {
   "property": "C39",
   "status": "proved",
   "theorems": [
    "ALint.Props.C39_determined",
    "ALint.Props.C39_exact",
    "ALint.Props.C39_each",
    "ALint.Props.C39_reported",
    "ALint.Props.C39_where"
   ],
   "note": "Uses is the specification of the variables named; exact unless INC or DEC, which count their argument in addition (C39_each); reports for every run, failed ones included."
  },
  {
   "property": "C40",
   "status": "proved",
   "theorems": [
    "ALint.Props.C40_lossless",
    "ALint.Props.C40_strings",
    "ALint.Props.C40_some"
   ],
   "note": "For data with or without variables; token level (characters and variables) and string level."
  },
  {
   "property": "C41",
   "status": "proved",
   "theorems": [
    "ALint.Props.C41_roundtrip"
   ],
   "note": "Every non-empty list of texts and every delimiter that is not itself special."
  },
  {
   "property": "C42",
   "status": "proved",
   "theorems": [
    "ALint.Props.C42_boundary",
    "ALint.Props.C42_plain",
    "ALint.Props.C42_removal"
   ],
   "note": "Boundary characterised by an independent definition of top level (escapes, quotes, brackets; variables have no letters); also with quote removal, and for plain text."
  },
  {
   "property": "C43",
   "status": "proved",
   "theorems": [
    "ALint.Props.C43_counts",
    "ALint.Props.C43_jump_counts",
    "ALint.Props.C43_options",
    "ALint.Props.C43_no_options"
   ],
   "note": "A single empty argument counts as none given. The checks never fail. Options and counts of App, counts of Goto and Gosub."
  },
  {
   "property": "C44",
   "status": "proved",
   "theorems": [
    "ALint.Props.C44_lookup",
    "ALint.Props.C44_total",
    "ALint.Props.C44_refines",
    "ALint.Props.C44_refines_functions",
    "ALint.Props.C44_outcome",
    "ALint.Props.C44_unknown"
   ],
   "note": "Histories of register and get refine to the stateless look-up, given that only one object is registered as unknown. An application written exactly Unknown is silent (C44_unknown)."
  },
  {
   "property": "C45",
   "status": "proved",
   "theorems": [
    "ALint.Props.C45_modules",
    "ALint.Props.C45_order"
   ],
   "note": "For AppLoader and FuncLoader, which have the same code; the module called unknown is left out."
  },
  {
   "property": "C46",
   "status": "proved",
   "theorems": [
    "ALint.Props.C46_background"
   ],
   "note": "Runs are sequences of uses of any applications."
  },
  {
   "property": "C47",
   "status": "partial",
   "theorems": [
    "ALint.Props.C47_loop",
    "ALint.Props.C47_violated_hang",
    "ALint.Props.C47_violated_goto",
    "ALint.Props.C47_aligned",
    "ALint.Props.C47_goto_partial",
    "ALint.Props.C47_gotoif_partial",
    "ALint.Props.C47_gosub",
    "ALint.Props.C47_actions_partial"
   ],
   "note": "Violated: Goto and GotoIf with more than three arguments loop for ever. Proved for at most three arguments; Gosub for any number."
  },
  {
   "property": "C48",
   "status": "proved",
   "theorems": [
    "ALint.Props.C48_unique",
    "ALint.Props.C48_unique_check",
    "ALint.Props.C48_kept",
    "ALint.Props.C48_dupe",
    "ALint.Props.C48_stored",
    "ALint.Props.C48_line",
    "ALint.Props.C48_count"
   ],
   "note": "For all sequences of elements read without an internal error, and for the command on any content. C48_unique: no two steps of a context with equal priority and equal canonical extension. C48_kept: steps once stored stay. C48_dupe/C48_stored/C48_line: what a well-formed line does: a taken place is reported with E_DP_PRIO_DUPE at the line (previous = the earlier step) and dropped, a free one is stored. C48_count: number of steps plus number of dropping reports = number of step lines."
  },
  {
   "property": "C49",
   "status": "proved",
   "theorems": [
    "ALint.Props.C49_positive",
    "ALint.Props.C49_number",
    "ALint.Props.C49_first_next",
    "ALint.Props.C49_first_same",
    "ALint.Props.C49_next"
   ],
   "note": "C49_positive: every stored priority is at least 1. C49_number: a written number k>=1 is the priority the line gets (stored or reported as duplicate with that number), 0 is reported and dropped. C49_next: n gets one more than the step line before, whatever (headers, includes, other assignments) is between. C49_first_next, C49_first_same: n before any step in the dialplan, same in a context without steps: reported and dropped. The line before is the line before in the file, also across contexts: that is what the code does."
  },
  {
   "property": "C50",
   "status": "proved",
   "theorems": [
    "ALint.Props.C50_unique",
    "ALint.Props.C50_label",
    "ALint.Props.C50_no_label",
    "ALint.Props.C50_known"
   ],
   "note": "C50_unique, C50_label (both directions: duplicate reported with the earlier location and label removed; free label kept and nothing reported), C50_no_label, C50_known (dialplan-wide and per context)."
  },
  {
   "property": "C51",
   "status": "proved",
   "theorems": [
    "ALint.Props.C51_names",
    "ALint.Props.C51_lines",
    "ALint.Props.C51_special",
    "ALint.Props.C51_check"
   ],
   "note": "C51_names, C51_lines, C51_special, and C51_check for the command on any content. Includes are exactly the include lines, steps an ordered selection of the step lines (which ones: C48), of several [globals] only the first is kept, and a second [general] is not survived (C57)."
  },
  {
   "property": "C52",
   "status": "partial",
   "theorems": [
    "ALint.Props.C52_listing",
    "ALint.Props.C52_listing_read",
    "ALint.Props.C52_grouped",
    "ALint.Props.C52_violated_order",
    "ALint.Props.C52_priorities_partial"
   ],
   "note": "C52_listing (the listing is a rearrangement grouped and ordered by pattern, insertion order within a group, for every context built by any history of additions, re-openings and listings), C52_listing_read, C52_grouped. Violated in full: within a group the listing keeps insertion order, not priority order (C52_violated_order). C52_priorities_partial: without order or duplicate reports each extension is listed as 1,2,3,..."
  },
  {
   "property": "C53",
   "status": "proved",
   "theorems": [
    "ALint.Props.C53_exact",
    "ALint.Props.C53_here"
   ],
   "note": "C53_exact, C53_here: look-up against an independently defined relation (Findable), exact in both directions whenever the look-up ends."
  },
  {
   "property": "C54",
   "status": "partial",
   "theorems": [
    "ALint.Props.C54_violated_cycle",
    "ALint.Props.C54_acyclic_partial",
    "ALint.Props.C54_exact_partial"
   ],
   "note": "Violated: C54_violated_cycle, two contexts including each other and an unmatched extension exhaust any depth. C54_acyclic_partial: when includes are well-founded the look-up ends. C54_exact_partial: for extensions within Latin-1 and priorities that are numbers or texts, exactly the look-ups that come to a context a second time do not end."
  },
  {
   "property": "C55",
   "status": "proved",
   "theorems": [
    "ALint.Props.C55_at_most_one",
    "ALint.Props.C55_exact",
    "ALint.Props.C55_unknown",
    "ALint.Props.C55_walk"
   ],
   "note": "C55_at_most_one, C55_exact, C55_unknown, C55_walk."
  },
  {
   "property": "C56",
   "status": "proved",
   "theorems": [
    "ALint.Props.C56_roundtrip"
   ],
   "note": "C56_roundtrip: for every extension without comma that the pattern parser accepts, every decimal priority or n, every label without comma, every application text accepted by the application parser; also same lines."
  },
  {
   "property": "C57",
   "status": "partial",
   "theorems": [
    "ALint.Props.C57_tells_partial",
    "ALint.Props.C57_destination",
    "ALint.Props.C57_exact_partial",
    "ALint.Props.C57_violated_general",
    "ALint.Props.C57_violated_reopened",
    "ALint.Props.C57_violated_noComma",
    "ALint.Props.C57_violated_label",
    "ALint.Props.C57_violated_digits",
    "ALint.Props.C57_violated_pattern",
    "ALint.Props.C57_violated_app",
    "ALint.Props.C57_violated_hang",
    "ALint.Props.C57_violated_bytes",
    "ALint.Props.C57_violated_nul",
    "ALint.Props.C57_reading",
    "ALint.Props.C57_report_partial"
   ],
   "note": "False of the code: ten witnesses. Proved: the exact conditions under which reading a dialplan (C57_reading), looking at a recorded jump (C57_destination) and a whole check (C57_exact_partial) end with an internal error, given that includes of files end and the depth of calls suffices for the number of contexts; C57_tells_partial states them by rules about the files that do not mention the program, with a depth that suffices for the question marks in a line as well; and conditions under which a check ends with a report."
  },
  {
   "property": "C58",
   "status": "proved",
   "theorems": [
    "ALint.Props.C58_settings",
    "ALint.Props.C58_clean"
   ],
   "note": "For every file that loads: functions correspond one by one to the sections, with the first line per known setting; the unknown-setting and repeated-setting messages are exactly those of the other lines, in order."
  },
  {
   "property": "C59",
   "status": "partial",
   "theorems": [
    "ALint.Props.C59_accepted_partial",
    "ALint.Props.C59_violated_case",
    "ALint.Props.C59_nothing_else",
    "ALint.Props.C59_kept",
    "ALint.Props.C59_dialplan_partial",
    "ALint.Props.C59_loads",
    "ALint.Props.C59_file"
   ],
   "note": "False of the code for names that differ in letter case only: the last one displaces the others (C59_violated_case). Proved: defined names without such a twin are accepted, also in whole dialplan checks; nothing else becomes accepted; earlier names stay accepted unless displaced; loading ends iff no defined name has a NUL; which file is loaded (C59_file)."
  },
  {
   "property": "C60",
   "status": "proved",
   "theorems": [
    "ALint.Props.C60_version"
   ],
   "note": "For every history of requests and module listings, including listings that import version packages."
  },
  {
   "property": "C61",
   "status": "partial",
   "theorems": [
    "ALint.Props.C61_rewrite_partial",
    "ALint.Props.C61_violated_link",
    "ALint.Props.C61_ends"
   ],
   "note": "Proved for a target that is no link, or a link whose text leads to the file from the working directory. Violated for a relative link to a file of another directory: the rewritten content overwrites the file that the link text names seen from the working directory (C61_violated_link)."
  },
  {
   "property": "C62",
   "status": "proved",
   "theorems": [
    "ALint.Props.C62_old_or_new",
    "ALint.Props.C62_failed",
    "ALint.Props.C62_sequence"
   ],
   "note": "Every prefix of the operations, every failing operation and every sequence of files."
  },
  {
   "property": "C63",
   "status": "proved",
   "theorems": [
    "ALint.Props.C63_words_unique",
    "ALint.Props.C63_words",
    "ALint.Props.C63_lines"
   ],
   "note": "Every text, width and pair of indents."
  },
  {
   "property": "C64",
   "status": "partial",
   "theorems": [
    "ALint.Props.C64_violated_leak",
    "ALint.Props.C64_violated_failure",
    "ALint.Props.C64_violated_spelling",
    "ALint.Props.C64_independent_partial",
    "ALint.Props.C64_report"
   ],
   "note": "Proved for histories whose earlier requests ended without an internal error and without using Background. Violated otherwise: messages leak into the next response, an unprintable message makes the next request fail, and the spelling of Background is remembered. C64_report says what the response of a fresh server contains: all messages of the check, in the order of lines."
  },
  {
   "property": "C65",
   "status": "partial",
   "theorems": [
    "ALint.Props.C65_line_partial",
    "ALint.Props.C65_file_partial",
    "ALint.Props.C65_violated_comma",
    "ALint.Props.C65_violated_semicolon",
    "ALint.Props.C65_violated_linefeed",
    "ALint.Props.C65_violated_escape",
    "ALint.Props.C65_violated_cp1252",
    "ALint.Props.C65_violated_meaning"
   ],
   "note": "Proved for every line of valid UTF-8 whose pattern has no escaped semicolon, whose canonical spelling expresses it (C28, C29) and can stand in that place: the new line is the old one but for the pattern in front of the first comma; C65_file_partial: exactly the lines with a hint are so replaced. Violated otherwise: a range expanded to a comma, semicolon or line feed breaks the line, an escaped or cp1252 pattern is not changed, the meaning may change."
  },
  {
   "property": "C67",
   "status": "proved",
   "theorems": [
    "ALint.Props.C67_show"
   ],
   "note": "C67_show with the independent descriptions ShowsStep and ShowsCtx, which fix every character of the lines; repr of the context name is a parameter."
  },
  {
   "property": "C66",
   "status": "proved",
   "theorems": [
    "ALint.Props.C66_read",
    "ALint.Props.C66_read_odbc",
    "ALint.Props.C66_located",
    "ALint.Props.C66_located_files",
    "ALint.Props.C66_located_odbc",
    "ALint.Props.C66_located_program"
   ],
   "note": "For every message of every check, for reading config files alone (C66_located_files), for func_odbc.conf (C66_located_odbc) and for dialplan-check as a whole (C66_located_program)."
  },
  {
   "property": "C68",
   "status": "partial",
   "theorems": [
    "ALint.Props.C68_recorded_partial",
    "ALint.Props.C68_reports",
    "ALint.Props.C68_violated_slice"
   ],
   "note": "Proved for every sequence of elements; the reports for every check. Violated by ${EXTEN:${n}}, which is taken as all of EXTEN although it depends on n. Jumps of an application inside ExecIf are not jumps of the step (as in the code)."
  },
  {
   "property": "C69",
   "status": "partial",
   "theorems": [
    "ALint.Props.C69_listed",
    "ALint.Props.C69_symmetric",
    "ALint.Props.C69_exact_partial",
    "ALint.Props.C69_case",
    "ALint.Props.C69_order_partial",
    "ALint.Props.C69_once",
    "ALint.Props.C69_exit",
    "ALint.Props.C69_identifiers",
    "ALint.Props.C69_violated_order",
    "ALint.Props.C69_violated_missed"
   ],
   "note": "Everything listed is right, for any order of the set; exact and independent of the order if no two identifiers differ in case only, for pairs with no other identifier between them (by name or by length). Violated: pairs that are not neighbours are missed; three names differing in case only give an output that depends on hash order. editdistance.eval is assumed to give the Levenshtein distance (Spec.Distance)."
  },
  {
   "property": "C70",
   "status": "proved",
   "theorems": [
    "ALint.Props.C70_output",
    "ALint.Props.C70_exit",
    "ALint.Props.C70_needed",
    "ALint.Props.C70_needed_function",
    "ALint.Props.C70_program",
    "ALint.Props.C70_func_odbc"
   ],
   "note": "C70_output and C70_exit are about the state after reading the dialplan and its messages; C70_program shows that modules-show, func_odbc.conf included, prints that. A first name of more than 50 characters is printed after an empty line (pre in ModuleText). Completeness: C70_needed for the application a step calls, C70_needed_function for functions called at any depth in data written in order, C70_func_odbc for functions defined in func_odbc.conf; applications nested in ExecIf are covered as far as they are recorded as used."
  },
  {
   "property": "C71",
   "status": "partial",
   "theorems": [
    "ALint.Props.C71_assignment",
    "ALint.Props.C71_header",
    "ALint.Props.C71_directive_partial",
    "ALint.Props.C71_violated_quote",
    "ALint.Props.C71_other"
   ],
   "note": "The messages of one logical line. Missing: a directive whose argument is a single double quote, which is not reported (C71_violated_quote)."
  },
  {
   "property": "C72",
   "status": "partial",
   "theorems": [
    "ALint.Props.C72_nested",
    "ALint.Props.C72_own_partial",
    "ALint.Props.C72_violated_missed",
    "ALint.Props.C72_violated_spurious"
   ],
   "note": "Stated for the sequence of elements of all files. Proved: all hints except the end-of-file hint, and when exactly that one is given (SeenOver). It is missing or spurious in some nestings (C72_violated_missed, C72_violated_spurious)."
  },
  {
   "property": "C73",
   "status": "partial",
   "theorems": [
    "ALint.Props.C73_runs",
    "ALint.Props.C73_confined",
    "ALint.Props.C73_refused",
    "ALint.Props.C73_violated_unknown",
    "ALint.Props.C73_usage"
   ],
   "note": "Exact conditions for running, refusing and no command, for every world and argument list. Violated: a well-formed name without a file ends with an uncaught ImportError (C73_violated_unknown). COMMAND_RE also admits a line feed at the end (NameLike)."
  },
  {
   "property": "C74",
   "status": "partial",
   "theorems": [
    "ALint.Props.C74_list",
    "ALint.Props.C74_ends",
    "ALint.Props.C74_agrees_partial",
    "ALint.Props.C74_violated_builtin"
   ],
   "note": "The list is exact; what is listed is what runs if directory listings agree with the files, except for the name ls, which is listed but never run (C74_violated_builtin). A module that cannot be loaded ends ls with an exception (C74_ends)."
  },
  {
   "property": "C75",
   "status": "partial",
   "theorems": [
    "ALint.Props.C75_determined",
    "ALint.Props.C75_gotoif_partial",
    "ALint.Props.C75_iftime_partial",
    "ALint.Props.C75_gosubif_partial",
    "ALint.Props.C75_execif_partial",
    "ALint.Props.C75_destinations_partial",
    "ALint.Props.C75_violated_execif",
    "ALint.Props.C75_violated_execif_file",
    "ALint.Props.C75_violated_nameless"
   ],
   "note": "exact for data whose variables all have a name (the check fails otherwise: C75_violated_nameless); ExecIf in the old style fails after its message (C75_violated_execif); what is said about the actions of GosubIf and ExecIf is exact in C93 (C93_exact_partial)"
  },
  {
   "property": "C76",
   "status": "proved",
   "theorems": [
    "ALint.Props.C76_silent",
    "ALint.Props.C76_plain",
    "ALint.Props.C76_set",
    "ALint.Props.C76_goto",
    "ALint.Props.C76_args",
    "ALint.Props.C76_plain_text",
    "ALint.Props.C76_args_text",
    "ALint.Props.C76_set_text",
    "ALint.Props.C76_gotoif",
    "ALint.Props.C76_gosubif",
    "ALint.Props.C76_gosub",
    "ALint.Props.C76_execif",
    "ALint.Props.C76_iftime"
   ],
   "note": "The silent run and the dialplan read for every clean file; applications shown quiet: plain, Set, Goto, Gosub, argument lists, and with substitutions plain, Set, argument lists, GotoIf, GosubIf, GotoIfTime and ExecIf."
  },
  {
   "property": "C77",
   "status": "proved",
   "theorems": [
    "ALint.Props.C77_understood",
    "ALint.Props.C77_silent",
    "ALint.Props.C77_printed"
   ],
   "note": "For every well-formed text with functions that only check balance."
  },
  {
   "property": "C78",
   "status": "proved",
   "theorems": [
    "ALint.Props.C78_applications",
    "ALint.Props.C78_functions",
    "ALint.Props.C78_accepted",
    "ALint.Props.C78_spelling",
    "ALint.Props.C78_missing",
    "ALint.Props.C78_function_accepted",
    "ALint.Props.C78_function_spelling",
    "ALint.Props.C78_function_missing",
    "ALint.Props.C78_usable"
   ],
   "note": "The tables are generated from the source tree by tools/registry.py; found, accepted, corrected and missing for every order of listing; a silent use for every application except Background."
  },
  {
   "property": "C79",
   "status": "proved",
   "theorems": [
    "ALint.Props.C79_more",
    "ALint.Props.C79_applications",
    "ALint.Props.C79_functions",
    "ALint.Props.C79_upgrade",
    "ALint.Props.C79_order"
   ],
   "note": "Any two registries, one containing the other; the real tables of both versions; whole checks."
  },
  {
   "property": "C80",
   "status": "partial",
   "theorems": [
    "ALint.Props.C80_lossless",
    "ALint.Props.C80_comment_partial",
    "ALint.Props.C80_nothing_partial",
    "ALint.Props.C80_open_partial",
    "ALint.Props.C80_cases",
    "ALint.Props.C80_violated_double",
    "ALint.Props.C80_violated_single"
   ],
   "note": "for text in order in which double quotes hold no single ones and single quotes neither double ones nor opening parentheses; otherwise violated (C80_violated_double, C80_violated_single)"
  },
  {
   "property": "C81",
   "status": "partial",
   "theorems": [
    "ALint.Props.C81_groups",
    "ALint.Props.C81_unfold",
    "ALint.Props.C81_violated_include"
   ],
   "note": "exact for one file; a line after #include is joined to the last line of the included file (C81_violated_include)"
  },
  {
   "property": "C82",
   "status": "partial",
   "theorems": [
    "ALint.Props.C82_wiped_partial",
    "ALint.Props.C82_exact_partial",
    "ALint.Props.C82_violated_jumps",
    "ALint.Props.C82_violated_general",
    "ALint.Props.C82_violated_config"
   ],
   "note": "each context in the end is what its last section read alone gives (C82_exact_partial); jumps and labels of the replaced context stay (C82_violated_jumps), a second [general] ends the program (C82_violated_general), other files keep all contexts (C82_violated_config)"
  },
  {
   "property": "C83",
   "status": "proved",
   "theorems": [
    "ALint.Props.C83_ordinary",
    "ALint.Props.C83_check"
   ],
   "note": "whole checks, with includes; equal result, messages equal up to order"
  },
  {
   "property": "C84",
   "status": "proved",
   "theorems": [
    "ALint.Props.C84_says"
   ],
   "note": "C84_says: for every file that loads, the messages of these kinds are exactly those of the specification odbcSays, in order, followed by the sections that define nothing. W_/I_ messages about the layout of files and templates (which the parser issues too) are not among these kinds."
  },
  {
   "property": "C85",
   "status": "proved",
   "theorems": [
    "ALint.Props.C85_dialplan_check",
    "ALint.Props.C85_func_odbc_check",
    "ALint.Props.C85_messages",
    "ALint.Props.C85_muting",
    "ALint.Props.C85_muting_func_odbc",
    "ALint.Props.C85_silent"
   ],
   "note": "C85_dialplan_check and C85_func_odbc_check: output and exit status, by an invariant through all of the code that only the last message of a run can be one without a text; the lines below the heading are described as well (C98). C85_messages: which messages these are. C85_muting: comparison with the run without ALINT_IGNORE. C85_silent: dialplan-show, modules-show. argparse is not modelled; repr of values is a parameter."
  },
  {
   "property": "C86",
   "status": "proved",
   "theorems": [
    "ALint.Props.C86_lists",
    "ALint.Props.C86_program"
   ],
   "note": "C86_lists: contexts, labels, variables with counts, for every order of enumeration. C86_program: output, exit status and failures of the whole program. The similar names themselves are C69."
  },
  {
   "property": "C87",
   "status": "proved",
   "theorems": [
    "ALint.Props.C87_ignore",
    "ALint.Props.C87_test",
    "ALint.Props.C87_failing",
    "ALint.Props.C87_alone",
    "ALint.Props.C87_suite",
    "ALint.Props.C87_untested"
   ],
   "note": "C87_test, C87_failing, C87_ignore, C87_alone, C87_suite, C87_untested. Of unittest it is taken that _outcome tells whether the test method raised (which holds for the versions the code was written for)."
  },
  {
   "property": "C88",
   "status": "partial",
   "theorems": [
    "ALint.Props.C88_generated",
    "ALint.Props.C88_all_partial",
    "ALint.Props.C88_names",
    "ALint.Props.C88_violated"
   ],
   "note": "Violated (C88_violated): arguments that give the same name overwrite each other. C88_generated says exactly which method each name has; C88_all_partial is the property if the names differ, C88_names a sufficient condition for that."
  },
  {
   "property": "C89",
   "status": "partial",
   "theorems": [
    "ALint.Props.C89_untouched_partial",
    "ALint.Props.C89_violated_execif",
    "ALint.Props.C89_violated_other"
   ],
   "note": "Violated (C89_violated_execif, C89_violated_other): the converter never rewrites anything. The report of an old-style ExecIf is always followed by an exception that ends the reading, and for every other application process_issue raises NotImplementedError. C89_untouched_partial: whatever the dialplan, answer and faults, no entry of the disk but one temporary file is ever changed, and without faults the disk is in the end as it was."
  },
  {
   "property": "C90",
   "status": "proved",
   "theorems": [
    "ALint.Props.C90_includes_refused",
    "ALint.Props.C90_answered"
   ],
   "note": "C90_includes_refused: no report for a text with an include line; C90_answered: an answer for a text without one, once its lines are read."
  },
  {
   "property": "C91",
   "status": "proved",
   "theorems": [
    "ALint.Props.C91_said",
    "ALint.Props.C91_unique",
    "ALint.Props.C91_exact",
    "ALint.Props.C91_breaks",
    "ALint.Props.C91_regular",
    "ALint.Props.C91_special"
   ],
   "note": "C91_exact: for any text whatsoever, reading it ends normally with certain events and a certain value if and only if TextReads (Spec/Reading.lean) derives them; C91_breaks: the same for texts with a substitution that is not closed. C91_said: the events for a text as it should be written (TextSays) are exactly those listed; C91_unique: there is one such list; C91_regular relates the two; C91_special: which functions have checks of their own."
  },
  {
   "property": "C92",
   "status": "partial",
   "theorems": [
    "ALint.Props.C92_set_partial",
    "ALint.Props.C92_exact_partial",
    "ALint.Props.C92_special",
    "ALint.Props.C92_violated_inside",
    "ALint.Props.C92_violated_balance",
    "ALint.Props.C92_violated_crash"
   ],
   "note": "C92_exact_partial: for any data, Set ends normally with certain events if and only if these are those of the text, the assignment and the balance check; C92_set_partial: for data as it should be written. The English claim is violated: C92_violated_inside (an = inside an expression counts), C92_violated_balance (arguments with variables of a function that is written to), C92_violated_crash."
  },
  {
   "property": "C93",
   "status": "partial",
   "theorems": [
    "ALint.Props.C93_said_partial",
    "ALint.Props.C93_enough_partial",
    "ALint.Props.C93_depth_partial",
    "ALint.Props.C93_exact_partial",
    "ALint.Props.C93_exact_text_partial",
    "ALint.Props.C93_unique",
    "ALint.Props.C93_described",
    "ALint.Props.C93_described_all",
    "ALint.Props.C93_violated_twice",
    "ALint.Props.C93_violated_old"
   ],
   "note": "C93_exact_partial: an equivalence for every application text and every run that ends; C93_depth_partial: with a stack deeper than the number of question marks the run ends exactly when the rules apply. The rules follow the code where the English claim is false of it: mistakes in variables inside an ExecIf action are said twice (C93_violated_twice), and an old-style action loses its commas (C93_violated_old)."
  },
  {
   "property": "C94",
   "status": "proved",
   "theorems": [
    "ALint.Props.C94_says",
    "ALint.Props.C94_steps",
    "ALint.Props.C94_jump",
    "ALint.Props.C94_check",
    "ALint.Props.C94_tells",
    "ALint.Props.C94_unique",
    "ALint.Props.C94_tells_check",
    "ALint.Props.C94_files"
   ],
   "note": "For checks that end (an exception ends a check earlier: C57). C94_tells, C94_tells_check and C94_files are about a specification without any part of the program, for applications that are described (as those that come with the program are, C93_described_all). What is said about the lines of the files is C96."
  },
  {
   "property": "C95",
   "status": "proved",
   "theorems": [
    "ALint.Props.C95_shows",
    "ALint.Props.C95_all",
    "ALint.Props.C95_silent",
    "ALint.Props.C95_semicolon"
   ],
   "note": "The SQL parser is a parameter that does not raise."
  },
  {
   "property": "C96",
   "status": "proved",
   "theorems": [
    "ALint.Props.C96_told_unique",
    "ALint.Props.C96_order",
    "ALint.Props.C96_unique",
    "ALint.Props.C96_total",
    "ALint.Props.C96_knows",
    "ALint.Props.C96_files",
    "ALint.Props.C96_check",
    "ALint.Props.C96_alone"
   ],
   "note": "Hints about blank lines of several files: if no file is read twice (C72); for one file always."
  },
  {
   "property": "C97",
   "status": "partial",
   "theorems": [
    "ALint.Props.C97_again_partial",
    "ALint.Props.C97_violated_again",
    "ALint.Props.C97_violated_links",
    "ALint.Props.C97_files",
    "ALint.Props.C97_rewritten_partial",
    "ALint.Props.C97_untouched",
    "ALint.Props.C97_violated_twice",
    "ALint.Props.C97_violated_names"
   ],
   "note": "Proved: what becomes of all files, if every file is read once and the files with hints are at entries of their own, under their names or behind a link whose text names them from the current directory (violated otherwise: C97_violated_twice, C97_violated_names, C97_violated_links); when nothing is touched; and, if no other file read is reached through one with hints and the canonical spellings can stand in their places (violated otherwise: C97_violated_again), that reading again gives the same dialplan up to the spelling of patterns, without hints, and that a second run changes nothing."
  },
  {
   "property": "C98",
   "status": "proved",
   "theorems": [
    "ALint.Props.C98_dialplan_check",
    "ALint.Props.C98_shown",
    "ALint.Props.C98_printable",
    "ALint.Props.C98_read_back",
    "ALint.Props.C98_cut"
   ],
   "note": "C98_shown: the text shown is the one described in Spec/Shown, for all bytes. C98_printable, C98_read_back, C98_cut: consequences. C98_dialplan_check: for every message printed."
  },
  {
   "property": "C99",
   "status": "proved",
   "theorems": [
    "ALint.Props.C99_permission",
    "ALint.Props.C99_refused",
    "ALint.Props.C99_announced",
    "ALint.Props.C99_screen",
    "ALint.Props.C99_done",
    "ALint.Props.C99_listed",
    "ALint.Props.C99_effect"
   ],
   "note": "C99_permission, C99_refused: nothing is touched before the names were shown and without the answer y. C99_announced: at every moment, also when something fails. C99_screen: what is on the screen. C99_done: when Done is said. C99_listed: the files shown by make_patterns_canonical. C99_effect: the disk afterwards is the one described in C97."
  },
  {
   "property": "C100",
   "status": "proved",
   "theorems": [
    "ALint.Props.C100_nested",
    "ALint.Props.C100_room",
    "ALint.Props.C100_closed"
   ],
   "note": ""
  },
  {
   "property": "C101",
   "status": "proved",
   "theorems": [
    "ALint.Props.C101_unique",
    "ALint.Props.C101_ends",
    "ALint.Props.C101_refused",
    "ALint.Props.C101_self_include",
    "ALint.Props.C101_same",
    "ALint.Props.C101_check"
   ],
   "note": ""
  },
  {
   "property": "C102",
   "status": "partial",
   "theorems": [
    "ALint.Props.C102_violated",
    "ALint.Props.C102_answered_partial",
    "ALint.Props.C102_others",
    "ALint.Props.C102_never"
   ],
   "note": "Violated: a posted text that includes its own name (extensions.conf) is never answered (C102_violated, for every number of steps). Answered if no line does so."
  },
  {
   "property": "C103",
   "status": "proved",
   "theorems": [
    "ALint.Props.C103_files",
    "ALint.Props.C103_show_usage",
    "ALint.Props.C103_ident_usage",
    "ALint.Props.C103_help",
    "ALint.Props.C103_no_other",
    "ALint.Props.C103_parsers",
    "ALint.Props.C103_exact",
    "ALint.Props.C103_words",
    "ALint.Props.C103_once",
    "ALint.Props.C103_settings",
    "ALint.Props.C103_check_usage",
    "ALint.Props.C103_check_twice",
    "ALint.Props.C103_dialplan_check",
    "ALint.Props.C103_modules",
    "ALint.Props.C103_dialplan_show",
    "ALint.Props.C103_ident_scan",
    "ALint.Props.C103_odbc_check",
    "ALint.Props.C103_annotate"
   ],
   "note": "argparse is modelled after CPython 3.11 for the parsers of the commands; texts of help and usage are not modelled; whether a word looks like a negative number is a parameter."
  },
  {
   "property": "C104",
   "status": "partial",
   "theorems": [
    "ALint.Props.C104_asks",
    "ALint.Props.C104_unique",
    "ALint.Props.C104_other",
    "ALint.Props.C104_status_partial",
    "ALint.Props.C104_history",
    "ALint.Props.C104_malformed",
    "ALint.Props.C104_violated"
   ],
   "note": "Violated: a body that is JSON but has not the expected form is answered with 500 instead of a client error (C104_violated, C104_malformed). Everything else is proved; routing and JSON reading of falcon are taken as given."
  },
  {
   "property": "C105",
   "status": "partial",
   "theorems": [
    "ALint.Props.C105_unique",
    "ALint.Props.C105_escaped",
    "ALint.Props.C105_no_markup",
    "ALint.Props.C105_no_markup_failed",
    "ALint.Props.C105_page",
    "ALint.Props.C105_posted",
    "ALint.Props.C105_lines",
    "ALint.Props.C105_server_partial",
    "ALint.Props.C105_sent",
    "ALint.Props.C105_violated_leak"
   ],
   "note": "Violated after a failed request: a leaked message for a line the text has not is counted but not shown (C105_violated_leak). Proved for servers no earlier request of which failed, went on for ever or used Background; browser and jQuery are taken to put the HTML on the page."
  },
  {
   "property": "C106",
   "status": "partial",
   "theorems": [
    "ALint.Props.C106_asked",
    "ALint.Props.C106_exact",
    "ALint.Props.C106_status",
    "ALint.Props.C106_options_partial",
    "ALint.Props.C106_violated"
   ],
   "note": "Violated: a single dash, one word behind -- and a dashed word with a blank are taken as the command, and nothing is done (C106_violated). C106_exact and C106_status cover all lines; C106_options_partial covers those of proper options. The texts of help, version and usage are parameters."
  },
  {
   "property": "C107",
   "status": "proved",
   "theorems": [
    "ALint.Props.C107_dialplan_check",
    "ALint.Props.C107_func_odbc_check",
    "ALint.Props.C107_heading_tells",
    "ALint.Props.C107_report_tells",
    "ALint.Props.C107_same_report",
    "ALint.Props.C107_python_texts"
   ],
   "note": "Text of repr/str assumed to be without line feed (stated as OneLineTexts); paths given by the user without line feed."
  },
  {
   "property": "C108",
   "status": "partial",
   "theorems": [
    "ALint.Props.C108_same_partial",
    "ALint.Props.C108_kinds_partial",
    "ALint.Props.C108_messages",
    "ALint.Props.C108_func_odbc",
    "ALint.Props.C108_violated",
    "ALint.Props.C108_violated_kinds"
   ],
   "note": "Violated by eight classes of messages that show variables by the repr of object, with a memory address (C108_violated, C108_violated_kinds). Proved: equal runs otherwise, same messages and exit status always, only these eight classes, func_odbc-check always equal."
  },
  {
   "property": "C109",
   "status": "proved",
   "theorems": [
    "ALint.Props.C109_quote_tells",
    "ALint.Props.C109_quote_visible",
    "ALint.Props.C109_line_tells",
    "ALint.Props.C109_dialplan_check"
   ],
   "note": "For the 23 classes whose values all stand under !r (three more can show variables, C108), and for any message whose values are shown as themselves."
  },
  {
   "property": "C110",
   "status": "proved",
   "theorems": [
    "ALint.Props.C110_reading",
    "ALint.Props.C110_dialplan",
    "ALint.Props.C110_odbc",
    "ALint.Props.C110_dialplan_check",
    "ALint.Props.C110_modules_show",
    "ALint.Props.C110_dialplan_show",
    "ALint.Props.C110_ident_scan",
    "ALint.Props.C110_func_odbc_check",
    "ALint.Props.C110_func_odbc_annotate"
   ],
   "note": "for every command that reads config files; symbolic links and relative names are as in FS: a file is what its name gives"
  },
  {
   "property": "C111",
   "status": "proved",
   "theorems": [
    "ALint.Props.C111_line",
    "ALint.Props.C111_elem",
    "ALint.Props.C111_silent",
    "ALint.Props.C111_fine",
    "ALint.Props.C111_passed"
   ],
   "note": "both directions; the converse for files included once, since blank lines of files included again are C72"
  },
  {
   "property": "C112",
   "status": "proved",
   "theorems": [
    "ALint.Props.C112_status",
    "ALint.Props.C112_passed",
    "ALint.Props.C112_position"
   ],
   "note": "the status of an uncaught exception is 1, as Python does; signals are not modelled"
  },
  {
   "property": "C113",
   "status": "proved",
   "theorems": [
    "ALint.Props.C113_says",
    "ALint.Props.C113_iff",
    "ALint.Props.C113_silent",
    "ALint.Props.C113_status",
    "ALint.Props.C113_passed",
    "ALint.Props.C113_dialplan"
   ],
   "note": "that two sections do not define the same function is not among what is checked (see C59)"
  },
  {
   "property": "C114",
   "status": "proved",
   "theorems": [
    "ALint.Props.C114_before",
    "ALint.Props.C114_lines",
    "ALint.Props.C114_jumps"
   ],
   "note": "What is said at the end of a check is excepted from the first part, as in the statement: kinds W_FILE_DOS_EOFCRLF, W_FILE_UNIX_NOLF, W_WSV_EOF, H_WSV_CTX_BETWEEN, messages without a line number, and jumps."
  },
  {
   "property": "C115",
   "status": "proved",
   "theorems": [
    "ALint.Props.C115_same_data",
    "ALint.Props.C115_comments"
   ],
   "note": "Two runs side by side; of a line only data, presence of a comment, encoding, control characters, blanks and terminator matter. C115_comments: comments reworded in any lines of any files."
  },
  {
   "property": "C116",
   "status": "proved",
   "theorems": [
    "ALint.Props.C116_same_data",
    "ALint.Props.C116_terminators",
    "ALint.Props.C116_dos"
   ],
   "note": "The same without the four messages about terminators; C116_dos for whole files saved with CR LF."
  },
  {
   "property": "C117",
   "status": "proved",
   "theorems": [
    "ALint.Props.C117_inlined",
    "ALint.Props.C117_outlined"
   ],
   "note": "Both directions, for whole lines and files in the same directory; messages about terminators and the number of blank lines are left out of the comparison since they depend on the ends of files."
  },
  {
   "property": "C118",
   "status": "proved",
   "theorems": [
    "ALint.Props.C118_inserted",
    "ALint.Props.C118_removed"
   ],
   "note": "With exact line numbers; Idle (nothing to say about the new lines) is shown for blank lines and for comments without control characters and trailing blanks."
  },
  {
   "property": "C119",
   "status": "proved",
   "theorems": [
    "ALint.Props.C119_moved"
   ],
   "note": "whole log of checkDialplan, all outcomes; files included by a path from the root are excluded by hypothesis"
  },
  {
   "property": "C120",
   "status": "partial",
   "theorems": [
    "ALint.Props.C120_spelled_partial",
    "ALint.Props.C120_violated"
   ],
   "note": "Behind a line that adds a step, for extensions in canonical spelling. Violated behind a refused line (C120_violated): `same` is then the extension of the last accepted line."
  },
  {
   "property": "C121",
   "status": "partial",
   "theorems": [
    "ALint.Props.C121_order_partial",
    "ALint.Props.C121_violated",
    "ALint.Props.C121_violated_spelling"
   ],
   "note": "Any permutation of sections of a file (distinct contexts, no includes inside) gives the same messages in some order and the same contexts in some order. Conditions: the first step of each section has its own extension and priority (C121_violated shows why), and the spelling of Background is settled before the sections (C121_violated_spelling)."
  },
  {
   "property": "C122",
   "status": "partial",
   "theorems": [
    "ALint.Props.C122_order_partial",
    "ALint.Props.C122_violated",
    "ALint.Props.C122_violated_again"
   ],
   "note": "Proved for extensions at the end of a section whose first step has its own priority, which have no other steps in the context, and with the spelling of Background settled before; C122_violated and C122_violated_again show that the first two conditions are needed, C121_violated_spelling the third."
  },
  {
   "property": "C123",
   "status": "partial",
   "theorems": [
    "ALint.Props.C123_pieces_partial",
    "ALint.Props.C123_divided_partial",
    "ALint.Props.C123_joined_partial",
    "ALint.Props.C123_violated",
    "ALint.Props.C123_violated_comment"
   ],
   "note": "C123_pieces_partial: any order that keeps the pieces of each context in order. C123_divided_partial, C123_joined_partial: the header of the context once more, or once less. Missing: pieces whose first step has the priority n or is a same line (C123_violated), repeated headers with comments or templates (C123_violated_comment), a spelling of Background chosen within the sections (C121_violated_spelling)."
  },
  {
   "property": "C124",
   "status": "proved",
   "theorems": [
    "ALint.Props.C124_down",
    "ALint.Props.C124_up"
   ],
   "note": "C124_down, C124_up: include lines moved down or up past other lines of their context. Both orders read the same dialplan and give the same messages, whatever follows."
  },
  {
   "property": "C125",
   "status": "proved",
   "theorems": [
    "ALint.Props.C125_taken",
    "ALint.Props.C125_added"
   ],
   "note": "C125_taken, C125_added: disregarded lines taken out or put in anywhere. The messages differ by messages about these lines; the dialplan read is the same."
  },
  {
   "property": "C126",
   "status": "partial",
   "theorems": [
    "ALint.Props.C126_taken_partial",
    "ALint.Props.C126_added_partial",
    "ALint.Props.C126_taken_own_partial",
    "ALint.Props.C126_added_own_partial",
    "ALint.Props.C126_violated",
    "ALint.Props.C126_violated_spelling"
   ],
   "note": "Proved for any number of lines of a context that do not become part of the dialplan, whatever follows, if the last priority and the spelling of Background are the same behind them as in front of them: so for steps refused before their priority is settled and for repetitions of the last priority. The last priority may also change, if the next line is a step with an extension and a priority of its own or there is none (C126_taken_own_partial, C126_added_own_partial). Violated otherwise: a refused duplicate changes what n means below (C126_violated) and may settle the spelling of Background (C126_violated_spelling)."
  },
  {
   "property": "C127",
   "status": "proved",
   "theorems": [
    "ALint.Props.C127_inlined",
    "ALint.Props.C127_outlined",
    "ALint.Props.C127_inserted",
    "ALint.Props.C127_removed",
    "ALint.Props.C127_down",
    "ALint.Props.C127_up",
    "ALint.Props.C127_taken",
    "ALint.Props.C127_added"
   ],
   "note": "For including and inlining (C127_inlined, C127_outlined), comment lines and blank lines (C127_inserted, C127_removed), include lines (C127_down, C127_up): the same exit status. For lines that are disregarded: 0 stays 0 when they are taken out, 1 stays 1 when they are put in (C127_taken, C127_added). The check is taken to come to its end with the one version; that it does with the other is part of the conclusion."
  },
  {
   "property": "C128",
   "status": "proved",
   "theorems": [
    "ALint.Props.C128_moved",
    "ALint.Props.C128_distinct",
    "ALint.Props.C128_status",
    "ALint.Props.C128_dialplan"
   ],
   "note": "all permutations of parts beginning with a header; functions with names alike but for letters are handled in the statement"
  },
  {
   "property": "C129",
   "status": "proved",
   "theorems": [
    "ALint.Props.C129_inserted",
    "ALint.Props.C129_removed",
    "ALint.Props.C129_inlined",
    "ALint.Props.C129_outlined",
    "ALint.Props.C129_status",
    "ALint.Props.C129_dialplan"
   ],
   "note": "C129_inserted, C129_removed: blank lines and comments. C129_inlined, C129_outlined: an included file and its lines. Same messages (C117, C118: about the same text at its new place), same functions and settings, same table of functions. C129_status: exit status of func_odbc-check. C129_dialplan: of dialplan-check. C128_dialplan (with C128): the order of the functions and the exit status of dialplan-check."
  },
  {
   "property": "C130",
   "status": "proved",
   "theorems": [
    "ALint.Props.C130_taken",
    "ALint.Props.C130_added",
    "ALint.Props.C130_status_taken",
    "ALint.Props.C130_status_added",
    "ALint.Props.C130_dialplan_taken",
    "ALint.Props.C130_dialplan_added"
   ],
   "note": "C130_taken, C130_added: lines taken out and put in. C130_status_taken, C130_status_added: exit status of func_odbc-check. C130_dialplan_taken, C130_dialplan_added: of dialplan-check. What is disregarded depends on the section the lines are in: the functions read from what is above them."
  },
  {
   "property": "C131",
   "status": "proved",
   "theorems": [
    "ALint.Props.C131_swapped",
    "ALint.Props.C131_status",
    "ALint.Props.C131_dialplan"
   ],
   "note": "C131_swapped: functions, values of settings and messages. C131_status: exit status of func_odbc-check. C131_dialplan: of dialplan-check. Groups that have a name in common are not covered: of settings with the same name the first counts."
  },
  {
   "property": "C132",
   "status": "proved",
   "theorems": [
    "ALint.Props.C132_without",
    "ALint.Props.C132_status"
   ],
   "note": "C132_without: messages, functions and what is known afterwards. C132_status: exit status of func_odbc-check."
  }
 ]
}