import Verif.Py.Value

/-!
# Messages: `asterisklint/defines.py` and the message classes

The table of classes and templates is transcribed mechanically from the class
definitions in the files named beside the constructors.
-/

namespace ALint

/-- `Where`, where.py:18-25.  `lineno` is -1 only for `DUMMY_WHERE`. -/
structure Where where
  filename : Str
  lineno : Int
  line : List Nat
deriving DecidableEq, Repr

/-- A value passed to a message: a Python value or a Python list of values.
The `fmtkwargs` of defines.py:117-120. -/
inductive Arg where
  | one (v : V)
  | many (vs : List V)
deriving DecidableEq

/-- A piece of a format string: literal text, `{name}` or `{name!r}`.  Code: defines.py:82. -/
inductive Piece where
  | lit (s : Str)
  | field (name : Str) (repr : Bool)
deriving DecidableEq, Repr

/-- The message classes; the name of the constructor is the name of the class.
The subclasses of `MessageDef` (defines.py:105-144), which are in app/__init__.py, application.py,
config.py, configobj.py, configws.py, dialplan.py, file.py, func/__init__.py, func_odbc.py, pattern.py,
varfun.py and contrib/commands/vg.py. -/
inductive MK where
  /-- application.py:26 -/
  | E_APP_WSH
  /-- application.py:29 -/
  | E_APP_PARSE_ERROR
  /-- application.py:32 -/
  | W_APP_NEED_PARENS
  /-- application.py:35 -/
  | W_APP_WSH
  /-- config.py:26 -/
  | E_CONF_BAD_LINE
  /-- config.py:29 -/
  | E_CONF_CTX_MISSING
  /-- config.py:32 -/
  | E_CONF_KEY_DUPE
  /-- config.py:35 -/
  | E_CONF_KEY_INVALID
  /-- config.py:38 -/
  | W_CONF_KEY_LATE
  /-- config.py:41 -/
  | W_CONF_CTX_DUPE
  /-- config.py:48 -/
  | W_PP_EXEC
  /-- config.py:51 -/
  | W_PP_INCLUDE_MISSING
  /-- config.py:54 -/
  | W_PP_QUOTE_BAD
  /-- config.py:57 -/
  | W_WSH_CTRL
  /-- config.py:60 -/
  | H_CONF_HAS_ARROW
  /-- config.py:63 -/
  | H_CONF_NO_ARROW
  /-- configobj.py:21 -/
  | I_NOTIMPL_TEMPLATES
  /-- configobj.py:24 -/
  | W_WSH_OBJSET
  /-- configobj.py:27 -/
  | W_WSH_VARSET
  /-- configws.py:22 -/
  | H_WSV_CTX_BETWEEN
  /-- configws.py:26 -/
  | H_WSV_VARSET_BETWEEN
  /-- dialplan.py:27 -/
  | I_NOTIMPL_HINT
  /-- dialplan.py:30 -/
  | I_NOTIMPL_IGNOREPAT
  /-- dialplan.py:34 -/
  | I_NOTIMPL_SWITCH
  /-- dialplan.py:37 -/
  | E_DP_VAR_INVALID
  /-- dialplan.py:41 -/
  | E_DP_INCLUDE_POSITION
  /-- dialplan.py:44 -/
  | E_DP_PAT_INVALID
  /-- dialplan.py:47 -/
  | E_DP_PAT_MISSING
  /-- dialplan.py:50 -/
  | E_DP_PRIO_INVALID
  /-- dialplan.py:53 -/
  | E_DP_PRIO_MISSING
  /-- dialplan.py:56 -/
  | E_DP_PRIO_DUPE
  /-- dialplan.py:59 -/
  | E_DP_LABEL_INVALID
  /-- dialplan.py:62 -/
  | E_DP_GLOBALS_DUPE
  /-- dialplan.py:65 -/
  | E_DP_LABEL_DUPE
  /-- dialplan.py:68 -/
  | E_DP_PRIO_BAD
  /-- dialplan.py:71 -/
  | E_DP_GOTO_CONTEXT_NOLABEL
  /-- dialplan.py:75 -/
  | E_DP_GOTO_NOCONTEXT
  /-- dialplan.py:78 -/
  | E_DP_GOTO_NOLABEL
  /-- dialplan.py:82 -/
  | W_DP_GOTO_CONTEXT_NOEXTEN
  /-- dialplan.py:86 -/
  | W_DP_PRIO_BADORDER
  /-- dialplan.py:89 -/
  | H_DP_GENERAL_MISPLACED
  /-- dialplan.py:92 -/
  | H_DP_GLOBALS_MISPLACED
  /-- file.py:21 -/
  | E_FILE_UTF8_BAD
  /-- file.py:24 -/
  | W_FILE_CTRL_CHAR
  /-- file.py:27 -/
  | W_FILE_DOS_EOFCRLF
  /-- file.py:30 -/
  | W_FILE_DOS_BARELF
  /-- file.py:33 -/
  | W_FILE_UNIX_CRLF
  /-- file.py:36 -/
  | W_FILE_UNIX_NOLF
  /-- file.py:39 -/
  | W_WSH_BOL
  /-- file.py:42 -/
  | W_WSH_EOL
  /-- file.py:45 -/
  | W_WSH_COMMENT
  /-- file.py:48 -/
  | W_WSV_BOF
  /-- file.py:51 -/
  | W_WSV_EOF
  /-- func_odbc.py:32 -/
  | E_ODBC_NOSQL
  /-- func_odbc.py:36 -/
  | W_ODBC_BADTOKENS
  /-- func_odbc.py:40 -/
  | W_ODBC_LEGACY
  /-- func_odbc.py:44 -/
  | W_ODBC_TAILSEMI
  /-- pattern.py:23 -/
  | H_PAT_NON_CANONICAL
  /-- varfun.py:29 -/
  | E_ASSIGN_EMPTY
  /-- varfun.py:32 -/
  | E_ASSIGN_NO_EQUALS
  /-- varfun.py:37 -/
  | E_FUNC_BAD_CASE
  /-- varfun.py:40 -/
  | E_FUNC_MISSING
  /-- varfun.py:45 -/
  | E_FUNC_PARENS
  /-- varfun.py:48 -/
  | E_FUNC_TAIL
  /-- varfun.py:51 -/
  | E_VAR_BAD_TOKENS
  /-- varfun.py:54 -/
  | E_VAR_SUBSTR_ARGS
  /-- varfun.py:57 -/
  | E_VAR_SUBSTR_START
  /-- varfun.py:60 -/
  | E_VAR_SUBSTR_LENGTH
  /-- varfun.py:63 -/
  | W_ASSIGN_SPACES
  /-- varfun.py:68 -/
  | W_FUNC_DYNAMIC
  /-- app/__init__.py:20 -/
  | E_APP_ARG_FEW
  /-- app/__init__.py:23 -/
  | E_APP_ARG_MANY
  /-- app/__init__.py:26 -/
  | E_APP_ARG_BADOPT
  /-- app/__init__.py:30 -/
  | E_APP_ARG_DUPEOPT
  /-- app/__init__.py:33 -/
  | E_APP_ARG_IFCONST
  /-- app/__init__.py:37 -/
  | E_APP_ARG_IFEMPTY
  /-- app/__init__.py:40 -/
  | E_APP_ARG_IFSTYLE
  /-- app/__init__.py:44 -/
  | E_APP_ARG_PIPEDELIM
  /-- app/__init__.py:48 -/
  | E_APP_ARG_SYNTAX
  /-- app/__init__.py:52 -/
  | E_APP_MISSING
  /-- app/__init__.py:55 -/
  | W_APP_BAD_CASE
  /-- app/__init__.py:58 -/
  | W_APP_BALANCE
  /-- func/__init__.py:20 -/
  | E_FUNC_BAD_ARGS
  /-- func/__init__.py:23 -/
  | W_FUNC_BALANCE
deriving DecidableEq, Repr

/-- `__name__` of the class.  Code: defines.py:81, 88. -/
def MK.name : MK → Str
  | .E_APP_WSH => c! "E_APP_WSH"
  | .E_APP_PARSE_ERROR => c! "E_APP_PARSE_ERROR"
  | .W_APP_NEED_PARENS => c! "W_APP_NEED_PARENS"
  | .W_APP_WSH => c! "W_APP_WSH"
  | .E_CONF_BAD_LINE => c! "E_CONF_BAD_LINE"
  | .E_CONF_CTX_MISSING => c! "E_CONF_CTX_MISSING"
  | .E_CONF_KEY_DUPE => c! "E_CONF_KEY_DUPE"
  | .E_CONF_KEY_INVALID => c! "E_CONF_KEY_INVALID"
  | .W_CONF_KEY_LATE => c! "W_CONF_KEY_LATE"
  | .W_CONF_CTX_DUPE => c! "W_CONF_CTX_DUPE"
  | .W_PP_EXEC => c! "W_PP_EXEC"
  | .W_PP_INCLUDE_MISSING => c! "W_PP_INCLUDE_MISSING"
  | .W_PP_QUOTE_BAD => c! "W_PP_QUOTE_BAD"
  | .W_WSH_CTRL => c! "W_WSH_CTRL"
  | .H_CONF_HAS_ARROW => c! "H_CONF_HAS_ARROW"
  | .H_CONF_NO_ARROW => c! "H_CONF_NO_ARROW"
  | .I_NOTIMPL_TEMPLATES => c! "I_NOTIMPL_TEMPLATES"
  | .W_WSH_OBJSET => c! "W_WSH_OBJSET"
  | .W_WSH_VARSET => c! "W_WSH_VARSET"
  | .H_WSV_CTX_BETWEEN => c! "H_WSV_CTX_BETWEEN"
  | .H_WSV_VARSET_BETWEEN => c! "H_WSV_VARSET_BETWEEN"
  | .I_NOTIMPL_HINT => c! "I_NOTIMPL_HINT"
  | .I_NOTIMPL_IGNOREPAT => c! "I_NOTIMPL_IGNOREPAT"
  | .I_NOTIMPL_SWITCH => c! "I_NOTIMPL_SWITCH"
  | .E_DP_VAR_INVALID => c! "E_DP_VAR_INVALID"
  | .E_DP_INCLUDE_POSITION => c! "E_DP_INCLUDE_POSITION"
  | .E_DP_PAT_INVALID => c! "E_DP_PAT_INVALID"
  | .E_DP_PAT_MISSING => c! "E_DP_PAT_MISSING"
  | .E_DP_PRIO_INVALID => c! "E_DP_PRIO_INVALID"
  | .E_DP_PRIO_MISSING => c! "E_DP_PRIO_MISSING"
  | .E_DP_PRIO_DUPE => c! "E_DP_PRIO_DUPE"
  | .E_DP_LABEL_INVALID => c! "E_DP_LABEL_INVALID"
  | .E_DP_GLOBALS_DUPE => c! "E_DP_GLOBALS_DUPE"
  | .E_DP_LABEL_DUPE => c! "E_DP_LABEL_DUPE"
  | .E_DP_PRIO_BAD => c! "E_DP_PRIO_BAD"
  | .E_DP_GOTO_CONTEXT_NOLABEL => c! "E_DP_GOTO_CONTEXT_NOLABEL"
  | .E_DP_GOTO_NOCONTEXT => c! "E_DP_GOTO_NOCONTEXT"
  | .E_DP_GOTO_NOLABEL => c! "E_DP_GOTO_NOLABEL"
  | .W_DP_GOTO_CONTEXT_NOEXTEN => c! "W_DP_GOTO_CONTEXT_NOEXTEN"
  | .W_DP_PRIO_BADORDER => c! "W_DP_PRIO_BADORDER"
  | .H_DP_GENERAL_MISPLACED => c! "H_DP_GENERAL_MISPLACED"
  | .H_DP_GLOBALS_MISPLACED => c! "H_DP_GLOBALS_MISPLACED"
  | .E_FILE_UTF8_BAD => c! "E_FILE_UTF8_BAD"
  | .W_FILE_CTRL_CHAR => c! "W_FILE_CTRL_CHAR"
  | .W_FILE_DOS_EOFCRLF => c! "W_FILE_DOS_EOFCRLF"
  | .W_FILE_DOS_BARELF => c! "W_FILE_DOS_BARELF"
  | .W_FILE_UNIX_CRLF => c! "W_FILE_UNIX_CRLF"
  | .W_FILE_UNIX_NOLF => c! "W_FILE_UNIX_NOLF"
  | .W_WSH_BOL => c! "W_WSH_BOL"
  | .W_WSH_EOL => c! "W_WSH_EOL"
  | .W_WSH_COMMENT => c! "W_WSH_COMMENT"
  | .W_WSV_BOF => c! "W_WSV_BOF"
  | .W_WSV_EOF => c! "W_WSV_EOF"
  | .E_ODBC_NOSQL => c! "E_ODBC_NOSQL"
  | .W_ODBC_BADTOKENS => c! "W_ODBC_BADTOKENS"
  | .W_ODBC_LEGACY => c! "W_ODBC_LEGACY"
  | .W_ODBC_TAILSEMI => c! "W_ODBC_TAILSEMI"
  | .H_PAT_NON_CANONICAL => c! "H_PAT_NON_CANONICAL"
  | .E_ASSIGN_EMPTY => c! "E_ASSIGN_EMPTY"
  | .E_ASSIGN_NO_EQUALS => c! "E_ASSIGN_NO_EQUALS"
  | .E_FUNC_BAD_CASE => c! "E_FUNC_BAD_CASE"
  | .E_FUNC_MISSING => c! "E_FUNC_MISSING"
  | .E_FUNC_PARENS => c! "E_FUNC_PARENS"
  | .E_FUNC_TAIL => c! "E_FUNC_TAIL"
  | .E_VAR_BAD_TOKENS => c! "E_VAR_BAD_TOKENS"
  | .E_VAR_SUBSTR_ARGS => c! "E_VAR_SUBSTR_ARGS"
  | .E_VAR_SUBSTR_START => c! "E_VAR_SUBSTR_START"
  | .E_VAR_SUBSTR_LENGTH => c! "E_VAR_SUBSTR_LENGTH"
  | .W_ASSIGN_SPACES => c! "W_ASSIGN_SPACES"
  | .W_FUNC_DYNAMIC => c! "W_FUNC_DYNAMIC"
  | .E_APP_ARG_FEW => c! "E_APP_ARG_FEW"
  | .E_APP_ARG_MANY => c! "E_APP_ARG_MANY"
  | .E_APP_ARG_BADOPT => c! "E_APP_ARG_BADOPT"
  | .E_APP_ARG_DUPEOPT => c! "E_APP_ARG_DUPEOPT"
  | .E_APP_ARG_IFCONST => c! "E_APP_ARG_IFCONST"
  | .E_APP_ARG_IFEMPTY => c! "E_APP_ARG_IFEMPTY"
  | .E_APP_ARG_IFSTYLE => c! "E_APP_ARG_IFSTYLE"
  | .E_APP_ARG_PIPEDELIM => c! "E_APP_ARG_PIPEDELIM"
  | .E_APP_ARG_SYNTAX => c! "E_APP_ARG_SYNTAX"
  | .E_APP_MISSING => c! "E_APP_MISSING"
  | .W_APP_BAD_CASE => c! "W_APP_BAD_CASE"
  | .W_APP_BALANCE => c! "W_APP_BALANCE"
  | .E_FUNC_BAD_ARGS => c! "E_FUNC_BAD_ARGS"
  | .W_FUNC_BALANCE => c! "W_FUNC_BALANCE"

/-- All message classes.  Code: `types`, defines.py:30, 46-47. -/
def MK.all : List MK := [
  .E_APP_WSH,
  .E_APP_PARSE_ERROR,
  .W_APP_NEED_PARENS,
  .W_APP_WSH,
  .E_CONF_BAD_LINE,
  .E_CONF_CTX_MISSING,
  .E_CONF_KEY_DUPE,
  .E_CONF_KEY_INVALID,
  .W_CONF_KEY_LATE,
  .W_CONF_CTX_DUPE,
  .W_PP_EXEC,
  .W_PP_INCLUDE_MISSING,
  .W_PP_QUOTE_BAD,
  .W_WSH_CTRL,
  .H_CONF_HAS_ARROW,
  .H_CONF_NO_ARROW,
  .I_NOTIMPL_TEMPLATES,
  .W_WSH_OBJSET,
  .W_WSH_VARSET,
  .H_WSV_CTX_BETWEEN,
  .H_WSV_VARSET_BETWEEN,
  .I_NOTIMPL_HINT,
  .I_NOTIMPL_IGNOREPAT,
  .I_NOTIMPL_SWITCH,
  .E_DP_VAR_INVALID,
  .E_DP_INCLUDE_POSITION,
  .E_DP_PAT_INVALID,
  .E_DP_PAT_MISSING,
  .E_DP_PRIO_INVALID,
  .E_DP_PRIO_MISSING,
  .E_DP_PRIO_DUPE,
  .E_DP_LABEL_INVALID,
  .E_DP_GLOBALS_DUPE,
  .E_DP_LABEL_DUPE,
  .E_DP_PRIO_BAD,
  .E_DP_GOTO_CONTEXT_NOLABEL,
  .E_DP_GOTO_NOCONTEXT,
  .E_DP_GOTO_NOLABEL,
  .W_DP_GOTO_CONTEXT_NOEXTEN,
  .W_DP_PRIO_BADORDER,
  .H_DP_GENERAL_MISPLACED,
  .H_DP_GLOBALS_MISPLACED,
  .E_FILE_UTF8_BAD,
  .W_FILE_CTRL_CHAR,
  .W_FILE_DOS_EOFCRLF,
  .W_FILE_DOS_BARELF,
  .W_FILE_UNIX_CRLF,
  .W_FILE_UNIX_NOLF,
  .W_WSH_BOL,
  .W_WSH_EOL,
  .W_WSH_COMMENT,
  .W_WSV_BOF,
  .W_WSV_EOF,
  .E_ODBC_NOSQL,
  .W_ODBC_BADTOKENS,
  .W_ODBC_LEGACY,
  .W_ODBC_TAILSEMI,
  .H_PAT_NON_CANONICAL,
  .E_ASSIGN_EMPTY,
  .E_ASSIGN_NO_EQUALS,
  .E_FUNC_BAD_CASE,
  .E_FUNC_MISSING,
  .E_FUNC_PARENS,
  .E_FUNC_TAIL,
  .E_VAR_BAD_TOKENS,
  .E_VAR_SUBSTR_ARGS,
  .E_VAR_SUBSTR_START,
  .E_VAR_SUBSTR_LENGTH,
  .W_ASSIGN_SPACES,
  .W_FUNC_DYNAMIC,
  .E_APP_ARG_FEW,
  .E_APP_ARG_MANY,
  .E_APP_ARG_BADOPT,
  .E_APP_ARG_DUPEOPT,
  .E_APP_ARG_IFCONST,
  .E_APP_ARG_IFEMPTY,
  .E_APP_ARG_IFSTYLE,
  .E_APP_ARG_PIPEDELIM,
  .E_APP_ARG_SYNTAX,
  .E_APP_MISSING,
  .W_APP_BAD_CASE,
  .W_APP_BALANCE,
  .E_FUNC_BAD_ARGS,
  .W_FUNC_BALANCE]

/-- The attribute `message`, as parsed by `str.format`.
The class attributes `message` where the classes are defined; defines.py:82. -/
def MK.template : MK → List Piece
  | .E_APP_WSH => [.lit (c! "whitespace before app "), .field (c! "app") true, .lit (c! " will result in unknown app")]
  | .E_APP_PARSE_ERROR => [.lit (c! "app "), .field (c! "app") true, .lit (c! " arguments "), .field (c! "args") true, .lit (c! " raise a parse error")]
  | .W_APP_NEED_PARENS => [.lit (c! "app "), .field (c! "app") true, .lit (c! " should have parentheses (only NoOp is exempt)")]
  | .W_APP_WSH => [.lit (c! "unexpected whitespace after app "), .field (c! "app") true]
  | .E_CONF_BAD_LINE => [.lit (c! "expected variable = value, line starts with "), .field (c! "startswith") true]
  | .E_CONF_CTX_MISSING => [.lit (c! "expected context before var/object set")]
  | .E_CONF_KEY_DUPE => [.lit (c! "duplicate varset of "), .field (c! "key") true]
  | .E_CONF_KEY_INVALID => [.lit (c! "expected valid var/object or new context, got "), .field (c! "key") true]
  | .W_CONF_KEY_LATE => [.lit (c! "expected varset "), .field (c! "key") true, .lit (c! " earlier, fix your ordering")]
  | .W_CONF_CTX_DUPE => [.lit (c! "duplicate context found, in some cases it is legal")]
  | .W_PP_EXEC => [.lit (c! "using #exec is not recommended; command is "), .field (c! "cmd") true]
  | .W_PP_INCLUDE_MISSING => [.lit (c! "the #include file "), .field (c! "filename") true, .lit (c! " could not be found")]
  | .W_PP_QUOTE_BAD => [.lit (c! "bad quoting near preprocessor directive")]
  | .W_WSH_CTRL => [.lit (c! "unexpected non-space/tab whitespace or a mix")]
  | .H_CONF_HAS_ARROW => [.lit (c! "expected an equals sign instead of arrow here")]
  | .H_CONF_NO_ARROW => [.lit (c! "expected an arrow sign instead of equals here")]
  | .I_NOTIMPL_TEMPLATES => [.lit (c! "asterisklint does not implement template use yet")]
  | .W_WSH_OBJSET => [.lit (c! "expected \" => \" horizontal whitespace around arrow operator")]
  | .W_WSH_VARSET => [.lit (c! "expected no horizontal whitespace around equals operator")]
  | .H_WSV_CTX_BETWEEN => [.lit (c! "expected one or two lines between non-tiny contexts")]
  | .H_WSV_VARSET_BETWEEN => [.lit (c! "expected zero or one lines between varsets")]
  | .I_NOTIMPL_HINT => [.lit (c! "the dialplan hint directive has not been implemented yet")]
  | .I_NOTIMPL_IGNOREPAT => [.lit (c! "the dialplan ignorepat directive has not been implemented yet")]
  | .I_NOTIMPL_SWITCH => [.lit (c! "the dialplan switch directive has not been implemented yet")]
  | .E_DP_VAR_INVALID => [.lit (c! "unexpected variable name "), .field (c! "variable") true, .lit (c! " (not exten/same/include)")]
  | .E_DP_INCLUDE_POSITION => [.lit (c! "an include should always be at the tail of the context")]
  | .E_DP_PAT_INVALID => [.lit (c! "badly formatted pattern")]
  | .E_DP_PAT_MISSING => [.lit (c! "missing pattern")]
  | .E_DP_PRIO_INVALID => [.lit (c! "invalid priority "), .field (c! "prio") true]
  | .E_DP_PRIO_MISSING => [.lit (c! "missing priority")]
  | .E_DP_PRIO_DUPE => [.lit (c! "duplicate priority "), .field (c! "prio") true]
  | .E_DP_LABEL_INVALID => [.lit (c! "unexpected label value "), .field (c! "label") true]
  | .E_DP_GLOBALS_DUPE => [.lit (c! "second globals context, will not be used")]
  | .E_DP_LABEL_DUPE => [.lit (c! "duplicate label "), .field (c! "label") true, .lit (c! ", one of them will not be used")]
  | .E_DP_PRIO_BAD => [.lit (c! "cannot match priority for pattern "), .field (c! "pat") true]
  | .E_DP_GOTO_CONTEXT_NOLABEL => [.lit (c! "label not found in context for goto to "), .field (c! "context") false, .lit (c! ", "), .field (c! "exten") false, .lit (c! ", "), .field (c! "label") false]
  | .E_DP_GOTO_NOCONTEXT => [.lit (c! "context not found for goto to "), .field (c! "context") false, .lit (c! ", "), .field (c! "exten") false, .lit (c! ", "), .field (c! "prio") false]
  | .E_DP_GOTO_NOLABEL => [.lit (c! "label not found anywhere for goto to "), .field (c! "context") false, .lit (c! ", "), .field (c! "exten") false, .lit (c! ", "), .field (c! "label") false]
  | .W_DP_GOTO_CONTEXT_NOEXTEN => [.lit (c! "possibly non-existent extension/pattern for goto to "), .field (c! "context") false, .lit (c! ", "), .field (c! "exten") false, .lit (c! ", "), .field (c! "prio") false]
  | .W_DP_PRIO_BADORDER => [.lit (c! "bad priority order for pattern "), .field (c! "pat") true, .lit (c! " and prio "), .field (c! "prio") false]
  | .H_DP_GENERAL_MISPLACED => [.lit (c! "[general] context not found or not at top of file")]
  | .H_DP_GLOBALS_MISPLACED => [.lit (c! "[globals] context not found or not at position two")]
  | .E_FILE_UTF8_BAD => [.lit (c! "expected UTF-8 encoding, got something else")]
  | .W_FILE_CTRL_CHAR => [.lit (c! "unexpected control character found")]
  | .W_FILE_DOS_EOFCRLF => [.lit (c! "unexpected trailing CRLF in DOS file format")]
  | .W_FILE_DOS_BARELF => [.lit (c! "unexpected bare LF in DOS file format")]
  | .W_FILE_UNIX_CRLF => [.lit (c! "unexpected CRLF in UNIX file format")]
  | .W_FILE_UNIX_NOLF => [.lit (c! "unexpected line without LF in UNIX file format")]
  | .W_WSH_BOL => [.lit (c! "unexpected leading whitespace")]
  | .W_WSH_EOL => [.lit (c! "unexpected trailing whitespace")]
  | .W_WSH_COMMENT => [.lit (c! "missing whitespace around comment semicolon")]
  | .W_WSV_BOF => [.lit (c! "unexpected vertical space at beginning of file")]
  | .W_WSV_EOF => [.lit (c! "unexpected vertical space at end of file")]
  | .E_ODBC_NOSQL => [.lit (c! "a readsql and/or writesql (and insertsql) statement is required")]
  | .W_ODBC_BADTOKENS => [.lit (c! "odbc function "), .field (c! "name") true, .lit (c! " should be uppercase with A-Z0-9_ only")]
  | .W_ODBC_LEGACY => [.lit (c! "read and write are legacy, use readsql and writesql (and insertsql) instead")]
  | .W_ODBC_TAILSEMI => [.lit (c! "tailing semicolon is unnecessary")]
  | .H_PAT_NON_CANONICAL => [.lit (c! "pattern "), .field (c! "pat") true, .lit (c! " is not in the canonical form "), .field (c! "expected") true]
  | .E_ASSIGN_EMPTY => [.lit (c! "Set/SET requires one variable name/value pair")]
  | .E_ASSIGN_NO_EQUALS => [.lit (c! "Set/SET requires an '=' to be a valid assignment, not just '"), .field (c! "data") false, .lit (c! "'")]
  | .E_FUNC_BAD_CASE => [.lit (c! "function "), .field (c! "func") true, .lit (c! " does not have the proper Case "), .field (c! "proper") true]
  | .E_FUNC_MISSING => [.lit (c! "function "), .field (c! "func") true, .lit (c! " does not exist (or func_odbc created?)")]
  | .E_FUNC_PARENS => [.lit (c! "missing trailing parenthesis for function call '"), .field (c! "data") false, .lit (c! "'")]
  | .E_FUNC_TAIL => [.lit (c! "excess tokens at the end of the function call '"), .field (c! "data") false, .lit (c! "'")]
  | .E_VAR_BAD_TOKENS => [.lit (c! "bad tokens in variable name '"), .field (c! "data") false, .lit (c! "'")]
  | .E_VAR_SUBSTR_ARGS => [.lit (c! "bad substring syntax of variable '"), .field (c! "data") false, .lit (c! "'")]
  | .E_VAR_SUBSTR_START => [.lit (c! "bad substring start value '"), .field (c! "start") false, .lit (c! "'")]
  | .E_VAR_SUBSTR_LENGTH => [.lit (c! "bad substring length value '"), .field (c! "length") false, .lit (c! "'")]
  | .W_ASSIGN_SPACES => [.lit (c! "space in variable name '"), .field (c! "name") false, .lit (c! "' found; produces unexpected results")]
  | .W_FUNC_DYNAMIC => [.lit (c! "calling functions dynamically is not good practise '"), .field (c! "data") false, .lit (c! "'")]
  | .E_APP_ARG_FEW => [.lit (c! "too few arguments for app "), .field (c! "app") true, .lit (c! ", minimum is "), .field (c! "min_args") false]
  | .E_APP_ARG_MANY => [.lit (c! "too many arguments for app "), .field (c! "app") true, .lit (c! ", maximum is "), .field (c! "max_args") false]
  | .E_APP_ARG_BADOPT => [.lit (c! "unrecognised options "), .field (c! "opts") true, .lit (c! " in arg "), .field (c! "argno") false, .lit (c! " for app "), .field (c! "app") true]
  | .E_APP_ARG_DUPEOPT => [.lit (c! "duplicate options "), .field (c! "opts") true, .lit (c! " in arg "), .field (c! "argno") false, .lit (c! " for app "), .field (c! "app") true]
  | .E_APP_ARG_IFCONST => [.lit (c! "apparent constant in If-condition; app "), .field (c! "app") true, .lit (c! ", data '"), .field (c! "data") false, .lit (c! "' and cond '"), .field (c! "cond") false, .lit (c! "'")]
  | .E_APP_ARG_IFEMPTY => [.lit (c! "empty If-condition; app "), .field (c! "app") true, .lit (c! ", data '"), .field (c! "data") false, .lit (c! "'")]
  | .E_APP_ARG_IFSTYLE => [.field (c! "app") true, .lit (c! " takes the form <cond>?<iftrue>[:<iffalse>] but data is '"), .field (c! "data") false, .lit (c! "', cond '"), .field (c! "cond") false, .lit (c! "', args '''"), .field (c! "args") false, .lit (c! "'''")]
  | .E_APP_ARG_PIPEDELIM => [.lit (c! "the application delimiter is now the comma, not the pipe; see app "), .field (c! "app") true, .lit (c! " and data "), .field (c! "data") true]
  | .E_APP_ARG_SYNTAX => [.lit (c! "generic application syntax error; app "), .field (c! "app") true, .lit (c! " and data "), .field (c! "data") true]
  | .E_APP_MISSING => [.lit (c! "app "), .field (c! "app") true, .lit (c! " does not exist, dialplan will halt here!")]
  | .W_APP_BAD_CASE => [.lit (c! "app "), .field (c! "app") true, .lit (c! " does not have the proper Case "), .field (c! "proper") true]
  | .W_APP_BALANCE => [.lit (c! "app data "), .field (c! "data") true, .lit (c! " looks like unbalanced parentheses/quotes/curlies")]
  | .E_FUNC_BAD_ARGS => [.lit (c! "function "), .field (c! "func") true, .lit (c! " does not take these arguments '"), .field (c! "data") false, .lit (c! "'")]
  | .W_FUNC_BALANCE => [.lit (c! "function data "), .field (c! "data") true, .lit (c! " looks like unbalanced parentheses/quotes/curlies")]

/-- A `MessageDef` object: class, `where`, `previous`, `fmtkwargs`
(defines.py:117-120). -/
structure Msg where
  kind : MK
  at_ : Where
  args : List (Str × Arg) := []
  previous : Option Where := none
deriving DecidableEq

/-- A rendered piece: text, or the `repr` of a value (which is left abstract: for
variable objects it contains a memory address).  Code: defines.py:82. -/
inductive Rendered where
  | text (s : Str)
  | repr (v : Arg)
deriving DecidableEq

/-- One replacement field of `str.format(**kwargs)`: `KeyError` if the name is not
supplied; `str` of a variable may raise; `str` of a list calls `repr` of the
elements.  Code: defines.py:82. -/
def renderPiece (args : List (Str × Arg)) : Piece → Except Exc Rendered
  | .lit s => .ok (.text s)
  | .field name r =>
    match args.lookup name with
    | none => .error .keyError
    | some a =>
      if r then .ok (.repr a)
      else match a with
        | .many vs => .ok (.repr (.many vs))
        | .one v => v.toStr.map .text

/-- `msg.message.format(**msg.fmtkwargs)`, defines.py:82. -/
def renderAll (args : List (Str × Arg)) : List Piece → Except Exc (List Rendered)
  | [] => .ok []
  | p :: ps =>
    match renderPiece args p with
    | .error e => .error e
    | .ok r => (renderAll args ps).map (r :: ·)

/-- `msg.message.format(**msg.fmtkwargs)`, defines.py:82. -/
def Msg.render (m : Msg) : Except Exc (List Rendered) := renderAll m.args m.kind.template

/-! ## Results with messages -/

/-- The outcome of a piece of code: the messages issued, in order, and the value
or the exception.  The effect of creating messages, defines.py:117-124. -/
structure Res (α : Type) where
  log : List Msg
  val : Except Exc α

namespace Res

/-- A value without messages; it has no code of its own. -/
def pure {α : Type} (a : α) : Res α := ⟨[], .ok a⟩

/-- Sequencing: messages issued before an exception stay issued.
Sequencing; it has no code of its own. -/
def bind {α β : Type} (x : Res α) (f : α → Res β) : Res β :=
  match x.val with
  | .error e => ⟨x.log, .error e⟩
  | .ok a => ⟨x.log ++ (f a).log, (f a).val⟩

instance : Monad Res where
  pure := Res.pure
  bind := Res.bind

/-- Raising an exception; it has no code of its own. -/
def raise {α : Type} (e : Exc) : Res α := ⟨[], .error e⟩

/-- Issuing a message: it is recorded first and formatted afterwards, muted or not
(defines.py:79-85). -/
def emit (m : Msg) : Res Unit := ⟨[m], m.render.map (fun _ => ())⟩

/-- Issuing several messages in a row.  Sequencing; it has no code of its own. -/
def emitAll : List Msg → Res Unit
  | [] => pure ()
  | m :: ms => bind (emit m) (fun _ => emitAll ms)

end Res

/-! ## `MessageDefManager` -/

/-- The tokens of `ALINT_IGNORE`, defines.py:54-56 (Python makes a set of them;
only membership is used). -/
def ignoreTokens (env : Str) : List Str := (splitAll ',' env).filter (fun t => !t.isEmpty)

/-- `class_mute` of a message class, defines.py:57-63.  (The test
`name.startswith(alint_ignore)` is a shortcut: an empty tuple gives False.) -/
def classMuted (env : Str) (name : Str) : Bool :=
  let toks := ignoreTokens env
  if toks.any (fun t => t.isPrefixOf name) then
    toks.any (fun t => name == t || (t.getLast? == some '_' && t.isPrefixOf name))
  else false

/-- The state of `MessageDefManager`: `raised` as an association list in insertion
order, and the lines written to the standard error output (`printed`, one entry
per message; the extra lines of `show_line` and `show_previous` are left out, both
are off unless a program sets them).  Code: defines.py:37, 79-102. -/
structure Manager where
  raised : List (Str × List Msg)
  printed : List (Msg × List Rendered)

/-- `raised[name].append(msg)` on a `defaultdict(list)`.  Code: defines.py:37, 81. -/
def addRaised (name : Str) (m : Msg) : List (Str × List Msg) → List (Str × List Msg)
  | [] => [(name, [m])]
  | (k, ms) :: rest => if k = name then (k, ms ++ [m]) :: rest else (k, ms) :: addRaised name m rest

/-- `MessageDefManager.on_message`, defines.py:79-89. `allMuted` is
`MessageDefManager.muted`. -/
def Manager.onMessage (env : Str) (allMuted : Bool) (mg : Manager) (m : Msg) :
    Manager × Except Exc Unit :=
  let mg := { mg with raised := addRaised m.kind.name m mg.raised }
  match m.render with
  | .error e => (mg, .error e)
  | .ok text =>
    if allMuted || classMuted env m.kind.name then (mg, .ok ())
    else ({ mg with printed := mg.printed ++ [(m, text)] }, .ok ())

/-- `MessageDefManager.reset`, defines.py:75-77. -/
def Manager.reset (mg : Manager) : Manager := { mg with raised := [] }

/-- `raised` after `reset`, and nothing written, defines.py:37, 75-77. -/
def Manager.init : Manager := ⟨[], []⟩

/-- The test deciding the exit status, commands/dialplan-check.py:57 and
commands/func_odbc-check.py:47: `i[0].muted` is the class attribute of the first
recorded message of each type. -/
def Manager.exitStatus (env : Str) (mg : Manager) : Nat :=
  if mg.raised.any (fun kv => match kv.2 with
      | [] => false
      | m :: _ => !classMuted env m.kind.name) then 1 else 0

end ALint
