import Verif.Model.Command

/-!
# Model of `repr` as used in the texts of messages

Python's `repr` of the values that messages show with `!r` (defines.py:82 with the texts of the message
classes), which the other models leave open (`Shell.rep`).
-/

namespace ALint

/-- The last `k` hexadecimal digits of a number.  Used by `{name!r}` in defines.py:82. -/
def hexDigits : Nat → Nat → Str
  | 0, _ => []
  | k + 1, n => hexDigits k (n / 16) ++ [hexDigit (n % 16)]

/-- One character in `repr` of a text between quotes `q` (CPython, `unicode_repr`); `printable` is
`str.isprintable` of a character outside ASCII.  Used by `{name!r}` in defines.py:82. -/
def charRepr (printable : Char → Bool) (q c : Char) : Str :=
  if c = '\\' ∨ c = q then ['\\', c]
  else if c = '\t' then c! "\\t"
  else if c = '\n' then c! "\\n"
  else if c = '\r' then c! "\\r"
  else if c.toNat < 32 ∨ c.toNat = 127 then '\\' :: 'x' :: hexDigits 2 c.toNat
  else if c.toNat < 127 ∨ printable c = true then [c]
  else if c.toNat < 256 then '\\' :: 'x' :: hexDigits 2 c.toNat
  else if c.toNat < 65536 then '\\' :: 'u' :: hexDigits 4 c.toNat
  else '\\' :: 'U' :: hexDigits 8 c.toNat

/-- The quotes around a text: double ones if there are single ones inside and no double ones.
Used by `{name!r}` in defines.py:82. -/
def quoteFor (s : Str) : Char := if s.contains '\'' && !s.contains '"' then '"' else '\''

/-- `repr` of a text.  Used by `{name!r}` in defines.py:82. -/
def strRepr (printable : Char → Bool) (s : Str) : Str :=
  quoteFor s :: s.flatMap (charRepr printable (quoteFor s)) ++ [quoteFor s]

/-- `repr` of a value; `addr` is the text of a variable.  The classes of variables define `__str__`
and no `__repr__` (variable.py:19-, expression.py, varfun.py), so that it is the one of `object`, with the
address of the variable in memory. -/
def V.pyRepr (printable : Char → Bool) (addr : V → Str) : V → Str
  | .str s => strRepr printable s
  | .int n => intStr n
  | .none => c! "None"
  | v => addr v

/-- `repr` of a list.  Used by `{name!r}` in defines.py:82. -/
def listRepr (printable : Char → Bool) (addr : V → Str) : List V → Str
  | [] => c! "[]"
  | v :: vs => c! "[" ++ v.pyRepr printable addr ++ vs.flatMap (fun v => c! ", " ++ v.pyRepr printable addr) ++ c! "]"

/-- `repr` of a value or of a list.  A list under `!r` is one whose text was taken before
(`strArg`), func/base.py:33; the quotes around that text are left out here. -/
def pyRepr (printable : Char → Bool) (addr : V → Str) : Arg → Str
  | .one v => v.pyRepr printable addr
  | .many vs => listRepr printable addr vs

/-- The surroundings of a program as it is started from a command line: the settings of
`MessageDefManager` are those of defines.py:29-35. -/
def pyShell (printable : Char → Bool) (addr : V → Str) (ignore : Str) : Shell where
  ignore := ignore
  muted := false
  showLine := false
  showPrevious := false
  rep := pyRepr printable addr
  obj := fun _ => []

end ALint
