import Verif.Py.Str

/-!
# Model of `wrap`, `asterisklint/main.py`
-/

namespace ALint

/-- `s.split()`: maximal runs of non-space characters.  Code: main.py:37. -/
def splitWs : Str → List Str
  | [] => []
  | [c] => if isSpace c then [] else [[c]]
  | c :: d :: s =>
    if isSpace c then splitWs (d :: s)
    else if isSpace d then [c] :: splitWs (d :: s)
    else match splitWs (d :: s) with
      | [] => [[c]]
      | w :: ws => (c :: w) :: ws

/-- The loop of `wrap`, main.py:39-45; `maxlen` after the subtraction; `lines` are the lines
before the last, `last` is `lines[-1]`. -/
def wrapGo (maxlen : Int) (lines : List Str) (last : Str) : List Str → List Str
  | [] => lines ++ [last]
  | w :: ws =>
    if (last.length : Int) + w.length ≥ maxlen then wrapGo maxlen (lines ++ [last]) w ws
    else wrapGo maxlen lines (last ++ ' ' :: w) ws

/-- The lines of `wrap`, main.py:36-45. -/
def wrapLines (skip maxlen : Int) : List Str → List Str
  | [] => []
  | w :: ws => wrapGo (maxlen - (skip + 1)) [] w ws

/-- `sep.join(lines)`.  Code: main.py:46. -/
def joinStr (sep : Str) : List Str → Str
  | [] => []
  | [p] => p
  | p :: q :: ps => p ++ sep ++ joinStr sep (q :: ps)

/-- `wrap`, main.py:35-46; a negative number of spaces is none. -/
def wrap (text : Str) (skip maxlen : Int) : Str :=
  joinStr ('\n' :: List.replicate skip.toNat ' ') (wrapLines skip maxlen (splitWs text))

end ALint
