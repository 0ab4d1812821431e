import Verif.Py.Value

/-!
# Model of the script in `web/index.html`

What is put on the page for a report.  Texts of JavaScript are taken to be without lone surrogates.  The page is the
string of HTML put into the element `#results` (`.html(a)` and then `.append(b)` is `a ++ b`); what browsers make of
HTML is not modelled, see `HtmlReads` for what is taken of it.
-/

namespace ALint

/-- `\s` of JavaScript's regular expressions.  Code: index.html:171, 175. -/
def jsSpace (c : Char) : Bool :=
  let n := c.toNat
  (9 ≤ n && n ≤ 13) || n == 0x20 || n == 0xA0 || n == 0x1680 || (0x2000 ≤ n && n ≤ 0x200A) ||
    n == 0x2028 || n == 0x2029 || n == 0x202F || n == 0x205F || n == 0x3000 || n == 0xFEFF

/-- `getTextarea`, index.html:170-172: the value of the text area without CR and trailing white space, and a LF. -/
def getTextarea (val : Str) : Str := rstripP jsSpace (val.filter (· ≠ '\r')) ++ ['\n']

/-- `input` of `logInput`, index.html:175. -/
def pageInput (val : Str) : List Str := splitAll '\n' (rstripP jsSpace (getTextarea val))

/-- `text.replace(/c/g, by)`.  Code: index.html:171, 224-228. -/
def replaceAll (c : Char) (by_ : Str) (text : Str) : Str := text.flatMap fun x => if x = c then by_ else [x]

/-- `htmlEsc`, index.html:224-228. -/
def htmlEsc (text : Str) : Str :=
  replaceAll '>' (c! "&gt;") (replaceAll '<' (c! "&lt;") (replaceAll '&' (c! "&amp;") text))

/-- One of `results`.  Code: index.html:177-189, 230. -/
structure PageIssue where
  line : Int
  cls : Str
  desc : Str
deriving DecidableEq

/-- The class by the first letter, index.html:213-219. -/
def alertClass (cls : Str) : Str :=
  if cls.head? = some 'H' then c! "alert-info"
  else if cls.head? = some 'W' then c! "alert-warning"
  else c! "alert-danger"

/-- `newMessage`, index.html:212-223. -/
def newMessage (i : PageIssue) : Str :=
  c! "<div class=\"alert " ++ alertClass i.cls ++ c! "\" role=\"alert\">" ++
    i.cls ++ c! ": " ++ htmlEsc i.desc ++ c! "</div>"

/-- The loop of `logInput`, index.html:177-189, for the lines from number `lineno` on and the results from
`problemPtr` on. -/
def sourceItems : Nat → List Str → List PageIssue → List Str
  | _, [], _ => []
  | lineno, line :: lines, rs =>
    if (rs.head?.map (·.line)) = some (lineno : Int) then
      (c! "<li class=\"bad\">" ++ htmlEsc line) ::
        ((rs.takeWhile fun r => r.line = (lineno : Int)).map newMessage ++
          c! "</li>" :: sourceItems (lineno + 1) lines (rs.dropWhile fun r => r.line = (lineno : Int)))
    else (c! "<li>" ++ htmlEsc line ++ c! "</li>") :: sourceItems (lineno + 1) lines rs

/-- `logInput`, index.html:173-191. -/
def logInput (val : Str) (rs : List PageIssue) : Str :=
  c! "<div class=\"code\">" ++
    (c! "<ol class=\"source\">" :: (sourceItems 1 (pageInput val) rs ++ [c! "</ol>"])).flatten ++ c! "</div>"

/-- `logJoy`, index.html:192-194. -/
def logJoy (version : Str) : Str :=
  c! "<h2>Results</h2><div class=\"alert alert-success\" role=\"alert\">The dialplan looks good according to AsteriskLint " ++
    version ++ c! "!</strong></div>"

/-- `logSadness`, index.html:195-211: what it shows. -/
def logSadness (version : Str) (rs : List PageIssue) : Str :=
  c! "<h2>Results</h2>" ++
    (c! "<div class=\"alert alert-info\" role=\"alert\"><strong>" ++ natStr rs.length ++
      c! " issues</strong> found in dialplan according to AsteriskLint " ++ version ++ c! "!</div>") ++
    c! "<div class=\"code\">" ++ ((rs.takeWhile fun r => r.line = 0).map newMessage).flatten ++ c! "</div>"

/-- What it leaves of `results`, index.html:199-202. -/
def withoutZero (rs : List PageIssue) : List PageIssue := rs.dropWhile fun r => r.line = 0

/-- `onSuccess`, index.html:229-242. -/
def onSuccess (version val : Str) (rs : List PageIssue) : Str :=
  if rs.isEmpty then logJoy version ++ logInput val rs
  else logSadness version rs ++ logInput val (withoutZero rs)

/-- `onFail`, index.html:243-248. -/
def onFail (status : Nat) (statusText responseText : Str) : Str :=
  c! "<h2>Error</h2><div class=\"alert alert-danger\" role=\"alert\"><strong>" ++ natStr status ++ c! " " ++
    htmlEsc statusText ++ c! "</strong><br/><br/>" ++ htmlEsc responseText ++ c! "</div>"

end ALint
