import Verif.Model.Page

/-!
# The page (specification)
-/

namespace ALint.Spec
open ALint

/-- What HTML consists of: tags, and characters to be shown. -/
inductive HtmlTok where
  | tag (t : Str)
  | ch (c : Char)
deriving DecidableEq

/-- Reading HTML, as far as there is no doubt: `<...>` is a tag, `&amp;`, `&lt;` and `&gt;` are characters, and so is
everything but `<` and `&`. -/
inductive HtmlReads : Str → List HtmlTok → Prop where
  | nil : HtmlReads [] []
  | tag {t rest : Str} {ts : List HtmlTok} : '>' ∉ t → '<' ∉ t → HtmlReads rest ts →
      HtmlReads ('<' :: (t ++ '>' :: rest)) (.tag t :: ts)
  | plain {c : Char} {rest : Str} {ts : List HtmlTok} : c ≠ '<' → c ≠ '&' → HtmlReads rest ts →
      HtmlReads (c :: rest) (.ch c :: ts)
  | amp {rest : Str} {ts : List HtmlTok} : HtmlReads rest ts → HtmlReads (c! "&amp;" ++ rest) (.ch '&' :: ts)
  | lt {rest : Str} {ts : List HtmlTok} : HtmlReads rest ts → HtmlReads (c! "&lt;" ++ rest) (.ch '<' :: ts)
  | gt {rest : Str} {ts : List HtmlTok} : HtmlReads rest ts → HtmlReads (c! "&gt;" ++ rest) (.ch '>' :: ts)

/-- A text, shown as it is. -/
def textToks (s : Str) : List HtmlTok := s.map .ch

/-- A text in which nothing is special. -/
def PlainHtml (s : Str) : Prop := ∀ c ∈ s, c ≠ '<' ∧ c ≠ '&'

/-- The box of a message: its colour is that of hints, warnings or errors. -/
def boxTag (cls : Str) : Str :=
  match cls with
  | 'H' :: _ => c! "div class=\"alert alert-info\" role=\"alert\""
  | 'W' :: _ => c! "div class=\"alert alert-warning\" role=\"alert\""
  | _ => c! "div class=\"alert alert-danger\" role=\"alert\""

/-- A message on the page. -/
def messageToks (i : PageIssue) : List HtmlTok :=
  .tag (boxTag i.cls) :: (textToks (i.cls ++ c! ": " ++ i.desc) ++ [.tag (c! "/div")])

/-- The messages for a line, in order. -/
def issuesAt (rs : List PageIssue) (n : Nat) : List PageIssue := rs.filter fun r => r.line = (n : Int)

/-- A line of the text with the messages for it below. -/
def lineToks (rs : List PageIssue) (n : Nat) (line : Str) : List HtmlTok :=
  .tag (if issuesAt rs n = [] then c! "li" else c! "li class=\"bad\"") ::
    (textToks line ++ (issuesAt rs n).flatMap messageToks ++ [.tag (c! "/li")])

/-- The lines with the numbers from `n` on. -/
def sourceToks (rs : List PageIssue) : Nat → List Str → List HtmlTok
  | _, [] => []
  | n, line :: lines => lineToks rs n line ++ sourceToks rs (n + 1) lines

/-- The listing. -/
def listingToks (rs : List PageIssue) (lines : List Str) : List HtmlTok :=
  .tag (c! "div class=\"code\"") :: .tag (c! "ol class=\"source\"") ::
    (sourceToks rs 1 lines ++ [.tag (c! "/ol"), .tag (c! "/div")])

/-- The head of a page with messages: their number, and those for line 0. -/
def sadToks (version : Str) (rs : List PageIssue) : List HtmlTok :=
  .tag (c! "h2") :: (textToks (c! "Results") ++ [.tag (c! "/h2"),
    .tag (c! "div class=\"alert alert-info\" role=\"alert\""), .tag (c! "strong")] ++
    textToks (natStr rs.length ++ c! " issues") ++ [.tag (c! "/strong")] ++
    textToks (c! " found in dialplan according to AsteriskLint " ++ version ++ c! "!") ++
    [.tag (c! "/div"), .tag (c! "div class=\"code\"")] ++ (issuesAt rs 0).flatMap messageToks ++ [.tag (c! "/div")])

/-- The head of a page without. -/
def joyToks (version : Str) : List HtmlTok :=
  .tag (c! "h2") :: (textToks (c! "Results") ++ [.tag (c! "/h2"),
    .tag (c! "div class=\"alert alert-success\" role=\"alert\"")] ++
    textToks (c! "The dialplan looks good according to AsteriskLint " ++ version ++ c! "!") ++
    [.tag (c! "/strong"), .tag (c! "/div")])

/-- The page. -/
def pageToks (version : Str) (rs : List PageIssue) (lines : List Str) : List HtmlTok :=
  (if rs = [] then joyToks version else sadToks version rs) ++ listingToks rs lines

/-- The messages on the page, one after the other. -/
def shownIssues (rs : List PageIssue) (lines : List Str) : List PageIssue :=
  issuesAt rs 0 ++ (List.range' 1 lines.length).flatMap (issuesAt rs)

/-- All tags that may occur on a page. -/
def pageTags : List Str :=
  [c! "h2", c! "/h2", c! "div class=\"code\"", c! "/div", c! "ol class=\"source\"", c! "/ol", c! "li",
   c! "li class=\"bad\"", c! "/li", c! "strong", c! "/strong", c! "br/",
   c! "div class=\"alert alert-success\" role=\"alert\"", c! "div class=\"alert alert-info\" role=\"alert\"",
   c! "div class=\"alert alert-warning\" role=\"alert\"", c! "div class=\"alert alert-danger\" role=\"alert\""]

/-- The page has no other markup. -/
def OnlyPageTags (html : Str) : Prop :=
  ∃ ts, HtmlReads html ts ∧ ∀ t, .tag t ∈ ts → t ∈ pageTags

/-- Results in the order of lines, all for lines there are, or line 0. -/
structure InOrder (rs : List PageIssue) (lines : Nat) : Prop where
  sorted : List.Pairwise (fun a b : PageIssue => a.line ≤ b.line) rs
  range : ∀ r ∈ rs, 0 ≤ r.line ∧ r.line ≤ lines

end ALint.Spec
