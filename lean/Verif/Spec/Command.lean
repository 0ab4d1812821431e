import Verif.Model.Command
import Verif.Spec.Shown

/-!
# What the programs write: what is meant
-/

namespace ALint

/-- The same settings with another value of `ALINT_IGNORE`. -/
def Shell.ignoring (sh : Shell) (ignore : Str) : Shell := { sh with ignore := ignore }

end ALint

namespace ALint.Spec
open ALint

/-- The value of `ALINT_IGNORE` asks to leave out the messages with that name: one of its comma
separated words is the name, or ends with an underscore and starts the name. -/
def Ignores (ignore name : Str) : Prop :=
  ∃ words, ignore = joinWith ',' words ∧ (∀ w ∈ words, ',' ∉ w) ∧
    ∃ w ∈ words, w ≠ [] ∧ (w = name ∨ ∃ p s, w = p ++ ['_'] ∧ name = w ++ s)

/-- `file:line NAME: text`. -/
def heading (m : Msg) (text : Str) : Str :=
  m.at_.filename ++ c! ":" ++ intStr m.at_.lineno ++ c! " " ++ m.kind.name ++ c! ": " ++ text

/-- Below that, if asked for, the line the message is about. -/
inductive LineBelow (sh : Shell) (m : Msg) : List Str → Prop where
  | off : sh.showLine = false → LineBelow sh m []
  | on {t} : sh.showLine = true → (IsBytes m.at_.line → ShownLine m.at_.line t) → LineBelow sh m [c! "  => " ++ t]

/-- And, if asked for and there is one, the earlier place: `file:line` for a context or section
that is there twice, and for others the text Python has for the object found there. -/
inductive EarlierBelow (sh : Shell) (m : Msg) : List Str → Prop where
  | off : sh.showPrevious = false ∨ m.previous = none → EarlierBelow sh m []
  | place {w : Where} : sh.showPrevious = true → m.previous = some w → m.kind = .W_CONF_CTX_DUPE ∨ m.kind = .E_DP_GLOBALS_DUPE →
      EarlierBelow sh m [c! "    previous occurrence at " ++ w.filename ++ c! ":" ++ intStr w.lineno]
  | thing {w : Where} : sh.showPrevious = true → m.previous = some w → m.kind ≠ .W_CONF_CTX_DUPE → m.kind ≠ .E_DP_GLOBALS_DUPE →
      EarlierBelow sh m [c! "    previous occurrence at " ++ sh.obj w]

/-- The lines printed for one message: its heading, the line if lines are asked for, and the
earlier place if such are asked for and there is one. -/
inductive PrintedAs (sh : Shell) (m : Msg) : List Str → Prop where
  | mk {ps line earlier} : m.render = .ok ps → LineBelow sh m line → EarlierBelow sh m earlier →
      PrintedAs sh m (heading m (ps.flatMap (Rendered.shown sh.rep)) :: (line ++ earlier))

/-- What is printed for messages, one group of lines for each that is not left out. -/
inductive Said (sh : Shell) : List Msg → List (Msg × List Str) → Prop where
  | nil : Said sh [] []
  | left {m ms gs} : Ignores sh.ignore m.kind.name → Said sh ms gs → Said sh (m :: ms) gs
  | said {m ms g gs} : ¬ Ignores sh.ignore m.kind.name → PrintedAs sh m g → Said sh ms gs → Said sh (m :: ms) ((m, g) :: gs)

/-- The lines of the groups. -/
def printedLines (gs : List (Msg × List Str)) : List Str := gs.flatMap (·.2)

/-- The second list has the items of the first that meet the condition, in order. -/
inductive Picks {α : Type} (p : α → Prop) : List α → List α → Prop where
  | nil : Picks p [] []
  | keep {a l k} : p a → Picks p l k → Picks p (a :: l) (a :: k)
  | drop {a l k} : ¬ p a → Picks p l k → Picks p (a :: l) k

/-- The same end, not looking at the exit status. -/
def CmdEnd.Like : CmdEnd → CmdEnd → Prop
  | .exit _, .exit _ => True
  | a, b => a = b

end ALint.Spec
