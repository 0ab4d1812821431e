import Verif.Model.Dialplan

/-!
# `dialplan-show`

`format_as_dialplan_show`, dialplan.py:209-244, and commands/dialplan-show.py:42-48.
`repr` of a text (`{!r}`, for the name of the context) is a parameter.
-/

namespace ALint
open Pattern (Values)

/-- `'%-ns' % s`.  Code: dialplan.py:229, 236, 241. -/
def padRight (n : Nat) (s : Str) : Str := s ++ List.replicate (n - s.length) ' '

/-- `app_with_parens`, dialplan.py:551-561. -/
def appWithParens (s : Str) : Str :=
  s ++ (if '(' ∈ s then [] else c! "(") ++ (if ')' ∈ s then [] else c! ")")

/-- `'%d. %s' % (extension.prio, extension.app_with_parens)`.  Code: dialplan.py:232-233, 238-239. -/
def showApp (s : Step) : Str := natStr s.prio ++ c! ". " ++ appWithParens s.app

/-- `extension.label and '[{}]'.format(extension.label) or ''`.  Code: dialplan.py:230-231. -/
def showLabel (s : Step) : Str :=
  match realLabel s.label with
  | some l => c! "[" ++ l ++ c! "]"
  | none => []

/-- dialplan.py:229-233. -/
def showNext (s : Step) : Str :=
  c! "     " ++ padRight 14 (showLabel s) ++ c! " " ++ padRight 45 (showApp s) ++ c! " [pbx_config]"

/-- dialplan.py:236-239; the text of a pattern is what was written (pattern.py:410-411). -/
def showFirst (s : Step) : Str :=
  c! "  " ++ padRight 17 (c! "'" ++ s.raw ++ c! "' =>") ++ c! " " ++ padRight 45 (showApp s) ++ c! " [pbx_config]"

/-- The loop over the steps, dialplan.py:223-239, with `last_pattern`. -/
def showSteps : Option Values → List Step → List Str
  | _, [] => []
  | last, s :: ss =>
    if some s.pat = last then showNext s :: showSteps last ss
    else showFirst s :: showSteps (some s.pat) ss

/-- dialplan.py:240-242. -/
def showInclude (i : Str × Where) : Str :=
  c! "  " ++ padRight 17 (c! "Include =>") ++ c! " " ++ padRight 45 (c! "'" ++ i.1 ++ c! "'") ++ c! " [pbx_config]"

/-- dialplan.py:221-222. -/
def showHeader (repr : Str → Str) (name : Str) : Str :=
  c! "[ Context " ++ repr name ++ c! " created by 'pbx_config' ]"

/-- The lines of a context, dialplan.py:221-243. -/
def showCtx (repr : Str → Str) (c : DCtx) : List Str :=
  showHeader repr c.name :: showSteps none c.byPattern.1 ++ c.includes.map showInclude ++ [[]]

/-- The lines of a dialplan, dialplan.py:215-244. -/
def showLines (repr : Str → Str) (reverse : Bool) (dp : Dialplan) : List Str :=
  (if reverse then dp.contexts.reverse else dp.contexts).flatMap (showCtx repr)

/-- `'\n'.join(ret)`.  Code: dialplan.py:209-244. -/
def showDialplan (repr : Str → Str) (reverse : Bool) (dp : Dialplan) : Str :=
  joinWith '\n' (showLines repr reverse dp)

end ALint
