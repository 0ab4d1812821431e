import Verif.Spec.DialplanTells
import Verif.Spec.Stumbles
import Verif.Spec.Trouble

/-!
# What ends a check with an internal error, without reference to the program (specification)

`Trouble` in `Spec/Trouble` refers to the state of the program and to how it goes through an application.
Here it is said in terms of the elements alone.
-/

namespace ALint.Spec
open ALint

/-- The line is one of the context `name`. -/
def Under (s : Sofar) (name : Str) : Prop := s.header = some name ∧ special name = false

/-- Reading this element ends with an internal error; `pre` are the elements before, `s` is what
came of them. -/
inductive Fatal (env : AEnv) (pre : List Elem) (s : Sofar) : Elem → Prop
  /-- a second `[general]` -/
  | general (c : CtxE) (hn : c.name = c! "general") (h : c! "general" ∈ headers pre) : Fatal env pre s (.ctx c)
  /-- a context is opened again, with a comment or templates -/
  | reopened (c : CtxE) (hs : special c.name = false) (hg : c.name ∈ headers pre)
      (h : c.comment = true ∨ c.templates ≠ []) : Fatal env pre s (.ctx c)
  /-- `exten =>` without a comma -/
  | noComma (v : VarE) (name : Str) (hc : Under s name) (hk : v.key = c! "exten") (h : ',' ∉ v.value) :
      Fatal env pre s (.var v)
  /-- a priority of digits that are not decimal digits -/
  | digits (v : VarE) (name : Str) (x : Option Str) (ps : Str) (lab : Option Str) (app : Str)
      (hc : Under s name) (ht : LineText v x ps lab app)
      (hd : isDigitS ps = true) (h : decNat 0 ps = none) : Fatal env pre s (.var v)
  /-- a label without closing parenthesis -/
  | label (v : VarE) (name : Str) (x : Option Str) (ps : Str) (lab : Option Str) (app : Str)
      (hc : Under s name) (ht : LineText v x ps lab app) (p : Option Nat) (hp : PrioRead ps p)
      (h : ¬ LabelClosed lab) : Fatal env pre s (.var v)
  /-- an extension the pattern parser stumbles over -/
  | pattern (v : VarE) (name : Str) (x : Option Str) (ps : Str) (lab : Option Str) (app : Str)
      (hc : Under s name) (ht : LineText v x ps lab app) (p : Option Nat) (hp : PrioRead ps p)
      (hl : LabelClosed lab) (h : ¬ Readable x) : Fatal env pre s (.var v)
  /-- an application the rules of C93 have no case for -/
  | app (v : VarE) (name : Str) (x : Option Str) (ps : Str) (lab : Option Str) (app : Str)
      (hc : Under s name) (ht : LineText v x ps lab app) (p : Option Nat) (hp : PrioRead ps p)
      (hl : LabelClosed lab) (hx : Readable x)
      (h : ¬ ∃ evs sp js, LineSays env v.at_ s.spelling (.str app) evs sp js) : Fatal env pre s (.var v)
  /-- a jump to digits that are not decimal digits, in a line that is not refused -/
  | jump (v : VarE) (name : Str) (x : Option Str) (ps : Str) (lab : Option Str) (app : Str)
      (hc : Under s name) (ht : LineText v x ps lab app) (p : Option Nat) (hp : PrioRead ps p)
      (hl : LabelClosed lab) (hx : Readable x) (evs : List Ev) (sp : Option Str) (js : List Jump)
      (hr : LineSays env v.at_ s.spelling (.str app) evs sp js)
      (pat : Pattern.Values) (ha : Accepted (s.lines.getLast?.map (·.step.prio)) (s.steps name) x p pat)
      (j : Jump) (hj : j ∈ js) (h : BadNumber j.prio) : Fatal env pre s (.var v)

/-- The names of the contexts, in order of their first headers. -/
def contextsOf (es : List Elem) : List Str := ((headers es).filter fun n => !special n).eraseDups

/-- The contexts with their steps and includes, for searching: the includes are the `include`
lines under headers of that name.  What else there is in a context does not matter for that. -/
def viewOf (es : List Elem) (s : Sofar) : Dialplan :=
  { Dialplan.init with contexts := (contextsOf es).map fun n => {
      name := n, at_ := ⟨[], 0, []⟩, steps := s.steps n,
      includes := ((linesOf n es).filter fun v => v.key = c! "include").map fun v => (v.value, v.at_),
      lastPrio := none, cache := [], sorted := none } }

/-- The elements end a check with an internal error: one of them, or one of the jumps in the end. -/
def Falls (env : AEnv) (sp : Option Str) (es : List Elem) : Prop :=
  (∃ pre el post ms s us ds, es = pre ++ el :: post ∧ DialplanTells env (.none sp) pre ms s us ds ∧ Fatal env pre s el) ∨
  ∃ ms s us ds, DialplanTells env (.none sp) es ms s us ds ∧ ∃ d ∈ ds, Stumbles (viewOf es s) d

end ALint.Spec
