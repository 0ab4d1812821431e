import Verif.Spec.Lookup
import Verif.Model.Reader

/-!
# What ends a check with an internal error (specification)
-/

namespace ALint.Spec
open ALint

/-- The text of a line that defines a step, cut at the first comma behind the extension,
the next comma, and the first opening parenthesis of the priority.  `x` is the extension
(none: empty or a `same` line), `ps` the priority, `lab` what follows the parenthesis, `app`
the application. -/
inductive LineText (v : VarE) (x : Option Str) (ps : Str) (lab : Option Str) (app : Str) : Prop
  | mk (rest pl : Str)
    (hx : (v.key = c! "exten" ∧ ∃ raw, ',' ∉ raw ∧ v.value = raw ++ ',' :: rest ∧
          ((raw = [] ∧ x = none) ∨ (raw ≠ [] ∧ x = some raw))) ∨
      (v.key = c! "same" ∧ v.value = rest ∧ x = none))
    (happ : (',' ∉ pl ∧ rest = pl ++ ',' :: app) ∨ (',' ∉ rest ∧ pl = rest ∧ app = []))
    (hlab : ('(' ∉ ps ∧ ∃ l, lab = some l ∧ pl = ps ++ '(' :: l) ∨ ('(' ∉ pl ∧ ps = pl ∧ lab = none))

/-- The priority is `n` or a number. -/
inductive PrioRead : Str → Option Nat → Prop
  | next : PrioRead (c! "n") none
  | num (ps : Str) (n : Nat) (hd : isDigitS ps = true) (hn : decNat 0 ps = some n) : PrioRead ps (some n)

/-- The label, if any, ends with the closing parenthesis. -/
def LabelClosed (lab : Option Str) : Prop := ∀ l, lab = some l → ∃ l', l = l' ++ [')']

/-- The extension, if any, is one the pattern parser takes. -/
def Readable (x : Option Str) : Prop := ∀ raw, x = some raw → ∃ pat, Pattern.parse raw = .ok pat

/-- The line is not refused: its extension is known, its priority too, and free. -/
def Accepted (last : Option Nat) (steps : List Step) (x : Option Str) (p : Option Nat) (pat : Pattern.Values) : Prop :=
  patternFor steps x = some pat ∧
  ∃ n, ((p = some n ∧ 1 ≤ n) ∨ (p = none ∧ ∃ m, last = some m ∧ m ≠ 0 ∧ n = m + 1)) ∧
    ∀ s ∈ steps, ¬ (Pattern.canonical s.pat = Pattern.canonical pat ∧ s.prio = n)

/-- Reading this element ends with an internal error. -/
inductive Trouble (env : DEnv) (st : DState) : Elem → Prop
  /-- a second `[general]` -/
  | general (c : CtxE) (hn : c.name = c! "general") (h : st.dp.general.isSome = true) :
      Trouble env st (.ctx c)
  /-- a context is opened again, with a comment or templates -/
  | reopened (c : CtxE) (d : DCtx) (hs : special c.name = false) (hg : st.dp.get c.name = some d)
      (h : c.comment = true ∨ c.templates ≠ []) : Trouble env st (.ctx c)
  /-- `exten =>` without a comma -/
  | noComma (v : VarE) (name : Str) (hc : st.cur = .ctx name) (hk : v.key = c! "exten")
      (h : ',' ∉ v.value) : Trouble env st (.var v)
  /-- a priority of digits that are not decimal digits -/
  | digits (v : VarE) (name : Str) (x : Option Str) (ps : Str) (lab : Option Str) (app : Str)
      (hc : st.cur = .ctx name) (ht : LineText v x ps lab app)
      (hd : isDigitS ps = true) (h : decNat 0 ps = none) : Trouble env st (.var v)
  /-- a label without closing parenthesis -/
  | label (v : VarE) (name : Str) (x : Option Str) (ps : Str) (lab : Option Str) (app : Str)
      (hc : st.cur = .ctx name) (ht : LineText v x ps lab app) (p : Option Nat) (hp : PrioRead ps p)
      (h : ¬ LabelClosed lab) : Trouble env st (.var v)
  /-- an extension the pattern parser stumbles over -/
  | pattern (v : VarE) (name : Str) (x : Option Str) (ps : Str) (lab : Option Str) (app : Str)
      (hc : st.cur = .ctx name) (ht : LineText v x ps lab app) (p : Option Nat) (hp : PrioRead ps p)
      (hl : LabelClosed lab) (h : ¬ Readable x) : Trouble env st (.var v)
  /-- an application that is not survived -/
  | app (v : VarE) (name : Str) (x : Option Str) (ps : Str) (lab : Option Str) (app : Str)
      (hc : st.cur = .ctx name) (ht : LineText v x ps lab app) (p : Option Nat) (hp : PrioRead ps p)
      (hl : LabelClosed lab) (hx : Readable x) (e : Exc)
      (h : (runApp env.toAEnv env.depth st.sp v.at_ (strV app)).val = .error e) : Trouble env st (.var v)
  /-- a jump that cannot be completed, of a line that is not refused -/
  | jump (v : VarE) (name : Str) (c : DCtx) (x : Option Str) (ps : Str) (lab : Option Str) (app : Str)
      (hc : st.cur = .ctx name) (hg : st.dp.get name = some c) (ht : LineText v x ps lab app)
      (p : Option Nat) (hp : PrioRead ps p)
      (hl : LabelClosed lab) (hx : Readable x) (sp : Option Str) (jumps : List Jump)
      (hr : (runApp env.toAEnv env.depth st.sp v.at_ (strV app)).val = .ok (sp, jumps))
      (pat : Pattern.Values) (ha : Accepted st.dp.lastPrio c.steps x p pat)
      (j : Jump) (hj : j ∈ jumps) (e : Exc)
      (h : completeDest name (Pattern.exampleOf pat) v.at_ j = .error e) : Trouble env st (.var v)

/-- A recorded destination whose look-up is free of internal errors but for the depth of
includes: it can be printed, the extension is within Latin-1 or depends on variables, the
priority is a number or a text. -/
structure Walkable (d : Dest) : Prop where
  context : ∃ s, d.context.toStr = .ok s
  exten : ∃ s, d.exten.toStr = .ok s
  prio : Prio d.prio ∧ ∀ v, d.prio = .one v → ∃ s, v.toStr = .ok s
  latin1 : d.exten.isVar = true ∨ ∃ x, d.exten = .str x ∧ ∀ c ∈ x, c.toNat < 256

/-- A line that ends reading with an internal error: it is not UTF-8 and has a byte that
means nothing in cp1252, or it includes a file with NUL in its name. -/
def BadLine (w : Where) : Prop :=
  ((¬ ∃ s, w.line = utf8 s) ∧ ∃ b ∈ w.line, cp1252Byte b = none) ∨
  ∃ p, opens w = some p ∧ ∃ c ∈ p, c.toNat = 0

end ALint.Spec
