import Verif.Spec.Wording

/-!
# Lines put into a file (specification)
-/

namespace ALint.Spec
open ALint

/-- Nothing, or complete lines. -/
def WholeLines (b : Bytes) : Prop := b ≠ [] → b.getLast? = some 10

/-- The files `fs'` are the files `fs`, but for one of them, where some lines were replaced. -/
structure Replaced (fs fs' : FS) (path : Str) (pre old new post : Bytes) : Prop where
  before : fs path = some (pre ++ (old ++ post))
  after : fs' path = some (pre ++ (new ++ post))
  preWhole : WholeLines pre
  oldWhole : WholeLines old
  newWhole : WholeLines new
  others : ∀ q, q ≠ path → fs' q = fs q

/-- The messages about line terminators and about the number of blank lines. -/
def spacingKind (k : MK) : Bool :=
  terminatorKind k || k = .H_WSV_CTX_BETWEEN || k = .H_WSV_VARSET_BETWEEN || k = .W_WSV_BOF || k = .W_WSV_EOF

/-- All other messages. -/
def substance (log : List Msg) : List Msg := log.filter fun m => !spacingKind m.kind

/-- The place of a line below the first `k` lines of a file when `d` lines are put below these. -/
def lowered (path : Str) (k d : Nat) (w : Where) : Where :=
  if w.filename = path ∧ (k : Int) < w.lineno then ⟨w.filename, w.lineno + d, w.line⟩ else w

/-- The same message, with the places it names lowered. -/
def loweredMsg (path : Str) (k d : Nat) (m : Msg) : Msg :=
  ⟨m.kind, lowered path k d m.at_, m.args, m.previous.map (lowered path k d)⟩

/-- The same message about a line with the same text, maybe elsewhere. -/
structure SameWords (m m' : Msg) : Prop where
  kind : m'.kind = m.kind
  args : m'.args = m.args
  line : m'.at_.line = m.at_.line
  previous : m'.previous.map (·.line) = m.previous.map (·.line)

/-- The lines `new`, from line `n` on, are blank or contain only comments, and nothing is to be said
about any of them but for the number of them and their terminators. -/
def Idle (fs : FS) (path : Str) (n : Nat) (new : Bytes) : Prop :=
  ∀ k l, (physLines new)[k]? = some l →
    ∃ comment, LineTells fs ⟨path, (n + k : Nat) + 1, l⟩ [] (.elem (.empty comment ⟨path, (n + k : Nat) + 1, l⟩))

/-- One line of a file includes another one, about which line there is nothing to say; with `fs'`,
the lines of that other file stand there instead.  Both files are in the same directory, so that
names of files mean the same in both. -/
structure Inlined (fs fs' : FS) (path q : Str) (pre line inner post : Bytes) : Prop
    extends Replaced fs fs' path pre line inner post where
  one : physLines line = [line]
  asks : LineTells fs ⟨path, ((physLines pre).length : Int) + 1, line⟩ [] (.file q)
  there : fs q = some inner
  dir : ∀ name p, PathFrom path name p ↔ PathFrom q name p

end ALint.Spec
