import Verif.Spec.Wording

/-!
# A dialplan in another directory (specification)
-/

namespace ALint.Spec
open ALint

/-- Not a path from the root. -/
def RelativeName (x : Str) : Prop := x.head? ≠ some '/'

/-- What the names of the files of a directory start with: nothing for the current one, slashes for
the root, otherwise the name of the directory with one slash. -/
inductive DirPrefix : Str → Prop
  | here : DirPrefix []
  | root {s : Str} : s ≠ [] → (∀ c ∈ s, c = '/') → DirPrefix s
  | dir {d : Str} : d ≠ [] → d.getLast? ≠ some '/' → DirPrefix (d ++ ['/'])

/-- The line is a directive that includes `name`. -/
def IncludesName (line : Bytes) (name : Str) : Prop :=
  ∃ text bad body data comment indent t cmd sep arg, DecodesAs line text bad ∧ Unterminated text body ∧
    Content body data comment ∧ data = indent ++ t ∧ Spaces indent ∧ '=' ∉ data ∧ DirectiveText t cmd sep arg ∧
    cmd ≠ c! "#exec" ∧ ArgNames arg name

/-- The files in one directory (and below) with `fs` are those in the other one with `fs'`.  None of
them includes a file by a path from the root. -/
structure MovedTo (fs fs' : FS) (pre pre' : Str) : Prop where
  old : DirPrefix pre
  new : DirPrefix pre'
  oldClean : '\x00' ∉ pre
  newClean : '\x00' ∉ pre'
  files : ∀ x, RelativeName x → fs' (pre' ++ x) = fs (pre ++ x)
  portable : ∀ x content line name, RelativeName x → fs (pre ++ x) = some content → line ∈ physLines content →
    IncludesName line name → RelativeName name

/-- The new name of a file. -/
def relocated (pre pre' f : Str) : Str :=
  if pre.isPrefixOf f && (f.drop pre.length).head? != some '/' then pre' ++ f.drop pre.length else f

def relocatedPlace (pre pre' : Str) (w : Where) : Where := ⟨relocated pre pre' w.filename, w.lineno, w.line⟩

/-- The same message about the same line, with the new name of the file. -/
def relocatedMsg (pre pre' : Str) (m : Msg) : Msg :=
  ⟨m.kind, relocatedPlace pre pre' m.at_, m.args, m.previous.map (relocatedPlace pre pre')⟩

end ALint.Spec
