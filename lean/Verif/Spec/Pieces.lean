import Verif.Spec.Sections

/-!
# Contexts written in pieces (specification)
-/

namespace ALint.Spec
open ALint

/-- The sections of every context are the same, in the same order. -/
def SamePieces (secs secs' : List (Str × Bytes)) : Prop := ∀ a, secs.filter (·.1 = a) = secs'.filter (·.1 = a)

/-- The file consists of `pre` and the sections `secs` in `fs`, and of `pre` and the sections `secs'` in `fs'`; several of them
may belong to the same context; these are in the same order.  All other files are the same. -/
structure Regathered (fs fs' : FS) (path : Str) (pre : Bytes) (secs secs' : List (Str × Bytes)) : Prop where
  before : fs path = some (withSections pre secs)
  after : fs' path = some (withSections pre secs')
  others : ∀ q, q ≠ path → fs' q = fs q
  whole : WholeLines pre
  same : SamePieces secs secs'

/-- A line with the header of the context, with neither comment nor templates, and there is nothing to say about how it is written. -/
def HeaderLine (name : Str) (told : List Told) : Prop :=
  ∃ w c, told = [⟨w, [], .elem (.ctx c)⟩] ∧ c.name = name ∧ c.comment = false ∧ c.templates = []

/-- Lines without headers and includes, the first step of which (if any) has an extension and a priority of its own. -/
structure OwnLines (told : List Told) : Prop where
  body : ∀ x ∈ told, (∀ c, x.gives ≠ .elem (.ctx c)) ∧ ∀ f, x.gives ≠ .file f
  own : OwnStart (varsOf (elemsOf told))

/-- The lines, if there are any, begin with a header. -/
def HeadedLines (told : List Told) : Prop := ∀ x ∈ told.head?, ∃ c, x.gives = .elem (.ctx c)

/-- The text is empty or begins with a header. -/
def HeadedText (fs : FS) (path : Str) (b : Bytes) : Prop :=
  ∀ l ∈ (physLines b).head?, ∃ n ms c, LineTells fs ⟨path, n, l⟩ ms (.elem (.ctx c))

/-- The header of the context `a` is repeated: the file consists of `above`, the beginning `sec` of a section of that context,
lines `body` of it and what follows in `fs`; in `fs'` there is such a header between `sec` and `body`.  All other files are the same. -/
structure Reopened (fs fs' : FS) (path : Str) (a : Str) (above sec header body rest : Bytes) : Prop where
  before : fs path = some (above ++ (sec ++ (body ++ rest)))
  after : fs' path = some (above ++ (sec ++ (header ++ (body ++ rest))))
  others : ∀ q, q ≠ path → fs' q = fs q
  whole : WholeLines above
  sec : TextIs fs path sec (SectionShape a)
  header : TextIs fs' path header (HeaderLine a)
  body : TextIs fs path body OwnLines
  rest : HeadedText fs path rest

end ALint.Spec
