import Verif.Model.Entry
import Verif.Spec.Args

/-!
# `asterisklint` without a command (specification)
-/

namespace ALint.Spec
open ALint

/-- The option asks for something to be shown: alone, or as the first of a group of letters that does not end wrongly. -/
def AsksFor (p : ArgParser) (w : Str) (act : OptAct) : Prop :=
  WordIs p w (.option act none) ∨ ∃ acts e, WordIs p w (.letters (act :: acts) e) ∧ e ≠ .wrong

/-- An option that is given wrongly: with a value. -/
def GivenWrongly (p : ArgParser) (w : Str) : Prop :=
  (∃ act v, WordIs p w (.option act (some v))) ∨ ∃ acts, WordIs p w (.letters acts .wrong)

/-- A word that does not end the program at once. -/
def PassedOver (p : ArgParser) (w : Str) : Prop := w ≠ c! "--" ∧ (WordIs p w .plain ∨ WordIs p w .unknown)

/-- What is shown by the two kinds of options there are. -/
inductive ShownFor : OptAct → EntryOut → Prop
  | help : ShownFor .help .help
  | version : ShownFor (.flag (c! "version")) .version

/-- What becomes of a line without ambiguous words: the first option counts, and there being none a single other word
is accepted. -/
inductive EntryGoes (p : ArgParser) (ws : List Str) : EntryOut → Prop
  | shows {a b : List Str} {w : Str} {act : OptAct} {o : EntryOut} : ws = a ++ w :: b → (∀ x ∈ a, PassedOver p x) →
      w ≠ c! "--" → AsksFor p w act → ShownFor act o → EntryGoes p ws o
  | wrong {a b : List Str} {w : Str} : ws = a ++ w :: b → (∀ x ∈ a, PassedOver p x) → w ≠ c! "--" → GivenWrongly p w →
      EntryGoes p ws .refused
  | single {w : Str} : (∀ x ∈ beforeDashes ws, WordIs p x .plain) → ws.erase (c! "--") = [w] → EntryGoes p ws .nothing
  | other : (∀ x ∈ beforeDashes ws, PassedOver p x) →
      ((∃ x ∈ beforeDashes ws, WordIs p x .unknown) ∨ (ws.erase (c! "--")).length ≠ 1) → EntryGoes p ws .refused

inductive EntryLine (p : ArgParser) (ws : List Str) : EntryOut → Prop
  | ambiguous : (∃ w ∈ beforeDashes ws, WordIs p w .ambiguous) → EntryLine p ws .refused
  | read {e : EntryOut} : (∀ w ∈ beforeDashes ws, ¬ WordIs p w .ambiguous) → EntryGoes p ws e → EntryLine p ws e

end ALint.Spec
