import Verif.Model.Testing

/-!
# Specification: tests that check messages
-/

namespace ALint.Spec

/-- A name is to be ignored: it is one of the values, or begins with one of them that is followed by
an asterisk. -/
def IsIgnored (values : List Str) (name : Str) : Prop :=
  (name ∈ values ∧ '*' ∉ name) ∨ ∃ p rest, p ++ ['*'] ∈ values ∧ name = p ++ rest

/-- The messages with these names are those expected: the counts say how many there are of each kind
that occurs and is not ignored, and nothing else. -/
def AsExpected (ignored : Str → Prop) (names : List Str) (expected : List (Str × Nat)) : Prop :=
  ∀ name k, (name, k) ∈ expected ↔ k = names.count name ∧ 0 < k ∧ ¬ ignored name

/-- The message can be written. -/
def HasText (m : Msg) : Prop := ∃ t, m.render = .ok t

/-- A test goes well: there is no exception, at each check the messages since the one before are
those expected, and after the last one there are none that are not ignored. `since` are the names of
the messages since the last check. -/
def GoesWell (ignored : Str → Prop) (since : List Str) : List TStep → Prop
  | [] => ∀ n ∈ since, ignored n
  | .issue m :: rest => HasText m ∧ GoesWell ignored (since ++ [m.kind.name]) rest
  | .check e :: rest => AsExpected ignored since e ∧ GoesWell ignored [] rest
  | .raise :: _ => False

/-- What is ignored in a test, by its class or else by itself. -/
def TestIgnores (classValues values : Option (List Str)) (name : Str) : Prop :=
  match classValues with
  | some vs => IsIgnored vs name
  | none => match values with
    | some vs => IsIgnored vs name
    | none => False

/-- The test issues such a message. -/
def Issues (name : Str) (steps : List TStep) : Prop := ∃ m, .issue m ∈ steps ∧ m.kind.name = name

end ALint.Spec
