import Verif.Model.WebFront

/-!
# Requests (specification)
-/

namespace ALint.Spec
open ALint

/-- The value of a member: the last of that name. -/
def Member (ms : List (Points × Json)) (name : Str) (v : Json) : Prop :=
  ∃ a b, ms = a ++ (points name, v) :: b ∧ ∀ m ∈ b, m.1 ≠ points name

/-- `{"files": {"extensions.conf": text}}`, perhaps with more in it. -/
def Uploads (j : Json) (text : Str) : Prop :=
  ∃ ms fs, j = .obj ms ∧ Member ms (c! "files") (.obj fs) ∧ Member fs (c! "extensions.conf") (.str (points text))

/-- A request that is asked to check a text. -/
structure Asks (q : WebQuery) (text : Str) : Prop where
  single : q.multithread = false
  route : q.route = some .check
  method : q.method = .post
  length : ∀ n, q.length = some n → n ≤ 65536
  media : ∃ j, q.media = .ok j ∧ Uploads j text

/-- The texts checked, of a history of requests. -/
inductive ChecksAsked : List (WebQuery × Option Str) → List (Request × Option Str) → Prop where
  | nil : ChecksAsked [] []
  | asks {q : WebQuery} {lost : Option Str} {text : Str} {qs : List (WebQuery × Option Str)}
      {rs : List (Request × Option Str)} :
      Asks q text → ChecksAsked qs rs → ChecksAsked ((q, lost) :: qs) ((.check text, lost) :: rs)
  | other {q : WebQuery} {lost : Option Str} {qs : List (WebQuery × Option Str)} {rs : List (Request × Option Str)} :
      (∀ text, ¬ Asks q text) → ChecksAsked qs rs → ChecksAsked ((q, lost) :: qs) rs

end ALint.Spec
