import Verif.Spec.WebFront
import Verif.Props.Web

/-!
# C104: which web requests are checked
-/

namespace ALint

theorem points_cons (c : Char) (s : Str) : points (c :: s) = c.toNat :: points s := rfl

theorem scalars_points (s : Str) : scalars (points s) = some s := by
  induction s with
  | nil => rfl
  | cons c s ih =>
    have hv : c.toNat.isValidChar := c.valid
    rw [points_cons, scalars, dif_pos hv, ih]
    rfl

theorem scalars_some {p : Points} : ∀ {s : Str}, scalars p = some s → p = points s := by
  induction p with
  | nil => intro s h; simp only [scalars, Option.some.injEq] at h; subst h; rfl
  | cons n p ih =>
    intro s h
    rw [scalars] at h
    split at h
    · rename_i hv
      cases hs : scalars p with
      | none => rw [hs] at h; simp at h
      | some t =>
        rw [hs] at h
        simp only [Option.map_some, Option.some.injEq] at h
        subst h
        rw [points_cons, ih hs]
        congr 1
    · simp at h

theorem points_inj {s t : Str} (h : points s = points t) : s = t := by
  have := scalars_points s
  rw [h, scalars_points] at this
  exact (Option.some.inj this).symm

theorem lookup_last {name : Str} {v : Json} {ms : List (Points × Json)} :
    ms.reverse.lookup (points name) = some v ↔ Spec.Member ms name v := by
  have key : ∀ l : List (Points × Json), l.lookup (points name) = some v ↔
      ∃ a b, l = b ++ (points name, v) :: a ∧ ∀ m ∈ b, m.1 ≠ points name := by
    intro l
    induction l with
    | nil => simp
    | cons x l ih =>
      obtain ⟨k, w⟩ := x
      by_cases hk : points name = k
      · subst hk
        have hl : ((points name, w) :: l).lookup (points name) = some w := by simp
        rw [hl]
        constructor
        · intro h
          cases h
          exact ⟨l, [], rfl, by simp⟩
        · rintro ⟨a, b, h1, h2⟩
          cases b with
          | nil => simp only [List.nil_append, List.cons.injEq, Prod.mk.injEq, true_and] at h1; rw [h1.1]
          | cons y b =>
            simp only [List.cons_append, List.cons.injEq] at h1
            exact absurd (by rw [← h1.1]) (h2 y (by simp))
      · have hl : ((k, w) :: l).lookup (points name) = l.lookup (points name) := by
          rw [List.lookup_cons, beq_false_of_ne hk]
        rw [hl, ih]
        constructor
        · rintro ⟨a, b, rfl, h2⟩
          exact ⟨a, (k, w) :: b, rfl, by
            intro m hm
            rcases List.mem_cons.1 hm with rfl | hm
            · exact fun h => hk h.symm
            · exact h2 m hm⟩
        · rintro ⟨a, b, h1, h2⟩
          cases b with
          | nil =>
            simp only [List.nil_append, List.cons.injEq, Prod.mk.injEq] at h1
            exact absurd h1.1.1.symm hk
          | cons y b =>
            simp only [List.cons_append, List.cons.injEq] at h1
            exact ⟨a, b, h1.2, fun m hm => h2 m (by simp [hm])⟩
  rw [key]
  constructor
  · rintro ⟨a, b, h1, h2⟩
    refine ⟨a.reverse, b.reverse, ?_, fun m hm => h2 m (by simpa using hm)⟩
    have := congrArg List.reverse h1
    simpa using this
  · rintro ⟨a, b, rfl, h2⟩
    exact ⟨a.reverse, b.reverse, by simp, fun m hm => h2 m (by simpa using hm)⟩

theorem get_ok {name : Str} {j v : Json} : j.get name = .ok v ↔ ∃ ms, j = .obj ms ∧ Spec.Member ms name v := by
  cases j with
  | obj ms =>
    rw [Json.get]
    split
    · rename_i w h
      constructor
      · intro h'; cases h'; exact ⟨ms, rfl, lookup_last.1 h⟩
      · rintro ⟨_, h1, h2⟩
        cases h1
        rw [← lookup_last, h] at h2
        cases h2; rfl
    · rename_i h
      constructor
      · intro h'; cases h'
      · rintro ⟨_, h1, h2⟩
        cases h1
        rw [← lookup_last, h] at h2
        cases h2
  | _ => simp [Json.get]

theorem upload_ok {j : Json} {text : Str} : j.upload = .ok text ↔ Spec.Uploads j text := by
  unfold Json.upload
  constructor
  · intro h
    split at h
    · cases h
    · rename_i fs h1
      split at h
      · cases h
      · rename_i f h2
        obtain ⟨ms, rfl, hm⟩ := get_ok.1 h1
        obtain ⟨ms', rfl, hm'⟩ := get_ok.1 h2
        refine ⟨ms, ms', rfl, hm, ?_⟩
        cases f with
        | str s =>
          rw [Json.encode] at h
          split at h
          · rename_i s' hs
            cases h
            rw [scalars_some hs] at hm'
            exact hm'
          · cases h
        | _ => simp [Json.encode] at h
  · rintro ⟨ms, fs, rfl, hm, hm'⟩
    rw [get_ok.2 ⟨ms, rfl, hm⟩]
    dsimp only
    rw [get_ok.2 ⟨fs, rfl, (show Spec.Member fs webName _ from hm')⟩]
    dsimp only
    rw [Json.encode, scalars_points]

theorem tooLarge_iff {o : Option Nat} : tooLarge maxBody o = false ↔ ∀ n, o = some n → n ≤ 65536 := by
  cases o with
  | none => simp [tooLarge]
  | some k =>
    rw [tooLarge, decide_eq_false_iff_not]
    simp [maxBody]

end ALint

namespace ALint.Props
open ALint ALint.Spec

/-- `{"files": {"extensions.conf": text}}`, what the page sends. -/
def bodyOf (text : Str) : Json := .obj [(points (c! "files"), .obj [(points (c! "extensions.conf"), .str (points text))])]

theorem uploads_body (text : Str) : Uploads (bodyOf text) text :=
  ⟨_, _, rfl, ⟨[], [], rfl, by simp⟩, ⟨[], [], rfl, by simp⟩⟩

/-- A `POST` to `/dialplan-check`. -/
def postOf (length : Option Nat) (j : Json) : WebQuery := ⟨false, some .check, .post, length, .ok j⟩

theorem asks_post {text : Str} {length : Option Nat} (h : ∀ n, length = some n → n ≤ 65536) :
    Asks (postOf length (bodyOf text)) text :=
  ⟨rfl, rfl, rfl, h, _, rfl, uploads_body text⟩

/-- C104: a request that asks for a text to be checked is answered as that: the text is the one in the body. -/
theorem C104_asks (env : DEnv) (n : Nat) (lost : Option Str) (st : WebState) (q : WebQuery) (text : Str)
    (h : Asks q text) :
    frontStep env n lost st q =
      ((webStep env n lost st (.check text)).1, .done (webStep env n lost st (.check text)).2) := by
  obtain ⟨mt, route, method, length, media⟩ := q
  obtain ⟨h1, h2, h3, h4, j, h5, h6⟩ := h
  dsimp only at h1 h2 h3 h4 h5
  subst h1 h2 h3 h5
  unfold frontStep
  rw [if_neg (by simp)]
  dsimp only
  rw [if_neg (by simp), if_neg (by rw [tooLarge_iff.2 h4]; simp), upload_ok.2 h6]

/-- Of members of the same name the last counts; others do not matter. -/
example : Uploads (.obj [(points (c! "files"), .null), (points (c! "x"), .num),
    (points (c! "files"), .obj [(points (c! "extensions.conf"), .str (points (c! "a"))), (points (c! "b"), .arr []),
      (points (c! "extensions.conf"), .str (points (c! "[é]\n")))])]) (c! "[é]\n") :=
  ⟨_, _, rfl, ⟨[_, _], [], rfl, by simp⟩, ⟨[_, _], [], rfl, by simp⟩⟩

/-- A request asks for one text at most. -/
theorem C104_unique (q : WebQuery) (s t : Str) (hs : Asks q s) (ht : Asks q t) : s = t := by
  obtain ⟨j, h1, h2⟩ := hs.media
  obtain ⟨j', h1', h2'⟩ := ht.media
  rw [h1] at h1'
  cases h1'
  have := upload_ok.2 h2
  rw [upload_ok.2 h2'] at this
  cases this
  rfl

/-- C104: any other request is answered without a check: with a status alone or one of the fixed pages, and without
any effect on later requests. -/
theorem C104_other (env : DEnv) (n : Nat) (lost : Option Str) (st : WebState) (q : WebQuery)
    (h : ∀ text, ¬ Asks q text) :
    (frontStep env n lost st q).1 = st ∧
      ((∃ s, (frontStep env n lost st q).2 = .status s) ∨ (frontStep env n lost st q).2 = .done .index ∨
        (frontStep env n lost st q).2 = .done .healthz) := by
  obtain ⟨mt, route, method, length, media⟩ := q
  have hn : ∃ s, noResponder method = .status s := by cases method <;> exact ⟨_, rfl⟩
  obtain ⟨s, hn⟩ := hn
  unfold frontStep
  dsimp only
  split
  · exact ⟨rfl, .inl ⟨_, rfl⟩⟩
  rename_i hmt
  split
  · exact ⟨rfl, .inl ⟨_, rfl⟩⟩
  · split
    · exact ⟨rfl, .inr (.inl rfl)⟩
    · exact ⟨rfl, .inl ⟨s, hn⟩⟩
  · split
    · exact ⟨rfl, .inr (.inr rfl)⟩
    · exact ⟨rfl, .inl ⟨s, hn⟩⟩
  · split
    · exact ⟨rfl, .inl ⟨s, hn⟩⟩
    · rename_i hm
      split
      · exact ⟨rfl, .inl ⟨_, rfl⟩⟩
      · rename_i hl
        split
        · exact ⟨rfl, .inl ⟨_, rfl⟩⟩
        · rename_i j
          split
          · exact ⟨rfl, .inl ⟨_, rfl⟩⟩
          · rename_i text hu
            refine absurd ?_ (h text)
            exact ⟨by simpa using hmt, rfl, by simpa using hm, tooLarge_iff.1 (by simpa using hl), j, rfl, upload_ok.1 hu⟩

/-- Both: a body of one byte too many, and one that is not of the form. -/
example : (∀ text, ¬ Asks (postOf (some 65537) (bodyOf (c! "[a]\n"))) text) ∧
    (∀ text, ¬ Asks (postOf none (.obj [(points (c! "files"), .arr [])])) text) := by
  constructor
  · intro text h
    have := h.length 65537 rfl
    omega
  · intro text h
    obtain ⟨j, h1, h2⟩ := h.media
    cases h1
    have := upload_ok.2 h2
    revert this
    simp [Json.upload, Json.get]

/-- C104: with which status (but for bodies without the text, see `C104_malformed`): a server with several threads answers 400 to everything, and else the path, the method and
the declared length of the body are looked at, in that order. -/
theorem C104_status_partial (env : DEnv) (n : Nat) (lost : Option Str) (st : WebState) (q : WebQuery) :
    (q.multithread = true → frontStep env n lost st q = (st, .status 400)) ∧
    (q.multithread = false →
      (q.route = none → frontStep env n lost st q = (st, .status 404)) ∧
      (q.route = some .index → q.method = .get → frontStep env n lost st q = (st, .done .index)) ∧
      (q.route = some .healthz → q.method = .get → frontStep env n lost st q = (st, .done .healthz)) ∧
      (q.route = some .check → q.method = .get ∨ q.method = .other → frontStep env n lost st q = (st, .status 405)) ∧
      (q.route = some .check → q.method = .post →
        (∀ k, q.length = some k → 65536 < k → frontStep env n lost st q = (st, .status 413)) ∧
        ((∀ k, q.length = some k → k ≤ 65536) → ∀ s, q.media = .error s →
          frontStep env n lost st q = (st, .status s)))) := by
  obtain ⟨mt, route, method, length, media⟩ := q
  dsimp only
  refine ⟨fun h => ?_, fun h => ⟨fun hr => ?_, fun hr hm => ?_, fun hr hm => ?_, fun hr hm => ?_,
    fun hr hm => ⟨fun k hk hl => ?_, fun hl s hs => ?_⟩⟩⟩
  · subst h; rfl
  · subst h hr; rfl
  · subst h hr hm; rfl
  · subst h hr hm; rfl
  · subst h hr
    rcases hm with rfl | rfl <;> rfl
  · subst h hr hm hk
    have : tooLarge maxBody (some k) = true := by rw [tooLarge, decide_eq_true_iff]; exact hl
    unfold frontStep
    simp [this]
  · subst h hr hm hs
    have := tooLarge_iff.2 hl
    unfold frontStep
    simp [this]

/-- C104: what later requests find is what the checks asked for have left. -/
theorem C104_history (env : DEnv) (n : Nat) (st : WebState) (qs : List (WebQuery × Option Str))
    (rs : List (Request × Option Str)) (h : ChecksAsked qs rs) : frontAfter env n st qs = webAfter env n st rs := by
  induction h generalizing st with
  | nil => rfl
  | asks ha _ ih => rw [frontAfter, webAfter, C104_asks _ _ _ _ _ _ ha]; exact ih _
  | other ha _ ih => rw [frontAfter, (C104_other _ _ _ _ _ ha).1]; exact ih _

/-- There is always one such history. -/
theorem asked_total (qs : List (WebQuery × Option Str)) : ∃ rs, ChecksAsked qs rs := by
  induction qs with
  | nil => exact ⟨_, .nil⟩
  | cons p qs ih =>
    obtain ⟨q, lost⟩ := p
    obtain ⟨rs, ih⟩ := ih
    by_cases h : ∃ text, Asks q text
    · obtain ⟨text, h⟩ := h
      exact ⟨_, .asks h ih⟩
    · exact ⟨_, .other (fun text ht => h ⟨text, ht⟩) ih⟩

/-- A body without the file is answered as if the server were at fault, whatever it is. -/
theorem C104_malformed (env : DEnv) (n : Nat) (lost : Option Str) (st : WebState) (length : Option Nat) (j : Json)
    (hl : ∀ k, length = some k → k ≤ 65536) (h : ∀ text, ¬ Uploads j text) :
    frontStep env n lost st (postOf length j) = (st, .status 500) := by
  have := tooLarge_iff.2 hl
  unfold frontStep postOf
  rw [if_neg (by simp)]
  dsimp only
  rw [if_neg (by simp), if_neg (by simp [this])]
  cases hu : j.upload with
  | error e => rfl
  | ok text => exact absurd (upload_ok.1 hu) (h text)

/-- A text with half of a surrogate pair, and a file that is a number. -/
example : (∀ text, ¬ Uploads (.obj [(points (c! "files"), .obj [(points webName, .str [0xD800])])]) text) ∧
    (∀ text, ¬ Uploads (.obj [(points (c! "files"), .obj [(points webName, .num)])]) text) := by
  constructor <;> intro text h <;> have := upload_ok.2 h <;> revert this <;>
    simp [Json.upload, Json.get, Json.encode, scalars, Nat.isValidChar]

/-- The status says whose fault it is. -/
def ClientError (n : Nat) : Prop := 400 ≤ n ∧ n < 500

/-- C104 is violated: a request whose body is `{}` is not answered as a bad request but as an internal error. -/
theorem C104_violated :
    ∃ q : WebQuery, q.media = .ok (.obj []) ∧
      ∀ env n lost st, ∃ s, (frontStep env n lost st q).2 = .status s ∧ ¬ ClientError s :=
  ⟨postOf (some 2) (.obj []), rfl, fun _ _ _ _ => ⟨500, rfl, by unfold ClientError; omega⟩⟩

end ALint.Props
