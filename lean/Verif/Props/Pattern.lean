import Verif.Proofs.PatternOrder
import Verif.Py.Value
import Verif.Model.Dialplan

/-!
# C23-C31: extension patterns

`parse raw = .ok v` models "constructing a pattern from the text `raw` succeeds
with value `v`".  `Spec.Reads`, `Spec.Lang`, `Spec.Describes` say what a pattern
text means and do not refer to the model.
-/

namespace ALint.Props
open ALint.Spec ALint.Pattern


/-! ## C23 which extension patterns are accepted -/

theorem C23_literal_accepted (c : Char) (cs : Str) (h : c ≠ '_') :
    ∃ v, parse (c :: cs) = .ok v := ⟨_, parse_literal h⟩

example : ∃ v, parse (c! "s") = .ok v := C23_literal_accepted 's' [] (by decide)

theorem C23_pattern_accepted_iff (p : Str) :
    (∃ v, parse ('_' :: p) = .ok v) ↔ WellBracketed (utf8 p) := by
  rw [wellBracketed_iff]
  constructor
  · rintro ⟨v, h⟩
    obtain ⟨ts, h, _⟩ := parse_pattern_ok h
    exact ⟨ts, h⟩
  · rintro ⟨ts, h⟩
    exact ⟨_, parse_of_reads h⟩

/-- `_[1-3]X` is accepted; `_X[12` and `_[]` are not. -/
example : WellBracketed (utf8 (c! "[1-3]X")) :=
  .set (inner := [0x31, 0x2d, 0x33]) (by decide) (by decide) (.char (by decide) .nil)
example : parse (c! "_X[12") = .error .valueError := by decide
example : parse (c! "_[]") = .error .indexError := by decide

theorem C23_empty_rejected : parse [] = .error .typeError := rfl

/-! ## C24 dashes and letter case -/

/-- A dash anywhere outside a set (that is, after a text with complete sets) does
not change the pattern. -/
theorem C24_dash_in_pattern (a b : Str) (ha : WellBracketed (utf8 a)) :
    parse ('_' :: (a ++ '-' :: b)) = parse ('_' :: (a ++ b)) := by
  obtain ⟨ts, hts⟩ := (wellBracketed_iff _).1 ha
  have hb : ∀ x ∈ utf8 a, x < 256 := fun x hx => by have := utf8_le a x hx; omega
  rw [parse_underscore, parse_underscore, utf8_append, utf8_append, parseBytes_append hts hb,
    parseBytes_append hts hb, utf8_cons_ascii '-' b (by decide), parseBytes_cons]
  simp

example : parse (c! "_[a-c]-X") = parse (c! "_[a-c]X") :=
  C24_dash_in_pattern (c! "[a-c]") (c! "X") ((C23_pattern_accepted_iff _).1 ⟨_, rfl⟩)

/-- The case of the class letters x, z, n outside sets does not matter. -/
theorem C24_case_in_pattern (a b : Str) (ha : WellBracketed (utf8 a)) (c d : Char)
    (hcd : (c, d) = ('x', 'X') ∨ (c, d) = ('z', 'Z') ∨ (c, d) = ('n', 'N')) :
    parse ('_' :: (a ++ c :: b)) = parse ('_' :: (a ++ d :: b)) := by
  obtain ⟨ts, hts⟩ := (wellBracketed_iff _).1 ha
  have hb : ∀ x ∈ utf8 a, x < 256 := fun x hx => by have := utf8_le a x hx; omega
  simp only [Prod.mk.injEq] at hcd
  rcases hcd with ⟨rfl, rfl⟩ | ⟨rfl, rfl⟩ | ⟨rfl, rfl⟩ <;>
  · rw [parse_underscore, parse_underscore, utf8_append, utf8_append, parseBytes_append hts hb,
      parseBytes_append hts hb, utf8_cons_ascii _ b (by decide), utf8_cons_ascii _ b (by decide),
      parseBytes_cons, parseBytes_cons]
    simp

example : parse (c! "_0x") = parse (c! "_0X") :=
  C24_case_in_pattern (c! "0") [] ((C23_pattern_accepted_iff _).1 ⟨_, rfl⟩) 'x' 'X' (by simp)

/-- A dash in a plain extension, after its first character. -/
theorem C24_dash_in_literal (c : Char) (a b : Str) (h : c ≠ '_') :
    parse (c :: a ++ '-' :: b) = parse (c :: a ++ b) := by
  rw [List.cons_append, List.cons_append, parse_literal h, parse_literal h]
  congr 3
  rw [← List.cons_append, ← List.cons_append, utf8_append, utf8_append,
    utf8_cons_ascii '-' b (by decide)]
  simp

example : parse (c! "555-1234") = parse (c! "5551234") :=
  C24_dash_in_literal '5' (c! "55") (c! "1234") (by decide)

/-- In front of an underscore the dash does matter: `-_X` is a plain extension. -/
theorem C24_leading_dash : parse (c! "-_X") ≠ parse (c! "_X") := by decide

/-- Dashes in the dialled extension are ignored. -/
theorem C24_dash_in_extension (v : Values) (a b : Str) :
    matchesExtension v (a ++ '-' :: b) = matchesExtension v (a ++ b) := by
  simp [matchesExtension]

/-! ## C25 matching -/

/-- Plain extensions match exactly themselves (dashes ignored). -/
theorem C25_literal (c : Char) (cs : Str) (h : c ≠ '_') (v : Values)
    (hv : parse (c :: cs) = .ok v) (ext : Str) (e : List Nat)
    (he : latin1? (ext.filter (· ≠ '-')) = some e) :
    matchesExtension v ext = some true ↔ Describes (c :: cs) e := by
  rw [parse_literal h] at hv
  cases hv
  rw [describes_literal h]
  simp only [matchesExtension, he, Option.some.injEq]
  exact matchItems_literal _ (fun b hb => by
    have := utf8_le (c :: cs) b (List.mem_filter.1 hb).1; omega) e

example : matchesExtension ⟨0, [(0x131, none), (0x132, none)]⟩ (c! "1-2") = some true :=
  (C25_literal '1' (c! "2") (by decide) _ rfl (c! "1-2") [0x31, 0x32] rfl).2
    ((describes_literal (by decide) _).2 rfl)

/-- Full statement: `matchesExtension v ext = some true ↔ Describes raw e`.
What holds is that an extension is accepted iff it *starts* with a string that the
pattern describes: surplus characters are not noticed (pattern.py:366-367 returns
`True` at the end marker). -/
theorem C25_pattern_partial (p : Str) (v : Values) (hv : parse ('_' :: p) = .ok v)
    (ext : Str) (e : List Nat) (he : latin1? (ext.filter (· ≠ '-')) = some e) :
    matchesExtension v ext = some true ↔ ∃ e', e' <+: e ∧ Describes ('_' :: p) e' := by
  obtain ⟨ts, hts, hb, rfl⟩ := parse_pattern_ok hv
  simp only [matchesExtension, he, Option.some.injEq]
  rw [matchItems_iff ts hb e]
  constructor
  · rintro ⟨e', h1, h2⟩; exact ⟨e', h1, ts, hts, h2⟩
  · rintro ⟨e', h1, ts', hts', h2⟩
    obtain rfl := reads_unique hts hts'
    exact ⟨e', h1, h2⟩

/-- Everything described by the text is accepted. -/
theorem C25_described_accepted (raw : Str) (v : Values) (hv : parse raw = .ok v)
    (ext : Str) (e : List Nat) (he : latin1? (ext.filter (· ≠ '-')) = some e)
    (hd : Describes raw e) : matchesExtension v ext = some true := by
  cases raw with
  | nil => simp [parse] at hv
  | cons c p =>
    by_cases hc : c = '_'
    · subst hc
      exact (C25_pattern_partial p v hv ext e he).2 ⟨e, List.prefix_refl e, hd⟩
    · exact (C25_literal c p hc v hv ext e he).2 hd

/-- If no shorter string is described (for instance for patterns without
wildcards and extensions of the right length) acceptance is exact. -/
theorem C25_exact_length (p : Str) (v : Values) (hv : parse ('_' :: p) = .ok v)
    (ext : Str) (e : List Nat) (he : latin1? (ext.filter (· ≠ '-')) = some e)
    (hlen : ∀ e', Describes ('_' :: p) e' → e.length ≤ e'.length) :
    matchesExtension v ext = some true ↔ Describes ('_' :: p) e := by
  rw [C25_pattern_partial p v hv ext e he]
  constructor
  · rintro ⟨e', h1, h2⟩
    have := h1.eq_of_length_le (hlen e' h2)
    rwa [← this]
  · exact fun h => ⟨e, List.prefix_refl e, h⟩

/-- `_NX` and `21`: the pattern describes only strings of length two. -/
example : matchesExtension ⟨1, [(0x832, none), (0xa30, none), (0x30000, none)]⟩ (c! "21")
    = some true := by
  refine (C25_exact_length (c! "NX") _ rfl _ [0x32, 0x31] rfl ?_).2 ?_
  · rintro e' ⟨ts, hts, hl⟩
    have h' : Reads (utf8 (c! "NX")) [.one (between 0x32 0x39), .one (between 0x30 0x39)] :=
      .n (.inl rfl) (.x (.inl rfl) .nil)
    obtain rfl := reads_unique hts h'
    cases hl with
    | one _ hl => cases hl with
      | one _ hl => simp
  · exact ⟨_, .n (.inl rfl) (.x (.inl rfl) .nil), .one rfl (.one rfl .nil)⟩

/-- The full statement is false of the code: `_X` accepts `12`. -/
theorem C25_violated : ∃ (p : Str) (v : Values) (ext : Str) (e : List Nat),
    parse ('_' :: p) = .ok v ∧ latin1? (ext.filter (· ≠ '-')) = some e ∧
    matchesExtension v ext = some true ∧ ¬ Describes ('_' :: p) e := by
  refine ⟨c! "X", _, c! "12", [0x31, 0x32], rfl, rfl, rfl, ?_⟩
  rintro ⟨ts, hts, hl⟩
  have h' : Reads (utf8 (c! "X")) [.one (between 0x30 0x39)] := .x (.inl rfl) .nil
  obtain rfl := reads_unique hts h'
  cases hl with
  | one _ hl => cases hl

/-- An extension outside Latin-1 makes the look-up raise. -/
theorem C25_raises : matchesExtension ⟨1, [(0xa30, none), (0x30000, none)]⟩ (c! "€") = none := by
  decide

/-! ## C26 a pattern matches its own example -/

theorem C26_literal (c : Char) (cs : Str) (h : c ≠ '_') (v : Values)
    (hv : parse (c :: cs) = .ok v) : matchesExtension v (exampleOf v) = some true := by
  rw [parse_literal h] at hv
  cases hv
  have hb : ∀ b ∈ (utf8 (c :: cs)).filter (· ≠ 0x2d), b < 256 ∧ b ≠ 0x2d := fun b hb => by
    obtain ⟨h1, h2⟩ := List.mem_filter.1 hb
    have := utf8_le (c :: cs) b h1
    exact ⟨by omega, by simpa using h2⟩
  have hex : exampleOf ⟨0, ((utf8 (c :: cs)).filter (· ≠ 0x2d)).map (fun b => (0x100 + b, none))⟩ =
      ((utf8 (c :: cs)).filter (· ≠ 0x2d)).map Char.ofNat := by
    simp only [exampleOf, if_true, List.map_map]
    apply List.map_congr_left
    intro b hb'
    have := (hb b hb').1
    simp only [Function.comp, and_ff]
    rw [show (0x100 + b) % 256 = b by omega]
  rw [hex]
  have hfil : (((utf8 (c :: cs)).filter (· ≠ 0x2d)).map Char.ofNat).filter (· ≠ '-') =
      ((utf8 (c :: cs)).filter (· ≠ 0x2d)).map Char.ofNat := by
    rw [List.filter_eq_self]
    intro x hx
    obtain ⟨b, hb', rfl⟩ := List.mem_map.1 hx
    obtain ⟨h1, h2⟩ := hb b hb'
    simpa using ofNat_ne_dash h1 h2
  simp only [matchesExtension]
  rw [hfil, latin1_ofNat _ (fun b hb' => (hb b hb').1)]
  simp only [Option.some.injEq]
  exact (matchItems_literal _ (fun b hb' => (hb b hb').1) _).2 rfl

/-- Full statement: for every accepted pattern.  Missing: patterns with a set
whose smallest character is the dash. -/
theorem C26_pattern_partial (p : Str) (ts : List Tok) (h : Reads (utf8 p) ts)
    (hd : DashNotFirst ts) (v : Values) (hv : parse ('_' :: p) = .ok v) :
    matchesExtension v (exampleOf v) = some true := by
  obtain ⟨ts', hts, hb, rfl⟩ := parse_pattern_ok hv
  obtain rfl := reads_unique h hts
  obtain ⟨e, h1, h2⟩ := example_pattern ts hb hd
  exact C25_described_accepted _ _ hv _ e h1 ⟨ts, hts, h2⟩

/-- `_[0-2].` satisfies the hypotheses. -/
example : ∃ ts, Reads (utf8 (c! "[0-2].")) ts ∧ DashNotFirst ts := by
  refine ⟨_, .set (inner := [0x30, 0x2d, 0x32]) (by decide) (by decide) (.dot .nil), ?_⟩
  intro S hS h
  simp at hS
  subst hS
  exact absurd h (by decide)

/-- The full statement is false of the code: `_[-0]X` does not match its own
example `-0`. -/
theorem C26_violated : ∃ (raw : Str) (v : Values), parse raw = .ok v ∧
    matchesExtension v (exampleOf v) = some false :=
  ⟨c! "_[-0]X", _, rfl, by decide⟩

/-! ## C27 the order -/

theorem C27_irreflexive (v : Values) : patLt v v = false := patLt_STO.irrefl v

theorem C27_transitive (u v w : Values) (h1 : patLt u v = true) (h2 : patLt v w = true) :
    patLt u w = true := patLt_STO.trans u v w h1 h2

/-- Exactly one of less, equal, greater; equality is the model of `==`. -/
theorem C27_trichotomy (v w : Values) :
    (patLt v w = true ∧ patEq v w = false ∧ patLt w v = false) ∨
    (patLt v w = false ∧ patEq v w = true ∧ patLt w v = false) ∨
    (patLt v w = false ∧ patEq v w = false ∧ patLt w v = true) := by
  have hs := patLt_STO
  by_cases h : v = w
  · subst h; simp [hs.irrefl, patEq]
  · rcases hs.total v w h with h1 | h1
    · left; exact ⟨h1, by simp [patEq, h], hs.asymm h1⟩
    · right; right; exact ⟨hs.asymm h1, by simp [patEq, h], h1⟩

/-- Plain extensions come before patterns. -/
theorem C27_literal_before_pattern (c : Char) (cs p : Str) (h : c ≠ '_') (v w : Values)
    (hv : parse (c :: cs) = .ok v) (hw : parse ('_' :: p) = .ok w) : patLt v w = true := by
  rw [parse_literal h] at hv
  cases hv
  obtain ⟨ts, _, _, rfl⟩ := parse_pattern_ok hw
  simp [patLt]

example : patLt ⟨0, [(0x17a, none)]⟩ ⟨1, [(0xa30, none), (0x30000, none)]⟩ = true :=
  C27_literal_before_pattern 'z' [] (c! "X") (by decide) _ _ rfl rfl

/-- At the first position where two patterns differ the more specific one comes
first: a smaller set before a larger one, a set before `.`, `.` before `!`, `!`
before the end. -/
theorem C27_specific_first (p q : Str) (pre a b : List Tok)
    (hp : Reads (utf8 p) (pre ++ a)) (hq : Reads (utf8 q) (pre ++ b)) (h : rank a < rank b)
    (v w : Values) (hv : parse ('_' :: p) = .ok v) (hw : parse ('_' :: q) = .ok w) :
    patLt v w = true := by
  rw [parse_of_reads hp] at hv
  rw [parse_of_reads hq] at hw
  cases hv; cases hw
  have h1 := reads_bound hp (utf8_le p)
  have h2 := reads_bound hq (utf8_le q)
  have := rank_lt pre a b (fun t ht => h1 t (by simp [ht])) (fun t ht => h2 t (by simp [ht])) h
  simp only [patLt, if_true]
  exact this

/-- `_0N` before `_0.`: common prefix `0`, then a set of eight against `.`. -/
example : patLt ⟨1, [(0x130, none), (0x832, none), (0x30000, none)]⟩
    ⟨1, [(0x130, none), (0x18000, none), (0x30000, none)]⟩ = true :=
  C27_specific_first (c! "0N") (c! "0.") [.one (· == 0x30)] [.one (between 0x32 0x39)] [.dot]
    (.lit (by decide) (.n (.inl rfl) .nil)) (.lit (by decide) (.dot .nil)) (by decide) _ _ rfl rfl

/-! ## C28 the canonical spelling means the same -/

/-- Full statement: for every accepted text.  Missing: texts that the canonical
spelling cannot express (`Expressible`), see `C28_violated_*`. -/
theorem C28_canonical_same_meaning_partial (raw : Str) (v : Values) (h : parse raw = .ok v)
    (he : Expressible raw) :
    ∃ w, parse (canonical v) = .ok w ∧ matchesSame v w = true ∧
      ∀ e, Describes (canonical v) e ↔ Describes raw e := by
  obtain ⟨w, h1, h2, _, h3⟩ := canonical_roundtrip h he
  exact ⟨w, h1, h2, h3⟩

/-- `_[0-9]5` is expressible (canonical spelling `_X5`). -/
example : Expressible (c! "_[0-9]5") ∧
    ∃ v, parse (c! "_[0-9]5") = .ok v ∧ canonical v = c! "_X5" := by
  refine ⟨⟨_, .set (inner := [0x30, 0x2d, 0x39]) (by decide) (by decide)
    (.lit (b := 0x35) (by decide) .nil), ?_, ?_⟩, _, rfl, by decide⟩
  · intro t ht
    simp at ht
    rcases ht with rfl | rfl
    · refine ⟨?_, by decide, by decide⟩
      intro c hc
      simp [inSet, between] at hc
      omega
    · refine ⟨?_, by decide, by decide⟩
      intro c hc
      simp at hc
      omega
  · intro h
    have : card (inSet [0x30, 0x2d, 0x39]) = 1 := h _ (List.mem_cons_self ..)
    exact absurd this (by decide)

/-- Not accepted any more: `_[[]X` is suggested as `_[X`. -/
theorem C28_violated_rejected : ∃ v, parse (c! "_[[]X") = .ok v ∧ canonical v = c! "_[X" ∧
    parse (canonical v) = .error .valueError := ⟨_, rfl, by decide, by decide⟩

/-- Different meaning: `__5` (extension `_5`) is suggested as the plain text `_5`
(extension `5`). -/
theorem C28_violated_underscore : ∃ v w, parse (c! "__5") = .ok v ∧ canonical v = c! "_5" ∧
    parse (c! "_5") = .ok w ∧ matchesSame v w = false := ⟨_, _, rfl, by decide, rfl, by decide⟩

/-- Different meaning: `_é` is suggested as the two characters of its UTF-8 form. -/
theorem C28_violated_non_ascii : ∃ v w, parse (c! "_é") = .ok v ∧ canonical v = c! "Ã©" ∧
    parse (c! "Ã©") = .ok w ∧ matchesSame v w = false := ⟨_, _, rfl, by decide, rfl, by decide⟩

/-! ## C29 canonicalising is idempotent and silences the hint -/

/-- Full statement: for every accepted text.  Missing: see C28. -/
theorem C29_idempotent_partial (raw : Str) (v : Values) (h : parse raw = .ok v)
    (he : Expressible raw) :
    ∃ w, parse (canonical v) = .ok w ∧ canonical w = canonical v := by
  obtain ⟨w, h1, _, h2, _⟩ := canonical_roundtrip h he
  exact ⟨w, h1, h2⟩

/-- The canonical spelling gives no H_PAT_NON_CANONICAL.  Missing in addition:
texts with square brackets as dialled characters. -/
theorem C29_is_canonical_partial (raw : Str) (v : Values) (h : parse raw = .ok v)
    (he : Expressible raw) (hb : Bracketless raw) :
    ∃ w, parse (canonical v) = .ok w ∧ isCanonical (canonical v) w = true := by
  obtain ⟨w, h1, _, h2, _⟩ := canonical_roundtrip h he
  exact ⟨w, h1, by simp [isCanonical, h2, noDash_canonical h he hb]⟩

example : Expressible (c! "55-1") ∧ Bracketless (c! "55-1") := by
  refine ⟨⟨by decide, '5', c! "51", by decide, by decide⟩, by decide, by decide⟩

/-- `_]X` is its own canonical spelling and yet not considered canonical. -/
theorem C29_violated_bracket : ∃ v, parse (c! "_]X") = .ok v ∧ canonical v = c! "_]X" ∧
    isCanonical (c! "_]X") v = false := ⟨_, rfl, by decide, by decide⟩

/-- Not idempotent: `_[\-^]` (backslash to circumflex) becomes `_[\]^]`, which
becomes the literal text `\^]`. -/
theorem C29_violated_idempotent : ∃ v w, parse (c! "_[\\-^]") = .ok v ∧
    parse (canonical v) = .ok w ∧ canonical w ≠ canonical v :=
  ⟨⟨1, [(0x35c, none), (0x30000, none)]⟩,
    ⟨1, [(0x15c, none), (0x15e, none), (0x15d, none), (0x30000, none)]⟩,
    by decide, by decide, by decide⟩

/-- Dashes outside sets left out. -/
inductive Dashless : Str → Str → Prop
  | nil : Dashless [] []
  | dash {s q : Str} : Dashless s q → Dashless ('-' :: s) q
  | plain {c : Char} {s q : Str} : c ≠ '[' → c ≠ ']' → c ≠ '-' → Dashless s q → Dashless (c :: s) (c :: q)
  | set {x : Char} {inner s q : Str} : ']' ∉ inner → Dashless s q →
      Dashless ('[' :: x :: (inner ++ ']' :: s)) ('[' :: x :: (inner ++ ']' :: q))

theorem noDash_dash (s : Str) : noDash ('-' :: s) = noDash s := by
  simp [noDash, noDashFuel]

theorem dashless_noDash {s q : Str} (h : Dashless s q) : noDash s = q := by
  induction h with
  | nil => rfl
  | dash _ ih => rw [noDash_dash, ih]
  | plain h1 h2 h3 _ ih => rw [noDash_plain _ h1 h2 h3, ih]
  | set h1 _ ih => rw [noDash_bracket _ _ _ h1, ih]

/-- The hint itself: dashes aside, the text is compared with the canonical spelling; when they
differ there is one message with both. -/
theorem C29_hint (raw q : Str) (v : Values) (hq : Dashless raw q) (e : ExtLine) (he : e.pat = some (raw, v)) :
    (q = canonical v → (canonCheck e).log = []) ∧
    (q ≠ canonical v → (canonCheck e).log = [⟨.H_PAT_NON_CANONICAL, e.at_,
      [(c! "pat", .one (.str raw)), (c! "expected", .one (.str (canonical v)))], none⟩]) := by
  unfold canonCheck
  rw [he]
  simp only [isCanonical, dashless_noDash hq]
  constructor
  · rintro rfl
    simp only [BEq.rfl, if_true]
    rfl
  · intro h
    have : (q == canonical v) = false := by simpa using h
    rw [this]
    rfl

/-- `_5-X` is fine, as `_5X` is; `_5[0-9]` is not. -/
example : Dashless (c! "_5-X") (c! "_5X") ∧ Dashless (c! "_5[0-9]") (c! "_5[0-9]") ∧
    (∃ v, parse (c! "_5-X") = .ok v ∧ canonical v = c! "_5X") ∧
    (∃ v, parse (c! "_5[0-9]") = .ok v ∧ canonical v = c! "_5X") :=
  ⟨.plain (by decide) (by decide) (by decide) (.plain (by decide) (by decide) (by decide)
      (.dash (.plain (by decide) (by decide) (by decide) .nil))),
    .plain (by decide) (by decide) (by decide) (.plain (by decide) (by decide) (by decide)
      (.set (x := '0') (inner := c! "-9") (by decide) .nil)), ⟨_, rfl, by decide⟩, ⟨_, rfl, by decide⟩⟩

/-! ## C30 equal canonical spelling means same extensions -/

/-- One direction holds for all accepted texts. -/
theorem C30_same_gives_same_canonical (r s : Str) (v w : Values) (hv : parse r = .ok v)
    (hw : parse s = .ok w) (h : matchesSame v w = true) : canonical v = canonical w :=
  canonical_of_same hv hw h

example : ∃ v w, parse (c! "_5[1]") = .ok v ∧ parse (c! "51") = .ok w ∧ v ≠ w ∧
    matchesSame v w = true := ⟨_, _, rfl, rfl, by decide, by decide⟩

/-- Full statement: for all accepted texts.  Missing: see C28. -/
theorem C30_same_canonical_iff_partial (r s : Str) (v w : Values) (hv : parse r = .ok v)
    (hw : parse s = .ok w) (hr : Expressible r) (hs : Expressible s) :
    canonical v = canonical w ↔ matchesSame v w = true := by
  constructor
  · intro h
    obtain ⟨v', h1, h2, _⟩ := canonical_roundtrip hv hr
    obtain ⟨w', h3, h4, _⟩ := canonical_roundtrip hw hs
    have h1' := h1
    rw [h, h3] at h1
    cases h1
    rw [matchesSame_iff hv h1'] at h2
    rw [matchesSame_iff hw h3] at h4
    rw [matchesSame_iff hv hw]
    exact h2.trans h4.symm
  · exact canonical_of_same hv hw

/-- Equal canonical spelling also means that the two texts describe the same
extensions (and not only that `matches_same` says so). -/
theorem C30_same_canonical_describes_partial (r s : Str) (v w : Values) (hv : parse r = .ok v)
    (hw : parse s = .ok w) (hr : Expressible r) (hs : Expressible s)
    (h : canonical v = canonical w) (e : List Nat) : Describes r e ↔ Describes s e := by
  obtain ⟨_, _, _, _, h1⟩ := canonical_roundtrip hv hr
  obtain ⟨_, _, _, _, h2⟩ := canonical_roundtrip hw hs
  rw [← h1, h, h2]

/-- The full statement is false of the code: the texts `-_X` and `_X` have the
same canonical spelling. -/
theorem C30_violated : ∃ v w, parse (c! "-_X") = .ok v ∧ parse (c! "_X") = .ok w ∧
    canonical v = canonical w ∧ matchesSame v w = false := ⟨_, _, rfl, rfl, by decide, by decide⟩

/-! ## C31 matches_same is an equivalence relation -/

theorem C31_reflexive (v : Values) : matchesSame v v = true := by simp [matchesSame]

theorem C31_implied_by_equality (v w : Values) (h : patEq v w = true) : matchesSame v w = true := by
  simp [patEq] at h; subst h; simp [matchesSame]

theorem C31_symmetric (r s : Str) (v w : Values) (hv : parse r = .ok v) (hw : parse s = .ok w)
    (h : matchesSame v w = true) : matchesSame w v = true := by
  rw [matchesSame_iff hv hw] at h
  rw [matchesSame_iff hw hv]
  exact h.symm

theorem C31_transitive (r s t : Str) (u v w : Values) (hu : parse r = .ok u) (hv : parse s = .ok v)
    (hw : parse t = .ok w) (h1 : matchesSame u v = true) (h2 : matchesSame v w = true) :
    matchesSame u w = true := by
  rw [matchesSame_iff hu hv] at h1
  rw [matchesSame_iff hv hw] at h2
  rw [matchesSame_iff hu hw]
  exact h1.trans h2

example : ∃ u v w, parse (c! "51") = .ok u ∧ parse (c! "_5[1]") = .ok v ∧ parse (c! "5-1") = .ok w ∧
    matchesSame u v = true ∧ matchesSame v w = true := ⟨_, _, _, rfl, rfl, rfl, by decide, by decide⟩

/-- Texts that are `matches_same` describe the same extensions. -/
theorem C31_same_describes (r s : Str) (v w : Values) (hv : parse r = .ok v)
    (hw : parse s = .ok w) (h : matchesSame v w = true) (e : List Nat) :
    Describes r e ↔ Describes s e := by
  -- the items of a plain text, as tokens
  have lit : ∀ (c : Char) (p : Str) (u : Values), c ≠ '_' → parse (c :: p) = .ok u →
      ∃ ts : List Tok, (∀ t ∈ ts, TokBound t) ∧ u.kind = 0 ∧ u.items = ts.map tokItem ∧
        ∀ e, Describes (c :: p) e ↔ Lang ts e := by
    intro c p u hc hu
    rw [parse_literal hc] at hu
    cases hu
    refine ⟨((utf8 (c :: p)).filter (· ≠ 0x2d)).map (fun b => .one (· == b)), ?_, rfl, ?_, ?_⟩
    · intro t ht
      obtain ⟨b, hb, rfl⟩ := List.mem_map.1 ht
      have := utf8_le (c :: p) b (List.mem_filter.1 hb).1
      exact ⟨fun c' hc' => by simp at hc'; omega, ⟨b, by simp⟩⟩
    · rw [List.map_map]
      apply List.map_congr_left
      intro b hb
      have := utf8_le (c :: p) b (List.mem_filter.1 hb).1
      simp only [Function.comp, tokItem]
      rw [members_single b (by omega), mkItem_single b (by omega)]
    · intro e
      rw [describes_literal hc, lang_singles]
  have pat : ∀ (p : Str) (u : Values), parse ('_' :: p) = .ok u →
      ∃ ts : List Tok, (∀ t ∈ ts, TokBound t) ∧ u.kind = 1 ∧ u.items.dropLast = ts.map tokItem ∧
        ∀ e, Describes ('_' :: p) e ↔ Lang ts e := by
    intro p u hu
    obtain ⟨ts, hts, hb, rfl⟩ := parse_pattern_ok hu
    refine ⟨ts, hb, rfl, by simp, fun e => ⟨?_, fun h => ⟨ts, hts, h⟩⟩⟩
    rintro ⟨ts', hts', hl⟩
    obtain rfl := reads_unique hts hts'
    exact hl
  have any : ∀ (r : Str) (u : Values), parse r = .ok u →
      ∃ ts : List Tok, (∀ t ∈ ts, TokBound t) ∧
        (if u.kind = 1 then u.items.dropLast else u.items) = ts.map tokItem ∧
        ∀ e, Describes r e ↔ Lang ts e := by
    intro r u hu
    cases r with
    | nil => simp [parse] at hu
    | cons c p =>
      by_cases hc : c = '_'
      · subst hc
        obtain ⟨ts, h1, h2, h3, h4⟩ := pat p u hu
        exact ⟨ts, h1, by simp [h2, h3], h4⟩
      · obtain ⟨ts, h1, h2, h3, h4⟩ := lit c p u hc hu
        exact ⟨ts, h1, by simp [h2, h3], h4⟩
  obtain ⟨ts, h1, h2, h3⟩ := any r v hv
  obtain ⟨ts', h1', h2', h3'⟩ := any s w hw
  rw [matchesSame_iff hv hw, h2, h2'] at h
  obtain rfl := map_tokItem_inj h1 h1' h
  rw [h3, h3']

end ALint.Props
