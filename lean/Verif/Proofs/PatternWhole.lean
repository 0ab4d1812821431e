import Verif.Proofs.PatternCanon

namespace ALint.Pattern
open ALint.Spec

/-! ### the parsed values of an extension text -/

theorem parse_underscore (p : Str) :
    parse ('_' :: p) = match parseBytes (utf8 p) with
      | .ok items => .ok ⟨1, items⟩
      | .error e => .error e := by
  simp [parse, parsePattern]
  rfl

theorem parse_pattern_ok {p : Str} {v : Values} (h : parse ('_' :: p) = .ok v) :
    ∃ ts, Reads (utf8 p) ts ∧ (∀ t ∈ ts, TokBound t) ∧
      v = ⟨1, ts.map tokItem ++ [(0x30000, none)]⟩ := by
  rw [parse_underscore] at h
  cases hp : parseBytes (utf8 p) with
  | error e => simp [hp] at h
  | ok items =>
    obtain ⟨ts, hts⟩ := reads_of_parseBytes hp
    have := parseBytes_of_reads hts (fun b hb => by have := utf8_le p b hb; omega)
    simp only [this] at h
    exact ⟨ts, hts, reads_bound hts (utf8_le p), by cases h; rfl⟩

theorem parse_of_reads {p : Str} {ts : List Tok} (h : Reads (utf8 p) ts) :
    parse ('_' :: p) = .ok ⟨1, ts.map tokItem ++ [(0x30000, none)]⟩ := by
  rw [parse_underscore, parseBytes_of_reads h (fun b hb => by have := utf8_le p b hb; omega)]

theorem parse_literal {c : Char} {cs : Str} (h : c ≠ '_') :
    parse (c :: cs) =
      .ok ⟨0, ((utf8 (c :: cs)).filter (· ≠ 0x2d)).map (fun b => (0x100 + b, none))⟩ := by
  simp [parse, h]

theorem mkItem_inj {f f' : Nat} {o o' : List Nat} (hs : (f :: o).Pairwise (· < ·))
    (hs' : (f' :: o').Pairwise (· < ·)) (hf : f < 256) (hf' : f' < 256)
    (h : mkItem (f :: o) = mkItem (f' :: o')) : f :: o = f' :: o' := by
  rcases mkItem_cases f o hs hf with ⟨he, _⟩ | ⟨he, hr⟩ <;>
    rcases mkItem_cases f' o' hs' hf' with ⟨he', _⟩ | ⟨he', hr'⟩ <;>
    rw [he, he'] at h <;> simp only [Prod.mk.injEq, Option.some.injEq, reduceCtorEq, and_false] at h
  · exact h.2
  · have h1 : f = f' := by omega
    have h2 : o.length = o'.length := by omega
    rw [hr, hr', h1, h2]

theorem tokItem_inj {t t' : Tok} (h : TokBound t) (h' : TokBound t')
    (he : tokItem t = tokItem t') : t = t' := by
  cases t with
  | one S =>
    cases t' with
    | one S' =>
      obtain ⟨f, o, hl, hs, hb, hm⟩ := members_cons h
      obtain ⟨f', o', hl', hs', hb', hm'⟩ := members_cons h'
      simp only [tokItem, hl, hl'] at he
      have := mkItem_inj hs hs' (by have := hb f (by simp); omega)
        (by have := hb' f' (by simp); omega) he
      congr 1
      funext c
      rw [Bool.eq_iff_iff, hm, hm', this]
    | dot => have := (tokItem_one h).1; rw [he] at this; simp [tokItem] at this
    | bang => have := (tokItem_one h).1; rw [he] at this; simp [tokItem] at this
  | dot =>
    cases t' with
    | one S' => have := (tokItem_one h').1; rw [← he] at this; simp [tokItem] at this
    | dot => rfl
    | bang => simp [tokItem] at he
  | bang =>
    cases t' with
    | one S' => have := (tokItem_one h').1; rw [← he] at this; simp [tokItem] at this
    | dot => simp [tokItem] at he
    | bang => rfl

theorem map_tokItem_inj {ts ts' : List Tok} (h : ∀ t ∈ ts, TokBound t)
    (h' : ∀ t ∈ ts', TokBound t) (he : ts.map tokItem = ts'.map tokItem) : ts = ts' := by
  induction ts generalizing ts' with
  | nil => cases ts' <;> simp_all
  | cons t ts ih =>
    cases ts' with
    | nil => simp at he
    | cons t' ts' =>
      simp only [List.map_cons, List.cons.injEq] at he
      rw [tokItem_inj (h t (by simp)) (h' t' (by simp)) he.1,
        ih (fun t hm => h t (by simp [hm])) (fun t hm => h' t (by simp [hm])) he.2]

/-- Reading is deterministic. -/
theorem reads_unique {p : Str} {ts ts' : List Tok} (h : Reads (utf8 p) ts)
    (h' : Reads (utf8 p) ts') : ts = ts' := by
  have h1 := parse_of_reads h
  rw [parse_of_reads h'] at h1
  simp at h1
  exact (map_tokItem_inj (reads_bound h (utf8_le p)) (reads_bound h' (utf8_le p)) h1.symm)

/-! ### canonical spelling of a whole pattern -/

theorem card_eq (S : Nat → Bool) : card S = (members S).length := rfl

theorem card_one_iff {S : Nat → Bool} (h : TokBound (.one S)) :
    (tokItem (.one S)).1 < 0x200 ↔ card S = 1 := by
  obtain ⟨f, o, hl, hs, hb, hm⟩ := members_cons h
  have hf := hb f (by simp)
  simp only [tokItem, card_eq, hl, List.length_cons]
  rcases mkItem_cases f o hs (by omega) with ⟨he, _⟩ | ⟨he, _⟩ <;> rw [he] <;> simp only <;> omega

/-- The single character of a one-character set. -/
theorem single_char {S : Nat → Bool} (h : TokBound (.one S)) (h1 : card S = 1) :
    ∃ f, f ≤ 0xf7 ∧ S = (· == f) ∧ tokItem (.one S) = (0x100 + f, none) := by
  obtain ⟨f, o, hl, hs, hb, hm⟩ := members_cons h
  have hf := hb f (by simp)
  have ho : o = [] := by rw [card_eq, hl] at h1; simpa using h1
  subst ho
  refine ⟨f, hf, ?_, ?_⟩
  · funext c; rw [Bool.eq_iff_iff, hm]; simp
  · simp only [tokItem, hl]; exact mkItem_single f (by omega)

theorem canonItem_dot : canonItem (0x18000, none) = [0x2e] := by rfl
theorem canonItem_bang : canonItem (0x28000, none) = [0x21] := by rfl

/-- Shape of the canonical text of a writable token. -/
theorem canonTok_shape (t : Tok) (hb : TokBound t) (hw : t.writable) :
    (∃ b, canonItem (tokItem t) = [b] ∧ b < 128 ∧ b ≠ 0x2d ∧ b ≠ 0x5b ∧
      (b = 0x5d → ¬ t.bracketless) ∧
      ∀ rest, parseBytes (b :: rest) = (parseBytes rest).map (tokItem t :: ·)) ∨
    (∃ inner, canonItem (tokItem t) = 0x5b :: (inner ++ [0x5d]) ∧ 0x5d ∉ inner ∧
      inner ≠ [] ∧ (∀ x ∈ inner, x < 128) ∧
      ∀ rest, parseBytes (0x5b :: (inner ++ 0x5d :: rest)) =
        (parseBytes rest).map (tokItem t :: ·)) := by
  cases t with
  | dot =>
    left
    exact ⟨0x2e, rfl, by omega, by omega, by omega, by omega, fun rest => by
      rw [parseBytes_cons]; simp [tokItem]⟩
  | bang =>
    left
    exact ⟨0x21, rfl, by omega, by omega, by omega, by omega, fun rest => by
      rw [parseBytes_cons]; simp [tokItem]⟩
  | one S =>
    obtain ⟨f, o, hl, hs, hbb, hm⟩ := members_cons hb
    obtain ⟨w1, w2, w3⟩ := hw
    have hb128 : ∀ b ∈ f :: o, b < 128 := fun b h => w1 b ((hm b).2 h)
    have h5b : f :: o ≠ [0x5b] := by
      intro h
      apply w3 ((hm _).2 (by rw [h]; simp))
      rw [card_eq, hl, h]; rfl
    have h5d : o ≠ [] → 0x5d ∉ f :: o := by
      intro ho h
      have := w2 ((hm _).2 h)
      rw [card_eq, hl] at this
      simp at this; exact ho this
    have hp := fun rest => parseBytes_canonItem f o hs hb128 h5b h5d rest
    simp only [tokItem, hl]
    rcases canonItem_shape f o hs hb128 h5b h5d with ⟨b, h1, h2, h3, h4, h5, h6⟩ | ⟨inner, h1, h2, h3, h4, _⟩
    · refine Or.inl ⟨b, h1, h2, h3, h4, ?_, h6⟩
      intro hb5 hbl
      have := (hm 0x5d).2 (by rw [h5 hb5]; simp)
      simp [Tok.bracketless, this] at hbl
    · refine Or.inr ⟨inner, h1, h2, h3, h4, fun rest => ?_⟩
      have := hp rest
      rw [h1] at this
      simpa using this

theorem parseBytes_canonRange (ts : List Tok) (hb : ∀ t ∈ ts, TokBound t)
    (hw : ∀ t ∈ ts, t.writable) :
    parseBytes (canonRange (ts.map tokItem)) = .ok (ts.map tokItem ++ [(0x30000, none)]) ∧
    ∀ b ∈ canonRange (ts.map tokItem), b < 128 := by
  induction ts with
  | nil => exact ⟨rfl, by simp [canonRange]⟩
  | cons t ts ih =>
    obtain ⟨ih1, ih2⟩ := ih (fun t h => hb t (by simp [h])) (fun t h => hw t (by simp [h]))
    have hcr : canonRange ((t :: ts).map tokItem) = canonItem (tokItem t) ++ canonRange (ts.map tokItem) := by
      simp [canonRange]
    rw [hcr]
    rcases canonTok_shape t (hb t (by simp)) (hw t (by simp)) with ⟨b, h1, h2, _, _, _, h3⟩ | ⟨inner, h1, _, _, h2, h3⟩
    · rw [h1, List.singleton_append, h3, ih1]
      refine ⟨rfl, ?_⟩
      intro x hx
      rcases List.mem_cons.1 hx with rfl | hx
      · exact h2
      · exact ih2 x hx
    · rw [h1, List.cons_append, List.append_assoc, List.singleton_append, h3, ih1]
      refine ⟨rfl, ?_⟩
      intro x hx
      simp only [List.mem_cons, List.mem_append] at hx
      rcases hx with rfl | hx | rfl | hx
      · omega
      · exact h2 x hx
      · omega
      · exact ih2 x hx

theorem dropLast_end (l : List Item) (e : Item) : (l ++ [e]).dropLast = l := by simp

/-- `canonical` of a parsed pattern. -/
theorem canonical_pattern (ts : List Tok) :
    canonical ⟨1, ts.map tokItem ++ [(0x30000, none)]⟩ =
      if ∀ t ∈ ts, (tokItem t).1 < 0x200 then
        latin1Decode (ts.map (fun t => (tokItem t).1 &&& 0xff))
      else '_' :: latin1Decode (canonRange (ts.map tokItem)) := by
  simp only [canonical, dropLast_end]
  simp [List.map_map, Function.comp_def]

theorem isSingle_iff (t : Tok) (h : TokBound t) : (tokItem t).1 < 0x200 ↔ t.isSingle := by
  cases t with
  | one S => exact card_one_iff h
  | dot => simp [tokItem, Tok.isSingle]
  | bang => simp [tokItem, Tok.isSingle]

theorem canonical_literal (bs : List Nat) (hb : ∀ b ∈ bs, b < 256) :
    canonical ⟨0, bs.map (fun b => (0x100 + b, none))⟩ = latin1Decode bs := by
  simp only [canonical, if_true, List.map_map]
  congr 1
  conv => rhs; rw [← List.map_id bs]
  apply List.map_congr_left
  intro b h
  have := hb b h
  simp only [Function.comp_def, and_ff, id]
  omega

/-- All tokens single: the characters. -/
theorem singles (ts : List Tok) (hb : ∀ t ∈ ts, TokBound t) (h1 : ∀ t ∈ ts, t.isSingle) :
    ∃ bs : List Nat, ts = bs.map (fun b => Tok.one (· == b)) ∧ (∀ b ∈ bs, b ≤ 0xf7) ∧
      ts.map tokItem = bs.map (fun b => (0x100 + b, none)) := by
  induction ts with
  | nil => exact ⟨[], rfl, by simp, rfl⟩
  | cons t ts ih =>
    obtain ⟨bs, e1, e2, e3⟩ := ih (fun t h => hb t (by simp [h])) (fun t h => h1 t (by simp [h]))
    have ht := h1 t (by simp)
    cases t with
    | dot => simp [Tok.isSingle] at ht
    | bang => simp [Tok.isSingle] at ht
    | one S =>
      obtain ⟨f, hf, hS, hi⟩ := single_char (hb (.one S) (by simp)) ht
      refine ⟨f :: bs, ?_, ?_, ?_⟩
      · rw [e1, hS]; rfl
      · intro b hb'
        rcases List.mem_cons.1 hb' with rfl | hb'
        · exact hf
        · exact e2 b hb'
      · simp [e3, hi]

theorem lang_singles (bs e : List Nat) :
    Lang (bs.map (fun b => Tok.one (· == b))) e ↔ e = bs := by
  induction bs generalizing e with
  | nil =>
    constructor
    · intro h; cases h; rfl
    · rintro rfl; exact .nil
  | cons b bs ih =>
    constructor
    · intro h
      cases h with
      | one hc hl => simp at hc; rw [hc, (ih _).1 hl]
    · rintro rfl
      exact .one (by simp) ((ih _).2 rfl)

theorem utf8_filter_dash (s : Str) (h : ∀ c ∈ s, c.toNat < 128) :
    (utf8 s).filter (· ≠ 0x2d) = utf8 (s.filter (· ≠ '-')) := by
  induction s with
  | nil => rfl
  | cons c s ih =>
    have hc := h c (by simp)
    rw [utf8_cons_ascii c s hc]
    have ih := ih (fun c h' => h c (by simp [h']))
    by_cases hd : c = '-'
    · subst hd; simpa using ih
    · have hn : c.toNat ≠ 0x2d := by
        intro he; apply hd
        exact Char.toNat_inj.1 he
      rw [List.filter_cons_of_pos (by simpa using hn), List.filter_cons_of_pos (by simpa using hd),
        utf8_cons_ascii c _ hc, ih]

theorem latin1Decode_utf8 (s : Str) (h : ∀ c ∈ s, c.toNat < 128) : latin1Decode (utf8 s) = s := by
  induction s with
  | nil => rfl
  | cons c s ih =>
    rw [utf8_cons_ascii c s (h c (by simp))]
    simp only [latin1Decode, List.map_cons, Char.ofNat_toNat]
    congr 1
    exact ih (fun c h' => h c (by simp [h']))

theorem describes_pattern (p : Str) (e : List Nat) :
    Describes ('_' :: p) e ↔ ∃ ts, Reads (utf8 p) ts ∧ Lang ts e := Iff.rfl

theorem describes_literal {c : Char} {cs : Str} (h : c ≠ '_') (e : List Nat) :
    Describes (c :: cs) e ↔ e = (utf8 (c :: cs)).filter (· ≠ 0x2d) := by
  unfold Describes
  split
  · rename_i h'; simp at h'; exact absurd h'.1 h
  · rfl

/-- The whole round trip (C28, C29). -/
theorem canonical_roundtrip {raw : Str} {v : Values} (h : parse raw = .ok v)
    (he : Expressible raw) :
    ∃ w, parse (canonical v) = .ok w ∧ matchesSame v w = true ∧ canonical w = canonical v ∧
      ∀ e, Describes (canonical v) e ↔ Describes raw e := by
  cases raw with
  | nil => simp [parse] at h
  | cons c p =>
    by_cases hc : c = '_'
    · subst hc
      obtain ⟨ts, hts, hb, rfl⟩ := parse_pattern_ok h
      obtain ⟨ts', hts', hw, hsing⟩ := he
      obtain rfl := reads_unique hts hts'
      rw [canonical_pattern ts]
      split
      · rename_i hall
        have hs1 : ∀ t ∈ ts, t.isSingle := fun t ht => (isSingle_iff t (hb t ht)).1 (hall t ht)
        obtain ⟨hne, hdash, hund⟩ := hsing hs1
        obtain ⟨bs, e1, e2, e3⟩ := singles ts hb hs1
        have hlow : ts.map (fun t => (tokItem t).1 &&& 0xff) = bs := by
          have : ts.map (fun t => (tokItem t).1 &&& 0xff) = (ts.map tokItem).map (fun i => i.1 &&& 0xff) := by
            simp
          rw [this, e3, List.map_map]
          conv => rhs; rw [← List.map_id bs]
          apply List.map_congr_left
          intro b h'
          have := e2 b h'
          simp only [Function.comp_def, and_ff, id]
          omega
        rw [hlow]
        have hb128 : ∀ b ∈ bs, b < 128 := by
          intro b hb'
          have := hw (.one (· == b)) (by rw [e1]; exact List.mem_map.2 ⟨b, hb', rfl⟩)
          exact this.1 b (by simp)
        have hnd : ∀ b ∈ bs, b ≠ 0x2d := by
          intro b hb' hd
          have := hdash (· == b) (by rw [e1]; exact List.mem_map.2 ⟨b, hb', rfl⟩)
          subst hd; simp at this
        cases bs with
        | nil => simp at e1; exact absurd e1 hne
        | cons b bs =>
          have hbu : Char.ofNat b ≠ '_' := by
            intro hu
            have := hund (· == b) (by rw [e1]; rfl)
            have hbn : b = 0x5f := by
              have h1 := ofNat_toNat_ascii (hb128 b (by simp))
              rw [hu] at h1; exact h1.symm
            subst hbn; simp at this
          have hu8 := utf8_latin1Decode (b :: bs) hb128
          have hfil : (b :: bs).filter (· ≠ 0x2d) = b :: bs := by
            rw [List.filter_eq_self]; intro a ha; simpa using hnd a ha
          have hparse : parse (latin1Decode (b :: bs)) =
              .ok ⟨0, (b :: bs).map (fun b => (0x100 + b, none))⟩ := by
            have h1 := parse_literal (c := Char.ofNat b) (cs := latin1Decode bs) hbu
            have h2 : Char.ofNat b :: latin1Decode bs = latin1Decode (b :: bs) := rfl
            rw [h2, hu8, hfil] at h1
            exact h1
          refine ⟨_, hparse, ?_, ?_, ?_⟩
          · simp only [matchesSame, dropLast_end, e3]; simp
          · rw [canonical_literal _ (fun x hx => by have := hb128 x hx; omega)]
          · intro e
            have h1 := describes_literal (c := Char.ofNat b) (cs := latin1Decode bs) hbu e
            have h2 : Char.ofNat b :: latin1Decode bs = latin1Decode (b :: bs) := rfl
            rw [h2, hu8, hfil] at h1
            rw [h1, describes_pattern]
            constructor
            · intro he; exact ⟨ts, hts, by rw [e1, lang_singles]; exact he⟩
            · rintro ⟨ts', hr, hl⟩
              rw [reads_unique hr hts, e1, lang_singles] at hl
              exact hl
      · rename_i hall
        obtain ⟨hp, h128⟩ := parseBytes_canonRange ts hb hw
        have hu := utf8_latin1Decode _ h128
        have hparse : parse ('_' :: latin1Decode (canonRange (ts.map tokItem))) =
            .ok ⟨1, ts.map tokItem ++ [(0x30000, none)]⟩ := by
          rw [parse_underscore, hu, hp]
        refine ⟨_, hparse, by simp [matchesSame], ?_, ?_⟩
        · rw [canonical_pattern ts, if_neg hall]
        · intro e
          rw [describes_pattern, describes_pattern, hu]
          obtain ⟨ts', hts', hb', hv⟩ := parse_pattern_ok hparse
          simp at hv
          obtain rfl := map_tokItem_inj hb hb' hv
          rw [hu] at hts'
          constructor
          · rintro ⟨ts2, hr, hl⟩
            have : ts2 = ts := by
              have hr' : Reads (utf8 (latin1Decode (canonRange (ts.map tokItem)))) ts2 := by rw [hu]; exact hr
              have hr2 : Reads (utf8 (latin1Decode (canonRange (ts.map tokItem)))) ts := by rw [hu]; exact hts'
              exact reads_unique hr' hr2
            subst this
            exact ⟨ts2, hts, hl⟩
          · rintro ⟨ts2, hr, hl⟩
            rw [reads_unique hr hts] at hl
            exact ⟨ts, hts', hl⟩
    · have hp := parse_literal (cs := p) hc
      rw [hp] at h
      have hv : v = ⟨0, ((utf8 (c :: p)).filter (· ≠ 0x2d)).map (fun b => (0x100 + b, none))⟩ := by
        cases h; rfl
      obtain ⟨hascii, d, ds, hfil, hd⟩ : (∀ x ∈ c :: p, x.toNat < 128) ∧
          ∃ d ds, (c :: p).filter (· ≠ '-') = d :: ds ∧ d ≠ '_' := by
        unfold Expressible at he
        split at he
        · rename_i h'; simp at h'; exact absurd h'.1 hc
        · exact he
      have hasc2 : ∀ x ∈ d :: ds, x.toNat < 128 := by
        intro x hx
        rw [← hfil] at hx
        exact hascii x (List.mem_filter.1 hx).1
      rw [utf8_filter_dash _ hascii, hfil] at hv
      have hcan : canonical v = d :: ds := by
        rw [hv, canonical_literal _ (fun b hb => by have := utf8_le _ b hb; omega),
          latin1Decode_utf8 _ hasc2]
      have hnodash : (d :: ds).filter (· ≠ '-') = d :: ds := by
        rw [← hfil, List.filter_filter]; simp
      rw [hcan]
      have hp2 := parse_literal (cs := ds) hd
      rw [utf8_filter_dash _ hasc2, hnodash, ← hv] at hp2
      refine ⟨v, hp2, by simp [matchesSame], hcan, ?_⟩
      intro e
      rw [describes_literal hd, describes_literal hc, utf8_filter_dash _ hasc2, hnodash,
        utf8_filter_dash _ hascii, hfil]

end ALint.Pattern
