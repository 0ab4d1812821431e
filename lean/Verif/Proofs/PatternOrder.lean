import Verif.Proofs.PatternWhole
import Verif.Proofs.Str

namespace ALint.Pattern
open ALint.Spec

/-! ### strict total orders -/

/-- A strict total order given as a Boolean function. -/
structure STO {α : Type} (lt : α → α → Bool) : Prop where
  irrefl : ∀ a, lt a a = false
  trans : ∀ a b c, lt a b = true → lt b c = true → lt a c = true
  total : ∀ a b, a ≠ b → lt a b = true ∨ lt b a = true

theorem STO.asymm {α : Type} {lt : α → α → Bool} (h : STO lt) {a b : α} (h1 : lt a b = true) :
    lt b a = false := by
  cases hba : lt b a with
  | false => rfl
  | true => have := h.trans _ _ _ h1 hba; rw [h.irrefl] at this; exact absurd this (by simp)

theorem STO.ne {α : Type} {lt : α → α → Bool} (h : STO lt) {a b : α} (h1 : lt a b = true) :
    a ≠ b := by
  rintro rfl; rw [h.irrefl] at h1; exact absurd h1 (by simp)

theorem lexLt_STO {α : Type} [DecidableEq α] {lt : α → α → Bool} (h : STO lt) :
    STO (lexLt lt) where
  irrefl := by intro a; induction a with
    | nil => rfl
    | cons x xs ih => simp [lexLt, ih]
  trans := by
    intro a
    induction a with
    | nil =>
      intro b c h1 h2
      cases b with
      | nil => simp [lexLt] at h1
      | cons y ys => cases c with
        | nil => simp [lexLt] at h2
        | cons z zs => rfl
    | cons x xs ih =>
      intro b c h1 h2
      cases b with
      | nil => simp [lexLt] at h1
      | cons y ys =>
        cases c with
        | nil => simp [lexLt] at h2
        | cons z zs =>
          simp only [lexLt] at *
          by_cases hxy : x = y
          · subst hxy
            by_cases hyz : x = z
            · subst hyz
              simp only [if_true] at *
              exact ih _ _ h1 h2
            · simpa [hyz] using h2
          · by_cases hyz : y = z
            · subst hyz
              simpa [hxy] using h1
            · simp only [hxy, hyz, if_false] at *
              have := h.trans _ _ _ h1 h2
              have hne : x ≠ z := h.ne this
              simpa [hne] using this
  total := by
    intro a
    induction a with
    | nil => intro b hb; cases b with
      | nil => exact absurd rfl hb
      | cons y ys => left; rfl
    | cons x xs ih =>
      intro b hb
      cases b with
      | nil => right; rfl
      | cons y ys =>
        simp only [lexLt]
        by_cases hxy : x = y
        · subst hxy
          simp only [if_true]
          exact ih ys (fun h => hb (by rw [h]))
        · simp only [hxy, if_false, Ne.symm hxy]
          exact h.total x y hxy

theorem natLt_STO : STO (fun m n : Nat => decide (m < n)) where
  irrefl := by simp
  trans := by intro a b c; simp; omega
  total := by intro a b; simp; omega

theorem itemLt_STO : STO itemLt where
  irrefl := by
    rintro ⟨n, o⟩
    cases o with
    | none => simp [itemLt]
    | some x => simp [itemLt, (lexLt_STO natLt_STO).irrefl]
  trans := by
    rintro ⟨n, o⟩ ⟨m, p⟩ ⟨k, q⟩ h1 h2
    simp only [itemLt] at *
    by_cases hnm : n = m
    · subst hnm
      by_cases hmk : n = k
      · subst hmk
        simp only [if_true] at *
        cases o <;> cases p <;> cases q <;> simp_all
        exact (lexLt_STO natLt_STO).trans _ _ _ h1 h2
      · simpa [hmk] using h2
    · by_cases hmk : m = k
      · subst hmk; simpa [hnm] using h1
      · simp only [hnm, hmk, if_false, decide_eq_true_eq] at *
        have : n ≠ k := by omega
        simp [this]; omega
  total := by
    rintro ⟨n, o⟩ ⟨m, p⟩ h
    simp only [itemLt]
    by_cases hnm : n = m
    · subst hnm
      simp only [if_true]
      cases o <;> cases p <;> simp_all
      exact (lexLt_STO natLt_STO).total _ _ h
    · simp only [hnm, if_false, Ne.symm hnm, decide_eq_true_eq]
      omega

theorem patLt_STO : STO patLt where
  irrefl := by rintro ⟨k, i⟩; simp [patLt, (lexLt_STO itemLt_STO).irrefl]
  trans := by
    rintro ⟨n, o⟩ ⟨m, p⟩ ⟨k, q⟩ h1 h2
    simp only [patLt] at *
    by_cases hnm : n = m
    · subst hnm
      by_cases hmk : n = k
      · subst hmk
        simp only [if_true] at *
        exact (lexLt_STO itemLt_STO).trans _ _ _ h1 h2
      · simpa [hmk] using h2
    · by_cases hmk : m = k
      · subst hmk; simpa [hnm] using h1
      · simp only [hnm, hmk, if_false, decide_eq_true_eq] at *
        have : n ≠ k := by omega
        simp [this]; omega
  total := by
    rintro ⟨n, o⟩ ⟨m, p⟩ h
    simp only [patLt]
    by_cases hnm : n = m
    · subst hnm
      simp only [if_true]
      exact (lexLt_STO itemLt_STO).total _ _ (fun h' => h (by rw [h']))
    · simp only [hnm, if_false, Ne.symm hnm, decide_eq_true_eq]
      omega

/-! ### specific patterns first -/

theorem lexLt_append {α : Type} [DecidableEq α] {lt : α → α → Bool} (h : STO lt)
    (pre : List α) {a b : α} (as bs : List α) (hab : lt a b = true) :
    lexLt lt (pre ++ a :: as) (pre ++ b :: bs) = true := by
  induction pre with
  | nil => simp [lexLt, h.ne hab, hab]
  | cons x xs ih => simpa [lexLt] using ih

theorem tokItem_num {S : Nat → Bool} (h : TokBound (.one S)) :
    ∃ f, f < 256 ∧ (tokItem (.one S)).1 = card S * 256 + f ∧ card S ≤ 0xf8 := by
  obtain ⟨f, o, hl, hs, hb, hm⟩ := members_cons h
  have hf := hb f (by simp)
  have hlen := length_le_of_sorted f o hs hb
  refine ⟨f, by omega, ?_, by rw [card_eq, hl]; simp; omega⟩
  simp only [tokItem, card_eq, hl, List.length_cons]
  rcases mkItem_cases f o hs (by omega) with ⟨he, _⟩ | ⟨he, _⟩ <;> rw [he]

theorem itemLt_of_lt {a b : Item} (h : a.1 < b.1) : itemLt a b = true := by
  simp [itemLt, Nat.ne_of_lt h, h]

theorem rank_lt (pre a b : List Tok) (ha : ∀ t ∈ a, TokBound t) (hb : ∀ t ∈ b, TokBound t)
    (h : rank a < rank b) :
    lexLt itemLt ((pre ++ a).map tokItem ++ [(0x30000, none)])
      ((pre ++ b).map tokItem ++ [(0x30000, none)]) = true := by
  simp only [List.map_append, List.append_assoc]
  cases a with
  | nil =>
    cases b with
    | nil => simp [rank] at h
    | cons t b =>
      cases t with
      | one S =>
        obtain ⟨f, _, _, hc⟩ := tokItem_num (hb (.one S) (by simp))
        simp [rank] at h; omega
      | dot => simp [rank] at h
      | bang => simp [rank] at h
  | cons t a =>
    have ht := ha t (by simp)
    cases b with
    | nil =>
      simp only [List.map_cons, List.map_nil, List.cons_append, List.nil_append]
      apply lexLt_append itemLt_STO
      apply itemLt_of_lt
      cases t with
      | one S => have := (tokItem_one ht).1; simp only at *; omega
      | dot => simp [tokItem]
      | bang => simp [tokItem]
    | cons u b =>
      have hu := hb u (by simp)
      simp only [List.map_cons, List.cons_append]
      apply lexLt_append itemLt_STO
      apply itemLt_of_lt
      cases t with
      | one S =>
        obtain ⟨f, hf, hn, hc⟩ := tokItem_num ht
        cases u with
        | one T =>
          obtain ⟨f', hf', hn', hc'⟩ := tokItem_num hu
          simp only [rank] at h
          rw [hn, hn']; omega
        | dot => have := (tokItem_one ht).1; simp only [tokItem] at *; omega
        | bang => have := (tokItem_one ht).1; simp only [tokItem] at *; omega
      | dot =>
        cases u with
        | one T => obtain ⟨f', hf', hn', hc'⟩ := tokItem_num hu; simp [rank] at h; omega
        | dot => simp [rank] at h
        | bang => simp [tokItem]
      | bang =>
        cases u with
        | one T => obtain ⟨f', hf', hn', hc'⟩ := tokItem_num hu; simp [rank] at h; omega
        | dot => simp [rank] at h
        | bang => simp [rank] at h

/-! ### `matches_same` -/

/-- Values produced by `parse`. -/
theorem parse_kind {raw : Str} {v : Values} (h : parse raw = .ok v) :
    (v.kind = 0 ∧ ∀ i ∈ v.items, i.1 < 0x200) ∨
    (v.kind = 1 ∧ ∃ l, v.items = l ++ [(0x30000, none)]) := by
  cases raw with
  | nil => simp [parse] at h
  | cons c p =>
    by_cases hc : c = '_'
    · subst hc
      obtain ⟨ts, _, _, rfl⟩ := parse_pattern_ok h
      exact Or.inr ⟨rfl, _, rfl⟩
    · rw [parse_literal hc] at h
      cases h
      refine Or.inl ⟨rfl, ?_⟩
      intro i hi
      obtain ⟨b, hb, rfl⟩ := List.mem_map.1 hi
      have := utf8_le (c :: p) b (List.mem_filter.1 hb).1
      simp only; omega

theorem values_ext {a b : Values} (h1 : a.kind = b.kind) (h2 : a.items = b.items) : a = b := by
  cases a; cases b; simp_all

theorem matchesSame_iff {r s : Str} {v w : Values} (hv : parse r = .ok v) (hw : parse s = .ok w) :
    matchesSame v w = true ↔
      (if v.kind = 1 then v.items.dropLast else v.items) =
      (if w.kind = 1 then w.items.dropLast else w.items) := by
  rcases parse_kind hv with ⟨kv, _⟩ | ⟨kv, l, hl⟩ <;>
    rcases parse_kind hw with ⟨kw, _⟩ | ⟨kw, m, hm⟩ <;>
    simp [matchesSame, kv, kw]
  · exact ⟨fun h => by rw [h], fun h => values_ext (by rw [kv, kw]) h⟩
  · constructor
    · intro h; rw [h]
    · intro h
      refine values_ext (by rw [kv, kw]) ?_
      rw [hl, hm] at h ⊢
      simp at h; rw [h]

theorem canonical_of_same {r s : Str} {v w : Values} (hv : parse r = .ok v)
    (hw : parse s = .ok w) (h : matchesSame v w = true) : canonical v = canonical w := by
  have key : ∀ {r s : Str} {v w : Values}, parse r = .ok v → parse s = .ok w →
      v.kind = 0 → w.kind = 1 → v.items = w.items.dropLast → canonical v = canonical w := by
    intro r s v w hv hw kv kw he
    rcases parse_kind hv with ⟨_, hv'⟩ | ⟨kv', _⟩
    · rcases parse_kind hw with ⟨kw', _⟩ | ⟨_, m, hm⟩
      · omega
      · unfold canonical
        rw [if_pos kv, if_neg (by omega), if_pos, ← he]
        rw [← he, hm]
        constructor
        · rw [List.all_eq_true]
          intro i hi; simpa using hv' i hi
        · simp
    · omega
  rcases parse_kind hv with ⟨kv, _⟩ | ⟨kv, l, hl⟩ <;>
    rcases parse_kind hw with ⟨kw, _⟩ | ⟨kw, m, hm⟩
  · simp [matchesSame, kv, kw] at h; rw [h]
  · simp [matchesSame, kv, kw] at h
    exact key hv hw kv kw h
  · simp [matchesSame, kv, kw] at h
    exact (key hw hv kw kv h.symm).symm
  · simp [matchesSame, kv, kw] at h; rw [h]

/-! ### text surgery -/

theorem parseBytes_append {a : List Nat} {ts : List Tok} (h : Reads a ts)
    (hb : ∀ b ∈ a, b < 256) (r : List Nat) :
    parseBytes (a ++ r) = (parseBytes r).map (ts.map tokItem ++ ·) := by
  have comp : ∀ (x : Item) (l : List Item), Except.map (x :: ·) ((parseBytes r).map (l ++ ·)) =
      (parseBytes r).map ((x :: l) ++ ·) := by
    intro x l; cases parseBytes r <;> rfl
  induction h with
  | nil =>
    rw [List.nil_append]
    cases parseBytes r <;> rfl
  | dash _ ih =>
    rw [List.cons_append, parseBytes_cons]; simp [ih (fun b h => hb b (by simp [h]))]
  | x h _ ih =>
    rw [List.cons_append, parseBytes_cons]
    rcases h with rfl | rfl <;>
      simp [ih (fun b h => hb b (by simp [h])), tokItem, mkItem_X, comp]
  | z h _ ih =>
    rw [List.cons_append, parseBytes_cons]
    rcases h with rfl | rfl <;>
      simp [ih (fun b h => hb b (by simp [h])), tokItem, mkItem_Z, comp]
  | n h _ ih =>
    rw [List.cons_append, parseBytes_cons]
    rcases h with rfl | rfl <;>
      simp [ih (fun b h => hb b (by simp [h])), tokItem, mkItem_N, comp]
  | dot _ ih =>
    rw [List.cons_append, parseBytes_cons]
    simp [ih (fun b h => hb b (by simp [h])), tokItem, comp]
  | bang _ ih =>
    rw [List.cons_append, parseBytes_cons]
    simp [ih (fun b h => hb b (by simp [h])), tokItem, comp]
  | @set inner p ts h1 h2 _ ih =>
    rw [List.cons_append, List.append_assoc, List.cons_append]
    have hne := inSet_nonempty h2 (fun b h => hb b (by simp [h]))
    rw [parseBytes_bracket inner _ h1, if_neg hne, ih (fun b h => hb b (by simp [h])), comp]
    rfl
  | @lit b p ts h _ ih =>
    have hbb : b < 256 := hb b (by simp)
    rw [List.cons_append, parseBytes_cons]
    simp at h
    simp [h, ih (fun b h => hb b (by simp [h])), tokItem, members_single b hbb,
      mkItem_single b hbb, comp]

theorem wellBracketed_iff (p : List Nat) : WellBracketed p ↔ ∃ ts, Reads p ts := by
  constructor
  · intro h
    induction h with
    | nil => exact ⟨[], .nil⟩
    | @char b p hb _ ih =>
      obtain ⟨ts, ih⟩ := ih
      by_cases h1 : b = 0x2d
      · subst h1; exact ⟨_, .dash ih⟩
      by_cases h2 : b = 0x58 ∨ b = 0x78
      · exact ⟨_, .x h2 ih⟩
      by_cases h3 : b = 0x5a ∨ b = 0x7a
      · exact ⟨_, .z h3 ih⟩
      by_cases h4 : b = 0x4e ∨ b = 0x6e
      · exact ⟨_, .n h4 ih⟩
      by_cases h5 : b = 0x2e
      · subst h5; exact ⟨_, .dot ih⟩
      by_cases h6 : b = 0x21
      · subst h6; exact ⟨_, .bang ih⟩
      · exact ⟨_, .lit (by simp; omega) ih⟩
    | set h1 h2 _ ih =>
      obtain ⟨ts, ih⟩ := ih
      exact ⟨_, .set h1 h2 ih⟩
  · rintro ⟨ts, h⟩
    induction h with
    | nil => exact .nil
    | dash _ ih => exact .char (by omega) ih
    | x h _ ih => exact .char (by omega) ih
    | z h _ ih => exact .char (by omega) ih
    | n h _ ih => exact .char (by omega) ih
    | dot _ ih => exact .char (by omega) ih
    | bang _ ih => exact .char (by omega) ih
    | set h1 h2 _ ih => exact .set h1 h2 ih
    | lit h _ ih => exact .char (by simp at h; omega) ih

/-! ### example -/

theorem latin1_ofNat (bs : List Nat) (h : ∀ b ∈ bs, b < 256) :
    latin1? (bs.map Char.ofNat) = some bs := by
  induction bs with
  | nil => rfl
  | cons b bs ih =>
    have hb := h b (by simp)
    simp [latin1?, ofNat_toNat_256 hb, hb, ih (fun x hx => h x (by simp [hx]))]

theorem latin1_append {a b : Str} {x y : List Nat} (ha : latin1? a = some x)
    (hb : latin1? b = some y) : latin1? (a ++ b) = some (x ++ y) := by
  induction a generalizing x with
  | nil => simp [latin1?] at ha; subst ha; simpa using hb
  | cons c cs ih =>
    simp only [latin1?] at ha
    split at ha
    · rename_i hc
      cases hl : latin1? cs with
      | none => simp [hl] at ha
      | some z =>
        simp [hl] at ha; subst ha
        simp [latin1?, hc, ih hl]
    · simp at ha

theorem ofNat_ne_dash {b : Nat} (hb : b < 256) (h : b ≠ 0x2d) : Char.ofNat b ≠ '-' := by
  intro he
  have := ofNat_toNat_256 hb
  rw [he] at this
  exact h this.symm

theorem members_head_le {S : Nat → Bool} {f : Nat} {o : List Nat} (hl : members S = f :: o)
    {c : Nat} (hc : c < 256) (hS : S c = true) : f ≤ c := by
  have hm : c ∈ f :: o := by rw [← hl]; exact mem_members.2 ⟨hc, hS⟩
  have hs := members_sorted S
  rw [hl] at hs
  rcases List.mem_cons.1 hm with rfl | hm
  · omega
  · have := (List.pairwise_cons.1 hs).1 c hm; omega

theorem example_pattern (ts : List Tok) (hb : ∀ t ∈ ts, TokBound t) (hd : DashNotFirst ts) :
    ∃ e, latin1? ((exampleOf ⟨1, ts.map tokItem ++ [(0x30000, none)]⟩).filter (· ≠ '-')) = some e ∧
      Lang ts e := by
  simp only [exampleOf]
  rw [if_neg (by omega)]
  induction ts with
  | nil => exact ⟨[], rfl, .nil⟩
  | cons t ts ih =>
    obtain ⟨e, he, hl⟩ := ih (fun t h => hb t (by simp [h]))
      (fun S h => hd S (by simp [h]))
    simp only [List.map_cons, List.cons_append, List.flatMap_cons, List.filter_append]
    cases t with
    | one S =>
      have hbt := hb (.one S) (by simp)
      obtain ⟨f, o, hm, hs, hbb, hS⟩ := members_cons hbt
      have hf := hbb f (by simp)
      have hlt := (tokItem_one hbt).1
      have hne : f ≠ 0x2d := by
        rintro rfl
        obtain ⟨c, hc1, hc2⟩ := hd S (by simp) ((hS _).2 (by simp))
        have := members_head_le hm (by omega) hc2
        omega
      have hnum : (tokItem (.one S)).1 % 256 = f := by
        simp only [tokItem, hm]
        rcases mkItem_cases f o hs (by omega) with ⟨he, _⟩ | ⟨he, _⟩ <;> rw [he] <;> simp only <;> omega
      rw [if_neg (by omega), if_neg (by omega), if_neg (by omega), and_ff, hnum]
      refine ⟨f :: e, ?_, .one ((hS f).2 (by simp)) hl⟩
      have hnd := ofNat_ne_dash (by omega) hne
      rw [List.filter_cons_of_pos (by simpa using hnd), List.filter_nil]
      exact latin1_append (latin1_ofNat [f] (by simp; omega)) he
    | dot =>
      simp only [tokItem, if_true]
      refine ⟨[48, 49, 50, 51, 52, 53, 54, 55, 56, 57, 51, 51, 51] ++ e, ?_, .dot (by simp)⟩
      exact latin1_append (by decide) he
    | bang =>
      simp only [tokItem]
      refine ⟨[49, 50, 51, 52, 53, 54, 55, 56, 57, 51, 51, 51] ++ e, ?_, .bang⟩
      exact latin1_append (by decide) he

/-! ### `is_canonical` -/

theorem noDashFuel_enough (s : Str) : ∀ n, s.length ≤ n → noDashFuel n s = noDashFuel s.length s := by
  induction hlen : s.length using Nat.strongRecOn generalizing s with
  | ind len ih =>
    intro n hn
    cases s with
    | nil => cases n <;> subst hlen <;> simp [noDashFuel]
    | cons c cs =>
      simp at hlen
      obtain ⟨n, rfl⟩ : ∃ m, n = m + 1 := ⟨n - 1, by omega⟩
      subst hlen
      have h1 : noDashFuel n cs = noDashFuel cs.length cs := ih cs.length (by omega) cs rfl n (by omega)
      simp only [noDashFuel, h1]
      split
      · split
        · rename_i m rest hs
          have hl : rest.length < cs.length := by
            cases cs with
            | nil => simp [bracketMatch] at hs
            | cons d ds =>
              simp only [bracketMatch] at hs
              split at hs
              · simp at hs
              · rename_i a b hsp
                simp at hs; obtain ⟨_, rfl⟩ := hs
                rw [(splitOnce_some hsp).1]; simp; omega
          rw [ih rest.length (by omega) rest rfl n (by omega),
            ih rest.length (by omega) rest rfl cs.length (by omega)]
        · rfl
      · rfl

theorem noDash_plain {c : Char} (s : Str) (h1 : c ≠ '[') (h2 : c ≠ ']') (h3 : c ≠ '-') :
    noDash (c :: s) = c :: noDash s := by
  simp [noDash, noDashFuel, h1, h2, h3]

theorem noDash_bracket (x : Char) (inner rest : Str) (h : ']' ∉ inner) :
    noDash ('[' :: x :: (inner ++ ']' :: rest)) = '[' :: x :: (inner ++ ']' :: noDash rest) := by
  simp only [noDash, List.length_cons, noDashFuel, bracketMatch, splitOnce_append h, if_true]
  rw [noDashFuel_enough rest _ (by simp; omega)]
  simp

theorem latin1Decode_cons (b : Nat) (bs : List Nat) :
    latin1Decode (b :: bs) = Char.ofNat b :: latin1Decode bs := rfl

theorem latin1Decode_append (a b : List Nat) :
    latin1Decode (a ++ b) = latin1Decode a ++ latin1Decode b := by simp [latin1Decode]

theorem ofNat_ne_of {b : Nat} (hb : b < 256) {c : Char} (h : b ≠ c.toNat) : Char.ofNat b ≠ c := by
  intro he
  have := ofNat_toNat_256 hb
  rw [he] at this
  exact h this.symm

theorem noDash_canonRange (ts : List Tok) (hb : ∀ t ∈ ts, TokBound t)
    (hw : ∀ t ∈ ts, t.writable) (hbl : ∀ t ∈ ts, t.bracketless) :
    noDash (latin1Decode (canonRange (ts.map tokItem))) =
      latin1Decode (canonRange (ts.map tokItem)) := by
  induction ts with
  | nil => rfl
  | cons t ts ih =>
    have ih := ih (fun t h => hb t (by simp [h])) (fun t h => hw t (by simp [h]))
      (fun t h => hbl t (by simp [h]))
    have hcr : canonRange ((t :: ts).map tokItem) =
        canonItem (tokItem t) ++ canonRange (ts.map tokItem) := by
      simp [canonRange]
    rw [hcr, latin1Decode_append]
    rcases canonTok_shape t (hb t (by simp)) (hw t (by simp)) with
      ⟨b, h1, h2, h3, h4, h5, _⟩ | ⟨inner, h1, h2, h3, h4, _⟩
    · rw [h1]
      have h5' : b ≠ 0x5d := fun h => h5 h (hbl t (by simp))
      simp only [latin1Decode_cons, List.cons_append]
      rw [noDash_plain _ (ofNat_ne_of (by omega) h4) (ofNat_ne_of (by omega) h5')
        (ofNat_ne_of (by omega) h3)]
      simpa [latin1Decode] using ih
    · rw [h1]
      cases inner with
      | nil => exact absurd rfl h3
      | cons x inner =>
        have hni : ']' ∉ latin1Decode inner := by
          intro h
          obtain ⟨y, hy, he⟩ := List.mem_map.1 h
          have hy128 := h4 y (by simp [hy])
          exact ofNat_ne_of (c := ']') (by omega) (fun (h : y = 0x5d) => h2 (by simp [← h, hy])) he
        simp only [latin1Decode_cons, latin1Decode_append, List.cons_append, List.append_assoc,
          show Char.ofNat 0x5b = '[' from rfl, show Char.ofNat 0x5d = ']' from rfl]
        rw [show latin1Decode ([] : List Nat) = [] from rfl, List.nil_append,
          noDash_bracket _ _ _ hni, ih]

theorem noDash_id (s : Str) (h : ∀ c ∈ s, c ≠ '[' ∧ c ≠ ']' ∧ c ≠ '-') : noDash s = s := by
  induction s with
  | nil => rfl
  | cons c s ih =>
    obtain ⟨h1, h2, h3⟩ := h c (by simp)
    rw [noDash_plain s h1 h2 h3, ih (fun c h' => h c (by simp [h']))]

theorem noDash_canonical {raw : Str} {v : Values} (h : parse raw = .ok v)
    (he : Expressible raw) (hbk : Bracketless raw) : noDash (canonical v) = canonical v := by
  cases raw with
  | nil => simp [parse] at h
  | cons c p =>
    by_cases hc : c = '_'
    · subst hc
      obtain ⟨ts, hts, hb, rfl⟩ := parse_pattern_ok h
      obtain ⟨ts', hts', hw, hsing⟩ := he
      obtain rfl := reads_unique hts hts'
      obtain ⟨ts', hts', hbl⟩ := hbk
      obtain rfl := reads_unique hts hts'
      rw [canonical_pattern ts]
      split
      · rename_i hall
        have hs1 : ∀ t ∈ ts, t.isSingle := fun t ht => (isSingle_iff t (hb t ht)).1 (hall t ht)
        obtain ⟨_, hdash, _⟩ := hsing hs1
        apply noDash_id
        intro c hc
        obtain ⟨b, hb', rfl⟩ := List.mem_map.1 hc
        obtain ⟨t, ht, rfl⟩ := List.mem_map.1 hb'
        have hst := hs1 t ht
        cases t with
        | dot => simp [Tok.isSingle] at hst
        | bang => simp [Tok.isSingle] at hst
        | one S =>
          obtain ⟨f, hf, hS, hi⟩ := single_char (hb _ ht) hst
          have h1 := hbl _ ht
          have h2 := hdash S ht
          rw [hi]
          simp only [and_ff]
          rw [show (256 + f) % 256 = f by omega]
          simp only [Tok.bracketless, hS] at h1
          rw [hS] at h2
          simp at h1 h2
          exact ⟨ofNat_ne_of (by omega) (fun h => h1.1 h.symm),
            ofNat_ne_of (by omega) (fun h => h1.2 h.symm), ofNat_ne_of (by omega) (fun h => h2 h.symm)⟩
      · rw [noDash_plain _ (by decide) (by decide) (by decide),
          noDash_canonRange ts hb hw hbl]
    · obtain ⟨hascii, d, ds, hfil, hd⟩ : (∀ x ∈ c :: p, x.toNat < 128) ∧
          ∃ d ds, (c :: p).filter (· ≠ '-') = d :: ds ∧ d ≠ '_' := by
        unfold Expressible at he
        split at he
        · rename_i h'; simp at h'; exact absurd h'.1 hc
        · exact he
      obtain ⟨hn1, hn2⟩ : '[' ∉ c :: p ∧ ']' ∉ c :: p := by
        unfold Bracketless at hbk
        split at hbk
        · rename_i h'; simp at h'; exact absurd h'.1 hc
        · exact hbk
      rw [parse_literal hc] at h
      cases h
      rw [utf8_filter_dash _ hascii, canonical_literal _ (fun b hb => by have := utf8_le _ b hb; omega),
        latin1Decode_utf8 _ (fun x hx => hascii x (List.mem_filter.1 hx).1)]
      apply noDash_id
      intro x hx
      obtain ⟨hx1, hx2⟩ := List.mem_filter.1 hx
      refine ⟨?_, ?_, by simpa using hx2⟩
      · rintro rfl; exact hn1 hx1
      · rintro rfl; exact hn2 hx1

end ALint.Pattern
