import Verif.Model.Pattern
import Verif.Spec.Pattern

namespace ALint.Pattern
open ALint.Spec

/-! ### bytes of UTF-8 -/

theorem utf8EncodeChar_le (c : Char) : ∀ b ∈ String.utf8EncodeChar c, b.toNat ≤ 0xf7 := by
  intro b hb
  unfold String.utf8EncodeChar at hb
  simp only at hb
  split at hb
  · have : c.toNat = c.val.toNat := rfl
    simp at hb; subst hb; simp; omega
  · split at hb
    · simp at hb
      rcases hb with rfl | rfl <;> simp <;> omega
    · split at hb
      · simp at hb
        rcases hb with rfl | rfl | rfl <;> simp <;> omega
      · simp at hb
        rcases hb with rfl | rfl | rfl | rfl <;> simp <;> omega

theorem utf8_le (s : Str) : ∀ b ∈ utf8 s, b ≤ 0xf7 := by
  intro b hb
  simp only [utf8, List.mem_flatMap, List.mem_map] at hb
  obtain ⟨c, _, u, hu, rfl⟩ := hb
  exact utf8EncodeChar_le c u hu

theorem utf8EncodeChar_ascii (c : Char) (h : c.toNat < 128) :
    (String.utf8EncodeChar c).map UInt8.toNat = [c.toNat] := by
  have hc : c.toNat = c.val.toNat := rfl
  unfold String.utf8EncodeChar
  simp only
  rw [if_pos (by omega)]
  simp
  omega

theorem utf8_cons_ascii (c : Char) (s : Str) (h : c.toNat < 128) :
    utf8 (c :: s) = c.toNat :: utf8 s := by
  simp [utf8, utf8EncodeChar_ascii c h]

theorem utf8_cons (c : Char) (s : Str) :
    utf8 (c :: s) = (String.utf8EncodeChar c).map UInt8.toNat ++ utf8 s := by
  simp [utf8]

theorem utf8_append (a b : Str) : utf8 (a ++ b) = utf8 a ++ utf8 b := by
  simp [utf8]

theorem ofNat_toNat_ascii {n : Nat} (h : n < 128) : (Char.ofNat n).toNat = n := by
  have hv : n.isValidChar := Or.inl (by omega)
  simp [Char.ofNat, hv, Char.ofNatAux, Char.toNat]

theorem ofNat_toNat_256 {n : Nat} (h : n < 256) : (Char.ofNat n).toNat = n := by
  have hv : n.isValidChar := Or.inl (by omega)
  simp [Char.ofNat, hv, Char.ofNatAux, Char.toNat]

/-- Decoding ASCII bytes and encoding again is the identity. -/
theorem utf8_latin1Decode (bs : List Nat) (h : ∀ b ∈ bs, b < 128) :
    utf8 (latin1Decode bs) = bs := by
  induction bs with
  | nil => rfl
  | cons b bs ih =>
    have hb : b < 128 := h b (by simp)
    simp only [latin1Decode, List.map_cons]
    rw [utf8_cons_ascii _ _ (by rw [ofNat_toNat_ascii hb]; exact hb), ofNat_toNat_ascii hb]
    congr 1
    exact ih (fun x hx => h x (by simp [hx]))

/-! ### sets -/

theorem mem_byteRange {a b c : Nat} : c ∈ byteRange a b ↔ a ≤ c ∧ c ≤ b := by
  simp only [byteRange, List.mem_map, List.mem_range]
  constructor
  · rintro ⟨i, hi, rfl⟩; omega
  · rintro ⟨h1, h2⟩; exact ⟨c - a, by omega, by omega⟩

theorem mem_usedList (l : List Nat) (c : Nat) : c ∈ usedList l ↔ inSet l c = true := by
  fun_induction usedList l with
  | case1 a b rest ih =>
    simp only [List.mem_append, ih, inSet, if_true, Bool.or_eq_true, between, decide_eq_true_eq]
    split <;> rw [mem_byteRange] <;> apply or_congr_left <;> omega
  | case2 a d b rest h ih =>
    simp [ih, inSet, h]
  | case3 l h =>
    match l, h with
    | [], _ => simp [inSet]
    | [a], _ => simp [inSet]
    | [a, b], _ => simp [inSet]
    | a :: d :: b :: rest, h => exact absurd rfl (h a d b rest)

/-- The ascending list of the bytes in a set. -/
def members (S : Nat → Bool) : List Nat := (List.range 256).filter S

theorem mem_members {S : Nat → Bool} {b : Nat} : b ∈ members S ↔ b < 256 ∧ S b = true := by
  simp [members]

theorem inSet_bound {l : List Nat} {n : Nat} (h : ∀ b ∈ l, b ≤ n) {c : Nat}
    (hc : inSet l c = true) : c ≤ n := by
  fun_induction inSet l c with
  | case1 => simp at hc
  | case2 c a => simp at hc; subst hc; exact h _ (by simp)
  | case3 c a b => simp at hc; rcases hc with rfl | rfl <;> exact h _ (by simp)
  | case4 a b rest c ih =>
    simp only [Bool.or_eq_true, between, decide_eq_true_eq] at hc
    have ha := h a (by simp)
    have hb := h b (by simp)
    rcases hc with hc | hc
    · omega
    · exact ih (fun x hx => h x (by simp [hx])) hc
  | case5 a d b rest c hd ih =>
    simp only [Bool.or_eq_true, beq_iff_eq] at hc
    rcases hc with rfl | hc
    · exact h _ (by simp)
    · exact ih (fun x hx => h x (List.mem_cons_of_mem _ hx)) hc

theorem sortedSet_usedList (l : List Nat) : sortedSet (usedList l) = members (inSet l) := by
  simp only [sortedSet, members]
  congr 1
  funext b
  rw [Bool.eq_iff_iff]
  simp [mem_usedList]

theorem members_sorted (S : Nat → Bool) : (members S).Pairwise (· < ·) :=
  List.Pairwise.filter _ List.pairwise_lt_range

/-- The item for an ascending list of bytes (pattern.py:189-197). -/
def mkItem (l : List Nat) : Item :=
  match l with
  | [] => (0, none)
  | first :: others =>
    let num := ((first :: others).length * 0x100) ||| first
    if (first :: others).length > 1 ∧
        (first :: others).getLast (by simp) - first ≠ (first :: others).length - 1 then
      (num, some (first :: others))
    else (num, none)

theorem parseRangeList_eq (raw : List Nat) :
    parseRangeList raw =
      if members (inSet raw) = [] then .error .indexError
      else .ok (mkItem (members (inSet raw))) := by
  unfold parseRangeList
  rw [sortedSet_usedList]
  cases hm : members (inSet raw) with
  | nil => simp
  | cons f o =>
    simp only [mkItem]
    split <;> simp

theorem lor_num {n f : Nat} (hf : f < 256) : (n * 0x100) ||| f = n * 0x100 + f := by
  have := Nat.shiftLeft_add_eq_or_of_lt (i := 8) (b := f) (by omega) n
  rw [Nat.shiftLeft_eq] at this
  exact this.symm

theorem inSet_nonempty {l : List Nat} (hl : l ≠ []) (hb : ∀ b ∈ l, b < 256) :
    members (inSet l) ≠ [] := by
  match l, hl with
  | [a], _ =>
    intro h
    have : a ∈ members (inSet [a]) := mem_members.2 ⟨hb a (by simp), by simp [inSet]⟩
    simp [h] at this
  | [a, b], _ =>
    intro h
    have : a ∈ members (inSet [a, b]) := mem_members.2 ⟨hb a (by simp), by simp [inSet]⟩
    simp [h] at this
  | a :: d :: b :: rest, _ =>
    intro h
    have : a ∈ members (inSet (a :: d :: b :: rest)) := by
      refine mem_members.2 ⟨hb a (by simp), ?_⟩
      simp only [inSet]
      split
      · simp [between]; omega
      · simp
    simp [h] at this

/-! ### the pattern loop -/

theorem splitBracket_some {raw inner rest : List Nat} (h : splitBracket raw = some (inner, rest)) :
    raw = inner ++ 0x5d :: rest ∧ 0x5d ∉ inner := by
  induction raw generalizing inner rest with
  | nil => simp [splitBracket] at h
  | cons b bs ih =>
    simp only [splitBracket] at h
    split at h
    · rename_i hb; simp at h; obtain ⟨rfl, rfl⟩ := h; simp [hb]
    · split at h
      · simp at h
      · rename_i hb _ i r hs
        simp at h
        obtain ⟨rfl, rfl⟩ := h
        obtain ⟨h1, h2⟩ := ih hs
        subst h1
        simp only [List.cons_append, List.mem_cons, not_or, true_and]
        exact ⟨fun h => hb h.symm, h2⟩

theorem splitBracket_append {inner rest : List Nat} (h : 0x5d ∉ inner) :
    splitBracket (inner ++ 0x5d :: rest) = some (inner, rest) := by
  induction inner with
  | nil => simp [splitBracket]
  | cons b bs ih =>
    simp at h
    simp [splitBracket, ih h.2, Ne.symm h.1]

theorem exists_split {raw : List Nat} (hm : 0x5d ∈ raw) :
    ∃ a b, raw = a ++ 0x5d :: b ∧ 0x5d ∉ a := by
  induction raw with
  | nil => simp at hm
  | cons x xs ih =>
    by_cases hx : x = 0x5d
    · exact ⟨[], xs, by simp [hx], by simp⟩
    · have hm' : 0x5d ∈ xs := by
        rcases List.mem_cons.1 hm with h | h
        · exact absurd h.symm hx
        · exact h
      obtain ⟨i, r, hir, hi⟩ := ih hm'
      exact ⟨x :: i, r, by simp [hir], by simp [hi, Ne.symm hx]⟩

theorem splitBracket_none {raw : List Nat} : splitBracket raw = none ↔ 0x5d ∉ raw := by
  constructor
  · intro h hm
    obtain ⟨a, b, rfl, ha⟩ := exists_split hm
    rw [splitBracket_append ha] at h
    simp at h
  · intro h
    cases hs : splitBracket raw with
    | none => rfl
    | some p =>
      obtain ⟨h1, -⟩ := splitBracket_some (inner := p.1) (rest := p.2) hs
      exact absurd (by rw [h1]; simp) h

theorem parseBytesFuel_enough (raw : List Nat) :
    ∀ n, raw.length ≤ n → parseBytesFuel n raw = parseBytesFuel raw.length raw := by
  induction hlen : raw.length using Nat.strongRecOn generalizing raw with
  | ind len ih =>
    intro n hn
    cases raw with
    | nil => cases n <;> subst hlen <;> simp [parseBytesFuel]
    | cons num raw =>
      simp at hlen
      obtain ⟨n, rfl⟩ : ∃ m, n = m + 1 := ⟨n - 1, by omega⟩
      subst hlen
      have h1 : parseBytesFuel n raw = parseBytesFuel raw.length raw :=
        ih raw.length (by omega) raw rfl n (by omega)
      simp only [parseBytesFuel, h1]
      repeat' split
      all_goals try rfl
      rename_i inner rest hs _ _ _
      have := (splitBracket_some hs).1
      have hl : rest.length < raw.length := by rw [this]; simp; omega
      rw [ih rest.length (by omega) rest rfl n (by omega),
        ih rest.length (by omega) rest rfl raw.length (by omega)]

theorem parseBytes_nil : parseBytes [] = .ok [(0x30000, none)] := rfl

theorem parseBytes_cons (num : Nat) (raw : List Nat) :
    parseBytes (num :: raw) =
    if num = 0x2d then parseBytes raw
    else if num = 0x58 ∨ num = 0x78 then (parseBytes raw).map ((0xa30, none) :: ·)
    else if num = 0x5a ∨ num = 0x7a then (parseBytes raw).map ((0x931, none) :: ·)
    else if num = 0x4e ∨ num = 0x6e then (parseBytes raw).map ((0x832, none) :: ·)
    else if num = 0x2e then (parseBytes raw).map ((0x18000, none) :: ·)
    else if num = 0x21 then (parseBytes raw).map ((0x28000, none) :: ·)
    else if num = 0x5b then
      match splitBracket raw with
      | none => .error .valueError
      | some (inner, rest) =>
        match parseRangeList inner with
        | .error e => .error e
        | .ok item => (parseBytes rest).map (item :: ·)
    else (parseBytes raw).map ((0x100 + num, none) :: ·) := by
  unfold parseBytes
  simp only [List.length_cons, parseBytesFuel]
  cases hs : splitBracket raw with
  | none => rfl
  | some p =>
    obtain ⟨inner, rest⟩ := p
    have := (splitBracket_some hs).1
    simp only [parseBytesFuel_enough rest raw.length (by rw [this]; simp; omega)]
    rfl

/-- The item of a token. -/
def tokItem : Tok → Item
  | .one S => mkItem (members S)
  | .dot => (0x18000, none)
  | .bang => (0x28000, none)

theorem mkItem_single (b : Nat) (hb : b < 256) : mkItem [b] = (0x100 + b, none) := by
  have := lor_num (n := 1) hb
  simp [mkItem]
  simpa using this

theorem members_single (b : Nat) (hb : b < 256) : members (· == b) = [b] := by
  have key : ∀ n, (List.range n).filter (· == b) = if b < n then [b] else [] := by
    intro n
    induction n with
    | zero => simp
    | succ n ih =>
      rw [List.range_succ, List.filter_append, ih]
      by_cases h : n = b
      · subst h; simp
      · by_cases h2 : b < n
        · simp [h, h2]; omega
        · simp [h, h2]; omega
  have := key 256
  rw [if_pos hb] at this
  exact this

theorem mkItem_X : mkItem (members (between 0x30 0x39)) = (0xa30, none) := by decide
theorem mkItem_Z : mkItem (members (between 0x31 0x39)) = (0x931, none) := by decide
theorem mkItem_N : mkItem (members (between 0x32 0x39)) = (0x832, none) := by decide

/-- Reading a pattern text determines the parsed items. -/
theorem parseBytes_of_reads {p : List Nat} {ts : List Tok} (h : Reads p ts)
    (hb : ∀ b ∈ p, b < 256) :
    parseBytes p = .ok (ts.map tokItem ++ [(0x30000, none)]) := by
  induction h with
  | nil => rfl
  | dash _ ih => rw [parseBytes_cons]; simp [ih (fun b h => hb b (by simp [h]))]
  | x h _ ih =>
    rw [parseBytes_cons]
    rcases h with rfl | rfl <;>
      simp [ih (fun b h => hb b (by simp [h])), tokItem, mkItem_X, Except.map]
  | z h _ ih =>
    rw [parseBytes_cons]
    rcases h with rfl | rfl <;>
      simp [ih (fun b h => hb b (by simp [h])), tokItem, mkItem_Z, Except.map]
  | n h _ ih =>
    rw [parseBytes_cons]
    rcases h with rfl | rfl <;>
      simp [ih (fun b h => hb b (by simp [h])), tokItem, mkItem_N, Except.map]
  | dot _ ih =>
    rw [parseBytes_cons]
    simp [ih (fun b h => hb b (by simp [h])), tokItem, Except.map]
  | bang _ ih =>
    rw [parseBytes_cons]
    simp [ih (fun b h => hb b (by simp [h])), tokItem, Except.map]
  | @set inner p ts h1 h2 _ ih =>
    rw [parseBytes_cons]
    have hne := inSet_nonempty h2 (fun b h => hb b (by simp [h]))
    simp [splitBracket_append h1, parseRangeList_eq, hne,
      ih (fun b h => hb b (by simp [h])), tokItem, Except.map]
  | @lit b p ts h _ ih =>
    have hbb : b < 256 := hb b (by simp)
    rw [parseBytes_cons]
    simp at h
    simp [h, ih (fun b h => hb b (by simp [h])), tokItem, Except.map,
      members_single b hbb, mkItem_single b hbb]

/-- A text that parses consists of tokens. -/
theorem reads_of_parseBytes {p : List Nat} {items : List Item}
    (h : parseBytes p = .ok items) : ∃ ts, Reads p ts := by
  induction hlen : p.length using Nat.strongRecOn generalizing p items with
  | ind len ih =>
    cases p with
    | nil => exact ⟨[], .nil⟩
    | cons num raw =>
      have hl : raw.length < len := by simp at hlen; omega
      have mapOk : ∀ (f : List Item → List Item) (q : List Nat) (its : List Item),
          (parseBytes q).map f = .ok its → ∃ its', parseBytes q = .ok its' := by
        intro f q its hq
        cases hp : parseBytes q with
        | ok its' => exact ⟨_, rfl⟩
        | error e => simp [hp, Except.map] at hq
      rw [parseBytes_cons] at h
      split at h
      · rename_i hn; subst hn
        obtain ⟨ts, hts⟩ := ih _ hl h rfl
        exact ⟨ts, .dash hts⟩
      split at h
      · rename_i hn
        obtain ⟨its, hi⟩ := mapOk _ _ _ h
        obtain ⟨ts, hts⟩ := ih _ hl hi rfl
        exact ⟨_, .x hn hts⟩
      split at h
      · rename_i hn
        obtain ⟨its, hi⟩ := mapOk _ _ _ h
        obtain ⟨ts, hts⟩ := ih _ hl hi rfl
        exact ⟨_, .z hn hts⟩
      split at h
      · rename_i hn
        obtain ⟨its, hi⟩ := mapOk _ _ _ h
        obtain ⟨ts, hts⟩ := ih _ hl hi rfl
        exact ⟨_, .n hn hts⟩
      split at h
      · rename_i hn; subst hn
        obtain ⟨its, hi⟩ := mapOk _ _ _ h
        obtain ⟨ts, hts⟩ := ih _ hl hi rfl
        exact ⟨_, .dot hts⟩
      split at h
      · rename_i hn; subst hn
        obtain ⟨its, hi⟩ := mapOk _ _ _ h
        obtain ⟨ts, hts⟩ := ih _ hl hi rfl
        exact ⟨_, .bang hts⟩
      split at h
      · rename_i hn; subst hn
        split at h
        · simp at h
        · rename_i inner rest hs
          split at h
          · simp at h
          · rename_i item hp
            obtain ⟨h1, h2⟩ := splitBracket_some hs
            obtain ⟨its, hi⟩ := mapOk _ _ _ h
            obtain ⟨ts, hts⟩ := ih rest.length (by subst h1; simp at hl; omega) hi rfl
            subst h1
            refine ⟨_, .set h2 ?_ hts⟩
            rintro rfl
            have hz : members (inSet []) = [] := by
              rw [List.eq_nil_iff_forall_not_mem]
              intro a ha
              simp [mem_members, inSet] at ha
            rw [parseRangeList_eq, if_pos hz] at hp
            simp at hp
      · rename_i n1 n2 n3 n4 n5 n6 n7
        obtain ⟨its, hi⟩ := mapOk _ _ _ h
        obtain ⟨ts, hts⟩ := ih _ hl hi rfl
        refine ⟨_, .lit ?_ hts⟩
        simp; omega

/-! ### contiguous lists -/

theorem sorted_getLast_ge (f : Nat) (o : List Nat) (h : (f :: o).Pairwise (· < ·)) :
    f + o.length ≤ (f :: o).getLast (by simp) := by
  induction o generalizing f with
  | nil => simp
  | cons g o ih =>
    have hg : f < g := (List.pairwise_cons.1 h).1 g (by simp)
    have := ih g (List.pairwise_cons.1 h).2
    simp only [List.length_cons, List.getLast_cons_cons] at *
    omega

theorem contiguous (f : Nat) (o : List Nat) (h : (f :: o).Pairwise (· < ·))
    (hl : (f :: o).getLast (by simp) ≤ f + o.length) :
    f :: o = List.range' f (o.length + 1) := by
  induction o generalizing f with
  | nil => simp
  | cons g o ih =>
    have hg : f < g := (List.pairwise_cons.1 h).1 g (by simp)
    have h2 := sorted_getLast_ge g o (List.pairwise_cons.1 h).2
    simp only [List.length_cons, List.getLast_cons_cons] at *
    have : g = f + 1 := by omega
    subst this
    rw [List.range'_succ, ← ih (f + 1) (List.pairwise_cons.1 h).2 (by omega)]

/-- The two shapes of an item: an explicit list with gaps, or a contiguous run. -/
theorem mkItem_cases (f : Nat) (o : List Nat) (h : (f :: o).Pairwise (· < ·)) (hf : f < 256) :
    (mkItem (f :: o) = ((o.length + 1) * 256 + f, some (f :: o)) ∧ 0 < o.length ∧
      f + o.length < (f :: o).getLast (by simp)) ∨
    (mkItem (f :: o) = ((o.length + 1) * 256 + f, none) ∧
      f :: o = List.range' f (o.length + 1)) := by
  have hge := sorted_getLast_ge f o h
  simp only [mkItem, lor_num hf, List.length_cons]
  split
  · rename_i hc
    left
    refine ⟨rfl, by omega, by omega⟩
  · rename_i hc
    right
    refine ⟨rfl, contiguous f o h ?_⟩
    by_cases ho : 0 < o.length
    · omega
    · have : o = [] := List.eq_nil_of_length_eq_zero (by omega)
      subst this; simp

theorem length_le_of_sorted (f : Nat) (o : List Nat) (h : (f :: o).Pairwise (· < ·)) {n : Nat}
    (hb : ∀ b ∈ f :: o, b ≤ n) : f + o.length ≤ n := by
  have h1 := sorted_getLast_ge f o h
  have h2 := hb _ (List.getLast_mem (l := f :: o) (by simp))
  omega

/-! ### matching -/

/-- The test for one character in `matches_extension` (pattern.py:365-372). -/
def itemAccepts (v : Item) (c : Nat) : Bool :=
  match v.2 with
  | some set => set.contains c
  | none => decide ((v.1 &&& 0xff) ≤ c ∧ c < (v.1 &&& 0xff) + ((v.1 >>> 8) &&& 0xff))

theorem matchItems_cons_cons (v : Item) (vs : List Item) (c : Nat) (cs : List Nat)
    (hv : v.1 < 0x10000) :
    matchItems (v :: vs) (c :: cs) = (itemAccepts v c && matchItems vs cs) := by
  rw [matchItems]
  rw [if_neg (by omega)]
  obtain ⟨n, o⟩ := v
  cases o with
  | none =>
    simp only [itemAccepts]
    split
    · rename_i h; simp [h]
    · rename_i h
      rw [decide_eq_false h]; rfl
  | some set => simp only [itemAccepts]; cases set.contains c <;> simp

theorem and_ff (n : Nat) : n &&& 0xff = n % 256 := Nat.and_two_pow_sub_one_eq_mod n 8

theorem shr8 (n : Nat) : n >>> 8 = n / 256 := Nat.shiftRight_eq_div_pow n 8

theorem mkItem_lt (f : Nat) (o : List Nat) (h : (f :: o).Pairwise (· < ·))
    (hb : ∀ b ∈ f :: o, b ≤ 0xf7) : (mkItem (f :: o)).1 < 0x10000 := by
  have hl := length_le_of_sorted f o h hb
  rcases mkItem_cases f o h (by have := hb f (by simp); omega) with ⟨he, _⟩ | ⟨he, _⟩ <;>
    (rw [he]; simp only; omega)

theorem itemAccepts_mkItem (f : Nat) (o : List Nat) (h : (f :: o).Pairwise (· < ·))
    (hb : ∀ b ∈ f :: o, b ≤ 0xf7) (c : Nat) :
    itemAccepts (mkItem (f :: o)) c = true ↔ c ∈ f :: o := by
  have hl := length_le_of_sorted f o h hb
  rcases mkItem_cases f o h (by have := hb f (by simp); omega) with ⟨he, _⟩ | ⟨he, hr⟩
  · rw [he]; simp [itemAccepts]
  · rw [he, hr, List.mem_range'_1]
    have h1 : ((o.length + 1) * 256 + f) / 256 = o.length + 1 := by omega
    have h2 : ((o.length + 1) * 256 + f) % 256 = f := by omega
    simp only [itemAccepts, and_ff, shr8, decide_eq_true_eq, h1, h2]
    omega

/-- Sets whose elements are bytes of a UTF-8 text. -/
def TokBound : Tok → Prop
  | .one S => (∀ c, S c = true → c ≤ 0xf7) ∧ ∃ c, S c = true
  | _ => True

theorem reads_bound {p : List Nat} {ts : List Tok} (h : Reads p ts) (hb : ∀ b ∈ p, b ≤ 0xf7) :
    ∀ t ∈ ts, TokBound t := by
  have tail : ∀ {b : Nat} {p : List Nat}, (∀ x ∈ b :: p, x ≤ 0xf7) → ∀ x ∈ p, x ≤ 0xf7 :=
    fun h x hx => h x (by simp [hx])
  have cons : ∀ {t : Tok} {ts : List Tok}, TokBound t → (∀ t ∈ ts, TokBound t) →
      ∀ u ∈ t :: ts, TokBound u := by
    intro t ts h1 h2 u hu
    rcases List.mem_cons.1 hu with rfl | hu
    · exact h1
    · exact h2 u hu
  induction h with
  | nil => simp
  | dash _ ih => exact ih (tail hb)
  | x _ _ ih => exact cons ⟨by simp [between]; omega, 0x32, by decide⟩ (ih (tail hb))
  | z _ _ ih => exact cons ⟨by simp [between]; omega, 0x32, by decide⟩ (ih (tail hb))
  | n _ _ ih => exact cons ⟨by simp [between]; omega, 0x32, by decide⟩ (ih (tail hb))
  | dot _ ih => exact cons trivial (ih (tail hb))
  | bang _ ih => exact cons trivial (ih (tail hb))
  | @set inner p ts h1 h2 _ ih =>
    have hi : ∀ b ∈ inner, b ≤ 0xf7 := fun b h => hb b (by simp [h])
    refine cons ⟨fun c hc => inSet_bound hi hc, ?_⟩ (ih (fun b h => hb b (by simp [h])))
    obtain ⟨x, hx⟩ := List.exists_mem_of_ne_nil _
      (inSet_nonempty h2 (fun b h => by have := hi b h; omega))
    exact ⟨x, (mem_members.1 hx).2⟩
  | @lit b p ts _ _ ih =>
    refine cons ⟨?_, b, by simp⟩ (ih (tail hb))
    intro c hc
    simp at hc; subst hc; exact hb _ (by simp)

/-- A bounded set as a list. -/
theorem members_cons {S : Nat → Bool} (h : TokBound (.one S)) :
    ∃ f o, members S = f :: o ∧ (f :: o).Pairwise (· < ·) ∧ (∀ b ∈ f :: o, b ≤ 0xf7) ∧
      ∀ c, S c = true ↔ c ∈ f :: o := by
  obtain ⟨h1, c, hc⟩ := h
  have hm : ∀ c, S c = true ↔ c ∈ members S := fun c =>
    ⟨fun hc => mem_members.2 ⟨by have := h1 c hc; omega, hc⟩, fun hc => (mem_members.1 hc).2⟩
  cases hl : members S with
  | nil => have := (hm c).1 hc; simp [hl] at this
  | cons f o =>
    refine ⟨f, o, rfl, hl ▸ members_sorted S, ?_, by rw [← hl]; exact hm⟩
    intro b hb
    rw [← hl, ← hm] at hb
    exact h1 b hb

theorem tokItem_one {S : Nat → Bool} (h : TokBound (.one S)) :
    (tokItem (.one S)).1 < 0x10000 ∧ ∀ c, itemAccepts (tokItem (.one S)) c = S c := by
  obtain ⟨f, o, hl, hs, hb, hm⟩ := members_cons h
  simp only [tokItem, hl]
  refine ⟨mkItem_lt f o hs hb, fun c => ?_⟩
  rw [Bool.eq_iff_iff, itemAccepts_mkItem f o hs hb, hm]

/-- `matches_extension` on a pattern accepts exactly the extensions with a prefix
in the language. -/
theorem matchItems_iff (ts : List Tok) (hts : ∀ t ∈ ts, TokBound t) (e : List Nat) :
    matchItems (ts.map tokItem ++ [(0x30000, none)]) e = true ↔
      ∃ e', e' <+: e ∧ Lang ts e' := by
  induction ts generalizing e with
  | nil =>
    constructor
    · intro _; exact ⟨[], List.nil_prefix, .nil⟩
    · intro _; cases e <;> simp [matchItems]
  | cons t ts ih =>
    have ht := hts t (by simp)
    have ih := ih (fun t h => hts t (by simp [h]))
    cases t with
    | one S =>
      obtain ⟨hlt, hacc⟩ := tokItem_one ht
      cases e with
      | nil =>
        simp only [List.map_cons, List.cons_append, matchItems]
        constructor
        · intro h; simp at h; omega
        · rintro ⟨e', he, hl⟩
          simp at he; subst he; cases hl
      | cons c cs =>
        simp only [List.map_cons, List.cons_append]
        rw [matchItems_cons_cons _ _ _ _ hlt, hacc, Bool.and_eq_true, ih]
        constructor
        · rintro ⟨hc, e', he, hl⟩
          exact ⟨c :: e', by simpa using he, .one hc hl⟩
        · rintro ⟨e', he, hl⟩
          cases hl with
          | one hc hl =>
            rename_i c' e''
            simp at he
            obtain ⟨rfl, he⟩ := he
            exact ⟨hc, e'', he, hl⟩
    | dot =>
      cases e with
      | nil =>
        simp only [List.map_cons, List.cons_append, matchItems, tokItem]
        constructor
        · intro h; simp at h
        · rintro ⟨e', he, hl⟩
          simp at he; subst he
          cases hl with | dot h => exact absurd rfl h
      | cons c cs =>
        simp only [List.map_cons, List.cons_append, matchItems, tokItem]
        simp only [true_or, if_true, true_iff]
        exact ⟨c :: cs, List.prefix_rfl, .dot (by simp)⟩
    | bang =>
      constructor
      · intro _; exact ⟨e, List.prefix_rfl, .bang⟩
      · intro _; cases e <;> simp [matchItems, tokItem]

theorem matchItems_literal (bs : List Nat) (hb : ∀ b ∈ bs, b < 256) (e : List Nat) :
    matchItems (bs.map (fun b => (0x100 + b, none))) e = true ↔ e = bs := by
  induction bs generalizing e with
  | nil => cases e <;> simp [matchItems]
  | cons b bs ih =>
    have hbb := hb b (by simp)
    cases e with
    | nil => simp [matchItems]; omega
    | cons c cs =>
      simp only [List.map_cons]
      rw [matchItems_cons_cons _ _ _ _ (by simp only; omega), Bool.and_eq_true,
        ih (fun x h => hb x (by simp [h]))]
      simp only [itemAccepts, and_ff, shr8, decide_eq_true_eq, List.cons.injEq]
      constructor
      · rintro ⟨h1, h2⟩; exact ⟨by omega, h2⟩
      · rintro ⟨h1, h2⟩; exact ⟨by omega, h2⟩

end ALint.Pattern
