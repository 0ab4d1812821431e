import Verif.Spec.Cond
import Verif.Props.App

/-!
# Lemmas on conditions
-/

namespace ALint
open ALint.Spec ALint.Props

theorem pieces_sep (d : Char) (hd : d ∉ sepSpecial) (data : V) :
    Pieces d data.tokens ((separateArgs d false (.one data)).map V.tokens) := by
  obtain ⟨h1, _, h3⟩ := C40_lossless d data
  refine ⟨by simpa using h1, h3, ?_⟩
  intro pre post h
  rw [C42_boundary d hd data pre post h]
  constructor
  · rintro ⟨l, r, hl, hr, he, hp⟩
    exact ⟨l.map V.tokens, r.map V.tokens, by simpa using hl, by simpa using hr, by rw [he]; simp, hp⟩
  · rintro ⟨l, r, hl, hr, he, hp⟩
    obtain ⟨l', r', he', hl', hr'⟩ := List.map_eq_append_iff.1 he
    subst hl' hr'
    exact ⟨l', r', by simpa using hl, by simpa using hr, he', hp⟩

theorem sepBy_append {α : Type} (x : α) (l r : List (List α)) (hl : l ≠ []) (hr : r ≠ []) :
    sepBy x (l ++ r) = sepBy x l ++ x :: sepBy x r := by
  induction l with
  | nil => exact absurd rfl hl
  | cons a l ih =>
    cases l with
    | nil => exact sepBy_cons_ne x a r hr
    | cons b l =>
      rw [List.cons_append, sepBy_cons_ne x a (b :: l ++ r) (by simp), ih (by simp), sepBy_cons_ne x a (b :: l) (by simp)]
      simp

theorem sepBy_snoc_inj {α : Type} (x : α) (a : List (List α)) (p q : List α) (h : sepBy x (a ++ [p]) = sepBy x (a ++ [q])) : p = q := by
  by_cases ha : a = []
  · subst ha; exact h
  · rw [sepBy_append x a [p] ha (by simp), sepBy_append x a [q] ha (by simp)] at h
    have := List.append_cancel_left h
    exact (List.cons.inj this).2

theorem sepBy_length_le {α : Type} (x : α) (l r : List (List α)) (hl : l ≠ []) : (sepBy x l).length ≤ (sepBy x (l ++ r)).length := by
  by_cases hr : r = []
  · simp [hr]
  · rw [sepBy_append x l r hl hr]; simp

theorem sepBy_length_lt {α : Type} (x : α) (l r : List (List α)) (hl : l ≠ []) (hr : r ≠ []) :
    (sepBy x l).length < (sepBy x (l ++ r)).length := by
  rw [sepBy_append x l r hl hr]; simp

/-- Cuts are determined. -/
theorem pieces_unique {d : Char} {toks : List V} {parts parts' : List (List V)} (h : Pieces d toks parts) (h' : Pieces d toks parts') :
    parts = parts' := by
  have half : ∀ {parts parts' : List (List V)}, Pieces d toks parts → Pieces d toks parts' →
      ∀ a p ps p' ps', parts = a ++ p :: ps → parts' = a ++ p' :: ps' → ps ≠ [] →
      ps' ≠ [] ∧ (sepBy (V.str [d]) (a ++ [p'])).length ≤ (sepBy (V.str [d]) (a ++ [p])).length := by
    intro parts parts' h h' a p ps p' ps' he he' hps
    have hb : toks = sepBy (V.str [d]) (a ++ [p]) ++ V.str [d] :: sepBy (V.str [d]) ps := by
      rw [← h.2.1, he, show a ++ p :: ps = (a ++ [p]) ++ ps by simp, sepBy_append _ _ _ (by simp) hps]
    have ht := (h.2.2 _ _ hb).2 ⟨a ++ [p], ps, by simp, hps, by rw [he]; simp, rfl⟩
    obtain ⟨l, r, hl, hr, hlr, hbl⟩ := (h'.2.2 _ _ hb).1 ht
    rw [he'] at hlr
    rcases List.append_eq_append_iff.1 hlr with ⟨c, h1, h2⟩ | ⟨c, h1, h2⟩
    · -- l = a ++ c
      cases c with
      | nil =>
        simp only [List.append_nil] at h1
        subst h1
        have := sepBy_length_lt (V.str [d]) l [p] hl (by simp)
        rw [hbl] at this
        exact absurd this (by omega)
      | cons y c =>
        simp only [List.cons_append, List.cons.injEq] at h2
        obtain ⟨rfl, rfl⟩ := h2
        refine ⟨by simp [hr], ?_⟩
        rw [hbl, h1]
        have := sepBy_length_le (V.str [d]) (a ++ [p']) c (by simp)
        simpa using this
    · -- a = l ++ c
      subst h1
      have := sepBy_length_lt (V.str [d]) l (c ++ [p]) hl (by simp)
      rw [← List.append_assoc, hbl] at this
      exact absurd this (by omega)
  have main : ∀ ps ps' a p p', parts = a ++ p :: ps → parts' = a ++ p' :: ps' → p :: ps = p' :: ps' := by
    intro ps
    induction ps with
    | nil =>
      intro ps' a p p' he he'
      cases ps' with
      | nil =>
        have := h.2.1.trans h'.2.1.symm
        rw [he, he'] at this
        rw [sepBy_snoc_inj _ _ _ _ this]
      | cons q ps' => exact absurd rfl (half h' h a p' (q :: ps') p [] he' he (by simp)).1
    | cons q ps ih =>
      intro ps' a p p' he he'
      obtain ⟨h1, h2⟩ := half h h' a p (q :: ps) p' ps' he he' (by simp)
      obtain ⟨_, h3⟩ := half h' h a p' ps' p (q :: ps) he' he h1
      have hp : p = p' := by
        have e1 : toks = sepBy (V.str [d]) (a ++ [p]) ++ V.str [d] :: sepBy (V.str [d]) (q :: ps) := by
          rw [← h.2.1, he, show a ++ p :: q :: ps = (a ++ [p]) ++ (q :: ps) by simp, sepBy_append _ _ _ (by simp) (by simp)]
        have e2 : toks = sepBy (V.str [d]) (a ++ [p']) ++ V.str [d] :: sepBy (V.str [d]) ps' := by
          rw [← h'.2.1, he', show a ++ p' :: ps' = (a ++ [p']) ++ ps' by simp, sepBy_append _ _ _ (by simp) h1]
        exact sepBy_snoc_inj _ a _ _ (List.append_inj_left (e1.symm.trans e2) (by omega))
      subst hp
      cases ps' with
      | nil => exact absurd rfl h1
      | cons q' ps' =>
        rw [ih ps' (a ++ [p]) q q' (by rw [he]; simp) (by rw [he']; simp)]
  cases parts with
  | nil => exact absurd rfl h.1
  | cons p ps =>
    cases parts' with
    | nil => exact absurd rfl h'.1
    | cons p' ps' => exact main ps ps' [] p p' rfl rfl

theorem unqT_spec (b : Bool) (ts : List V) : unqT b ts = unquoteToks b ts := by
  induction ts generalizing b with
  | nil => cases b <;> rfl
  | cons t ts ih =>
    cases t with
    | str s =>
      cases b with
      | true => simp only [unqT, unquoteToks, ih, if_true]
      | false => simp only [unqT, unquoteToks, ih, Bool.false_eq_true, if_false]
    | _ => cases b <;> simp only [unqT, unquoteToks, ih]

/-- The parts without quotes and backslashes. -/
theorem separate_true (d : Char) (hd : d ≠ '"') (data : V) :
    (separateArgs d true (.one data)).map V.tokens = ((separateArgs d false (.one data)).map V.tokens).map (unquoteToks false) := by
  rw [(separateArgs_tokens d true data).1, (separateArgs_tokens d false data).1, sepT_remove d hd]
  show unqHead false _ = _
  rw [unqHead_false]
  exact List.map_congr_left fun g _ => unqT_spec false g

/-! ### shapes -/

/-- What `squash` makes: a string, a variable, or strings and variables. -/
def Squashed (v : V) : Prop :=
  v.isStr = true ∨ (∃ k n s l, v = .atom k n s l) ∨
  ∃ items, v = .lst items ∧ (∀ u ∈ items, isPiece u = true) ∧ Compact items ∧ 2 ≤ items.length

theorem squash_shape (g : List V) (h : ∀ v ∈ g, isPiece v = true) : Squashed (squash g) := by
  have hp := strjoin_piece g h
  unfold squash
  split
  · rename_i v hv
    have := hp v (by rw [hv]; simp)
    cases v <;> simp [isPiece] at this
    · exact .inl rfl
    · exact .inr (.inl ⟨_, _, _, _, rfl⟩)
  · have hj := joinItems_piece _ hp
    have hc := joinItems_compact (strjoin g)
    unfold join
    split
    · exact .inl rfl
    · rename_i v hv
      have := hj v (by rw [hv]; simp)
      cases v <;> simp [isPiece] at this
      · exact .inl rfl
      · exact .inr (.inl ⟨_, _, _, _, rfl⟩)
    · rename_i h1 h2
      refine .inr (.inr ⟨_, rfl, hj, hc, ?_⟩)
      generalize joinItems (strjoin g) = q at h1 h2
      match q, h1, h2 with
      | [], h1, _ => exact absurd rfl h1
      | [v], _, h2 => exact absurd rfl (h2 v)
      | _ :: _ :: _, _, _ => simp

theorem separate_shape (d : Char) (rm : Bool) (v : V) : ∀ p ∈ separateArgs d rm (.one v), Squashed p := by
  intro p hp
  unfold separateArgs at hp
  obtain ⟨g, hg, rfl⟩ := List.mem_map.1 hp
  exact squash_shape g (sepLoop_all d rm (.one v) (fun u => isPiece u = true) (fun i j => getSlice_iter_piece v i j)
    0 v.tokens .init 0 [] (by simp) g hg)


/-! ### stripping -/

theorem stripP_nil_iff (s : Str) : stripP isSpace s = [] ↔ ∀ c ∈ s, isSpace c = true := by
  have drop_nil : ∀ t : Str, t.dropWhile isSpace = [] ↔ ∀ c ∈ t, isSpace c = true := by
    intro t
    induction t with
    | nil => simp
    | cons c t ih =>
      rw [List.dropWhile_cons]
      cases h : isSpace c <;> simp [h, ih]
  unfold stripP lstripP rstripP
  constructor
  · intro h c hc
    have h1 := (drop_nil _).1 h
    refine Classical.byContradiction fun hn => ?_
    have : c ∈ (s.reverse.dropWhile isSpace) := by
      have hs : c ∈ s.reverse.takeWhile isSpace ++ s.reverse.dropWhile isSpace := by
        rw [List.takeWhile_append_dropWhile]; simpa using hc
      rcases List.mem_append.1 hs with hs | hs
      · exact absurd (List.all_takeWhile.symm ▸ rfl : (s.reverse.takeWhile isSpace).all isSpace = true)
          (fun ha => hn (List.all_eq_true.1 ha c hs))
      · exact hs
    exact hn (h1 c (by simpa using this))
  · intro h
    rw [(drop_nil s.reverse).2 (by simpa using h)]
    rfl

theorem chars_tokens (s : Str) : (V.str s).tokens = s.map fun c => .str [c] := by rw [V.tokens]

theorem blank_chars (s : Str) : BlankToks (s.map fun c => V.str [c]) ↔ ∀ c ∈ s, isSpace c = true := by
  unfold BlankToks
  constructor
  · intro h c hc
    obtain ⟨c', he, hs⟩ := h (.str [c]) (List.mem_map.2 ⟨c, hc, rfl⟩)
    simp only [V.str.injEq, List.cons.injEq, and_true] at he
    subst he; exact hs
  · intro h t ht
    obtain ⟨c, hc, rfl⟩ := List.mem_map.1 ht
    exact ⟨c, rfl, h c hc⟩

theorem blank_append {a b : List V} : BlankToks (a ++ b) ↔ BlankToks a ∧ BlankToks b := by
  unfold BlankToks
  constructor
  · intro h; exact ⟨fun t ht => h t (by simp [ht]), fun t ht => h t (by simp [ht])⟩
  · rintro ⟨h1, h2⟩ t ht
    rcases List.mem_append.1 ht with ht | ht
    · exact h1 t ht
    · exact h2 t ht

theorem not_blank_atom {toks : List V} {k : Kind} {n s l : V} (h : V.atom k n s l ∈ toks) : ¬ BlankToks toks := by
  intro hb
  obtain ⟨c, he, _⟩ := hb _ h
  cases he

theorem tokensAll_mem {u : V} {items : List V} (h : u ∈ items) {t : V} (ht : t ∈ u.tokens) : t ∈ V.tokensAll items := by
  obtain ⟨A, B, rfl⟩ := List.append_of_mem h
  rw [tokensAll_append, V.tokensAll]; simp [ht]

theorem mem_tokensAll {items : List V} {t : V} (h : t ∈ V.tokensAll items) : ∃ u ∈ items, t ∈ u.tokens := by
  induction items with
  | nil => simp [V.tokensAll] at h
  | cons v vs ih =>
    rw [V.tokensAll] at h
    rcases List.mem_append.1 h with h | h
    · exact ⟨v, by simp, h⟩
    · obtain ⟨u, hu, ht⟩ := ih h
      exact ⟨u, by simp [hu], ht⟩

/-- The item a token comes from. -/
theorem tokensAll_locate {items : List V} {pre post : List V} {t : V} (h : V.tokensAll items = pre ++ t :: post) :
    ∃ A u B p q, items = A ++ u :: B ∧ u.tokens = p ++ t :: q ∧ pre = V.tokensAll A ++ p ∧ post = q ++ V.tokensAll B := by
  induction items generalizing pre with
  | nil => simp [V.tokensAll] at h
  | cons v vs ih =>
    rw [V.tokensAll] at h
    rcases List.append_eq_append_iff.1 h with ⟨c, h1, h2⟩ | ⟨c, h1, h2⟩
    · subst h1
      obtain ⟨A, u, B, p, q, rfl, hu, rfl, rfl⟩ := ih h2
      exact ⟨v :: A, u, B, p, q, rfl, hu, by rw [V.tokensAll]; simp, rfl⟩
    · cases c with
      | nil =>
        simp only [List.nil_append, List.append_nil] at h1 h2
        obtain ⟨A, u, B, p, q, rfl, hu, hA, rfl⟩ := ih (pre := []) h2.symm
        refine ⟨v :: A, u, B, p, q, rfl, hu, ?_, rfl⟩
        rw [V.tokensAll, List.append_assoc, ← hA, h1]; simp
      | cons t' c =>
        simp only [List.cons_append, List.cons.injEq] at h2
        obtain ⟨rfl, rfl⟩ := h2
        exact ⟨[], v, vs, pre, c, rfl, h1, rfl, rfl⟩

theorem compact_ne {items : List V} (h : Compact items) : ∀ u ∈ items, u ≠ .str [] := by
  induction items with
  | nil => simp
  | cons v vs ih =>
    cases vs with
    | nil => simpa [Compact] using h
    | cons w ws =>
      intro u hu
      rcases List.mem_cons.1 hu with rfl | hu
      · exact h.1
      · exact ih h.2.2 u hu

theorem compact_adj {A B : List V} {a b : V} (h : Compact (A ++ a :: b :: B)) : a.isStr = true → b.isStr = false := by
  induction A with
  | nil => exact h.2.1
  | cons v vs ih =>
    cases vs with
    | nil => exact ih h.2.2
    | cons w ws => exact ih h.2.2

theorem piece_atom {u : V} (h : isPiece u = true) (hs : u.isStr = false) : ∃ k n s l, u = .atom k n s l := by
  cases u <;> simp [isPiece, V.isStr] at h hs
  exact ⟨_, _, _, _, rfl⟩

theorem piece_str {u : V} {p q : List V} {c : Char} (h : isPiece u = true) (ht : u.tokens = p ++ .str [c] :: q) :
    ∃ a b : Str, u = .str (a ++ c :: b) ∧ p = a.map (fun c => .str [c]) ∧ q = b.map (fun c => .str [c]) := by
  cases u with
  | str s =>
    rw [chars_tokens] at ht
    obtain ⟨a, r, rfl, rfl, hr⟩ := List.map_eq_append_iff.1 ht
    obtain ⟨c', b, rfl, hc, rfl⟩ := List.map_eq_cons_iff.1 hr
    simp only [V.str.injEq, List.cons.injEq, and_true] at hc
    subst hc
    exact ⟨a, b, rfl, rfl, rfl⟩
  | atom k n s l =>
    rw [V.tokens] at ht
    cases p with
    | nil => simp at ht
    | cons x p => simp at ht
  | _ => simp [isPiece] at h

/-- What stripping leaves of a list. -/
def stripItems (items : List V) : List V := (V.dropBlank (V.dropBlank items).reverse).reverse

theorem stripItems_eq (x y : V) (mid : List V) :
    stripItems (x :: mid ++ [y]) = (if x.blankStr then [] else [x]) ++ mid ++ (if y.blankStr then [] else [y]) := by
  unfold stripItems
  cases hx : x.blankStr <;> cases hy : y.blankStr <;> simp [V.dropBlank, hx, hy]

theorem two_items {items : List V} (h : 2 ≤ items.length) : ∃ x mid y, items = x :: mid ++ [y] := by
  cases items with
  | nil => simp at h
  | cons x r =>
    rcases List.eq_nil_or_concat r with rfl | ⟨mid, y, rfl⟩
    · simp at h
    · exact ⟨x, mid, y, by simp⟩

theorem mem_stripItems {items : List V} (h : 2 ≤ items.length) (u : V) :
    u ∈ stripItems items ↔ ∃ A B, items = A ++ u :: B ∧ (u.blankStr = false ∨ A ≠ [] ∧ B ≠ []) := by
  obtain ⟨x, mid, y, rfl⟩ := two_items h
  rw [stripItems_eq]
  constructor
  · intro hu
    rcases List.mem_append.1 hu with hu | hu
    · rcases List.mem_append.1 hu with hu | hu
      · cases hx : x.blankStr
        · simp only [hx, Bool.false_eq_true, if_false, List.mem_singleton] at hu
          subst hu
          exact ⟨[], mid ++ [y], by simp, .inl hx⟩
        · simp [hx] at hu
      · obtain ⟨a, b, rfl⟩ := List.append_of_mem hu
        exact ⟨x :: a, b ++ [y], by simp, .inr ⟨by simp, by simp⟩⟩
    · cases hy : y.blankStr
      · simp only [hy, Bool.false_eq_true, if_false, List.mem_singleton] at hu
        subst hu
        exact ⟨x :: mid, [], by simp, .inl hy⟩
      · simp [hy] at hu
  · rintro ⟨A, B, he, hor⟩
    cases A with
    | nil =>
      simp only [List.nil_append, List.cons_append, List.cons.injEq] at he
      obtain ⟨rfl, _⟩ := he
      rcases hor with h | h
      · simp [h]
      · exact absurd rfl h.1
    | cons a A =>
      simp only [List.cons_append, List.cons.injEq] at he
      obtain ⟨rfl, he⟩ := he
      rcases List.eq_nil_or_concat B with rfl | ⟨B', z, rfl⟩
      · obtain ⟨rfl, h2⟩ := List.append_inj' he rfl
        simp only [List.cons.injEq, and_true] at h2
        subst h2
        rcases hor with h | h
        · simp [h]
        · exact absurd rfl h.2
      · have : mid ++ [y] = (A ++ u :: B') ++ [z] := by simpa using he
        obtain ⟨rfl, _⟩ := List.append_inj' this rfl
        simp

theorem strip_lst {items : List V} (h : 2 ≤ items.length) (hc : Compact items) :
    ∃ r, (V.lst items).strip = .ok r ∧ r ≠ .str [] ∧ r.tokens = V.tokensAll (stripItems items) ∧
      (r.isStr = true → (stripItems items).any V.isStr = true) ∧ r.toStr = V.toStrAll (stripItems items) := by
  have hsub : ∀ u ∈ stripItems items, u ≠ .str [] := by
    intro u hu
    obtain ⟨A, B, rfl, _⟩ := (mem_stripItems h u).1 hu
    exact compact_ne hc u (by simp)
  have hlen : (stripItems items).length = items.length → stripItems items = items := by
    obtain ⟨x, mid, y, rfl⟩ := two_items h
    rw [stripItems_eq]
    intro hl
    cases hx : x.blankStr <;> cases hy : y.blankStr <;> simp [hx, hy] at hl ⊢
    omega
  have hs : (V.lst items).strip = if (stripItems items).length = items.length then .ok (.lst items)
      else match stripItems items with
        | [v] => .ok v
        | new => .ok (.lst new) := by
    rw [V.strip]; rfl
  rw [hs]
  split
  · rename_i hl
    exact ⟨_, rfl, by simp, by rw [V.tokens, hlen hl], by simp [V.isStr], by rw [V.toStr, hlen hl]⟩
  · split
    · rename_i v hv
      refine ⟨v, rfl, hsub v (by simp [hv]), by simp [hv, V.tokensAll], by simp [hv], by rw [hv, toStrAll_single]⟩
    · exact ⟨_, rfl, by simp, by rw [V.tokens], by simp [V.isStr], by rw [V.toStr]⟩

theorem str_token {u : V} (h : isPiece u = true) (hne : u ≠ .str []) : u.tokens.any V.isStr = u.isStr := by
  cases u with
  | str s =>
    cases s with
    | nil => exact absurd rfl hne
    | cons c s => rw [chars_tokens]; simp [V.isStr]
  | atom k n s l => rw [V.tokens]; simp [V.isStr]
  | _ => simp [isPiece] at h

theorem constant_items {items : List V} (hp : ∀ u ∈ items, isPiece u = true) (hc : Compact items) (h : 2 ≤ items.length) :
    (V.tokensAll (stripItems items)).any V.isStr = true ↔ Constant (V.tokensAll items) := by
  constructor
  · intro ha
    obtain ⟨t, ht, hst⟩ := List.any_eq_true.1 ha
    obtain ⟨u, hu, htu⟩ := mem_tokensAll ht
    obtain ⟨A, B, rfl, hor⟩ := (mem_stripItems h u).1 hu
    have hpu := hp u (by simp)
    have hus : u.isStr = true := by
      rw [← str_token hpu (compact_ne hc u (by simp))]
      exact List.any_eq_true.2 ⟨t, htu, hst⟩
    obtain ⟨s, rfl⟩ : ∃ s, u = .str s := by
      cases u <;> simp [V.isStr] at hus
      exact ⟨_, rfl⟩
    have cut : ∀ a c b, s = a ++ c :: b → V.tokensAll (A ++ .str s :: B) =
        (V.tokensAll A ++ a.map fun c => V.str [c]) ++ .str [c] :: ((b.map fun c => V.str [c]) ++ V.tokensAll B) := by
      rintro a c b rfl
      rw [tokensAll_append, V.tokensAll, chars_tokens]; simp
    by_cases hb : (V.str s).blankStr = true
    · rcases hor with h' | ⟨hA, hB⟩
      · rw [hb] at h'; cases h'
      · have hne : s ≠ [] := by rintro rfl; exact compact_ne hc (.str []) (by simp) rfl
        obtain ⟨c, b, rfl⟩ := List.exists_cons_of_ne_nil hne
        refine ⟨_, c, _, cut [] c b rfl, .inr ⟨?_, ?_⟩⟩
        · rcases List.eq_nil_or_concat A with rfl | ⟨A', a, rfl⟩
          · exact absurd rfl hA
          · have hst : a.isStr = false := by
              cases hs : a.isStr with
              | false => rfl
              | true =>
                have := compact_adj (A := A') (a := a) (b := .str (c :: b)) (B := B) (by simpa using hc) hs
                simp [V.isStr] at this
            obtain ⟨k, n, s, l, rfl⟩ := piece_atom (hp a (by simp)) hst
            apply not_blank_atom (k := k) (n := n) (s := s) (l := l)
            exact List.mem_append.2 (.inl (tokensAll_mem (u := .atom k n s l) (by simp) (by rw [V.tokens]; simp)))
        · cases B with
          | nil => exact absurd rfl hB
          | cons a B' =>
            have hst : a.isStr = false := compact_adj (A := A) (a := .str (c :: b)) (b := a) (B := B') hc rfl
            obtain ⟨k, n, s, l, rfl⟩ := piece_atom (hp a (by simp)) hst
            apply not_blank_atom (k := k) (n := n) (s := s) (l := l)
            exact List.mem_append.2 (.inr (tokensAll_mem (u := .atom k n s l) (by simp) (by rw [V.tokens]; simp)))
    · obtain ⟨c, hcs, hsp⟩ : ∃ c ∈ s, isSpace c = false := by
        simpa [V.blankStr] using hb
      obtain ⟨a, b, hab⟩ := List.append_of_mem hcs
      exact ⟨_, c, _, cut a c b hab, .inl hsp⟩
  · rintro ⟨pre, c, post, he, hor⟩
    obtain ⟨A, u, B, p, q, rfl, hu, rfl, rfl⟩ := tokensAll_locate he
    obtain ⟨a, b, rfl, rfl, rfl⟩ := piece_str (hp u (by simp)) hu
    refine List.any_eq_true.2 ⟨.str [c], ?_, rfl⟩
    refine tokensAll_mem ((mem_stripItems h _).2 ⟨A, B, rfl, ?_⟩) (by rw [hu]; simp)
    cases hb : (V.str (a ++ c :: b)).blankStr with
    | false => exact .inl rfl
    | true =>
      have hall : ∀ x ∈ a ++ c :: b, isSpace x = true := List.all_eq_true.1 hb
      rcases hor with h' | ⟨h1, h2⟩
      · rw [hall c (by simp)] at h'; cases h'
      · refine .inr ⟨?_, ?_⟩
        · rintro rfl
          exact h1 (by
            rw [V.tokensAll, List.nil_append]
            exact (blank_chars a).2 fun x hx => hall x (by simp [hx]))
        · rintro rfl
          exact h2 (by
            rw [V.tokensAll, List.append_nil]
            exact (blank_chars b).2 fun x hx => hall x (by simp [hx]))

theorem squashed_lst_atom {items : List V} (hp : ∀ u ∈ items, isPiece u = true) (hc : Compact items) (h : 2 ≤ items.length) :
    ∃ k n s l, V.atom k n s l ∈ V.tokensAll items := by
  have : ∃ u ∈ items, u.isStr = false := by
    match items, h, hc with
    | x :: y :: rest, _, hc =>
      cases hx : x.isStr with
      | false => exact ⟨x, by simp, hx⟩
      | true => exact ⟨y, by simp, hc.2.1 hx⟩
  obtain ⟨u, hu, hs⟩ := this
  obtain ⟨k, n, s, l, rfl⟩ := piece_atom (hp u hu) hs
  exact ⟨k, n, s, l, tokensAll_mem hu (by rw [V.tokens]; simp)⟩

theorem toStrAll_ok {ts : List V} (h : ∀ t ∈ ts, ∃ s, t.toStr = .ok s) : ∃ s, V.toStrAll ts = .ok s := by
  induction ts with
  | nil => exact ⟨[], rfl⟩
  | cons t ts ih =>
    obtain ⟨s, hs⟩ := h t (by simp)
    obtain ⟨r, hr⟩ := ih fun u hu => h u (by simp [hu])
    exact ⟨s ++ r, by simp [V.toStrAll, hs, hr]⟩

/-- Stripping a condition, and what the checks make of it. -/
theorem cond_strip {v : V} (hv : Squashed v)
    (hn : ∀ k n s l, V.atom k n s l ∈ v.tokens → n.truthy = true ∧ ∃ t, (V.atom k n s l).toStr = .ok t) :
    ∃ r, v.strip = .ok r ∧ (r = .str [] ↔ BlankToks v.tokens) ∧
      (condConst r = true ↔ ¬ BlankToks v.tokens ∧ Constant v.tokens) ∧ ∃ t, r.toStr = .ok t := by
  rcases hv with hs | ⟨k, n, s, l, rfl⟩ | ⟨items, rfl, hp, hc, h2⟩
  · cases v with
    | str s =>
      have hb : BlankToks (V.str s).tokens ↔ stripP isSpace s = [] := by
        rw [chars_tokens, blank_chars, stripP_nil_iff]
      refine ⟨.str (stripP isSpace s), rfl, by rw [hb]; simp, ?_, _, rfl⟩
      have : condConst (.str (stripP isSpace s)) = true ↔ ¬ stripP isSpace s = [] := by
        simp [condConst, V.isStr]
      rw [this, hb]
      refine ⟨fun h => ⟨h, ?_⟩, fun h => h.1⟩
      rw [stripP_nil_iff] at h
      obtain ⟨c, hcs, hsp⟩ : ∃ c ∈ s, isSpace c = false := by
        refine Classical.byContradiction fun hne => h fun c hcs => ?_
        cases hsp : isSpace c with
        | true => rfl
        | false => exact absurd ⟨c, hcs, hsp⟩ hne
      obtain ⟨a, b, rfl⟩ := List.append_of_mem hcs
      exact ⟨a.map fun c => .str [c], c, b.map fun c => .str [c], by rw [chars_tokens]; simp, .inl hsp⟩
    | _ => simp [V.isStr] at hs
  · have hm : V.atom k n s l ∈ (V.atom k n s l).tokens := by rw [V.tokens]; simp
    obtain ⟨ht, hok⟩ := hn k n s l hm
    refine ⟨.atom k n s l, by rw [V.strip]; simp [ht], ⟨fun h => (by cases h), fun h => absurd h (not_blank_atom hm)⟩, ?_, hok⟩
    constructor
    · intro h
      rw [condConst, V.tokens] at h
      simp [V.isStr] at h
    · rintro ⟨_, pre, c, post, he, _⟩
      rw [V.tokens] at he
      cases pre <;> simp at he
  · obtain ⟨r, hr, hne, htok, hrs, hts⟩ := strip_lst h2 hc
    obtain ⟨k, n, s, l, hat⟩ := squashed_lst_atom hp hc h2
    have hT : (V.lst items).tokens = V.tokensAll items := by rw [V.tokens]
    have hnb : ¬ BlankToks (V.lst items).tokens := by rw [hT]; exact not_blank_atom hat
    have hpr : ∀ u ∈ stripItems items, isPiece u = true ∧ u ∈ items := by
      intro u hu
      obtain ⟨A, B, rfl, _⟩ := (mem_stripItems h2 u).1 hu
      exact ⟨hp u (by simp), by simp⟩
    refine ⟨r, hr, ⟨fun h => absurd h hne, fun h => absurd h hnb⟩, ?_, ?_⟩
    · rw [hT, ← constant_items hp hc h2, ← htok]
      have hany : r.isStr = true → r.tokens.any V.isStr = true := by
        intro h
        obtain ⟨u, hu, hus⟩ := List.any_eq_true.1 (hrs h)
        have := str_token (hpr u hu).1 (compact_ne hc u (hpr u hu).2)
        rw [hus] at this
        obtain ⟨t, ht, hts⟩ := List.any_eq_true.1 this
        rw [htok]
        exact List.any_eq_true.2 ⟨t, tokensAll_mem hu ht, hts⟩
      rw [hT] at hnb
      unfold condConst
      constructor
      · intro h
        simp only [Bool.and_eq_true, Bool.or_eq_true] at h
        exact ⟨hnb, h.2.elim hany id⟩
      · rintro ⟨_, h⟩
        simp [hne, h]
    · rw [hts]
      refine toStrAll_ok fun u hu => ?_
      obtain ⟨hpu, hui⟩ := hpr u hu
      cases u with
      | str s => exact ⟨_, rfl⟩
      | atom k n s l =>
        exact (hn k n s l (by rw [hT]; exact tokensAll_mem hui (by rw [V.tokens]; simp))).2
      | _ => simp [isPiece] at hpu


/-! ### the parts -/

theorem unquoteToks_mem {b : Bool} {ts : List V} {t : V} (h : t ∈ unquoteToks b ts) : t ∈ ts := by
  induction ts generalizing b with
  | nil => cases b <;> simp [unquoteToks] at h
  | cons u ts ih =>
    cases u with
    | str s =>
      cases b with
      | true =>
        rw [unquoteToks] at h
        rcases List.mem_cons.1 h with rfl | h
        · simp
        · simp [ih h]
      | false =>
        rw [unquoteToks] at h
        split at h
        · simp [ih h]
        · split at h
          · simp [ih h]
          · rcases List.mem_cons.1 h with rfl | h
            · simp
            · simp [ih h]
    | _ =>
      cases b <;>
      · simp only [unquoteToks] at h
        rcases List.mem_cons.1 h with rfl | h
        · simp
        · simp [ih h]

theorem sepBy_mem {α : Type} (x : α) {parts : List (List α)} {p : List α} (hp : p ∈ parts) {t : α} (ht : t ∈ p) : t ∈ sepBy x parts := by
  induction parts with
  | nil => simp at hp
  | cons a l ih =>
    cases l with
    | nil =>
      simp only [List.mem_singleton] at hp
      subst hp; exact ht
    | cons b l =>
      rw [sepBy_cons_ne _ _ _ (by simp)]
      rcases List.mem_cons.1 hp with rfl | hp
      · simp [ht]
      · have := ih hp
        simp [this]

theorem pieces_mem {d : Char} {toks : List V} {parts : List (List V)} (h : Pieces d toks parts) {p : List V} (hp : p ∈ parts)
    {t : V} (ht : t ∈ p) : t ∈ toks := h.2.1 ▸ sepBy_mem _ hp ht

theorem sound_str {data : V} (h : Sound data) : ∃ s, data.toStr = .ok s := by
  rw [toStr_tokens data h.1]
  refine toStrAll_ok fun t ht => ?_
  have := tokens_isTok data t ht
  cases t with
  | str s => exact ⟨_, rfl⟩
  | atom k n s l => exact (h.2 k n s l ht).2
  | _ => simp [isTok] at this

/-- Issuing a message that can be printed. -/
theorem emit_ok {m : Msg} {r : List Rendered} (h : m.render = .ok r) : (Tr.emit m).val = .ok () := by
  rw [Tr.emit, h]; rfl

theorem render_many (w : Where) (name : Str) (data : V) : (Tr.emit (ifMany w name data)).val = .ok () := rfl
theorem render_few (w : Where) (name : Str) (data : V) : (Tr.emit (ifFew w name data)).val = .ok () := rfl
theorem render_old {w : Where} {name : Str} {data cond : V} {rest : List V} {s t : Str} (h1 : data.toStr = .ok s) (h2 : cond.toStr = .ok t) :
    (Tr.emit (ifOldStyle w name data cond rest)).val = .ok () := by
  simp [Tr.emit, ifOldStyle, mkMsg, Msg.render, MK.template, renderAll, renderPiece, h1, h2, Except.map, List.lookup]

theorem truthy_tokens (v : V) (h : isText v = true ∨ v = .none) : v.truthy = !v.tokens.isEmpty := by
  cases v with
  | str s => rw [chars_tokens]; cases s <;> rfl
  | lst items => rw [V.tokens]; rfl
  | atom k n s l => rw [V.tokens]; rfl
  | int n => simp [isText] at h
  | none => rw [V.tokens]; rfl

theorem actions_spec {d : Char} {v : V} : 
    ∃ vs : List V, actions (ifActions (separateArgs d false (.one v))) = vs.map .one ∧
      vs.map V.tokens = (((separateArgs d false (.one v)).map V.tokens).take 2).filter (!·.isEmpty) := by
  have htx := (separateArgs_tokens d false v).2
  generalize separateArgs d false (.one v) = l at htx
  have key : ∀ vs : List V, (∀ p ∈ vs, isText p = true) →
      (vs.map Arg.one).filter Arg.truthy = (vs.filter V.truthy).map .one ∧
      (vs.filter V.truthy).map V.tokens = (vs.map V.tokens).filter (!·.isEmpty) := by
    intro vs hvs
    induction vs with
    | nil => exact ⟨rfl, rfl⟩
    | cons p vs ih =>
      obtain ⟨i1, i2⟩ := ih fun q hq => hvs q (by simp [hq])
      have ht := truthy_tokens p (.inl (hvs p (by simp)))
      have ha : Arg.truthy (.one p) = p.truthy := rfl
      simp only [List.map_cons, List.filter_cons, ha, ← ht, i1, ← i2]
      cases p.truthy <;> simp
  match l with
  | [] => exact ⟨[], rfl, rfl⟩
  | [a] =>
    obtain ⟨i1, i2⟩ := key [a] (fun p hp => htx p (by simpa using hp))
    refine ⟨_, ?_, i2⟩
    rw [← i1]
    show [Arg.one a, .one .none].filter Arg.truthy = [Arg.one a].filter Arg.truthy
    have hnn : Arg.truthy (.one .none) = false := rfl
    simp only [List.filter_cons, hnn, List.filter_nil, Bool.false_eq_true, if_false]
  | a :: b :: m =>
    obtain ⟨i1, i2⟩ := key [a, b] (fun p hp => htx p (by rcases (by simpa using hp : p = a ∨ p = b) with rfl | rfl <;> simp))
    exact ⟨_, i1, i2⟩

/-- What `ifParts` does. -/
theorem ifParts_spec (w : Where) (name : Str) {data : V} (h : Sound data) :
    ∃ cond ks acts, PartsReport data.tokens cond.tokens ks ∧ Squashed cond ∧
      (ifParts w name data).val = .ok (cond, acts) ∧ (msgs (ifParts w name data).ev).map (·.kind) = ks ∧
      (∀ t ∈ cond.tokens, t ∈ data.tokens) ∧
      (∀ c s more as, Pieces '?' data.tokens (c :: s :: more) → Pieces ':' (unquoteToks false s) as →
        ∃ vs : List V, actions acts = vs.map .one ∧ vs.map V.tokens = (as.take 2).filter (!·.isEmpty)) ∧
      (∀ c a more, Pieces '?' data.tokens [data.tokens] → Pieces ',' data.tokens (c :: a :: more) →
        ∃ vs : List V, actions acts = [.many vs] ∧ vs.map V.tokens = a :: more) := by
  have hq := pieces_sep '?' (by decide) data
  have hqt := separate_true '?' (by decide) data
  have hc := pieces_sep ',' (by decide) data
  obtain ⟨sd, hsd⟩ := sound_str h
  unfold ifParts
  split
  · rename_i cond second more he
    rw [he] at hqt
    simp only [List.map_cons] at hqt
    obtain ⟨c, r1, e1, ec, e2⟩ := List.map_eq_cons_iff.1 hqt.symm
    obtain ⟨s, r2, rfl, es, e3⟩ := List.map_eq_cons_iff.1 e2
    rw [e1] at hq
    have hsub : ∀ t ∈ cond.tokens, t ∈ data.tokens := fun t ht =>
      pieces_mem hq (by simp) (unquoteToks_mem (ec ▸ ht))
    have hsq := separate_shape '?' true data cond (by rw [he]; simp)
    have hact := fun c' s' more' as (hp : Pieces '?' data.tokens (c' :: s' :: more')) (ha : Pieces ':' (unquoteToks false s') as) =>
      show ∃ vs : List V, actions (ifActions (separateArgs ':' false (.one second))) = vs.map .one ∧
        vs.map V.tokens = (as.take 2).filter (!·.isEmpty) by
      have he := pieces_unique hp hq
      simp only [List.cons.injEq] at he
      rw [he.2.1, es] at ha
      rw [pieces_unique ha (pieces_sep ':' (by decide) second)]
      exact actions_spec
    have hold := fun c' a' more' (hp : Pieces '?' data.tokens [data.tokens]) (_ : Pieces ',' data.tokens (c' :: a' :: more')) =>
      show ∃ vs : List V, actions (ifActions (separateArgs ':' false (.one second))) = [.many vs] ∧ vs.map V.tokens = a' :: more' by
      have he := pieces_unique hp hq
      simp at he
    cases more with
    | nil =>
      simp only [List.map_nil, List.map_eq_nil_iff] at e3
      subst e3
      exact ⟨cond, [], _, ec ▸ .two hq, hsq, rfl, rfl, hsub, hact, hold⟩
    | cons m more =>
      obtain ⟨m', r3, rfl, -, -⟩ := List.map_eq_cons_iff.1 e3
      exact ⟨cond, [.E_APP_ARG_MANY], _, ec ▸ .many hq, hsq, rfl, rfl, hsub, hact, hold⟩
  · rename_i hne
    have hq1 : Pieces '?' data.tokens [data.tokens] := by
      have hlen : ∃ c, (separateArgs '?' false (.one data)).map V.tokens = [c] := by
        have hl : ((separateArgs '?' true (.one data)).map V.tokens).length = ((separateArgs '?' false (.one data)).map V.tokens).length := by
          rw [hqt]; simp
        match h1 : separateArgs '?' true (.one data), hne with
        | [], _ =>
          rw [h1] at hl
          exact absurd (List.length_eq_zero_iff.1 hl.symm) hq.1
        | [c], _ =>
          rw [h1] at hl
          exact List.length_eq_one_iff.1 hl.symm
        | a :: b :: m, hne => exact absurd rfl (hne a b m)
      obtain ⟨c, e⟩ := hlen
      rw [e] at hq
      have : c = data.tokens := hq.2.1
      rw [this] at hq
      exact hq
    split
    · rename_i h0
      rw [h0] at hc
      exact absurd rfl hc.1
    · rename_i cond rest he
      rw [he] at hc
      have hsq := separate_shape ',' false data cond (by rw [he]; simp)
      have htx := (separateArgs_tokens ',' false data).2 cond (by rw [he]; simp)
      have hsub : ∀ t ∈ cond.tokens, t ∈ data.tokens := fun t ht => pieces_mem hc (by simp) ht
      have hcs : ∃ s, cond.toStr = .ok s := by
        refine sound_str ⟨htx, fun k n s l hm => h.2 k n s l (hsub _ hm)⟩
      obtain ⟨sc, hsc⟩ := hcs
      have hact := fun c' s' more' as (hp : Pieces '?' data.tokens (c' :: s' :: more')) (_ : Pieces ':' (unquoteToks false s') as) =>
        show ∃ vs : List V, actions (.many rest, .none) = vs.map .one ∧ vs.map V.tokens = (as.take 2).filter (!·.isEmpty) by
        have he := pieces_unique hp hq1
        simp at he
      have hold := fun c' a' more' (_ : Pieces '?' data.tokens [data.tokens]) (hp : Pieces ',' data.tokens (c' :: a' :: more')) =>
        show ∃ vs : List V, actions (.many rest, .none) = [.many vs] ∧ vs.map V.tokens = a' :: more' by
        have he := pieces_unique hp hc
        simp only [List.map_cons, List.cons.injEq] at he
        refine ⟨rest, ?_, he.2.symm⟩
        cases rest with
        | nil => simp at he
        | cons => rfl
      cases rest with
      | nil =>
        have hcd : cond.tokens = data.tokens := hc.2.1
        refine ⟨cond, [.E_APP_ARG_FEW], _, ?_, hsq, rfl, rfl, hsub, hact, hold⟩
        simp only [List.map_cons, List.map_nil, hcd] at hc ⊢
        exact .few hq1 hc
      | cons a rest =>
        refine ⟨cond, [.E_APP_ARG_IFSTYLE], (.many (a :: rest), .none), .old hq1 hc, hsq, ?_, ?_, hsub, hact, hold⟩
        · exact (Tr.bind_val_ok (render_old hsd hsc)).1
        · have := (Tr.bind_val_ok (f := fun _ => Tr.pure (cond, Arg.many (a :: rest), V.none))
            (render_old (w := w) (name := name) (rest := a :: rest) hsd hsc)).2
          show (msgs (Tr.bind (Tr.emit (ifOldStyle w name data cond (a :: rest))) fun _ =>
            Tr.pure (cond, Arg.many (a :: rest), V.none)).ev).map _ = _
          rw [this]
          rfl

/-- The parts are determined. -/
theorem partsReport_unique {toks c c' : List V} {ks ks' : List MK} (h : PartsReport toks c ks) (h' : PartsReport toks c' ks') :
    c = c' ∧ ks = ks' := by
  cases h with
  | two hp =>
    cases h' with
    | two hp' => have := pieces_unique hp hp'; simp only [List.cons.injEq] at this; exact ⟨by rw [this.1], rfl⟩
    | many hp' => have := pieces_unique hp hp'; simp at this
    | old hp' _ => have := pieces_unique hp hp'; simp at this
    | few hp' _ => have := pieces_unique hp hp'; simp at this
  | many hp =>
    cases h' with
    | two hp' => have := pieces_unique hp hp'; simp at this
    | many hp' => have := pieces_unique hp hp'; simp only [List.cons.injEq] at this; exact ⟨by rw [this.1], rfl⟩
    | old hp' _ => have := pieces_unique hp hp'; simp at this
    | few hp' _ => have := pieces_unique hp hp'; simp at this
  | old hp hq =>
    cases h' with
    | two hp' => have := pieces_unique hp hp'; simp at this
    | many hp' => have := pieces_unique hp hp'; simp at this
    | old _ hq' => have := pieces_unique hq hq'; simp only [List.cons.injEq] at this; exact ⟨this.1, rfl⟩
    | few _ hq' => have := pieces_unique hq hq'; simp at this
  | few hp hq =>
    cases h' with
    | two hp' => have := pieces_unique hp hp'; simp at this
    | many hp' => have := pieces_unique hp hp'; simp at this
    | old _ hq' => have := pieces_unique hq hq'; simp at this
    | few _ hq' => exact ⟨rfl, rfl⟩


theorem msgs_app (a b : List Ev) : msgs (a ++ b) = msgs a ++ msgs b := by
  unfold msgs; exact List.filterMap_append

/-- What the splitting of an application with a condition does. -/
theorem ifSplit_spec (w : Where) (name : Str) {data : V} (h : Sound data) {cond : List V} {ks : List MK}
    (hr : PartsReport data.tokens cond ks) :
    ∃ r acts, (ifSplit w name data).val = .ok (r, acts) ∧
      (msgs (ifSplit w name data).ev).map (·.kind) = ks ++ condReport false cond ∧
      (r = .str [] ↔ BlankToks cond) ∧ (condConst r = true ↔ ¬ BlankToks cond ∧ Constant cond) ∧ (∃ t, r.toStr = .ok t) ∧
      (∀ c s more as, Pieces '?' data.tokens (c :: s :: more) → Pieces ':' (unquoteToks false s) as →
        ∃ vs : List V, actions acts = vs.map .one ∧ vs.map V.tokens = (as.take 2).filter (!·.isEmpty)) ∧
      (∀ c a more, Pieces '?' data.tokens [data.tokens] → Pieces ',' data.tokens (c :: a :: more) →
        ∃ vs : List V, actions acts = [.many vs] ∧ vs.map V.tokens = a :: more) := by
  obtain ⟨cv, ks', acts, h1, h2, h3, h4, h5, h6, h7⟩ := ifParts_spec w name h
  obtain ⟨rfl, rfl⟩ := partsReport_unique hr h1
  obtain ⟨r, s1, s2, s3, s4⟩ := cond_strip h2 fun k n s l hm => h.2 k n s l (h5 _ hm)
  obtain ⟨sd, hsd⟩ := sound_str h
  refine ⟨r, acts, ?_, ?_, s2, s3, s4, h6, h7⟩
  all_goals
    have hl : (Tr.lift cv.strip).val = .ok r := s1
    have he : (Tr.emit (mkMsg .E_APP_ARG_IFEMPTY w [(c! "app", strV name), (c! "data", .one data)])).val = .ok () := by
      simp [Tr.emit, mkMsg, Msg.render, MK.template, renderAll, renderPiece, hsd, Except.map, List.lookup]
    have hi : (if r = .str [] then Tr.emit (mkMsg .E_APP_ARG_IFEMPTY w [(c! "app", strV name), (c! "data", .one data)])
        else Tr.pure ()).val = .ok () := by
      split
      · exact he
      · rfl
    unfold ifSplit
  · rw [(Tr.bind_val_ok h3).1, (Tr.bind_val_ok hl).1, (Tr.bind_val_ok hi).1]
    rfl
  · rw [(Tr.bind_val_ok h3).2, (Tr.bind_val_ok hl).2, (Tr.bind_val_ok hi).2, msgs_app, List.map_append, h4]
    congr 1
    by_cases hb : BlankToks cv.tokens
    · rw [if_pos (s2.2 hb)]
      simp only [condReport, if_pos hb]
      rfl
    · rw [if_neg (fun h => hb (s2.1 h))]
      simp only [condReport, if_neg hb, Bool.false_eq_true, false_and, if_false]
      rfl

theorem condSplit_spec (w : Where) (name : Str) {data : V} (h : Sound data) {cond : List V} {ks : List MK}
    (hr : PartsReport data.tokens cond ks) :
    ∃ r acts, (condSplit w name data).val = .ok (r, acts) ∧
      (msgs (condSplit w name data).ev).map (·.kind) = ks ++ condReport true cond ∧
      (∀ c s more as, Pieces '?' data.tokens (c :: s :: more) → Pieces ':' (unquoteToks false s) as →
        ∃ vs : List V, actions acts = vs.map .one ∧ vs.map V.tokens = (as.take 2).filter (!·.isEmpty)) ∧
      (∀ c a more, Pieces '?' data.tokens [data.tokens] → Pieces ',' data.tokens (c :: a :: more) →
        ∃ vs : List V, actions acts = [.many vs] ∧ vs.map V.tokens = a :: more) := by
  obtain ⟨r, acts, h1, h2, -, h4, ⟨st, h5⟩, h6, h7⟩ := ifSplit_spec w name h hr
  obtain ⟨sd, hsd⟩ := sound_str h
  refine ⟨r, acts, ?_, ?_, h6, h7⟩
  all_goals
    have he : (Tr.emit (mkMsg .E_APP_ARG_IFCONST w [(c! "app", strV name), (c! "data", .one data), (c! "cond", .one r)])).val = .ok () := by
      simp [Tr.emit, mkMsg, Msg.render, MK.template, renderAll, renderPiece, hsd, h5, Except.map, List.lookup]
    have hi : (if condConst r = true then
        Tr.emit (mkMsg .E_APP_ARG_IFCONST w [(c! "app", strV name), (c! "data", .one data), (c! "cond", .one r)])
        else Tr.pure ()).val = .ok () := by
      split
      · exact he
      · rfl
    unfold condSplit
  · rw [(Tr.bind_val_ok h1).1, (Tr.bind_val_ok hi).1]
    rfl
  · rw [(Tr.bind_val_ok h1).2, (Tr.bind_val_ok hi).2, msgs_app, List.map_append, h2, List.append_assoc]
    congr 1
    by_cases hb : BlankToks cond
    · rw [if_neg (fun h => (h4.1 h).1 hb)]
      simp only [condReport, if_pos hb]
      rfl
    · by_cases hc : Constant cond
      · rw [if_pos (h4.2 ⟨hb, hc⟩)]
        simp only [condReport, if_neg hb, hc, Bool.false_eq_true, false_and, and_self, if_false, if_true]
        rfl
      · rw [if_neg (fun h => hc (h4.1 h).2)]
        simp only [condReport, if_neg hb, hc, and_false, if_false]
        rfl

end ALint
