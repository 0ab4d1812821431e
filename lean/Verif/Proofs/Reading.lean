import Verif.Spec.Reading
import Verif.Proofs.Calls
import Verif.Proofs.Slice
import Verif.Props.Varfun
import Verif.Props.CleanText

/-!
# What is said about any text with variables
-/

namespace ALint
open ALint.Spec ALint.Props
open V (tokens tokensAll)

/-! ## Fields -/

theorem splitT_sepBy {α : Type} [DecidableEq α] (c : α) (parts : List (List α)) (h0 : parts ≠ []) (h : ∀ p ∈ parts, c ∉ p) :
    splitT c none (sepBy c parts) = parts := by
  induction parts with
  | nil => exact absurd rfl h0
  | cons p ps ih =>
    cases ps with
    | nil => exact splitT_no c none p (h p (by simp))
    | cons q qs =>
      rw [sepBy_cons_ne _ _ _ (by simp)]
      have hp := h p (by simp)
      have ih := ih (by simp) fun x hx => h x (by simp [hx])
      clear h h0
      induction p with
      | nil =>
        rw [List.nil_append, splitT_cons _ _ _ _ (by simp), if_pos rfl]
        simpa using ih
      | cons x xs ihx =>
        simp only [List.mem_cons, not_or] at hp
        rw [List.cons_append, splitT_cons _ _ _ _ (by simp), if_neg (fun e => hp.1 e.symm), ihx hp.2]

theorem spread_str (ps : List Str) (h : ps ≠ []) : (spread ps [[]]).map joinGroup = ps.map V.str := by
  induction ps with
  | nil => exact absurd rfl h
  | cons p ps ih =>
    cases ps with
    | nil => cases p <;> simp [spread, consHead, joinGroup]
    | cons q qs =>
      rw [spread, List.map_cons, ih (by simp)]
      · cases p <;> simp [joinGroup]
      · simp

theorem split_str_ne (c : Char) (n : Option Nat) (t : Str) : splitN c n t ≠ [] := by
  obtain ⟨ps, h1, h2, _⟩ := split_tokens c n (.str t) rfl
  simp only [V.split, Except.ok.injEq] at h1
  intro h
  rw [h] at h1
  subst h1
  exact splitT_ne _ _ _ h2.symm

theorem split_inside {k : Kind} {c : Char} {t : Str} {s l : V} (h : t ≠ []) :
    (V.atom k (.str t) s l).split c none = (V.str t).split c none := by
  have htr : (V.str t).truthy = true := by cases t <;> simp_all [V.truthy]
  simp only [V.split, htr, if_true]
  congr 1
  simp only [splitGroups]
  split
  · rename_i hc
    have hc : c ∉ t := by simpa using hc
    obtain ⟨ps, h1, h2, _⟩ := split_tokens c none (.str t) rfl
    rw [splitT_no _ _ _ (by simpa [tokens] using hc)] at h2
    simp only [V.split, Except.ok.injEq] at h1
    obtain ⟨p, rfl⟩ : ∃ p, ps = [p] := by
      rcases ps with _ | ⟨p, _ | ⟨q, qs⟩⟩
      · simp at h2
      · exact ⟨p, rfl⟩
      · simp at h2
    have hs : (V.str t).split c none = .ok [p] := by simp only [V.split, h1]
    have hp : Normal p := split_normal (v := .str t) (c := c) (n := none) rfl hs p (by simp)
    have : p = .str t := normal_determined hp (normal_str t) (by simpa using h2)
    subst this
    rw [h1]
    rfl
  · exact spread_str _ (split_str_ne _ _ _)

theorem fields_mixed {c : Char} {v : V} (hv : isMixed v = true) {ps : List V} : v.split c none = .ok ps ↔ Fields c v ps := by
  obtain ⟨qs, h1, h2, _⟩ := split_tokens c none v hv
  have hn := split_normal hv h1
  have hq : qs = (qs.map tokens).map join := by
    rw [List.map_map]
    conv => lhs; rw [← List.map_id qs]
    exact List.map_congr_left fun p hp => normal_join (hn p hp)
  constructor
  · intro h
    rw [h1] at h
    simp only [Except.ok.injEq] at h
    subst h
    rw [hq, h2]
    refine .text hv (splitT_ne _ _ _) (sepBy_splitT _ _ _).symm ?_
    exact splitT_short _ none _ (by simp)
  · intro h
    cases h with
    | text _ h0 ht hno =>
      have := splitT_sepBy (tk c) _ h0 hno
      rw [← ht] at this
      rw [h1, hq, h2, show splitT (V.str [c]) none v.tokens = _ from this]
    | inside => simp [isMixed] at hv
    | whole => simp [isMixed] at hv

theorem fields_iff {c : Char} {v : V} (hv : Normal v) {ps : List V} : v.split c none = .ok ps ↔ Fields c v ps := by
  rcases normal_cases hv with ⟨s, rfl⟩ | ⟨k, n, s, l, rfl⟩ | ⟨items, rfl, hc, hp, h2⟩
  · exact fields_mixed rfl
  · by_cases hn : n.isStr = true
    · obtain ⟨t, rfl⟩ : ∃ t, n = .str t := by cases n <;> simp_all [V.isStr]
      by_cases ht : t = []
      · subst ht
        constructor
        · intro h; simp [V.split, V.truthy] at h
        · intro h
          cases h with
          | text h => simp [isMixed] at h
          | inside h => exact absurd rfl h
          | whole h => simp [V.truthy] at h
      · rw [split_inside ht]
        constructor
        · intro h; exact .inside ht ((fields_mixed rfl).1 h)
        · intro h
          cases h with
          | text h => simp [isMixed] at h
          | inside _ h => exact (fields_mixed rfl).2 h
          | whole _ h => simp [V.isStr] at h
    · have e : (V.atom k n s l).split c none = if n.truthy then .ok [n] else .error .attributeError := by
        cases n <;> simp_all [V.split, V.isStr, splitGroups, consHead, joinGroup]
      rw [e]
      constructor
      · intro h
        split at h
        · rename_i htr
          simp only [Except.ok.injEq] at h
          subst h
          exact .whole htr (by simpa using hn)
        · simp at h
      · intro h
        cases h with
        | text h => simp [isMixed] at h
        | inside h => simp [V.isStr] at hn
        | whole h _ => rw [if_pos h]
  · exact fields_mixed (by simpa [isMixed] using hp)

theorem fields_normal {c : Char} {v : V} {ps : List V} (h : Fields c v ps) : ps ≠ [] ∧ (2 ≤ ps.length → ∀ p ∈ ps, Normal p) := by
  induction h with
  | @text v parts hv h0 ht hno =>
    refine ⟨by simpa using h0, fun _ p hp => ?_⟩
    obtain ⟨q, hq, rfl⟩ := List.mem_map.1 hp
    exact tok_normal fun t hm => tokens_isTok v t (by rw [ht]; exact sepBy_mem _ hq hm)
  | inside _ _ ih => exact ih
  | whole => exact ⟨by simp, fun h => by simp at h⟩

/-! ## Slices -/

variable {env : FEnv} {w : Where}

theorem start_emit : Tr.emit (mkMsg .E_VAR_SUBSTR_START w [(c! "start", .one .none)]) = ⟨[noStart w], .ok ()⟩ := rfl
theorem length_emit_none : Tr.emit (mkMsg .E_VAR_SUBSTR_LENGTH w [(c! "length", .one .none)]) = ⟨[noLength w .none], .ok ()⟩ := rfl
theorem length_emit_str (s : Str) : Tr.emit (mkMsg .E_VAR_SUBSTR_LENGTH w [(c! "length", .one (.str s))]) = ⟨[noLength w (.str s)], .ok ()⟩ := rfl

theorem normal_kind {v : V} (h : Normal v) : (∃ s, v = .str s) ∨ (v.isVar = true ∧ v.truthy = true) := by
  rcases normal_cases h with ⟨s, rfl⟩ | ⟨k, n, s, l, rfl⟩ | ⟨items, rfl, _, _, h2⟩
  · exact .inl ⟨s, rfl⟩
  · exact .inr ⟨rfl, rfl⟩
  · refine .inr ⟨rfl, ?_⟩
    obtain ⟨k, n, x, l, hm⟩ := squashed_lst_atom ‹_› ‹_› h2
    cases ht : (V.lst items).truthy with
    | true => rfl
    | false =>
      simp only [V.truthy] at ht
      have : V.tokensAll items = [] := by simpa using ht
      rw [this] at hm
      simp at hm

theorem start_iff {s l a b : V} (hs : Normal s) {evs : List Ev} : sliceStart w s l = ⟨evs, .ok (a, b)⟩ ↔
    (Means s a ∧ b = l ∧ evs = []) ∨ (∃ t, s = .str t ∧ looksInt t = false ∧ a = .none ∧ b = .none ∧ evs = [noStart w]) := by
  rcases normal_kind hs with ⟨t, rfl⟩ | ⟨hv, _⟩
  · simp only [sliceStart]
    split
    · rename_i hl
      simp only [bind_iff, lift_iff, pure_iff, Prod.mk.injEq]
      constructor
      · rintro ⟨n, -, -, ⟨hn, rfl⟩, ⟨⟨rfl, rfl⟩, rfl⟩, rfl⟩
        exact .inl ⟨.inr ⟨t, n, rfl, rfl, hl, hn⟩, rfl, rfl⟩
      · rintro (⟨hm, rfl, rfl⟩ | ⟨t', h1, h2, -⟩)
        · rcases hm with ⟨hm, _⟩ | ⟨t', n, h1, rfl, _, hn⟩
          · simp [V.isVar] at hm
          · simp only [V.str.injEq] at h1; subst h1
            exact ⟨n, [], [], ⟨hn, rfl⟩, ⟨⟨rfl, rfl⟩, rfl⟩, rfl⟩
        · simp only [V.str.injEq] at h1; subst h1
          rw [hl] at h2; simp at h2
    · rename_i hl
      rw [start_emit]
      simp only [bind_iff, pure_iff, Prod.mk.injEq]
      constructor
      · rintro ⟨u, e1, e2, h1, ⟨⟨rfl, rfl⟩, rfl⟩, rfl⟩
        simp only [Tr.mk.injEq] at h1
        exact .inr ⟨t, rfl, by simpa using hl, rfl, rfl, by rw [← h1.1]; rfl⟩
      · rintro (⟨hm, rfl, rfl⟩ | ⟨t', h1, h2, rfl, rfl, rfl⟩)
        · rcases hm with ⟨hm, _⟩ | ⟨t', n, h1, rfl, h2, hn⟩
          · simp [V.isVar] at hm
          · simp only [V.str.injEq] at h1; subst h1
            exact absurd h2 hl
        · exact ⟨(), _, [], rfl, ⟨⟨rfl, rfl⟩, rfl⟩, rfl⟩
  · have hp : sliceStart w s l = .pure (s, l) := by cases s <;> first | rfl | simp [V.isVar] at hv
    rw [hp, pure_iff]
    simp only [Prod.mk.injEq]
    constructor
    · rintro ⟨⟨rfl, rfl⟩, rfl⟩
      exact .inl ⟨.inl ⟨hv, rfl⟩, rfl, rfl⟩
    · rintro (⟨hm, rfl, rfl⟩ | ⟨t', rfl, -⟩)
      · rcases hm with ⟨_, rfl⟩ | ⟨t', n, rfl, _⟩
        · exact ⟨⟨rfl, rfl⟩, rfl⟩
        · simp [V.isVar] at hv
      · simp [V.isVar] at hv

theorem length_iff {s l a b : V} (hl : Normal l) {evs : List Ev} : sliceLength w s l = ⟨evs, .ok (a, b)⟩ ↔
    (Means l b ∧ a = s ∧ evs = [] ∧ (b.isVar = true ∨ ∃ m n, s = .int m ∧ b = .int n ∧ n ≠ 0 ∧ (m < 0 → m + n < 0))) ∨
    (∃ n, Means l (.int n) ∧ (n = 0 ∨ ∃ m, s = .int m ∧ m < 0 ∧ 0 ≤ m + n) ∧ a = s ∧ b = .none ∧ evs = [noLength w .none]) ∨
    (∃ t, l = .str t ∧ looksInt t = false ∧ a = .none ∧ b = .none ∧ evs = [noLength w (.str t)]) := by
  rcases normal_kind hl with ⟨t, rfl⟩ | ⟨hv, _⟩
  · simp only [sliceLength]
    split
    · rename_i hi
      simp only [bind_iff, lift_iff]
      have hmeans : ∀ {n n' : Int}, pyInt t = .ok n → Means (.str t) (.int n') → n' = n := by
        rintro n n' h (⟨hm, _⟩ | ⟨t', n2, h1, h2, _, hn⟩)
        · simp [V.isVar] at hm
        · simp only [V.str.injEq] at h1; subst h1
          rw [h] at hn
          simp only [V.int.injEq] at h2
          simp only [Except.ok.injEq] at hn
          rw [h2, hn]
      have cov : ∀ {n : Int} {bad : Bool}, (if n = 0 then Except.ok true else startCovers s n) = .ok bad ↔
          (bad = true ∧ (n = 0 ∨ ∃ m, s = .int m ∧ m < 0 ∧ 0 ≤ m + n)) ∨
          (bad = false ∧ ∃ m, s = .int m ∧ n ≠ 0 ∧ (m < 0 → m + n < 0)) := by
        intro n bad
        by_cases hz : n = 0
        · simp [hz, eq_comm]
        · rw [if_neg hz]
          cases s with
          | int m =>
            simp only [startCovers, Except.ok.injEq, V.int.injEq, hz, false_or, ne_eq, not_false_eq_true, true_and, exists_eq_left']
            cases bad with
            | true => simp; omega
            | false => simp; omega
          | _ => simp [startCovers, hz]
      constructor
      · rintro ⟨n, -, e2, ⟨hn, rfl⟩, ⟨bad, -, e3, ⟨hb, rfl⟩, h, rfl⟩, rfl⟩
        rcases cov.1 hb with ⟨rfl, hc⟩ | ⟨rfl, m, rfl, hn0, hm⟩
        · simp only [if_true, length_emit_none, bind_iff, pure_iff, Prod.mk.injEq] at h
          obtain ⟨u, e4, e5, h1, ⟨⟨rfl, rfl⟩, rfl⟩, rfl⟩ := h
          simp only [Tr.mk.injEq] at h1
          exact .inr (.inl ⟨n, .inr ⟨t, n, rfl, rfl, hi, hn⟩, hc, rfl, rfl, by rw [← h1.1]; rfl⟩)
        · simp only [Bool.false_eq_true, if_false, pure_iff, Prod.mk.injEq] at h
          obtain ⟨⟨rfl, rfl⟩, rfl⟩ := h
          exact .inl ⟨.inr ⟨t, n, rfl, rfl, hi, hn⟩, rfl, rfl, .inr ⟨m, n, rfl, rfl, hn0, hm⟩⟩
      · rintro (⟨hm, rfl, rfl, hb⟩ | ⟨n, hm, hc, rfl, rfl, rfl⟩ | ⟨t', h1, h2, -⟩)
        · rcases hm with ⟨hm, rfl⟩ | ⟨t', n, h1, rfl, _, hn⟩
          · simp [V.isVar] at hm
          · simp only [V.str.injEq] at h1; subst h1
            rcases hb with hb | ⟨m, n', rfl, h3, h4, h5⟩
            · simp [V.isVar] at hb
            · simp only [V.int.injEq] at h3; subst h3
              refine ⟨n, [], [], ⟨hn, rfl⟩, ⟨false, [], [], ⟨?_, rfl⟩, ?_, rfl⟩, rfl⟩
              · exact cov.2 (.inr ⟨rfl, m, rfl, h4, h5⟩)
              · simp [pure_iff]
        · rcases hm with ⟨hm, _⟩ | ⟨t', n', h1, h2, _, hn⟩
          · simp [V.isVar] at hm
          · simp only [V.str.injEq] at h1; subst h1
            simp only [V.int.injEq] at h2; subst h2
            refine ⟨n, [], _, ⟨hn, rfl⟩, ⟨true, [], _, ⟨?_, rfl⟩, ?_, rfl⟩, rfl⟩
            · exact cov.2 (.inl ⟨rfl, hc⟩)
            · rfl
        · simp only [V.str.injEq] at h1; subst h1
          rw [hi] at h2; simp at h2
    · rename_i hi
      rw [length_emit_str]
      simp only [bind_iff, pure_iff, Prod.mk.injEq]
      constructor
      · rintro ⟨u, e1, e2, h1, ⟨⟨rfl, rfl⟩, rfl⟩, rfl⟩
        simp only [Tr.mk.injEq] at h1
        exact .inr (.inr ⟨t, rfl, by simpa using hi, rfl, rfl, by rw [← h1.1]; rfl⟩)
      · have no : ∀ {x}, Means (.str t) x → False := by
          rintro x (⟨hm, _⟩ | ⟨t', n, h1, rfl, h2, hn⟩)
          · simp [V.isVar] at hm
          · simp only [V.str.injEq] at h1; subst h1
            exact absurd h2 hi
        rintro (⟨hm, -⟩ | ⟨n, hm, -⟩ | ⟨t', h1, h2, rfl, rfl, rfl⟩)
        · exact (no hm).elim
        · exact (no hm).elim
        · simp only [V.str.injEq] at h1; subst h1
          exact ⟨(), _, [], rfl, ⟨⟨rfl, rfl⟩, rfl⟩, rfl⟩
  · have hp : sliceLength w s l = .pure (s, l) := by cases l <;> first | rfl | simp [V.isVar] at hv
    rw [hp, pure_iff]
    simp only [Prod.mk.injEq]
    constructor
    · rintro ⟨⟨rfl, rfl⟩, rfl⟩
      exact .inl ⟨.inl ⟨hv, rfl⟩, rfl, rfl, .inl hv⟩
    · rintro (⟨hm, rfl, rfl, -⟩ | ⟨n, hm, -⟩ | ⟨t', rfl, -⟩)
      · rcases hm with ⟨_, rfl⟩ | ⟨t', n, rfl, _⟩
        · exact ⟨⟨rfl, rfl⟩, rfl⟩
        · simp [V.isVar] at hv
      · rcases hm with ⟨_, rfl⟩ | ⟨t', n, rfl, _⟩
        · simp [V.isVar] at hv
        · simp [V.isVar] at hv
      · simp [V.isVar] at hv

theorem zero_iff {s l a b : V} {evs : List Ev} : sliceZero w s l = ⟨evs, .ok (a, b)⟩ ↔
    (¬ (s = .int 0 ∧ l.truthy = false) ∧ a = s ∧ b = l ∧ evs = []) ∨
    (s = .int 0 ∧ l.truthy = false ∧ a = .none ∧ b = l ∧ evs = [noStart w]) := by
  unfold sliceZero
  split
  · rename_i h
    have h : s = .int 0 ∧ l.truthy = false := by simpa using h
    rw [start_emit]
    simp only [bind_iff, pure_iff, Prod.mk.injEq]
    constructor
    · rintro ⟨u, e1, e2, h1, ⟨⟨rfl, rfl⟩, rfl⟩, rfl⟩
      simp only [Tr.mk.injEq] at h1
      exact .inr ⟨h.1, h.2, rfl, rfl, by rw [← h1.1]; rfl⟩
    · rintro (⟨hn, -⟩ | ⟨-, -, rfl, rfl, rfl⟩)
      · exact absurd h hn
      · exact ⟨(), _, [], rfl, ⟨⟨rfl, rfl⟩, rfl⟩, rfl⟩
  · rename_i h
    have h : ¬ (s = .int 0 ∧ l.truthy = false) := by simpa using h
    simp only [pure_iff, Prod.mk.injEq]
    constructor
    · rintro ⟨⟨rfl, rfl⟩, rfl⟩; exact .inl ⟨h, rfl, rfl, rfl⟩
    · rintro (⟨-, rfl, rfl, rfl⟩ | ⟨h1, h2, -⟩)
      · exact ⟨⟨rfl, rfl⟩, rfl⟩
      · exact absurd ⟨h1, h2⟩ h

theorem slice_run {data name start length : V} {ps : List V} (hs : data.split ':' none = .ok ps) {evs : List Ev} :
    splitSlice w data = ⟨evs, .ok (name, start, length)⟩ ↔ ∃ e0 e1 e2 e3 a b a2 b2,
      (if (sliceParts ps).2.2.2 = true then Tr.pure () else .emit (mkMsg .E_VAR_SUBSTR_ARGS w [(c! "data", .one data)])) = ⟨e0, .ok ()⟩ ∧
      sliceStart w (sliceParts ps).2.1 (sliceParts ps).2.2.1 = ⟨e1, .ok (a, b)⟩ ∧ sliceLength w a b = ⟨e2, .ok (a2, b2)⟩ ∧
      sliceZero w a2 b2 = ⟨e3, .ok (start, length)⟩ ∧ name = (sliceParts ps).1 ∧ evs = e0 ++ (e1 ++ (e2 ++ e3)) := by
  unfold splitSlice
  rw [hs]
  simp only [bind_iff, lift_iff, pure_iff, Prod.mk.injEq]
  constructor
  · rintro ⟨ps', -, -, ⟨h, rfl⟩, ⟨⟨⟩, e0, -, h0, ⟨⟨a, b⟩, e1, -, h1, ⟨⟨a2, b2⟩, e2, -, h2, ⟨⟨a3, b3⟩, e3, -, h3,
      ⟨⟨rfl, rfl, rfl⟩, rfl⟩, rfl⟩, rfl⟩, rfl⟩, rfl⟩, rfl⟩
    simp only [Except.ok.injEq] at h
    subst h
    exact ⟨e0, e1, e2, e3, a, b, a2, b2, h0, h1, h2, h3, rfl, by simp⟩
  · rintro ⟨e0, e1, e2, e3, a, b, a2, b2, h0, h1, h2, h3, rfl, rfl⟩
    exact ⟨ps, [], _, ⟨rfl, rfl⟩, ⟨(), e0, _, h0, ⟨(a, b), e1, _, h1, ⟨(a2, b2), e2, _, h2, ⟨(start, length), e3, [], h3,
      ⟨⟨rfl, rfl, rfl⟩, rfl⟩, rfl⟩, rfl⟩, rfl⟩, rfl⟩, by simp⟩

theorem render_args {v : V} : (∃ r, (mkMsg .E_VAR_SUBSTR_ARGS w [(c! "data", .one v)]).render = .ok r) ↔ ∃ s, v.toStr = .ok s := by
  cases h : v.toStr <;>
    simp [mkMsg, Msg.render, MK.template, renderAll, renderPiece, h, Except.map, List.lookup]

theorem start_none {l : V} : sliceStart w .none l = ⟨[], .ok (.none, l)⟩ := rfl
theorem length_none {s : V} : sliceLength w s .none = ⟨[], .ok (s, .none)⟩ := rfl
theorem zero_none {l : V} : sliceZero w .none l = ⟨[], .ok (.none, l)⟩ := rfl

theorem zero_plain {s l : V} (h : s ≠ .int 0 ∨ l.truthy = true) : sliceZero w s l = ⟨[], .ok (s, l)⟩ :=
  zero_iff.2 (.inl ⟨by rintro ⟨h1, h2⟩; rcases h with h | h; exact h h1; rw [h2] at h; simp at h, rfl, rfl, rfl⟩)

theorem zero_says {l : V} (h : l.truthy = false) : sliceZero w (.int 0) l = ⟨[noStart w], .ok (.none, l)⟩ :=
  zero_iff.2 (.inr ⟨rfl, h, rfl, rfl, rfl⟩)

/-- The parts are texts, or the value is a single variable without text. -/
theorem means_normal {p v : V} (h : Means p v) (hv : v.isVar = true) : p = v := by
  rcases h with ⟨_, rfl⟩ | ⟨_, n, _, rfl, _⟩
  · rfl
  · simp [V.isVar] at hv

theorem slice_complete {data name start length : V} (hd : Normal data) {evs : List Ev}
    (h : splitSlice w data = ⟨evs, .ok (name, start, length)⟩) : SliceSays w data name start length evs := by
  have hps : ∃ ps, data.split ':' none = .ok ps := by
    unfold splitSlice at h
    rw [bind_iff] at h
    obtain ⟨ps, _, _, h1, _⟩ := h
    exact ⟨ps, (lift_iff.1 h1).1⟩
  obtain ⟨ps, hps⟩ := hps
  have hf := (fields_iff hd).1 hps
  obtain ⟨e0, e1, e2, e3, a, b, a2, b2, h0, h1, h2, h3, rfl, rfl⟩ := (slice_run hps).1 h
  obtain ⟨hne, hn⟩ := fields_normal hf
  rcases sliceParts_cases ps hne with ⟨v, s, rfl, hp⟩ | ⟨v, s, l, rfl, hp⟩ | ⟨v, hv, hp, l2, l3⟩
  · rw [hp] at h0 h1 ⊢
    dsimp only at h0 h1 ⊢
    rw [if_pos rfl] at h0
    obtain rfl := (pure_iff.1 h0).2
    have hs : Normal s := hn (by simp) s (by simp)
    rcases (start_iff hs).1 h1 with ⟨hm, rfl, rfl⟩ | ⟨t, rfl, ht, rfl, rfl, rfl⟩
    · rw [length_none] at h2
      simp only [Tr.mk.injEq, Except.ok.injEq, Prod.mk.injEq] at h2
      obtain ⟨rfl, rfl, rfl⟩ := h2
      rcases zero_iff.1 h3 with ⟨hz, rfl, rfl, rfl⟩ | ⟨rfl, _, rfl, rfl, rfl⟩
      · exact .start hf hm fun e => hz ⟨e, rfl⟩
      · exact .zero hf hm
    · rw [length_none] at h2
      simp only [Tr.mk.injEq, Except.ok.injEq, Prod.mk.injEq] at h2
      obtain ⟨rfl, rfl, rfl⟩ := h2
      rw [zero_none] at h3
      simp only [Tr.mk.injEq, Except.ok.injEq, Prod.mk.injEq] at h3
      obtain ⟨rfl, rfl, rfl⟩ := h3
      exact .badStart hf (by simp) ht
  · rw [hp] at h0 h1 ⊢
    dsimp only at h0 h1 ⊢
    rw [if_pos rfl] at h0
    obtain rfl := (pure_iff.1 h0).2
    have hs : Normal s := hn (by simp) s (by simp)
    have hl : Normal l := hn (by simp) l (by simp)
    rcases (start_iff hs).1 h1 with ⟨hm, rfl, rfl⟩ | ⟨t, rfl, ht, rfl, rfl, rfl⟩
    · rcases (length_iff hl).1 h2 with ⟨hb, rfl, rfl, hg⟩ | ⟨n, hb, hc, rfl, rfl, rfl⟩ | ⟨t, rfl, ht, rfl, rfl, rfl⟩
      · have htr : b2.truthy = true := by
          rcases hg with hv | ⟨m, n, rfl, rfl, h0, _⟩
          · obtain rfl := means_normal hb hv
            rcases normal_kind hl with ⟨t, rfl⟩ | ⟨_, h⟩
            · simp [V.isVar] at hv
            · exact h
          · simpa [V.truthy] using h0
        rw [zero_plain (.inr htr)] at h3
        simp only [Tr.mk.injEq, Except.ok.injEq, Prod.mk.injEq] at h3
        obtain ⟨rfl, rfl, rfl⟩ := h3
        refine .both hf hm hb ⟨means_or hm, .inr hg, fun _ e => means_ne_none hb e⟩
      · rcases zero_iff.1 h3 with ⟨hz, rfl, rfl, rfl⟩ | ⟨rfl, _, rfl, rfl, rfl⟩
        · exact .unfit hf hm hb hc fun e => hz ⟨e, rfl⟩
        · rcases hc with rfl | ⟨m, h5, h6, _⟩
          · exact .unfitZero hf hm hb
          · simp only [V.int.injEq] at h5; omega
      · rw [zero_none] at h3
        simp only [Tr.mk.injEq, Except.ok.injEq, Prod.mk.injEq] at h3
        obtain ⟨rfl, rfl, rfl⟩ := h3
        exact .badLength hf hm ht
    · rw [length_none] at h2
      simp only [Tr.mk.injEq, Except.ok.injEq, Prod.mk.injEq] at h2
      obtain ⟨rfl, rfl, rfl⟩ := h2
      rw [zero_none] at h3
      simp only [Tr.mk.injEq, Except.ok.injEq, Prod.mk.injEq] at h3
      obtain ⟨rfl, rfl, rfl⟩ := h3
      exact .badStart hf (by simp) ht
  · rw [hp] at h0 h1 ⊢
    dsimp only at h0 h1 ⊢
    rw [if_neg (by simp)] at h0
    obtain ⟨rfl, hr⟩ := emit_iff.1 h0
    obtain ⟨t, ht⟩ := render_args.1 hr
    rw [start_none] at h1
    simp only [Tr.mk.injEq, Except.ok.injEq, Prod.mk.injEq] at h1
    obtain ⟨rfl, rfl, rfl⟩ := h1
    rw [length_none] at h2
    simp only [Tr.mk.injEq, Except.ok.injEq, Prod.mk.injEq] at h2
    obtain ⟨rfl, rfl, rfl⟩ := h2
    rw [zero_none] at h3
    simp only [Tr.mk.injEq, Except.ok.injEq, Prod.mk.injEq] at h3
    obtain ⟨rfl, rfl, rfl⟩ := h3
    cases ps with
    | nil => exact absurd rfl hne
    | cons v' rest =>
      simp only [List.head?_cons, Option.some.injEq] at hv
      subst hv
      exact .wrongNumber hf (by simpa using l2) (by simpa using l3) ht

theorem slice_sound {data name start length : V} (hd : Normal data) {evs : List Ev}
    (h : SliceSays w data name start length evs) : splitSlice w data = ⟨evs, .ok (name, start, length)⟩ := by
  cases h with
  | @wrongNumber rest t hf h1 h2 ht =>
    have hp : sliceParts (name :: rest) = (name, .none, .none, false) := by
      rcases sliceParts_cases (name :: rest) (by simp) with ⟨v, s, h, _⟩ | ⟨v, s, l, h, _⟩ | ⟨v, hv, hp, _⟩
      · simp only [List.cons.injEq] at h; rw [h.2] at h1; simp at h1
      · simp only [List.cons.injEq] at h; rw [h.2] at h2; simp at h2
      · simp only [List.head?_cons, Option.some.injEq] at hv; rw [hp, hv]
    refine (slice_run ((fields_iff hd).2 hf)).2 ⟨[.msg (mkMsg .E_VAR_SUBSTR_ARGS w [(c! "data", .one data)])], [], [], [],
      .none, .none, .none, .none, ?_⟩
    rw [hp]
    dsimp only
    rw [if_neg (by simp)]
    exact ⟨emit_iff.2 ⟨rfl, render_args.2 ⟨t, ht⟩⟩, rfl, rfl, rfl, rfl, rfl⟩
  | @start s _ hf hm h0 =>
    obtain ⟨_, hn⟩ := fields_normal hf
    have hs : Normal s := hn (by simp) s (by simp)
    exact (slice_run ((fields_iff hd).2 hf)).2 ⟨[], [], [], [], _, _, _, _, rfl, (start_iff hs).2 (.inl ⟨hm, rfl, rfl⟩), length_none,
      zero_plain (.inl h0), rfl, rfl⟩
  | @zero s hf hm =>
    obtain ⟨_, hn⟩ := fields_normal hf
    have hs : Normal s := hn (by simp) s (by simp)
    exact (slice_run ((fields_iff hd).2 hf)).2 ⟨[], [], [], _, _, _, _, _, rfl, (start_iff hs).2 (.inl ⟨hm, rfl, rfl⟩), length_none,
      zero_says rfl, rfl, rfl⟩
  | @badStart s rest hf hr hi =>
    have hs : Normal (.str s) := normal_str s
    have hp : ∃ l, sliceParts (name :: .str s :: rest) = (name, .str s, l, true) := by
      match rest, hr with
      | [], _ => exact ⟨_, rfl⟩
      | [l], _ => exact ⟨l, rfl⟩
    obtain ⟨l, hp⟩ := hp
    refine (slice_run ((fields_iff hd).2 hf)).2 ⟨[], [noStart w], [], [], .none, .none, .none, .none, ?_⟩
    rw [hp]
    exact ⟨rfl, (start_iff hs).2 (.inr ⟨s, rfl, hi, rfl, rfl, rfl⟩), rfl, rfl, rfl, rfl⟩
  | @both s l _ _ hf hm hl hg =>
    obtain ⟨_, hn⟩ := fields_normal hf
    have hs : Normal s := hn (by simp) s (by simp)
    have hl' : Normal l := hn (by simp) l (by simp)
    have hgl := hg.2.1.resolve_left (means_ne_none hl)
    refine (slice_run ((fields_iff hd).2 hf)).2 ⟨[], [], [], [], start, l, start, length, rfl,
      (start_iff hs).2 (.inl ⟨hm, rfl, rfl⟩), (length_iff hl').2 (.inl ⟨hl, rfl, rfl, hgl⟩), zero_plain (.inr ?_), rfl, rfl⟩
    rcases hgl with hv | ⟨m, n, rfl, rfl, h0, _⟩
    · obtain rfl := means_normal hl hv
      rcases normal_kind hl' with ⟨t, rfl⟩ | ⟨_, h⟩
      · simp [V.isVar] at hv
      · exact h
    · simpa [V.truthy] using h0
  | @badLength s start l hf hm hl =>
    obtain ⟨_, hn⟩ := fields_normal hf
    have hs : Normal s := hn (by simp) s (by simp)
    have hl' : Normal (.str l) := hn (by simp) _ (by simp)
    exact (slice_run ((fields_iff hd).2 hf)).2 ⟨[], [], _, [], start, .str l, .none, .none, rfl,
      (start_iff hs).2 (.inl ⟨hm, rfl, rfl⟩), (length_iff hl').2 (.inr (.inr ⟨l, rfl, hl, rfl, rfl, rfl⟩)), rfl, rfl, rfl⟩
  | @unfit s l _ n hf hm hl hc h0 =>
    obtain ⟨_, hn⟩ := fields_normal hf
    have hs : Normal s := hn (by simp) s (by simp)
    have hl' : Normal l := hn (by simp) _ (by simp)
    exact (slice_run ((fields_iff hd).2 hf)).2 ⟨[], [], _, [], start, l, start, .none, rfl,
      (start_iff hs).2 (.inl ⟨hm, rfl, rfl⟩), (length_iff hl').2 (.inr (.inl ⟨n, hl, hc, rfl, rfl, rfl⟩)), zero_plain (.inl h0), rfl, rfl⟩
  | @unfitZero s l hf hm hl =>
    obtain ⟨_, hn⟩ := fields_normal hf
    have hs : Normal s := hn (by simp) s (by simp)
    have hl' : Normal l := hn (by simp) _ (by simp)
    exact (slice_run ((fields_iff hd).2 hf)).2 ⟨[], [], _, _, .int 0, l, .int 0, .none, rfl,
      (start_iff hs).2 (.inl ⟨hm, rfl, rfl⟩), (length_iff hl').2 (.inr (.inl ⟨0, hl, .inl rfl, rfl, rfl, rfl⟩)), zero_says rfl, rfl, rfl⟩

theorem slice_iff {data name start length : V} (hd : Normal data) {evs : List Ev} :
    splitSlice w data = ⟨evs, .ok (name, start, length)⟩ ↔ SliceSays w data name start length evs :=
  ⟨slice_complete hd, slice_sound hd⟩

/-- What is left of the part can be taken. -/
theorem slice_good {data name start length : V} {evs : List Ev} (h : SliceSays w data name start length evs) :
    start = .none ∨ GoodSlice start length := by
  cases h with
  | wrongNumber | zero | badStart | badLength | unfitZero => exact .inl rfl
  | start _ hm h0 => exact .inr ⟨means_or hm, .inl rfl, fun e => absurd e h0⟩
  | both _ _ _ hg => exact .inr hg
  | unfit _ hm _ _ h0 => exact .inr ⟨means_or hm, .inl rfl, fun e => absurd e h0⟩

theorem fields_head {c : Char} {v p : V} {ps : List V} (h : Fields c v (p :: ps)) : Normal p ∨ p.truthy = true := by
  generalize hl : p :: ps = l at h
  induction h with
  | @text v parts hv h0 ht hno =>
    left
    obtain ⟨q, hq, rfl⟩ := List.mem_map.1 (show p ∈ parts.map join by rw [← hl]; simp)
    exact tok_normal fun t hm => tokens_isTok v t (by rw [ht]; exact sepBy_mem _ hq hm)
  | inside _ _ ih => exact ih hl
  | whole h _ =>
    simp only [List.cons.injEq] at hl
    exact .inr (hl.1 ▸ h)

theorem slice_name {data name start length : V} {evs : List Ev} (h : SliceSays w data name start length evs) :
    Normal name ∨ name.truthy = true := by
  cases h with
  | wrongNumber hf | start hf | zero hf | badStart hf | both hf | badLength hf | unfit hf | unfitZero hf => exact fields_head hf

theorem slice_falsy {data name start length : V} {evs : List Ev} (h : SliceSays w data name start length evs) :
    name.truthy = false ↔ name = .str [] := by
  constructor
  · intro hf
    rcases slice_name h with hn | ht
    · rcases normal_kind hn with ⟨t, rfl⟩ | ⟨_, ht⟩
      · cases t with
        | nil => rfl
        | cons => simp [V.truthy] at hf
      · rw [ht] at hf; simp at hf
    · rw [ht] at hf; simp at hf
  · rintro rfl; rfl

/-! ## Function calls -/

theorem last_of {c : Char} {l : List V} (h : tk c ∈ l) : ∃ a b, l = a ++ tk c :: b ∧ tk c ∉ b := by
  obtain ⟨a, b, h1, h2⟩ := first_of (l := l.reverse) (List.mem_reverse.2 h)
  refine ⟨b.reverse, a.reverse, ?_, by simpa using h2⟩
  have := congrArg List.reverse h1
  simpa using this

theorem lastParen_at {l b : List V} {i : Nat} (hb : tk ')' ∉ b) : lastParen (l ++ tk ')' :: b) i = if i < l.length then some l.length else none := by
  have hidx : (l ++ tk ')' :: b).reverse.findIdx (· == V.str (c! ")")) = b.length := by
    have e : (l ++ tk ')' :: b).reverse = b.reverse ++ (tk ')' :: l.reverse) := by simp
    rw [e, List.findIdx_append]
    have hn : b.reverse.findIdx (· == V.str (c! ")")) = b.reverse.length := by
      rw [List.findIdx_eq_length]
      intro x hx
      have : x ≠ tk ')' := fun e => hb (e ▸ by simpa using hx)
      simpa [tk] using this
    rw [hn, if_neg (by simp)]
    simp [List.findIdx_cons, tk]
  unfold lastParen
  simp only [hidx]
  have hl : (l ++ tk ')' :: b).length - 1 - b.length = l.length := by simp
  rw [hl]
  have : (decide (b.length < (l ++ tk ')' :: b).length)) = true := by simp; omega
  rw [this, Bool.true_and]
  simp

theorem lastParen_missing {toks : List V} (h : tk ')' ∉ toks) {i : Nat} : lastParen toks i = none := by
  have hidx : toks.reverse.findIdx (· == V.str (c! ")")) = toks.length := by
    rw [← List.length_reverse, List.findIdx_eq_length]
    intro x hx
    have : x ≠ tk ')' := fun e => h (e ▸ by simpa using hx)
    simpa [tk] using this
  unfold lastParen
  simp only [hidx]
  simp

theorem lastParen_behind {pre rest : List V} (h : tk ')' ∉ rest) : lastParen (pre ++ tk '(' :: rest) pre.length = none := by
  by_cases hp : tk ')' ∈ pre
  · obtain ⟨a, b, rfl, hb⟩ := last_of hp
    have : (a ++ tk ')' :: b) ++ tk '(' :: rest = a ++ tk ')' :: (b ++ tk '(' :: rest) := by simp
    rw [this, lastParen_at (by simp only [List.mem_append, List.mem_cons, not_or]; exact ⟨hb, by simp [tk], h⟩), if_neg (by simp)]
  · exact lastParen_missing (by simp only [List.mem_append, List.mem_cons, not_or]; exact ⟨hp, by simp [tk], h⟩)

theorem getSlice_join (v : V) (i j : Nat) : join (v.getSlice i j).iter = join ((v.tokens.drop i).take (j - i)) := by
  have hk : ∀ t ∈ (v.tokens.drop i).take (j - i), isTok t = true :=
    fun t ht => tokens_isTok v t (List.mem_of_mem_drop (List.mem_of_mem_take ht))
  refine join_determined (getSlice_iter_piece _ _ _) (fun t ht => tok_piece (hk t ht)) ?_
  rw [getSlice_tokens, tokensAll_toks' hk]

theorem normal_truthy {v : V} (h : Normal v) : v.truthy = true ↔ v.tokens ≠ [] := by
  rcases normal_cases h with ⟨s, rfl⟩ | ⟨k, n, s, l, rfl⟩ | ⟨items, rfl, _⟩
  · cases s <;> simp [V.truthy, V.tokens]
  · simp [V.truthy, V.tokens]
  · simp [V.truthy, V.tokens]

theorem render_parens {v : V} : (∃ r, (mkMsg .E_FUNC_PARENS w [(c! "data", .one v)]).render = .ok r) ↔ ∃ s, v.toStr = .ok s := by
  cases h : v.toStr <;>
    simp [mkMsg, Msg.render, MK.template, renderAll, renderPiece, h, Except.map, List.lookup]

theorem render_tail {v : V} : (∃ r, (mkMsg .E_FUNC_TAIL w [(c! "data", .one v)]).render = .ok r) ↔ ∃ s, v.toStr = .ok s := by
  cases h : v.toStr <;>
    simp [mkMsg, Msg.render, MK.template, renderAll, renderPiece, h, Except.map, List.lookup]

theorem render_dynamic {v : V} {r : List Rendered} : (mkMsg .W_FUNC_DYNAMIC w [(c! "func", .one v)]).render ≠ .ok r := by
  simp [mkMsg, Msg.render, MK.template, renderAll, renderPiece, Except.map, List.lookup]

theorem drop_behind (pre : List V) (x : V) (rest : List V) : (pre ++ x :: rest).drop (pre.length + 1) = rest := by
  rw [show pre ++ x :: rest = (pre ++ [x]) ++ rest by simp]
  exact List.drop_left' (by simp)

theorem parts_iff {data : V} {pre rest : List V} (ht : data.tokens = pre ++ tk '(' :: rest) {args start length : V} {evs : List Ev} :
    (∃ at_ e1 e2, funcArgs w data pre.length = ⟨e1, .ok at_⟩ ∧ funcTail w data at_.2 = ⟨e2, .ok (start, length)⟩ ∧ args = at_.1 ∧
      evs = e1 ++ e2) ↔ CallParts w data rest args start length evs := by
  have hrest : ∀ t ∈ rest, isTok t = true := fun t h => tokens_isTok data t (by rw [ht]; simp [h])
  by_cases hc : tk ')' ∈ rest
  · obtain ⟨a, b, rfl, hb⟩ := last_of hc
    have hkb : ∀ t ∈ b, isTok t = true := fun t h => hrest t (by simp [h])
    have hfa : funcArgs w data pre.length = ⟨[], .ok (join a, join b)⟩ := by
      have hl : lastParen data.tokens pre.length = some (pre.length + 1 + a.length) := by
        rw [ht, show pre ++ tk '(' :: (a ++ tk ')' :: b) = (pre ++ tk '(' :: a) ++ tk ')' :: b by simp, lastParen_at hb, if_pos (by simp)]
        simp; omega
      unfold funcArgs
      rw [hl]
      dsimp only
      rw [getSlice_join, getSlice_join, ht, drop_behind]
      have e1 : (a ++ tk ')' :: b).take (pre.length + 1 + a.length - (pre.length + 1)) = a := by
        rw [show pre.length + 1 + a.length - (pre.length + 1) = a.length by omega]; simp
      have e2 : (pre ++ tk '(' :: (a ++ tk ')' :: b)).drop (pre.length + 1 + a.length + 1) = b := by
        have := drop_behind (pre ++ tk '(' :: a) (tk ')') b
        simp only [List.append_assoc, List.cons_append, List.length_append, List.length_cons] at this
        rw [show pre.length + 1 + a.length + 1 = pre.length + (a.length + 1) + 1 by omega]; exact this
      rw [e1, e2, List.take_of_length_le (by simp; omega)]
      rfl
    rw [hfa]
    have huniq : ∀ {a' b' : List V}, a ++ tk ')' :: b = a' ++ tk ')' :: b' → tk ')' ∉ b' → a' = a ∧ b' = b := by
      intro a' b' h hb'
      have := congrArg List.reverse h
      simp only [List.reverse_append, List.reverse_cons, List.append_assoc, List.singleton_append] at this
      have e1 := splitT_one (tk ')') b.reverse a.reverse (by simpa using hb)
      have e2 := splitT_one (tk ')') b'.reverse a'.reverse (by simpa using hb')
      rw [this, e2] at e1
      simpa [and_comm] using e1
    have hnb : Normal (join b) := tok_normal hkb
    constructor
    · rintro ⟨at_, e1, e2, h1, h2, rfl, rfl⟩
      simp only [Tr.mk.injEq, Except.ok.injEq] at h1
      obtain ⟨rfl, rfl⟩ := h1
      unfold funcTail at h2
      dsimp only at h2 ⊢
      split at h2
      · rename_i htr
        have hbne : b ≠ [] := by
          have := (normal_truthy hnb).1 htr
          rwa [tokens_join hkb] at this
        rw [bind_iff] at h2
        obtain ⟨⟨n, s, l⟩, e3, e4, h3, h4, rfl⟩ := h2
        have hs := (slice_iff hnb).1 h3
        dsimp only at h4
        split at h4
        · rename_i hn
          simp only [bind_iff, emit_iff, pure_iff, Prod.mk.injEq] at h4
          obtain ⟨u, e5, e6, ⟨rfl, hr⟩, ⟨⟨rfl, rfl⟩, rfl⟩, rfl⟩ := h4
          obtain ⟨t, hr⟩ := render_tail.1 hr
          refine .excess hbne hb hs ?_ hr
          rintro rfl; simp [V.truthy] at hn
        · rename_i hn
          simp only [pure_iff, Prod.mk.injEq] at h4
          obtain ⟨⟨rfl, rfl⟩, rfl⟩ := h4
          have : n = .str [] := (slice_falsy hs).1 (by simpa using hn)
          subst this
          rw [List.append_nil]
          exact .part hbne hb hs
      · rename_i htr
        have hbn : b = [] := by
          by_cases hb0 : b = []
          · exact hb0
          · exact absurd ((normal_truthy hnb).2 (by rwa [tokens_join hkb])) htr
        subst hbn
        simp only [pure_iff, Prod.mk.injEq] at h2
        obtain ⟨⟨rfl, rfl⟩, rfl⟩ := h2
        exact .closed
    · intro h
      generalize hr : a ++ tk ')' :: b = r at h
      cases h with
      | «open» hno _ => rw [← hr] at hno; simp at hno
      | closed =>
        obtain ⟨rfl, rfl⟩ := huniq hr (by simp)
        exact ⟨_, [], [], rfl, rfl, rfl, rfl⟩
      | part hne hno hs =>
        obtain ⟨rfl, rfl⟩ := huniq hr hno
        refine ⟨_, [], evs, rfl, ?_, rfl, rfl⟩
        unfold funcTail
        dsimp only
        rw [if_pos ((normal_truthy hnb).2 (by rwa [tokens_join hkb])), (slice_iff hnb).2 hs]
        simp [Tr.bind, V.truthy, Tr.pure]
      | @excess _ _ name s l e3 t hne hno hs hn htx =>
        obtain ⟨rfl, rfl⟩ := huniq hr hno
        refine ⟨_, [], _, rfl, ?_, rfl, rfl⟩
        unfold funcTail
        dsimp only
        rw [if_pos ((normal_truthy hnb).2 (by rwa [tokens_join hkb])), (slice_iff hnb).2 hs, bind_iff]
        refine ⟨_, e3, [.msg (mkMsg .E_FUNC_TAIL w [(c! "data", .one data)])], rfl, ?_, rfl⟩
        dsimp only
        have htr : name.truthy = true := by
          cases h : name.truthy with
          | true => rfl
          | false => exact absurd ((slice_falsy hs).1 h) hn
        rw [if_pos htr]
        rw [bind_iff]
        exact ⟨(), _, [], emit_iff.2 ⟨rfl, render_tail.2 ⟨t, htx⟩⟩, rfl, rfl⟩
  · have hl : lastParen data.tokens pre.length = none := by rw [ht]; exact lastParen_behind hc
    have hj : join (data.getSlice (pre.length + 1) data.tokens.length).iter = join rest := by
      rw [getSlice_join, ht, drop_behind, List.take_of_length_le (by simp; omega)]
    unfold funcArgs
    rw [hl]
    dsimp only
    rw [hj]
    simp only [bind_iff, emit_iff, pure_iff]
    constructor
    · rintro ⟨at_, e1, e2, ⟨u, e3, e4, ⟨rfl, hr⟩, ⟨rfl, rfl⟩, rfl⟩, h2, rfl, rfl⟩
      obtain ⟨t, hr⟩ := render_parens.1 hr
      have : funcTail w data (.str []) = .pure (.none, .none) := rfl
      rw [this, pure_iff] at h2
      simp only [Prod.mk.injEq] at h2
      obtain ⟨⟨rfl, rfl⟩, rfl⟩ := h2
      exact .open hc hr
    · intro h
      cases h with
      | @«open» _ t _ hr =>
        exact ⟨(join rest, .str []), _, [], ⟨(), _, [], ⟨rfl, render_parens.2 ⟨t, hr⟩⟩, ⟨rfl, rfl⟩, rfl⟩, rfl, rfl, rfl⟩
      | closed | part | excess => simp at hc

theorem parts_good {data args start length : V} {rest : List V} {evs : List Ev} (h : CallParts w data rest args start length evs) :
    (start = .none ∨ GoodSlice start length) ∧ ∃ r, (∀ t ∈ r, t ∈ rest) ∧ args = join r := by
  cases h with
  | «open» => exact ⟨.inl rfl, _, fun _ h => h, rfl⟩
  | closed => exact ⟨.inl rfl, _, fun _ h => by simp [h], rfl⟩
  | part _ _ hs => exact ⟨slice_good hs, _, fun _ h => by simp [h], rfl⟩
  | excess => exact ⟨.inl rfl, _, fun _ h => by simp [h], rfl⟩

theorem mkReadFunc_called {f : Str} {args start length : V} (hg : start = .none ∨ GoodSlice start length) :
    mkReadFunc (.str f) args start length = .ok (called f args start length) := by
  unfold mkReadFunc called
  by_cases h : start = .none
  · simp [h, funcName]
  · rw [goodSlice_init (hg.resolve_left h)]
    simp [h, funcName, Except.map]

theorem firstParen_at {pre rest : List V} (h : tk '(' ∉ pre) : firstParen (pre ++ tk '(' :: rest) = pre.length := by
  unfold firstParen
  rw [List.findIdx_append]
  have hn : pre.findIdx (· == V.str (c! "(")) = pre.length := by
    rw [List.findIdx_eq_length]
    intro x hx
    have : x ≠ tk '(' := fun e => h (e ▸ hx)
    simpa [tk] using this
  rw [hn, if_neg (by simp)]
  simp [List.findIdx_cons, tk]

theorem read_iff {data v : V} (hp : tk '(' ∈ data.tokens) {evs : List Ev} :
    readFunction env w data = ⟨evs, .ok v⟩ ↔ ∃ f rest args start length fi parts look call,
      data.tokens = f.map tk ++ tk '(' :: rest ∧ f ≠ [] ∧ '(' ∉ f ∧ CallParts w data rest args start length parts ∧
      LooksUp env w f fi look ∧ FuncSays env w fi (.one args) call ∧ v = called f args start length ∧
      evs = parts ++ (look ++ call) := by
  obtain ⟨pre, rest, ht, hpre⟩ := first_of hp
  have hfirst : firstParen data.tokens = pre.length := by rw [ht]; exact firstParen_at hpre
  have hrest : ∀ t ∈ rest, isTok t = true := fun t h => tokens_isTok data t (by rw [ht]; simp [h])
  have hgt : V.tokensAll (data.getSlice 0 pre.length).iter = pre := by
    rw [getSlice_tokens, ht]; simp
  unfold readFunction
  rw [hfirst]
  dsimp only
  constructor
  · intro h
    split at h
    · simp [raise_iff] at h
    · rename_i htr
      simp only [bind_iff] at h
      obtain ⟨at_, e1, _, h1, ⟨⟨start, length⟩, e2, e3, h2, h3, rfl⟩, rfl⟩ := h
      have hparts := (parts_iff ht).1 ⟨at_, e1, e2, h1, h2, rfl, rfl⟩
      obtain ⟨hg, r, hr, hargs⟩ := parts_good hparts
      have hna : Normal at_.1 := hargs ▸ tok_normal fun t h => hrest t (hr t h)
      split at h3
      · simp [raise_iff] at h3
      · rename_i f hf
        rw [hf] at hgt htr
        have hpf : pre = f.map tk := by
          rw [← hgt]
          show V.tokensAll (V.str f).tokens = _
          rw [tokensAll_toks' (tokens_isTok _)]; rfl
        have hfne : f ≠ [] := by rintro rfl; simp [Arg.truthy, V.truthy] at htr
        simp only [bind_iff, lift_iff, mkReadFunc_called hg] at h3
        obtain ⟨fi, e4, _, hg', ⟨⟨⟩, e5, _, hc, ⟨h4, rfl⟩, rfl⟩, rfl⟩ := h3
        simp only [Except.ok.injEq] at h4
        refine ⟨f, rest, at_.1, start, length, fi, e1 ++ e2, e4, e5, by rw [ht, hpf], hfne, ?_, hparts, getFunc_iff.1 hg',
          (call_iff (a := .one at_.1) hna).1 hc, h4.symm, by simp⟩
        rw [hpf] at hpre
        simpa [tk] using hpre
      · simp only [bind_iff, emit_iff] at h3
        obtain ⟨_, _, _, ⟨-, r, hr⟩, _⟩ := h3
        exact absurd hr render_dynamic
  · rintro ⟨f, rest', args, start, length, fi, parts, look, call, ht', hfne, hnf, hparts, hlook, hcall, rfl, rfl⟩
    have hnf' : tk '(' ∉ f.map tk := by simpa [tk] using hnf
    have e1 := splitT_one _ _ rest hpre
    have e2 := splitT_one _ _ rest' hnf'
    rw [← ht, ht', e2] at e1
    simp only [List.cons.injEq, and_true] at e1
    obtain ⟨hpf, rfl⟩ := e1
    have hfun : data.getSlice 0 pre.length = .one (.str f) := by
      apply getSlice_chars hfne
      rw [ht, ← hpf]
      simp [tk]
    obtain ⟨at_, p1, p2, h1, h2, rfl, rfl⟩ := (parts_iff ht).2 hparts
    have htr : (Arg.one (V.str f)).truthy = true := by cases f <;> simp [Arg.truthy, V.truthy] at hfne ⊢
    rw [hfun, htr]
    simp only [Bool.not_true, Bool.false_eq_true, if_false]
    simp only [bind_iff, lift_iff]
    exact ⟨at_, p1, _, h1, ⟨(start, length), p2, look ++ call, h2, ⟨fi, look, call, getFunc_iff.2 hlook,
      ⟨(), call, [], says_call hcall, ⟨mkReadFunc_called (parts_good hparts).1, rfl⟩, by simp⟩, rfl⟩, rfl⟩, by simp⟩

/-! ## Variables -/

theorem unlessVar_iff {v : V} {u : Unit} {evs : List Ev} : countUnlessVar w v = ⟨evs, .ok u⟩ ↔ Counts w v evs := by
  unfold countUnlessVar
  split
  · rename_i h
    rw [pure_iff]
    constructor
    · rintro ⟨_, rfl⟩; exact .dynamic h
    · intro hc
      cases hc with
      | name => simp [V.isVar] at h
      | dynamic => exact ⟨rfl, rfl⟩
  · rename_i h
    constructor
    · intro hc
      cases v with
      | str n => exact .name (countVar_iff.1 hc)
      | int n => simp [countArg, raise_iff] at hc
      | none => simp [countArg, raise_iff] at hc
      | lst => simp [V.isVar] at h
      | atom => simp [V.isVar] at h
    · intro hc
      cases hc with
      | name hc => exact countVar_iff.2 hc
      | dynamic hv => exact absurd hv h

theorem variable_iff {data v : V} (hd : Normal data) {evs : List Ev} :
    processVariable env w data = ⟨evs, .ok v⟩ ↔ CurlySays env w data v evs := by
  unfold processVariable
  by_cases hp : tk '(' ∈ data.tokens
  · rw [if_pos ((hasTok_iff _ _).2 hp), read_iff hp]
    constructor
    · rintro ⟨f, rest, args, start, length, fi, parts, look, call, ht, h1, h2, h3, h4, h5, rfl, rfl⟩
      exact .call ht h1 h2 h3 h4 h5
    · intro h
      cases h with
      | var h => exact absurd hp h
      | slice h => exact absurd hp h
      | call ht h1 h2 h3 h4 h5 => exact ⟨_, _, _, _, _, _, _, _, _, ht, h1, h2, h3, h4, h5, rfl, rfl⟩
  · rw [if_neg (fun h => hp ((hasTok_iff _ _).1 h))]
    have nocall : ∀ {f : Str} {rest : List V}, data.tokens = f.map tk ++ tk '(' :: rest → False := by
      intro f rest h
      rw [h] at hp
      simp at hp
    by_cases hc : tk ':' ∈ data.tokens
    · rw [if_pos ((hasTok_iff _ _).2 hc)]
      unfold processSlice
      simp only [bind_iff]
      have last : ∀ {name start length : V} (_ : start = .none ∨ GoodSlice start length) {e : List Ev},
          (if start = .none then Tr.pure (V.atom .var name .none .none)
            else if (start.isVar || length.isVar) = true then .pure (.atom .dynSlice name start length)
            else .bind (.lift (sliceInit start length)) fun _ => .pure (.atom .slice name start length)) = ⟨e, .ok v⟩ ↔
          v = takenPart name start length ∧ e = [] := by
        intro name start length hg e
        unfold takenPart
        by_cases h0 : start = .none
        · rw [if_pos h0, if_pos h0, pure_iff]
        · rw [if_neg h0, if_neg h0]
          split
          · rw [pure_iff]
          · rw [goodSlice_init (hg.resolve_left h0)]
            simp [Tr.bind, Tr.lift, Tr.pure, eq_comm, and_comm]
      constructor
      · rintro ⟨⟨name, start, length⟩, e1, _, h1, ⟨⟨⟩, e2, e3, h2, h3, rfl⟩, rfl⟩
        have hs := (slice_iff hd).1 h1
        obtain ⟨rfl, rfl⟩ := (last (slice_good hs)).1 h3
        rw [List.append_nil]
        exact .slice hp hc hs (unlessVar_iff.1 h2)
      · intro h
        cases h with
        | var _ h => exact absurd hc h
        | @slice name start length e1 e2 _ _ hs hn =>
          exact ⟨(name, start, length), e1, e2, (slice_iff hd).2 hs, ⟨(), e2, [], unlessVar_iff.2 hn,
            (last (slice_good hs)).2 ⟨rfl, rfl⟩, by simp⟩, rfl⟩
        | call h => exact (nocall h).elim
    · rw [if_neg (fun h => hc ((hasTok_iff _ _).1 h))]
      simp only [bind_iff, pure_iff]
      constructor
      · rintro ⟨⟨⟩, e1, _, h1, ⟨rfl, rfl⟩, rfl⟩
        rw [List.append_nil]
        exact .var hp hc (unlessVar_iff.1 h1)
      · intro h
        cases h with
        | var _ _ h => exact ⟨(), evs, [], unlessVar_iff.2 h, ⟨rfl, rfl⟩, by simp⟩
        | slice _ h => exact absurd h hc
        | call h => exact (nocall h).elim

/-! ## Whole texts -/

theorem curly_atom {data v : V} {evs : List Ev} (h : CurlySays env w data v evs) : isPiece v = true := by
  cases h with
  | var => rfl
  | slice => unfold takenPart; split; rfl; split <;> rfl
  | call => rfl

theorem reads_pieces {s : Str} {l : List V} {evs : List Ev} (h : TextReads env w s l evs) : ∀ v ∈ l, isPiece v = true := by
  induction h with
  | plain => simp [isPiece]
  | curly _ _ _ hc _ _ ih =>
    intro v hv
    simp only [List.mem_cons] at hv
    rcases hv with rfl | rfl | hv
    · rfl
    · exact curly_atom hc
    · exact ih v hv
  | square _ _ _ _ _ ih =>
    intro v hv
    simp only [List.mem_cons] at hv
    rcases hv with rfl | rfl | hv
    · rfl
    · rfl
    · exact ih v hv

theorem parse_some {s : Str} {v : V} {evs : List Ev} :
    parseVariables env w s = ⟨evs, .ok v⟩ ↔ ∃ l, items env w s = ⟨evs, .ok l⟩ ∧ v = join l := by
  rw [parseVariables_eq]
  simp only [bind_iff, pure_iff]
  constructor
  · rintro ⟨l, e1, _, h, ⟨rfl, rfl⟩, rfl⟩
    exact ⟨l, by rw [List.append_nil]; exact h, rfl⟩
  · rintro ⟨l, h, rfl⟩
    exact ⟨l, evs, [], h, ⟨rfl, rfl⟩, by simp⟩

theorem reads_items {s : Str} {l : List V} {evs : List Ev} (h : TextReads env w s l evs) : items env w s = ⟨evs, .ok l⟩ := by
  induction h with
  | plain hs => rw [items_none ((findSubst_none _).2 hs)]; rfl
  | @curly pre s inner tail l1 l2 v e1 e2 e3 h1 h2 hr hc _ ih1 ih2 =>
    rw [C32_curly env w pre s inner tail h1 h2]
    simp only [bind_iff, pure_iff]
    exact ⟨join l1, e1, e2 ++ e3, parse_some.2 ⟨l1, ih1, rfl⟩,
      ⟨v, e2, e3, (variable_iff ⟨l1, reads_pieces hr, rfl⟩).2 hc, ⟨l2, e3, [], ih2, ⟨rfl, rfl⟩, by simp⟩, rfl⟩, rfl⟩
  | @square pre s inner tail l1 l2 e1 e3 h1 h2 hr _ ih1 ih2 =>
    rw [C32_square env w pre s inner tail h1 h2]
    simp only [bind_iff, pure_iff]
    exact ⟨join l1, e1, e3, parse_some.2 ⟨l1, ih1, rfl⟩, ⟨l2, e3, [], ih2, ⟨rfl, rfl⟩, by simp⟩, rfl⟩

theorem items_reads {s : Str} {l : List V} {evs : List Ev} (h : items env w s = ⟨evs, .ok l⟩) : TextReads env w s l evs := by
  induction s using parse_induction generalizing l evs with
  | plain s hs =>
    rw [items_none hs, pure_iff] at h
    obtain ⟨rfl, rfl⟩ := h
    exact .plain ((findSubst_none s).1 hs)
  | opened s pre rest curly hs hb => rw [items_open hs hb, raise_iff] at h; exact h.elim
  | subst s pre rest curly inner more tail hs hb ih1 ih2 =>
    obtain ⟨hpre, rfl⟩ := (findSubst_some s pre rest curly).1 hs
    have henc := (enclosesAt_zero ..).1 ((bracketsEnd_iff curly 0 rest inner tail).1 ⟨more, hb⟩)
    rw [items_subst hs hb, innerVal_eq hb] at h
    simp only [bind_iff, pure_iff, parse_some] at h
    obtain ⟨_, e1, _, ⟨l1, hl1, rfl⟩, ⟨v, e2, _, hv, ⟨l2, e3, _, hl2, ⟨rfl, rfl⟩, rfl⟩, rfl⟩, rfl⟩ := h
    have hr := ih1 hl1
    cases curly with
    | true =>
      rw [List.append_nil]
      exact .curly hpre henc hr ((variable_iff ⟨l1, reads_pieces hr, rfl⟩).1 hv) (ih2 hl2)
    | false =>
      have hv : Tr.pure (processExpression (join l1)) = ⟨e2, .ok v⟩ := hv
      obtain ⟨rfl, rfl⟩ := pure_iff.1 hv
      rw [List.append_nil, List.nil_append]
      exact .square hpre henc hr (ih2 hl2)

theorem items_iff {s : Str} {l : List V} {evs : List Ev} : items env w s = ⟨evs, .ok l⟩ ↔ TextReads env w s l evs :=
  ⟨items_reads, reads_items⟩

/-- What a text becomes, and what is said meanwhile, exactly. -/
theorem reading_iff {s : Str} {v : V} {evs : List Ev} :
    parseVariables env w s = ⟨evs, .ok v⟩ ↔ ∃ l, TextReads env w s l evs ∧ v = join l := by
  rw [parse_some]
  simp only [items_iff]

/-! ## Texts that break off -/

theorem bind_err_iff {α β : Type} {x : Tr α} {f : α → Tr β} {evs : List Ev} {e : Exc} :
    Tr.bind x f = ⟨evs, .error e⟩ ↔ x = ⟨evs, .error e⟩ ∨ ∃ a e1 e2, x = ⟨e1, .ok a⟩ ∧ f a = ⟨e2, .error e⟩ ∧ evs = e1 ++ e2 := by
  obtain ⟨ev, val⟩ := x
  cases val with
  | error e' => simp [Tr.bind]
  | ok a =>
    simp only [Tr.bind, Tr.mk.injEq, reduceCtorEq, and_false, false_or, Except.ok.injEq]
    constructor
    · rintro ⟨rfl, h⟩
      exact ⟨a, ev, (f a).ev, ⟨rfl, rfl⟩, by rw [← h], rfl⟩
    · rintro ⟨a', e1, e2, ⟨rfl, rfl⟩, h, rfl⟩
      rw [h]
      exact ⟨rfl, rfl⟩

theorem parse_break {s : Str} {evs : List Ev} {e : Exc} :
    parseVariables env w s = ⟨evs, .error e⟩ ↔ items env w s = ⟨evs, .error e⟩ := by
  rw [parseVariables_eq, bind_err_iff]
  simp [Tr.pure]

theorem break_items {s : Str} {evs : List Ev} (h : BreaksOff env w s evs) : items env w s = ⟨evs, .error .varParseError⟩ := by
  have missing {curly : Bool} {pre s : Str} (h1 : ¬ HasSubst pre)
      (h2 : ∀ inner tail, ¬ Encloses (brOpen curly) (brClose curly) s inner tail) :
      items env w (pre ++ '$' :: brOpen curly :: s) = ⟨[], .error .varParseError⟩ := by
    refine items_open ((findSubst_some _ pre s curly).2 ⟨h1, rfl⟩) ?_
    cases hb : bracketsEnd (brOpen curly) (brClose curly) 0 s with
    | none => rfl
    | some r =>
      obtain ⟨inner, more, tail⟩ := r
      exact absurd ((enclosesAt_zero ..).1 ((bracketsEnd_iff curly 0 s inner tail).1 ⟨more, hb⟩)) (h2 inner tail)
  induction h with
  | curly h1 h2 => exact missing (curly := true) h1 h2
  | square h1 h2 => exact missing (curly := false) h1 h2
  | inCurly h1 h2 _ ih =>
    rw [C32_curly _ _ _ _ _ _ h1 h2, bind_err_iff]
    exact .inl (parse_break.2 ih)
  | inSquare h1 h2 _ ih =>
    rw [C32_square _ _ _ _ _ _ h1 h2, bind_err_iff]
    exact .inl (parse_break.2 ih)
  | @behindCurly pre s inner tail l1 v e1 e2 e3 h1 h2 hr hc _ ih =>
    rw [C32_curly _ _ _ _ _ _ h1 h2]
    simp only [bind_err_iff]
    exact .inr ⟨join l1, e1, e2 ++ e3, reading_iff.2 ⟨l1, hr, rfl⟩, .inr ⟨v, e2, e3, (variable_iff ⟨l1, reads_pieces hr, rfl⟩).2 hc,
      .inl ih, rfl⟩, rfl⟩
  | @behindSquare pre s inner tail l1 e1 e3 h1 h2 hr _ ih =>
    rw [C32_square _ _ _ _ _ _ h1 h2]
    simp only [bind_err_iff]
    exact .inr ⟨join l1, e1, e3, reading_iff.2 ⟨l1, hr, rfl⟩, .inl ih, rfl⟩

theorem items_break {s : Str} {evs : List Ev} (h : items env w s = ⟨evs, .error .varParseError⟩) : BreaksOff env w s evs := by
  induction s using parse_induction generalizing evs with
  | plain s hs => rw [items_none hs] at h; simp [Tr.pure] at h
  | opened s pre rest curly hs hb =>
    obtain ⟨hpre, rfl⟩ := (findSubst_some s pre rest curly).1 hs
    rw [items_open hs hb] at h
    simp only [Tr.raise, Tr.mk.injEq, and_true] at h
    subst h
    have hno : ∀ inner tail, ¬ Encloses (brOpen curly) (brClose curly) rest inner tail := by
      intro inner tail he
      obtain ⟨more, hm⟩ := (bracketsEnd_iff curly 0 rest inner tail).2 ((enclosesAt_zero ..).2 he)
      rw [hb] at hm
      simp at hm
    cases curly with
    | true => exact .curly hpre hno
    | false => exact .square hpre hno
  | subst s pre rest curly inner more tail hs hb ih1 ih2 =>
    obtain ⟨hpre, rfl⟩ := (findSubst_some s pre rest curly).1 hs
    have henc := (enclosesAt_zero ..).1 ((bracketsEnd_iff curly 0 rest inner tail).1 ⟨more, hb⟩)
    rw [items_subst hs hb, innerVal_eq hb] at h
    simp only [bind_err_iff] at h
    rcases h with h | ⟨_, e1, _, hin, h, rfl⟩
    · have := ih1 (parse_break.1 h)
      cases curly with
      | true => exact .inCurly hpre henc this
      | false => exact .inSquare hpre henc this
    · obtain ⟨l1, hr, rfl⟩ := reading_iff.1 hin
      rcases h with h | ⟨v, e2, _, hv, h, rfl⟩
      · have := usual_processSubst env w curly (join l1) .varParseError (by rw [h])
        exact absurd rfl this.1
      · rcases h with h | ⟨_, _, _, _, h, _⟩
        · have hbr := ih2 h
          cases curly with
          | true => exact .behindCurly hpre henc hr ((variable_iff ⟨l1, reads_pieces hr, rfl⟩).1 hv) hbr
          | false =>
            have hv : Tr.pure (processExpression (join l1)) = ⟨e2, .ok v⟩ := hv
            obtain ⟨rfl, rfl⟩ := pure_iff.1 hv
            rw [List.nil_append]
            exact .behindSquare hpre henc hr hbr
        · simp [Tr.pure] at h

theorem break_iff {s : Str} {evs : List Ev} :
    parseVariables env w s = ⟨evs, .error .varParseError⟩ ↔ BreaksOff env w s evs :=
  parse_break.trans ⟨items_break, break_items⟩

theorem appBalance_iff {w : Where} {a : V} {u : Unit} {evs : List Ev} :
    appBalance w a = ⟨evs, .ok u⟩ ↔ BalanceSays w a evs := by
  have hb : balanced a.tokens = true ↔ Bal a.tokens := Props.C38_balance a
  unfold appBalance
  by_cases h : Bal a.tokens
  · rw [if_pos (hb.2 h), pure_iff]
    constructor
    · rintro ⟨-, rfl⟩; exact .fine h
    · intro hd
      cases hd with
      | fine => exact ⟨rfl, rfl⟩
      | wrong hn => exact absurd h hn
  · rw [if_neg fun h' => h (hb.1 h')]
    simp only [bind_iff, lift_iff, emit_iff]
    constructor
    · rintro ⟨t, _, _, ⟨ht, rfl⟩, ⟨rfl, _⟩, rfl⟩; exact .wrong h ht
    · intro hd
      cases hd with
      | fine hb' => exact absurd hb' h
      | @wrong t _ ht => exact ⟨t, [], _, ⟨ht, rfl⟩, ⟨rfl, _, rfl⟩, rfl⟩

theorem parseInner_eq (env : FEnv) (w : Where) (app data : Str) :
    parseInner env w app data = .catchParse (parseVariables env w data)
      (.bind (.emit (mkMsg .E_APP_PARSE_ERROR w [(c! "app", strV app), (c! "args", strV data)])) fun _ => .pure (.str data)) := by
  unfold parseInner
  split
  · rfl
  · rename_i hc
    rw [Bool.or_eq_true, contains_infix, contains_infix] at hc
    rw [C32_plain env w _ hc]
    rfl

theorem parseInner_iff {env : FEnv} {w : Where} {app data : Str} {v : V} {evs : List Ev} :
    parseInner env w app data = ⟨evs, .ok v⟩ ↔ DataSays env w app data v evs := by
  rw [parseInner_eq]
  constructor
  · intro h
    generalize hx : parseVariables env w data = x at h
    obtain ⟨ev, val⟩ := x
    cases val with
    | ok x =>
      simp only [Tr.catchParse, Tr.mk.injEq, Except.ok.injEq] at h
      obtain ⟨rfl, rfl⟩ := h
      obtain ⟨l, hl, rfl⟩ := reading_iff.1 hx
      exact .text hl
    | error e =>
      by_cases he : e = .varParseError
      · subst he
        have h : (⟨ev ++ [.msg (mkMsg .E_APP_PARSE_ERROR w [(c! "app", strV app), (c! "args", strV data)])], .ok (.str data)⟩ : Tr V) =
            ⟨evs, .ok v⟩ := h
        simp only [Tr.mk.injEq, Except.ok.injEq] at h
        obtain ⟨rfl, rfl⟩ := h
        exact .unread (break_iff.1 hx)
      · exfalso
        have : Tr.catchParse (⟨ev, .error e⟩ : Tr V) (.bind (.emit (mkMsg .E_APP_PARSE_ERROR w [(c! "app", strV app), (c! "args", strV data)]))
            fun _ => .pure (.str data)) = ⟨ev, .error e⟩ := by
          cases e <;> first | rfl | exact absurd rfl he
        rw [this] at h
        simp at h
  · intro h
    cases h with
    | text h => rw [reading_iff.2 ⟨_, h, rfl⟩]; rfl
    | unread h => rw [break_iff.2 h]; rfl

end ALint
