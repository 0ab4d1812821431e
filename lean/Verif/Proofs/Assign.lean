import Verif.Spec.Calls
import Verif.Proofs.Text
import Verif.Proofs.Call
import Verif.Proofs.Cond

/-!
# Function calls and assignments
-/

namespace ALint
open ALint.Spec

/-! ## Outcomes -/

/-- Taking apart a normal outcome. -/
theorem bind_iff {α β : Type} {x : Tr α} {f : α → Tr β} {evs : List Ev} {b : β} :
    Tr.bind x f = ⟨evs, .ok b⟩ ↔ ∃ a e1 e2, x = ⟨e1, .ok a⟩ ∧ f a = ⟨e2, .ok b⟩ ∧ evs = e1 ++ e2 := by
  constructor
  · intro h
    obtain ⟨ev, val⟩ := x
    unfold Tr.bind at h
    cases val with
    | error e => simp at h
    | ok a =>
      simp only [Tr.mk.injEq] at h
      refine ⟨a, ev, (f a).ev, rfl, ?_, h.1.symm⟩
      rw [← h.2]
  · rintro ⟨a, e1, e2, rfl, h, rfl⟩
    simp [Tr.bind, h]

theorem pure_iff {α : Type} {a b : α} {evs : List Ev} : Tr.pure a = ⟨evs, .ok b⟩ ↔ b = a ∧ evs = [] := by
  simp [Tr.pure, eq_comm, and_comm]

theorem raise_iff {α : Type} {e : Exc} {b : α} {evs : List Ev} : (Tr.raise e : Tr α) = ⟨evs, .ok b⟩ ↔ False := by
  simp [Tr.raise]

theorem lift_iff {α : Type} {x : Except Exc α} {b : α} {evs : List Ev} : Tr.lift x = ⟨evs, .ok b⟩ ↔ x = .ok b ∧ evs = [] := by
  simp [Tr.lift, eq_comm, and_comm]

theorem note_iff {e : Ev} {u : Unit} {evs : List Ev} : Tr.note e = ⟨evs, .ok u⟩ ↔ evs = [e] := by
  simp [Tr.note, eq_comm]

theorem emit_iff {m : Msg} {u : Unit} {evs : List Ev} : Tr.emit m = ⟨evs, .ok u⟩ ↔ evs = [.msg m] ∧ ∃ r, m.render = .ok r := by
  unfold Tr.emit
  cases m.render with
  | error e => simp [Except.map]
  | ok r => simp [Except.map, eq_comm]

theorem emitIf_iff {p : Prop} {b : Bool} (hb : b = true ↔ p) {m : Msg} {u : Unit} {evs : List Ev} :
    (if b = true then Tr.emit m else .pure ()) = ⟨evs, .ok u⟩ ↔ Exactly p m evs ∧ (p → ∃ r, m.render = .ok r) := by
  unfold Exactly
  split
  · rename_i h
    rw [emit_iff]
    simp [hb.1 h]
  · rename_i h
    rw [pure_iff]
    have : ¬ p := fun hp => h (hb.2 hp)
    simp [this]

/-! ## Texts -/

theorem tok_piece {v : V} (h : isTok v = true) : isPiece v = true := by
  cases v <;> simp_all [isTok, isPiece]

theorem tokensAll_toks' {p : List V} (h : ∀ t ∈ p, isTok t = true) : V.tokensAll p = p := by
  induction p with
  | nil => rfl
  | cons t p ih =>
    rw [V.tokensAll, ih fun t ht => h t (by simp [ht])]
    have := h t (by simp)
    match t, this with
    | .str [c], _ => simp [V.tokens]
    | .atom k n s l, _ => simp [V.tokens]

theorem tokens_join {p : List V} (h : ∀ t ∈ p, isTok t = true) : (join p).tokens = p := by
  rw [join_tokens _ fun v hv => isPiece_text (tok_piece (h v hv)), tokensAll_toks' h]

theorem tok_normal {p : List V} (h : ∀ t ∈ p, isTok t = true) : Normal (join p) := ⟨p, fun t ht => tok_piece (h t ht), rfl⟩

theorem splitT_one {α : Type} [DecidableEq α] (c : α) (a b : List α) (h : c ∉ a) : splitT c (some 1) (a ++ c :: b) = [a, b] := by
  induction a with
  | nil => rw [List.nil_append, splitT_cons _ _ _ _ (by simp), if_pos rfl]; simp [splitT_zero]
  | cons x xs ih =>
    simp only [List.mem_cons, not_or] at h
    rw [List.cons_append, splitT_cons _ _ _ _ (by simp), if_neg (fun e => h.1 e.symm), ih h.2]

theorem joinGroup_normal (g : List V) (h : ∀ v ∈ g, isPiece v = true) : joinGroup g = join g := by
  match g, h with
  | [], _ => rfl
  | [v], h => exact (join_single (h v (by simp))).symm
  | _ :: _ :: _, _ => rfl

theorem normal_str (s : Str) : Normal (.str s) := ⟨[.str s], by simp [isPiece], (join_single rfl).symm⟩

theorem split_normal {c : Char} {n : Option Nat} {v : V} (h : isMixed v = true) {ps : List V} (hs : v.split c n = .ok ps) :
    ∀ p ∈ ps, Normal p := by
  cases v with
  | str s =>
    simp only [V.split, Except.ok.injEq] at hs
    subst hs
    intro p hp
    obtain ⟨q, _, rfl⟩ := List.mem_map.1 hp
    exact normal_str q
  | lst items =>
    have hp : ∀ v ∈ items, isPiece v = true := by simpa [isMixed] using h
    have hg := splitGroups_piece c n items hp
    simp only [V.split, Except.ok.injEq] at hs
    subst hs
    intro p hp
    obtain ⟨g, hg', rfl⟩ := List.mem_map.1 hp
    exact ⟨g, hg g hg', joinGroup_normal g (hg g hg')⟩
  | _ => simp [isMixed] at h

theorem normal_determined {v v' : V} (h : Normal v) (h' : Normal v') (ht : v.tokens = v'.tokens) : v = v' := by
  obtain ⟨vs, h1, rfl⟩ := h
  obtain ⟨ws, h2, rfl⟩ := h'
  refine join_determined h1 h2 ?_
  rw [← join_tokens _ fun v hv => isPiece_text (h1 v hv), ← join_tokens _ fun v hv => isPiece_text (h2 v hv)]
  exact ht

theorem normal_join {v : V} (h : Normal v) : v = join v.tokens :=
  normal_determined h (tok_normal (tokens_isTok v)) (tokens_join (tokens_isTok v)).symm

theorem split_first {c : Char} {v d : V} {rest : List V} (h : isMixed v = true) (hd : Normal d)
    (ht : v.tokens = d.tokens ++ tk c :: rest) (hc : tk c ∉ d.tokens) :
    ∃ r, v.split c (some 1) = .ok [d, r] ∧ r.tokens = rest ∧ Normal r := by
  obtain ⟨ps, h1, h2, _⟩ := split_tokens c (some 1) v h
  have hn := split_normal h h1
  have h2' : ps.map V.tokens = [d.tokens, rest] := by rw [h2, ht]; exact splitT_one _ _ _ hc
  match ps, h2', hn, h1 with
  | [], h2, _, _ => simp at h2
  | [p], h2, _, _ => simp at h2
  | [p, q], h2, hn, h1 =>
    simp only [List.map_cons, List.map_nil, List.cons.injEq, and_true] at h2
    have : p = d := normal_determined (hn p (by simp)) hd h2.1
    subst this
    exact ⟨q, h1, h2.2, hn q (by simp)⟩
  | _ :: _ :: _ :: _, h2, _, _ => simp at h2

theorem split_none {c : Char} {v : V} (h : isMixed v = true) (hc : tk c ∉ v.tokens) :
    ∃ p, v.split c (some 1) = .ok [p] := by
  obtain ⟨ps, h1, h2, _⟩ := split_tokens c (some 1) v h
  rw [splitT_no (V.str [c]) _ _ hc] at h2
  match ps, h2, h1 with
  | [], h2, _ => simp at h2
  | [p], _, h1 => exact ⟨p, h1⟩
  | _ :: _ :: _, h2, _ => simp at h2

theorem hasTok_iff (c : Char) (v : V) : v.hasTok c = true ↔ tk c ∈ v.tokens := by
  simp [V.hasTok, tk]

theorem first_of {c : Char} {l : List V} (h : tk c ∈ l) : ∃ a b, l = a ++ tk c :: b ∧ tk c ∉ a := by
  induction l with
  | nil => simp at h
  | cons x xs ih =>
    by_cases hx : x = tk c
    · exact ⟨[], xs, by simp [hx], by simp⟩
    · rcases List.mem_cons.1 h with rfl | h
      · exact absurd rfl hx
      · obtain ⟨a, b, rfl, h2⟩ := ih h
        exact ⟨x :: a, b, rfl, by simp [h2, Ne.symm hx]⟩

/-- What a normal text is: a string, a variable, or a sequence of these. -/
theorem normal_cases {v : V} (h : Normal v) : (∃ s, v = .str s) ∨ (∃ k n s l, v = .atom k n s l) ∨
    ∃ items, v = .lst items ∧ Compact items ∧ (∀ u ∈ items, isPiece u = true) ∧ 2 ≤ items.length := by
  obtain ⟨vs, hp, rfl⟩ := h
  have hs : ∀ u ∈ joinItems vs, isPiece u = true := by
    rw [joinItems_strjoin vs hp]
    exact strjoin_piece _ (fun u hu => tok_piece (tokensAll_isTok vs u hu))
  have hc := joinItems_compact vs
  unfold join
  cases hj : joinItems vs with
  | nil => exact .inl ⟨[], rfl⟩
  | cons a r =>
    rw [hj] at hs hc
    cases r with
    | nil =>
      have := hs a (by simp)
      cases a with
      | str s => exact .inl ⟨s, rfl⟩
      | atom k n s l => exact .inr (.inl ⟨k, n, s, l, rfl⟩)
      | _ => simp [isPiece] at this
    | cons b r => exact .inr (.inr ⟨_, rfl, hc, hs, by simp⟩)

/-! ## A part of a text -/

theorem strjoin_compact_id {items : List V} (hc : Compact items) (hp : ∀ v ∈ items, isPiece v = true) :
    strjoin (V.tokensAll items) = items := by
  rw [← joinItems_strjoin items hp]
  induction items with
  | nil => rfl
  | cons v vs ih =>
    have hv : v.truthy = true := by
      have h1 : v ≠ .str [] := compact_ne hc v (by simp)
      have h2 := hp v (by simp)
      cases v with
      | str s => cases s <;> simp_all [V.truthy]
      | atom => rfl
      | _ => simp [isPiece] at h2
    rw [joinItems, if_pos hv]
    cases vs with
    | nil => cases v <;> rfl
    | cons b vs =>
      rw [ih hc.2.2 fun u hu => hp u (by simp [hu])]
      have := hc.2.1
      cases v with
      | str s =>
        have := this rfl
        cases b <;> simp_all [joinCons, V.isStr]
      | _ => rfl

/-- Which `Cut` there is of a sequence of characters and variables. -/
theorem cut_of (toks : List V) (ht : ∀ t ∈ toks, isTok t = true) :
    (toks = [] ∧ strjoin toks = []) ∨ (∃ s, s ≠ [] ∧ toks = s.map tk ∧ strjoin toks = [.str s]) ∨
    (∃ k n s l, toks = [.atom k n s l] ∧ strjoin toks = [.atom k n s l]) ∨
    (∃ items, strjoin toks = items ∧ toks = V.tokensAll items ∧ Compact items ∧ (∀ v ∈ items, isPiece v = true) ∧ 2 ≤ items.length) := by
  have hp : ∀ v ∈ toks, isPiece v = true := fun v hv => tok_piece (ht v hv)
  have hj : joinItems toks = strjoin toks := by rw [joinItems_strjoin toks hp, tokensAll_toks' ht]
  have hs := strjoin_piece toks hp
  have hc := joinItems_compact toks
  have htk := strjoin_tokens toks
  rw [tokensAll_toks' ht] at htk
  rw [hj] at hc
  cases h : strjoin toks with
  | nil =>
    rw [h] at htk
    exact .inl ⟨htk.symm, rfl⟩
  | cons a r =>
    rw [h] at htk hs hc
    cases r with
    | nil =>
      have := hs a (by simp)
      cases a with
      | str s =>
        refine .inr (.inl ⟨s, ?_, ?_, rfl⟩)
        · rintro rfl; exact hc rfl
        · rw [← htk]; simp only [V.tokensAll, V.tokens, List.append_nil]; rfl
      | atom k n s l =>
        refine .inr (.inr (.inl ⟨k, n, s, l, ?_, rfl⟩))
        rw [← htk]; simp [V.tokensAll, V.tokens]
      | _ => simp [isPiece] at this
    | cons b r => exact .inr (.inr (.inr ⟨_, rfl, htk.symm, hc, hs, by simp⟩))

theorem cut_unique {toks : List V} {a b : Arg} (ha : Cut toks a) (hb : Cut toks b) : a = b := by
  have atom_in {items : List V} (hc : Compact items) (hp : ∀ v ∈ items, isPiece v = true) (h2 : 2 ≤ items.length) {s : Str}
      (h : V.tokensAll items = s.map tk) : False := by
    obtain ⟨k, n, x, l, hm⟩ := squashed_lst_atom hp hc h2
    rw [h] at hm
    simp [tk] at hm
  have one_in {items : List V} (hc : Compact items) (hp : ∀ v ∈ items, isPiece v = true) (h2 : 2 ≤ items.length) {k n x l}
      (h : V.tokensAll items = [.atom k n x l]) : False := by
    have := strjoin_compact_id hc hp
    rw [h] at this
    rw [← this] at h2
    simp [strjoin] at h2
  generalize ht : toks = t at hb
  cases ha with
  | @text s =>
    cases hb with
    | @text s' =>
      have : s = s' := by
        have := congrArg (List.filterMap fun v : V => match v with | .str [c] => some c | _ => none) ht
        simpa [tk, List.filterMap_map, Function.comp_def] using this
      rw [this]
    | «variable» => exact absurd ht (by cases s <;> simp [tk])
    | mixed hc hp h2 => exact (atom_in hc hp h2 ht.symm).elim
  | «variable» =>
    cases hb with
    | @text s' => exact absurd ht (by cases s' <;> simp [tk])
    | «variable» => simp only [List.cons.injEq, and_true] at ht; rw [ht]
    | mixed hc hp h2 => exact (one_in hc hp h2 ht.symm).elim
  | mixed hc hp h2 =>
    cases hb with
    | @text s' => exact (atom_in hc hp h2 ht).elim
    | «variable» => exact (one_in hc hp h2 ht).elim
    | mixed hc' hp' h2' =>
      have := strjoin_compact_id hc hp
      rw [ht, strjoin_compact_id hc' hp'] at this
      rw [this]

/-- What is in front of the last character of a text. -/
theorem cut_init {v : V} (hv : Normal v) {toks : List V} {c : Char} (ht : v.tokens = toks ++ [tk c]) :
    Cut toks (v.getSlice 0 (v.tokens.length - 1)) := by
  have hd : (v.tokens.drop 0).take (v.tokens.length - 1 - 0) = toks := by
    rw [ht]; simp
  have hk : ∀ t ∈ toks, isTok t = true := fun t h => tokens_isTok v t (by rw [ht]; simp [h])
  rcases normal_cases hv with ⟨s, rfl⟩ | ⟨k, n, s, l, rfl⟩ | ⟨items, rfl, hc, hp, h2⟩
  · have hl : s.length = (V.str s).tokens.length := by simp [V.tokens]
    have : toks = (s.take (s.length - 1)).map tk := by
      rw [← hd, hl, List.map_take, ← hl]
      simp only [V.tokens, List.drop_zero, Nat.sub_zero]
      rfl
    rw [this]
    have e : (V.str s).getSlice 0 ((V.str s).tokens.length - 1) = strV (s.take (s.length - 1)) := by
      simp [V.getSlice, V.tokens, strV]
    rw [e]
    exact .text
  · cases toks with
    | nil => simp [V.tokens, tk] at ht
    | cons a r => simp [V.tokens] at ht
  · have hs : (V.lst items).getSlice 0 ((V.lst items).tokens.length - 1) = (match strjoin toks with | [x] => .one x | l => .many l) := by
      show (match strjoin ((V.tokens (.lst items)).drop 0 |>.take _) with | [x] => Arg.one x | l => .many l) = _
      rw [hd]
    rw [hs]
    rcases cut_of toks hk with ⟨h0, _⟩ | ⟨s, _, h1, h3⟩ | ⟨k, n, s, l, h1, h3⟩ | ⟨it, h1, h3, h4, h5, h6⟩
    · rw [h0, List.nil_append, V.tokens] at ht
      obtain ⟨k, n, x, l, hm⟩ := squashed_lst_atom hp hc h2
      rw [ht] at hm
      simp [tk] at hm
    · rw [h3, h1]; exact .text
    · rw [h3, h1]; exact .variable
    · rw [h1]
      match it, h6 with
      | a :: b :: r, _ => rw [h3]; exact .mixed h4 h5 (by simp)

/-! ## Brackets and quotes -/

/-- What cannot be taken off the stack. -/
def stuck (x : Str) : Prop := x ∉ [c! "\"", c! "'", c! "(", c! "{", c! "["]

theorem stuck_step {st st' : BalStack} {v : V} (h : balStep st v = some st') (hs : ∃ x ∈ st, stuck x) : ∃ x ∈ st', stuck x := by
  obtain ⟨x, hx, hst⟩ := hs
  have tail {y : Str} (hy : st.head? = some y) (hn : ¬ stuck y) : ∃ x ∈ st.tail, stuck x := by
    cases st with
    | nil => simp at hx
    | cons z zs =>
      simp only [List.head?_cons, Option.some.injEq] at hy
      subst hy
      rcases List.mem_cons.1 hx with rfl | hx
      · exact absurd hst hn
      · exact ⟨x, hx, hst⟩
  have same : ∃ x ∈ st, stuck x := ⟨x, hx, hst⟩
  have more (c : Str) : ∃ x ∈ c :: st, stuck x := ⟨x, by simp [hx], hst⟩
  cases v with
  | str ch =>
    have key : st' = st ∨ st' = ch :: st ∨ st' = st.tail ∧ ∃ y, st.head? = some y ∧ ¬ stuck y := by
      simp only [balStep] at h
      repeat' (split at h)
      all_goals first
        | exact .inl (by simpa using h.symm)
        | exact .inr (.inl (by simpa using h.symm))
        | (rename_i hh; exact .inr (.inr ⟨by simpa using h.symm, _, hh, by simp [stuck]⟩))
        | simp at h
    rcases key with rfl | rfl | ⟨rfl, y, hy, hn⟩
    · exact same
    · exact more _
    · exact tail hy hn
  | _ => simp only [balStep, Option.some.injEq] at h; subst h; exact same

theorem stuck_run {st : BalStack} {l : List V} (hs : ∃ x ∈ st, stuck x) : balRun st l ≠ some [] := by
  induction l generalizing st with
  | nil =>
    obtain ⟨x, hx, _⟩ := hs
    intro h
    simp only [balRun, Option.some.injEq] at h
    rw [h] at hx
    simp at hx
  | cons v vs ih =>
    rw [balRun]
    cases h : balStep st v with
    | none => simp
    | some st' => exact ih (stuck_step h hs)


theorem balRun_append (st : BalStack) (a b : List V) : balRun st (a ++ b) = (balRun st a).bind fun st' => balRun st' b := by
  induction a generalizing st with
  | nil => rfl
  | cons v a ih =>
    rw [List.cons_append, balRun_cons, balRun_cons]
    cases balStep st v with
    | none => rfl
    | some st' => exact ih st'

theorem wholePiece_toks (v : V) : ∀ t ∈ wholePiece v, isTok t = true := by
  intro t ht
  unfold wholePiece at ht
  split at ht
  · simp only [List.mem_singleton] at ht; subst ht; rfl
  · split at ht
    · simp only [List.mem_cons, List.not_mem_nil, or_false] at ht
      rcases ht with rfl | rfl <;> rfl
    · split at ht
      · obtain ⟨c, _, rfl⟩ := List.mem_map.1 ht; rfl
      · simp at ht
  · simp at ht

theorem wholePiece_run (v : V) (l : List V) (st : BalStack) :
    balRun st (v :: l) = some [] ↔ balRun st (wholePiece v ++ l) = some [] := by
  unfold wholePiece
  split
  · rfl
  · rename_i s hs
    have hq1 : s ≠ c! "\"" := fun e => hs _ e
    have hq2 : s ≠ c! "'" := fun e => hs _ e
    split
    · rename_i h
      have hc : contains s (c! "({[") = true := by
        simp only [List.mem_cons, List.not_mem_nil, or_false] at h
        rcases h with rfl | rfl | rfl | rfl <;> decide
      have hst : stuck s := by
        simp only [List.mem_cons, List.not_mem_nil, or_false] at h
        rcases h with rfl | rfl | rfl | rfl <;> simp [stuck]
      have e : balStep st (.str s) = if topQuote st then some st else some (s :: st) := by
        simp only [balStep, if_neg hq1, if_neg hq2, if_pos hc]
        rfl
      have e1 := step_open st '(' ')' (by decide)
      rw [balRun_cons, e, List.cons_append, balRun_cons, List.cons_append, List.nil_append, tk, e1]
      by_cases ht : topQuote st
      · rw [if_pos ht, if_pos ht]
        simp only [Option.bind_some]
        rw [balRun_cons, tk, step_close st '[' ']' (by decide), if_pos ht]
        rfl
      · rw [if_neg ht, if_neg ht]
        simp only [Option.bind_some]
        rw [balRun_cons, tk, step_close _ '[' ']' (by decide), if_neg (by simp [topQuote]), if_neg (by simp)]
        simp only [Option.bind_none, reduceCtorEq, iff_false]
        exact stuck_run ⟨s, by simp, hst⟩
    · rename_i hno
      split
      · rename_i h
        simp only [List.mem_cons, List.not_mem_nil, or_false] at h
        rcases h with rfl | rfl | rfl <;> rfl
      · rename_i hnc
        have h1 : contains s (c! "({[") = false := by
          rw [← Bool.not_eq_true]
          intro h
          apply hno
          match s, hs with
          | [], _ => decide
          | [c], hs => exact absurd rfl (hs c)
          | [c, d], _ => simp [contains] at h ⊢; simp_all
          | [c, d, e], _ => simp [contains] at h ⊢; simp_all
          | c :: d :: e :: f :: r, _ => simp [contains] at h
        have h2 : contains s (c! ")}]") = false := by
          rw [← Bool.not_eq_true]
          intro h
          match s, hs with
          | [], _ => exact hno (by decide)
          | [c], hs => exact absurd rfl (hs c)
          | [c, d], _ => apply hnc; simp [contains] at h ⊢; simp_all
          | [c, d, e], _ => apply hnc; simp [contains] at h ⊢; simp_all
          | c :: d :: e :: f :: r, _ => simp [contains] at h
        rw [balRun_cons]
        simp [balStep, if_neg hq1, if_neg hq2, h1, h2]
  · rename_i h1 h2
    rw [balRun_cons]
    cases v with
    | str s => exact absurd rfl (h2 s)
    | _ => rfl

theorem balanced_whole (vs : List V) : balanced vs = true ↔ Balances (.many vs) := by
  rw [Balances, ← balanced_iff _ (by
    intro t ht
    obtain ⟨v, _, h⟩ := List.mem_flatMap.1 ht
    exact wholePiece_toks v t h)]
  simp only [balanced, beq_iff_eq]
  have key : ∀ (st : BalStack), balRun st vs = some [] ↔ balRun st (vs.flatMap wholePiece) = some [] := by
    induction vs with
    | nil => intro st; rfl
    | cons v vs ih =>
      intro st
      rw [List.flatMap_cons, wholePiece_run, balRun_append, balRun_append]
      cases balRun st (wholePiece v) with
      | none => simp
      | some st' => exact ih st'
  exact key []

theorem balances_iff (a : Arg) : balanced a.iter = true ↔ Balances a := by
  cases a with
  | one v => exact balanced_iff _ (tokens_isTok v)
  | many vs => exact balanced_whole vs

theorem funcBalance_iff {w : Where} {a : Arg} {u : Unit} {evs : List Ev} : funcBalance w a = ⟨evs, .ok u⟩ ↔ FuncBalance w a evs := by
  have hb := balances_iff a
  unfold funcBalance
  split
  · rename_i h
    rw [pure_iff]
    constructor
    · rintro ⟨-, rfl⟩; exact .fine (hb.1 h)
    · intro hf
      cases hf with
      | fine => exact ⟨rfl, rfl⟩
      | text h1 _ => exact absurd (hb.1 h) h1
      | list h1 => exact absurd (hb.1 h) h1
  · rename_i h
    have hn : ¬ Balances a := fun hh => h (hb.2 hh)
    rw [bind_iff]
    simp only [lift_iff, emit_iff]
    constructor
    · rintro ⟨s, e1, e2, ⟨hs, rfl⟩, ⟨rfl, -⟩, rfl⟩
      cases a with
      | one v =>
        cases hv : v.toStr with
        | error e => simp [strArg, hv, Except.map] at hs
        | ok t =>
          simp only [strArg, hv, Except.map, Except.ok.injEq] at hs
          subst hs
          exact .text hn hv
      | many vs =>
        simp only [strArg, Except.ok.injEq] at hs
        subst hs
        exact .list hn
    · intro hf
      cases hf with
      | fine h1 => exact absurd h1 hn
      | @text v s h1 h2 => exact ⟨strV s, [], _, ⟨by simp [strArg, h2, Except.map, strV], rfl⟩, ⟨rfl, ⟨_, rfl⟩⟩, rfl⟩
      | @list vs h1 => exact ⟨.many vs, [], _, ⟨rfl, rfl⟩, ⟨rfl, ⟨_, rfl⟩⟩, rfl⟩

/-! ## Calls -/

theorem standsFor_iff {env : FEnv} {f : Str} {fi : FuncInfo} :
    (env.funcs (env.lower f)).or (env.funcs (c! "unknown")) = some fi ↔ StandsFor env f fi := by
  unfold StandsFor
  cases env.funcs (env.lower f) <;> simp

theorem getFunc_iff {env : FEnv} {w : Where} {f : Str} {fi : FuncInfo} {evs : List Ev} :
    getFunc env w f = ⟨evs, .ok fi⟩ ↔ LooksUp env w f fi evs := by
  unfold getFunc
  dsimp only
  cases ho : (env.funcs (env.lower f)).or (env.funcs (c! "unknown")) with
  | none =>
    simp only [raise_iff, false_iff]
    intro h
    have : StandsFor env f fi := by cases h <;> assumption
    rw [← standsFor_iff, ho] at this
    simp at this
  | some g =>
    have hg := standsFor_iff.1 ho
    have uniq : ∀ {x}, StandsFor env f x → x = g := fun h => by
      have := standsFor_iff.2 h
      rw [ho] at this
      simpa using this.symm
    simp only [bind_iff, note_iff]
    constructor
    · rintro ⟨-, -, e2, rfl, h, rfl⟩
      split at h
      · rename_i h1
        split at h
        · rename_i h2
          simp only [bind_iff, emit_iff, pure_iff] at h
          obtain ⟨-, e3, e4, ⟨rfl, -⟩, ⟨rfl, rfl⟩, rfl⟩ := h
          exact .unknown hg h1 h2
        · rename_i h2
          simp only [bind_iff, emit_iff, pure_iff] at h
          obtain ⟨-, e3, e4, ⟨rfl, -⟩, ⟨rfl, rfl⟩, rfl⟩ := h
          exact .miscased hg h1 h2
      · rename_i h1
        rw [pure_iff] at h
        obtain ⟨rfl, rfl⟩ := h
        exact .known hg (by simpa using h1)
    · intro h
      cases h with
      | known h1 h2 =>
        have := uniq h1; subst this
        refine ⟨(), _, [], rfl, ?_, rfl⟩
        rw [if_neg (by simp [h2])]; rfl
      | miscased h1 h2 h3 =>
        have := uniq h1; subst this
        refine ⟨(), _, _, rfl, ?_, rfl⟩
        rw [if_pos h2, if_neg h3]; rfl
      | unknown h1 h2 h3 =>
        have := uniq h1; subst this
        refine ⟨(), _, _, rfl, ?_, rfl⟩
        rw [if_pos h2, if_pos h3]; rfl

theorem countVar_iff {w : Where} {s : Str} {u : Unit} {evs : List Ev} : countVar w s = ⟨evs, .ok u⟩ ↔ NameCounts w s evs := by
  have hl : s.all legalVarChar = legalName s := legal_iff s
  unfold countVar
  rw [hl, bind_iff]
  simp only [note_iff]
  constructor
  · rintro ⟨a, e1, e2, h1, rfl, rfl⟩
    refine .mk ?_
    split at h1
    · rename_i h
      rw [pure_iff] at h1
      exact .inr ⟨by simp [h], h1.2⟩
    · rename_i h
      rw [emit_iff] at h1
      exact .inl ⟨by simpa using h, h1.1⟩
  · rintro ⟨h⟩
    refine ⟨(), _, _, ?_, rfl, rfl⟩
    rcases h with ⟨hp, rfl⟩ | ⟨hp, rfl⟩
    · rw [hp]; rfl
    · rw [if_pos (by simpa using hp)]; rfl

theorem badAudiohook_iff (a : Arg) : badAudiohook a = true ↔ ∃ t, a = strV t ∧ t ∉ hookNames := by
  match a with
  | .one (.str t) =>
    simp only [badAudiohook, strV, Arg.one.injEq, V.str.injEq, exists_eq_left']
    rw [Bool.not_eq_true', ← Bool.not_eq_true, List.contains_iff_mem]
    exact Iff.rfl
  | .one (.lst _) | .one (.atom ..) | .one (.int _) | .one .none | .many _ => simp [badAudiohook, strV]

variable {env : FEnv} {w : Where}

/-- `callFuncTop` for each kind of function. -/
theorem call_plain {f : FuncInfo} {a : Arg} {u : Unit} {evs : List Ev} (hb : f.beh = .plain) :
    callFuncTop env w f a = ⟨evs, .ok u⟩ ↔ FuncBalance w a evs := by
  rw [callFuncTop_eq, hb]
  exact funcBalance_iff

theorem call_hook {f : FuncInfo} {a : Arg} {u : Unit} {evs : List Ev} (hb : f.beh = .audiohook) :
    callFuncTop env w f a = ⟨evs, .ok u⟩ ↔ ∃ bad bal, evs = bad ++ bal ∧ Exactly (∃ t, a = strV t ∧ t ∉ hookNames)
        (mkMsg .E_FUNC_BAD_ARGS w [(c! "func", strV f.name), (c! "data", a)]) bad ∧ FuncBalance w a bal := by
  rw [callFuncTop_eq, hb]
  dsimp only
  rw [bind_iff]
  simp only [funcBalance_iff, emitIf_iff (badAudiohook_iff a)]
  constructor
  · rintro ⟨-, e1, e2, ⟨h1, -⟩, h2, rfl⟩; exact ⟨e1, e2, rfl, h1, h2⟩
  · rintro ⟨e1, e2, rfl, h1, h2⟩
    refine ⟨(), e1, e2, ⟨h1, ?_⟩, h2, rfl⟩
    rintro ⟨t, rfl, -⟩
    exact ⟨_, rfl⟩

theorem call_count {f : FuncInfo} {a : Arg} {u : Unit} {evs : List Ev} (hb : f.beh = .count) :
    callFuncTop env w f a = ⟨evs, .ok u⟩ ↔ ∃ s bal use, a = strV s ∧ evs = bal ++ use ∧ FuncBalance w a bal ∧ NameCounts w s use := by
  rw [callFuncTop_eq, hb]
  dsimp only
  rw [bind_iff]
  simp only [funcBalance_iff]
  constructor
  · rintro ⟨-, e1, e2, h1, h2, rfl⟩
    have : (∃ s, a = strV s) ∨ countArg w a = .raise .assertionError := by
      match a with
      | .one (.str s) => exact .inl ⟨s, rfl⟩
      | .one (.lst _) | .one (.atom ..) | .one (.int _) | .one .none | .many _ => exact .inr rfl
    rcases this with ⟨s, rfl⟩ | h
    · exact ⟨s, e1, e2, rfl, rfl, h1, countVar_iff.1 h2⟩
    · rw [h, raise_iff] at h2
      exact h2.elim
  · rintro ⟨s, bal, use, rfl, rfl, h1, h2⟩
    exact ⟨(), bal, use, h1, countVar_iff.2 h2, rfl⟩

theorem call_set {f : FuncInfo} {a : Arg} {u : Unit} {evs : List Ev} (hb : f.beh = .set) :
    callFuncTop env w f a = ⟨evs, .ok u⟩ ↔ ∃ asg bal, evs = asg ++ bal ∧
      parseAssignment env w (callFuncTop env w) a = ⟨asg, .ok ()⟩ ∧ FuncBalance w a bal := by
  rw [callFuncTop_eq, hb]
  dsimp only
  rw [bind_iff]
  simp only [funcBalance_iff]
  constructor
  · rintro ⟨⟨⟩, e1, e2, h1, h2, rfl⟩; exact ⟨e1, e2, rfl, h1, h2⟩
  · rintro ⟨e1, e2, rfl, h1, h2⟩; exact ⟨(), e1, e2, h1, h2, rfl⟩

/-! ## Assignments -/

theorem mixed_truthy {v : V} (h : isMixed v = true) (hn : v.tokens ≠ []) : v.truthy = true := by
  cases v with
  | str s => cases s <;> simp_all [V.truthy, V.tokens]
  | lst items => simpa [V.truthy, V.tokens] using hn
  | _ => simp [isMixed] at h

theorem render_noEquals {w : Where} {v : V} : (∃ r, (mkMsg .E_ASSIGN_NO_EQUALS w [(c! "data", .one v)]).render = .ok r) ↔
    ∃ s, v.toStr = .ok s := by
  cases h : v.toStr <;>
    simp [mkMsg, Msg.render, MK.template, renderAll, renderPiece, h, Except.map, List.lookup]

theorem render_spaces {w : Where} {v : V} : (∃ r, (mkMsg .W_ASSIGN_SPACES w [(c! "name", .one v)]).render = .ok r) ↔
    ∃ s, v.toStr = .ok s := by
  cases h : v.toStr <;>
    simp [mkMsg, Msg.render, MK.template, renderAll, renderPiece, h, Except.map, List.lookup]

/-- The two parts of an assignment. -/
theorem assignT_parts {call : FuncInfo → Arg → Tr Unit} {v dest r : V} {u : Unit} {evs : List Ev} (htr : v.truthy = true)
    (hs : v.split '=' (some 1) = .ok [dest, r]) (hd : Normal dest) :
    parseAssignment env w call (.one v) = ⟨evs, .ok u⟩ ↔ ∃ sp fn, evs = sp ++ fn ∧ SpaceSays w dest.tokens sp ∧
      (if dest.tokens.getLast? = some (tk ')') then writeFunction env w call dest = ⟨fn, .ok u⟩ else fn = []) := by
  unfold parseAssignment
  simp only [Arg.truthy, htr, Bool.not_true, Bool.false_eq_true, if_false, hs]
  rw [show Tr.lift (Except.ok [dest, r]) = Tr.pure [dest, r] from rfl, Tr.pure_bind]
  dsimp only
  rw [bind_iff]
  simp only [emitIf_iff (hasTok_iff ' ' dest), render_spaces]
  have hsay : ∀ e, SpaceSays w dest.tokens e ↔
      (Exactly (tk ' ' ∈ dest.tokens) (mkMsg .W_ASSIGN_SPACES w [(c! "name", .one dest)]) e ∧ (tk ' ' ∈ dest.tokens → ∃ s, dest.toStr = .ok s)) := by
    intro e
    unfold SpaceSays Showing
    rw [← normal_join hd]
  have hcond : (dest.truthy && endsParen dest) = decide (dest.tokens.getLast? = some (tk ')')) := by
    unfold endsParen
    by_cases h : dest.tokens.getLast? = some (tk ')')
    · have : dest.truthy = true := by
        rcases normal_cases hd with ⟨s, rfl⟩ | ⟨k, n, s, l, rfl⟩ | ⟨items, rfl, hc, hp, h2⟩
        · cases s <;> simp_all [V.truthy, V.tokens]
        · rfl
        · exact mixed_truthy (by simpa [isMixed] using hp) (by intro e; rw [e] at h; simp at h)
      simp [this, h, tk]
    · simp [tk] at h ⊢
      simp [h]
  rw [hcond]
  constructor
  · rintro ⟨-, e1, e2, h1, h2, rfl⟩
    refine ⟨e1, e2, rfl, (hsay _).2 h1, ?_⟩
    by_cases h : dest.tokens.getLast? = some (tk ')')
    · simpa [h] using h2
    · rw [if_neg h]
      simpa [h, pure_iff] using h2
  · rintro ⟨e1, e2, rfl, h1, h2⟩
    refine ⟨(), e1, e2, (hsay _).1 h1, ?_, rfl⟩
    by_cases h : dest.tokens.getLast? = some (tk ')')
    · simpa [h] using h2
    · rw [if_neg h] at h2
      subst h2
      simp [h, pure_iff]

/-- Writing to a function. -/
theorem write_iff {call : FuncInfo → Arg → Tr Unit} {dest : V} {u : Unit} {evs : List Ev} (hd : Normal dest)
    (hl : dest.tokens.getLast? = some (tk ')')) :
    writeFunction env w call dest = ⟨evs, .ok u⟩ ↔ ∃ name args a fi look ev,
      dest.tokens = name.map tk ++ tk '(' :: (args ++ [tk ')']) ∧ '(' ∉ name ∧ Cut args a ∧ LooksUp env w name fi look ∧
      call fi a = ⟨ev, .ok u⟩ ∧ evs = look ++ ev ∧ a.size < dest.size := by
  have hm : isMixed dest = true := by
    rcases normal_cases hd with ⟨s, rfl⟩ | ⟨k, n, s, l, rfl⟩ | ⟨items, rfl, hc, hp, h2⟩
    · rfl
    · simp [V.tokens, tk] at hl
    · simpa [isMixed] using hp
  by_cases hpar : tk '(' ∈ dest.tokens
  · obtain ⟨pre, post, ht, hpre⟩ := first_of hpar
    have hk : ∀ t ∈ pre, isTok t = true := fun t h => tokens_isTok dest t (by rw [ht]; simp [h])
    have hkp : ∀ t ∈ post, isTok t = true := fun t h => tokens_isTok dest t (by rw [ht]; simp [h])
    obtain ⟨r, h1, h2, h3⟩ := split_first (d := join pre) hm (tok_normal hk) (by rw [tokens_join hk]; exact ht)
      (by rw [tokens_join hk]; exact hpre)
    unfold writeFunction
    rw [if_pos ((hasTok_iff '(' dest).2 hpar), h1]
    rw [show Tr.lift (Except.ok [join pre, r]) = Tr.pure _ from rfl, Tr.pure_bind]
    dsimp only
    rw [h2]
    cases hp : post.getLast? with
    | none =>
      simp only [raise_iff, false_iff]
      rintro ⟨name, args, a, fi, look, ev, hdt, -⟩
      rw [List.getLast?_eq_none_iff] at hp
      subst hp
      rw [ht] at hl
      simp [tk] at hl
    | some t =>
      obtain ⟨init, hinit⟩ := List.getLast?_eq_some_iff.1 hp
      have htt : t = tk ')' := by
        rw [ht, hinit, show pre ++ tk '(' :: (init ++ [t]) = (pre ++ tk '(' :: init) ++ [t] by simp, List.getLast?_concat] at hl
        simpa using hl
      subst htt
      dsimp only
      rw [if_pos (by rfl)]
      have hcut := cut_init h3 (toks := init) (c := ')') (by rw [h2, hinit])
      rw [h2] at hcut
      have hsz : (r.getSlice 0 (post.length - 1)).size < dest.size := by
        have h4 := args_size r (tk ')') (by rw [h2, hp]) rfl
        have h5 := split_size _ _ _ _ h1
        rw [h2] at h4
        simp only [V.sizeAll] at h5
        omega
      -- the name
      have uniq : ∀ {name : Str} {args : List V}, dest.tokens = name.map tk ++ tk '(' :: (args ++ [tk ')']) → '(' ∉ name →
          pre = name.map tk ∧ args = init := by
        intro name args h hn
        have hn' : tk '(' ∉ name.map tk := by simpa [tk] using hn
        have e1 := splitT_one _ _ post hpre
        have e2 := splitT_one _ _ (args ++ [tk ')']) hn'
        rw [← ht, h, e2] at e1
        simp only [List.cons.injEq, and_true] at e1
        refine ⟨e1.1.symm, ?_⟩
        have := e1.2
        rw [hinit] at this
        exact List.append_cancel_right this
      constructor
      · intro h
        split at h
        · rename_i f hf
          rw [bind_iff] at h
          obtain ⟨fi, e1, e2, hg, hc, rfl⟩ := h
          refine ⟨f, init, _, fi, e1, e2, ?_, ?_, hcut, getFunc_iff.1 hg, hc, rfl, hsz⟩
          · have : pre = f.map tk := by rw [← tokens_join hk, hf]; rfl
            rw [ht, this, hinit]
          · have : pre = f.map tk := by rw [← tokens_join hk, hf]; rfl
            rw [this] at hpre
            simpa [tk] using hpre
        · simp [raise_iff] at h
      · rintro ⟨name, args, a, fi, look, ev, hdt, hn, hca, hlu, hc, rfl, -⟩
        obtain ⟨hp1, rfl⟩ := uniq hdt hn
        have hj : join pre = .str name := by
          refine normal_determined (tok_normal hk) (normal_str _) ?_
          rw [tokens_join hk, hp1]; rfl
        rw [hj]
        dsimp only
        rw [bind_iff]
        exact ⟨fi, look, ev, getFunc_iff.2 hlu, by rw [cut_unique hcut hca]; exact hc, rfl⟩
  · unfold writeFunction
    rw [if_neg (fun h => hpar ((hasTok_iff '(' dest).1 h))]
    simp only [raise_iff, false_iff]
    rintro ⟨name, args, a, fi, look, ev, hdt, -⟩
    rw [hdt] at hpar
    simp at hpar


/-- An assignment found in the only variable. -/
theorem split_atom {k : Kind} {t : Str} {s l : V} (h : '=' ∈ t) :
    (V.atom k (.str t) s l).split '=' (some 1) = (V.str t).split '=' (some 1) := by
  have hlen : (splitN '=' (some 1) t).length = 2 := by
    have hm : tk '=' ∈ (V.str t).tokens := by simpa [V.tokens, tk] using h
    obtain ⟨pre, post, ht, hpre⟩ := first_of hm
    have hk : ∀ x ∈ pre, isTok x = true := fun x hx => tokens_isTok (.str t) x (by rw [ht]; simp [hx])
    obtain ⟨r, h1, -, -⟩ := split_first (v := .str t) (d := join pre) rfl (tok_normal hk) (by rw [tokens_join hk]; exact ht)
      (by rw [tokens_join hk]; exact hpre)
    simp only [V.split, Except.ok.injEq] at h1
    have := congrArg List.length h1
    simpa using this
  have ht : t ≠ [] := by rintro rfl; simp at h
  simp only [V.split]
  rw [if_pos (by cases t <;> simp_all [V.truthy])]
  congr 1
  simp only [splitGroups]
  rw [if_neg (by simp [h])]
  match hsp : splitN '=' (some 1) t, hlen with
  | [p, q], _ =>
    simp only [spread, List.map_cons, List.map_nil]
    cases p <;> cases q <;> simp [consHead, joinGroup]

/-- Nothing to split inside the only variable. -/
theorem split_atom_none {k : Kind} {n s l : V} (ht : n.truthy = true) (h : ∀ u, n = .str u → '=' ∉ u) :
    ∃ p, (V.atom k n s l).split '=' (some 1) = .ok [p] := by
  simp only [V.split, ht, if_true]
  cases n with
  | str u =>
    rw [splitGroups, if_pos (.inl (h u rfl))]
    exact ⟨_, rfl⟩
  | _ => exact ⟨_, rfl⟩

/-- A text or a list that is not empty. -/
def Fair : Arg → Prop
  | .one v => Normal v
  | .many vs => vs ≠ []

theorem normal_atom (k : Kind) (n s l : V) : Normal (.atom k n s l) := ⟨[.atom k n s l], by simp [isPiece], (join_single rfl).symm⟩

theorem cut_fair {toks : List V} {a : Arg} (h : Cut toks a) : Fair a := by
  cases h with
  | text => exact normal_str _
  | «variable» => exact normal_atom _ _ _ _
  | @mixed items _ _ h2 =>
    show items ≠ []
    rintro rfl
    simp at h2

/-- Two parts: what is described. -/
theorem assign_two {v : V} (hv : isMixed v = true) (he : tk '=' ∈ v.tokens) {call : FuncInfo → Arg → Tr Unit} {evs : List Ev}
    (hc : ∀ fi a ev, a.size < v.size → Fair a → call fi a = ⟨ev, .ok ()⟩ → FuncSays env w fi a ev)
    (h : parseAssignment env w call (.one v) = ⟨evs, .ok ()⟩) : AssignSays env w v evs := by
  obtain ⟨pre, post, ht, hpre⟩ := first_of he
  have hk : ∀ x ∈ pre, isTok x = true := fun x hx => tokens_isTok v x (by rw [ht]; simp [hx])
  obtain ⟨r, h1, -, -⟩ := split_first (v := v) (d := join pre) hv (tok_normal hk) (by rw [tokens_join hk]; exact ht)
    (by rw [tokens_join hk]; exact hpre)
  have htr : v.truthy = true := mixed_truthy hv (by rw [ht]; simp)
  rw [assignT_parts htr h1 (tok_normal hk), tokens_join hk] at h
  obtain ⟨sp, fn, rfl, hsp, h⟩ := h
  split at h
  · rename_i hl
    rw [write_iff (tok_normal hk) (by rw [tokens_join hk]; exact hl), tokens_join hk] at h
    obtain ⟨name, args, a, fi, look, ev, hdt, hn, hca, hlu, hcall, rfl, hsz⟩ := h
    have hs := split_size _ _ _ _ h1
    simp only [V.sizeAll] at hs
    subst hdt
    have hne : '=' ∉ name := by
      intro hm
      exact hpre (by simp [tk, hm])
    have hna : tk '=' ∉ args := fun hm => hpre (by simp [hm])
    exact .function hv ht hne hna hn hsp hca hlu (hc fi a ev (by omega) (cut_fair hca) hcall)
  · rename_i hl
    subst h
    rw [List.append_nil]
    exact .variable hv ht hpre hl hsp

theorem assign_complete {v : V} (hv : Normal v) {call : FuncInfo → Arg → Tr Unit} {evs : List Ev}
    (hc : ∀ fi a ev, a.size < v.size → Fair a → call fi a = ⟨ev, .ok ()⟩ → FuncSays env w fi a ev)
    (h : parseAssignment env w call (.one v) = ⟨evs, .ok ()⟩) : AssignSays env w v evs := by
  have mixedCase (hm : isMixed v = true) (hne : v.tokens ≠ []) : AssignSays env w v evs := by
    by_cases he : tk '=' ∈ v.tokens
    · exact assign_two hm he hc h
    · obtain ⟨p, h1⟩ := split_none hm he
      unfold parseAssignment at h
      simp only [Arg.truthy, mixed_truthy hm hne, Bool.not_true, Bool.false_eq_true, if_false, h1] at h
      rw [show Tr.lift (Except.ok [p]) = Tr.pure [p] from rfl, Tr.pure_bind] at h
      dsimp only at h
      rw [emit_iff, render_noEquals] at h
      obtain ⟨rfl, s, hs⟩ := h
      exact .noEquals hm hs hne he
  rcases normal_cases hv with ⟨s, rfl⟩ | ⟨k, n, s, l, rfl⟩ | ⟨items, rfl, hcp, hp, h2⟩
  · cases s with
    | nil =>
      have : evs = [.msg (mkMsg .E_ASSIGN_EMPTY w [])] := by
        have := congrArg Tr.ev h
        exact this.symm
      rw [this]
      exact .empty
    | cons c cs => exact mixedCase rfl (by simp [V.tokens])
  · by_cases hin : ∃ t, n = .str t ∧ '=' ∈ t
    · obtain ⟨t, rfl, ht⟩ := hin
      refine .inside ht (assign_two rfl (by simpa [V.tokens, tk] using ht) (call := call) ?_ ?_)
      · intro fi a ev hsz
        exact hc fi a ev (by simp only [V.size] at hsz ⊢; omega)
      · rw [← h]
        unfold parseAssignment
        have e1 : (Arg.one (V.str t)).truthy = true := by cases t <;> simp_all [Arg.truthy, V.truthy]
        have e2 : (Arg.one (V.atom k (.str t) s l)).truthy = true := rfl
        obtain ⟨pre, post, ht', hpre⟩ := first_of (c := '=') (l := (V.str t).tokens) (by simpa [V.tokens, tk] using ht)
        have hk : ∀ x ∈ pre, isTok x = true := fun x hx => tokens_isTok (.str t) x (by rw [ht']; simp [hx])
        obtain ⟨r, h1, -, -⟩ := split_first (v := .str t) (d := join pre) rfl (tok_normal hk) (by rw [tokens_join hk]; exact ht')
          (by rw [tokens_join hk]; exact hpre)
        simp only [e1, e2, Bool.not_true, Bool.false_eq_true, if_false, split_atom ht, h1]
        rfl
    · have hno : ∀ u, n = .str u → '=' ∉ u := fun u hu hm => hin ⟨u, hu, hm⟩
      unfold parseAssignment at h
      have e2 : (Arg.one (V.atom k n s l)).truthy = true := rfl
      simp only [e2, Bool.not_true, Bool.false_eq_true, if_false] at h
      cases htr : n.truthy with
      | false =>
        simp [V.split, htr, Tr.lift, Tr.bind] at h
      | true =>
        obtain ⟨p, h1⟩ := split_atom_none (k := k) (s := s) (l := l) htr hno
        rw [h1, show Tr.lift (Except.ok [p]) = Tr.pure [p] from rfl, Tr.pure_bind] at h
        dsimp only at h
        rw [emit_iff, render_noEquals] at h
        obtain ⟨rfl, t, ht⟩ := h
        exact .nothingInside htr hno ht
  · refine mixedCase (by simpa [isMixed] using hp) ?_
    obtain ⟨k, n, x, l, hm⟩ := squashed_lst_atom hp hcp h2
    intro e
    rw [V.tokens] at e
    rw [e] at hm
    simp at hm

theorem call_complete (fi : FuncInfo) (a : Arg) (ha : Fair a) (evs : List Ev) (h : callFuncTop env w fi a = ⟨evs, .ok ()⟩) :
    FuncSays env w fi a evs := by
  generalize hn : a.size = n
  induction n using Nat.strongRecOn generalizing fi a evs with
  | ind n ih =>
    subst hn
    cases hb : fi.beh with
    | plain => exact .plain hb ((call_plain hb).1 h)
    | audiohook =>
      obtain ⟨bad, bal, rfl, h1, h2⟩ := (call_hook hb).1 h
      exact .hook hb h1 h2
    | count =>
      obtain ⟨s, bal, use, rfl, rfl, h1, h2⟩ := (call_count hb).1 h
      exact .count hb h1 h2
    | set =>
      obtain ⟨asg, bal, rfl, h1, h2⟩ := (call_set hb).1 h
      cases a with
      | many vs =>
        have hne : vs ≠ [] := ha
        unfold parseAssignment at h1
        cases vs with
        | nil => exact absurd rfl hne
        | cons x xs =>
          simp [Arg.truthy, raise_iff] at h1
      | one v =>
        exact .set hb (assign_complete ha (fun fi a ev hsz hf hc => ih _ hsz fi a hf ev hc rfl) h1) h2

private theorem assign_empty : parseAssignment env w (callFuncTop env w) (.one (.str [])) =
    ⟨[.msg (mkMsg .E_ASSIGN_EMPTY w [])], .ok ()⟩ := rfl

private theorem assign_noEquals {v : V} {s : Str} (hm : isMixed v = true) (hs : v.toStr = .ok s) (hne : v.tokens ≠ [])
    (he : tk '=' ∉ v.tokens) :
    parseAssignment env w (callFuncTop env w) (.one v) =
      ⟨[.msg (mkMsg .E_ASSIGN_NO_EQUALS w [(c! "data", .one v)])], .ok ()⟩ := by
  obtain ⟨p, h1⟩ := split_none hm he
  unfold parseAssignment
  simp only [Arg.truthy, mixed_truthy hm hne, Bool.not_true, Bool.false_eq_true, if_false, h1]
  rw [show Tr.lift (Except.ok [p]) = Tr.pure [p] from rfl, Tr.pure_bind]
  exact emit_iff.2 ⟨rfl, render_noEquals.2 ⟨s, hs⟩⟩

private theorem assign_single {k : Kind} {n s l : V} {t : Str} (htr : n.truthy = true) (hno : ∀ u, n = .str u → '=' ∉ u)
    (ht : (V.atom k n s l).toStr = .ok t) : parseAssignment env w (callFuncTop env w) (.one (.atom k n s l)) =
      ⟨[.msg (mkMsg .E_ASSIGN_NO_EQUALS w [(c! "data", .one (.atom k n s l))])], .ok ()⟩ := by
  obtain ⟨p, h1⟩ := split_atom_none (k := k) (s := s) (l := l) htr hno
  unfold parseAssignment
  have e2 : (Arg.one (V.atom k n s l)).truthy = true := rfl
  simp only [e2, Bool.not_true, Bool.false_eq_true, if_false]
  rw [h1, show Tr.lift (Except.ok [p]) = Tr.pure [p] from rfl, Tr.pure_bind]
  exact emit_iff.2 ⟨rfl, render_noEquals.2 ⟨t, ht⟩⟩

private theorem assign_inside {k : Kind} {t : Str} {s l : V} (ht : '=' ∈ t) {call : FuncInfo → Arg → Tr Unit} :
    parseAssignment env w call (.one (.atom k (.str t) s l)) = parseAssignment env w call (.one (.str t)) := by
  unfold parseAssignment
  have e1 : (Arg.one (V.str t)).truthy = true := by cases t <;> simp_all [Arg.truthy, V.truthy]
  have e2 : (Arg.one (V.atom k (.str t) s l)).truthy = true := rfl
  obtain ⟨pre, post, ht', hpre⟩ := first_of (c := '=') (l := (V.str t).tokens) (by simpa [V.tokens, tk] using ht)
  have hk : ∀ x ∈ pre, isTok x = true := fun x hx => tokens_isTok (.str t) x (by rw [ht']; simp [hx])
  obtain ⟨r, h1, -, -⟩ := split_first (v := .str t) (d := join pre) rfl (tok_normal hk) (by rw [tokens_join hk]; exact ht')
    (by rw [tokens_join hk]; exact hpre)
  simp only [e1, e2, Bool.not_true, Bool.false_eq_true, if_false, split_atom ht, h1]
  rfl

private theorem assign_split {v : V} {dest rest : List V} (hm : isMixed v = true) (ht : v.tokens = dest ++ tk '=' :: rest)
    (he : tk '=' ∉ dest) : v.truthy = true ∧ (join dest).tokens = dest ∧ Normal (join dest) ∧
      ∃ r, v.split '=' (some 1) = .ok [join dest, r] := by
  have hk : ∀ x ∈ dest, isTok x = true := fun x hx => tokens_isTok v x (by rw [ht]; simp [hx])
  obtain ⟨r, h1, -, -⟩ := split_first (v := v) (d := join dest) hm (tok_normal hk) (by rw [tokens_join hk]; exact ht)
    (by rw [tokens_join hk]; exact he)
  exact ⟨mixed_truthy hm (by rw [ht]; simp), tokens_join hk, tok_normal hk, r, h1⟩

private theorem assign_variable {v : V} {dest rest : List V} {sp : List Ev} (hm : isMixed v = true)
    (ht : v.tokens = dest ++ tk '=' :: rest) (he : tk '=' ∉ dest) (hl : dest.getLast? ≠ some (tk ')')) (hsp : SpaceSays w dest sp) :
    parseAssignment env w (callFuncTop env w) (.one v) = ⟨sp, .ok ()⟩ := by
  obtain ⟨h1, h2, h3, r, h4⟩ := assign_split hm ht he
  rw [assignT_parts h1 h4 h3, h2]
  exact ⟨sp, [], by simp, hsp, by rw [if_neg hl]⟩

private theorem assign_function {v : V} {name : Str} {args rest : List V} {a : Arg} {fi : FuncInfo} {sp look call : List Ev}
    (hm : isMixed v = true) (ht : v.tokens = (name.map tk ++ tk '(' :: (args ++ [tk ')'])) ++ tk '=' :: rest)
    (hn : '=' ∉ name) (ha : tk '=' ∉ args) (hp : '(' ∉ name)
    (hsp : SpaceSays w (name.map tk ++ tk '(' :: (args ++ [tk ')'])) sp) (hca : Cut args a) (hlu : LooksUp env w name fi look)
    (hc : callFuncTop env w fi a = ⟨call, .ok ()⟩) :
    parseAssignment env w (callFuncTop env w) (.one v) = ⟨sp ++ (look ++ call), .ok ()⟩ := by
  have he : tk '=' ∉ name.map tk ++ tk '(' :: (args ++ [tk ')']) := by simp [tk, hn] at ha ⊢; exact ha
  have hl : (name.map tk ++ tk '(' :: (args ++ [tk ')'])).getLast? = some (tk ')') := by
    rw [show name.map tk ++ tk '(' :: (args ++ [tk ')']) = (name.map tk ++ tk '(' :: args) ++ [tk ')'] by simp, List.getLast?_concat]
  obtain ⟨h1, h2, h3, r, h4⟩ := assign_split hm ht he
  rw [assignT_parts h1 h4 h3, h2]
  refine ⟨sp, look ++ call, rfl, hsp, ?_⟩
  rw [if_pos hl, write_iff h3 (by rw [h2]; exact hl), h2]
  refine ⟨name, args, a, fi, look, call, rfl, hp, hca, hlu, hc, rfl, ?_⟩
  have hcut := hca
  have hsz : a.size = V.sizeAll args := by
    cases hcut with
    | text => simp [strV, Arg.size, V.size]; exact (sizeAll_chars _).symm
    | «variable» => simp [Arg.size, V.sizeAll]
    | mixed => simp [Arg.size, sizeAll_tokens]
  rw [hsz, ← size_tokens, h2]
  simp [sizeAll_append, V.sizeAll, V.size, tk]
  omega

theorem says_call {fi : FuncInfo} {a : Arg} {evs : List Ev} (h : FuncSays env w fi a evs) :
    callFuncTop env w fi a = ⟨evs, .ok ()⟩ :=
  FuncSays.rec (motive_1 := fun fi a evs _ => callFuncTop env w fi a = ⟨evs, .ok ()⟩)
    (motive_2 := fun v evs _ => parseAssignment env w (callFuncTop env w) (.one v) = ⟨evs, .ok ()⟩)
    (fun hb h => (call_plain hb).2 h) (fun hb h1 h2 => (call_hook hb).2 ⟨_, _, rfl, h1, h2⟩)
    (fun hb h1 h2 => (call_count hb).2 ⟨_, _, _, rfl, rfl, h1, h2⟩)
    (fun hb _ h2 h1 => (call_set hb).2 ⟨_, _, rfl, h1, h2⟩) assign_empty (fun h1 h2 h3 h4 => assign_noEquals h1 h2 h3 h4)
    (fun h1 h2 h3 h4 h5 => assign_variable h1 h2 h3 h4 h5)
    (fun h1 h2 h3 h4 h5 h6 h7 h8 _ h9 => assign_function h1 h2 h3 h4 h5 h6 h7 h8 h9)
    (fun h1 _ h2 => (assign_inside h1).trans h2) (fun h1 h2 h3 => assign_single h1 h2 h3) h

theorem says_assign {v : V} {evs : List Ev} (h : AssignSays env w v evs) :
    parseAssignment env w (callFuncTop env w) (.one v) = ⟨evs, .ok ()⟩ :=
  AssignSays.rec (motive_1 := fun fi a evs _ => callFuncTop env w fi a = ⟨evs, .ok ()⟩)
    (motive_2 := fun v evs _ => parseAssignment env w (callFuncTop env w) (.one v) = ⟨evs, .ok ()⟩)
    (fun hb h => (call_plain hb).2 h) (fun hb h1 h2 => (call_hook hb).2 ⟨_, _, rfl, h1, h2⟩)
    (fun hb h1 h2 => (call_count hb).2 ⟨_, _, _, rfl, rfl, h1, h2⟩)
    (fun hb _ h2 h1 => (call_set hb).2 ⟨_, _, rfl, h1, h2⟩) assign_empty (fun h1 h2 h3 h4 => assign_noEquals h1 h2 h3 h4)
    (fun h1 h2 h3 h4 h5 => assign_variable h1 h2 h3 h4 h5)
    (fun h1 h2 h3 h4 h5 h6 h7 h8 _ h9 => assign_function h1 h2 h3 h4 h5 h6 h7 h8 h9)
    (fun h1 _ h2 => (assign_inside h1).trans h2) (fun h1 h2 h3 => assign_single h1 h2 h3) h

theorem call_iff {fi : FuncInfo} {a : Arg} (ha : Fair a) {evs : List Ev} :
    callFuncTop env w fi a = ⟨evs, .ok ()⟩ ↔ FuncSays env w fi a evs :=
  ⟨call_complete fi a ha evs, says_call⟩

theorem assign_iff {v : V} (hv : Normal v) {evs : List Ev} :
    parseAssignment env w (callFuncTop env w) (.one v) = ⟨evs, .ok ()⟩ ↔ AssignSays env w v evs :=
  ⟨assign_complete hv fun fi a ev _ hf hc => call_complete fi a hf ev hc, says_assign⟩

end ALint
