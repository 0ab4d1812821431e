import Verif.Spec.App
import Verif.Proofs.Split
import Verif.Proofs.Uses

/-! # Splitting arguments (lemmas) -/

namespace ALint
open ALint.Spec

/-- The arguments as token lists. -/
def sepT (d : Char) (rm : Bool) : SepSt → List V → List (List V)
  | _, [] => [[]]
  | st, t :: ts =>
    match (sepStep d rm st t).2 with
    | .keep => consHead t (sepT d rm (sepStep d rm st t).1 ts)
    | .cut => sepT d rm (sepStep d rm st t).1 ts
    | .split => [] :: sepT d rm (sepStep d rm st t).1 ts

theorem sepT_ne (d : Char) (rm : Bool) (st : SepSt) (ts : List V) : sepT d rm st ts ≠ [] := by
  induction ts generalizing st with
  | nil => simp [sepT]
  | cons t ts ih =>
    rw [sepT]
    split
    · cases h : sepT d rm (sepStep d rm st t).1 ts with
      | nil => exact absurd h (ih _)
      | cons g gs => simp [consHead]
    · exact ih _
    · simp

/-- Put items in front of the first group. -/
def prefixHead {α : Type} (p : List α) : List (List α) → List (List α)
  | [] => []
  | g :: gs => (p ++ g) :: gs

theorem prefixHead_nil {α : Type} (gs : List (List α)) : prefixHead [] gs = gs := by
  cases gs <;> simp [prefixHead]

theorem prefixHead_consHead (p : List V) (v : V) (gs : List (List V)) (h : gs ≠ []) :
    prefixHead p (consHead v gs) = prefixHead (p ++ [v]) gs := by
  cases gs with
  | nil => exact absurd rfl h
  | cons g gs => simp [prefixHead, consHead]

/-- The slices as tokens. -/
theorem slice_tokens (v : V) (i j : Nat) :
    V.tokensAll (Arg.slice (.one v) i j) = (v.tokens.drop i).take (j - i) := getSlice_tokens v i j

theorem take_succ_drop {α : Type} (l : List α) (s i : Nat) (h : s ≤ i) (t : α) (ts : List α)
    (hd : l.drop i = t :: ts) : (l.drop s).take (i + 1 - s) = (l.drop s).take (i - s) ++ [t] := by
  have h1 : i + 1 - s = (i - s) + 1 := by omega
  rw [h1, List.take_add_one]
  have : (l.drop s)[i - s]? = some t := by
    rw [List.getElem?_drop, show s + (i - s) = i by omega]
    have := congrArg List.head? hd
    simpa [List.head?_drop] using this
  rw [this]; rfl

theorem sepLoop_tokens (d : Char) (rm : Bool) (v : V) (i : Nat) (ts : List V) (st : SepSt) (start : Nat)
    (cur : List V) (hs : start ≤ i) (hd : v.tokens.drop i = ts) :
    (sepLoop d rm (.one v) i ts st start cur).map V.tokensAll =
      prefixHead (V.tokensAll cur ++ (v.tokens.drop start).take (i - start)) (sepT d rm st ts) := by
  induction ts generalizing i st start cur with
  | nil =>
    simp [sepLoop, sepT, prefixHead, tokensAll_append, slice_tokens]
  | cons t ts ih =>
    have hd' : v.tokens.drop (i + 1) = ts := by
      rw [← List.drop_drop, hd]; rfl
    rw [sepLoop, sepT]
    split <;> rename_i ha <;> rw [ha]
    · rw [ih (i + 1) _ start cur (by omega) hd', prefixHead_consHead _ _ _ (sepT_ne _ _ _ _),
        take_succ_drop _ _ _ hs t ts hd, List.append_assoc]
    · rw [ih (i + 1) _ (i + 1) _ (by omega) hd', tokensAll_append, slice_tokens]
      simp
    · rw [List.map_cons, ih (i + 1) _ (i + 1) [] (by omega) hd', tokensAll_append, slice_tokens]
      show _ :: prefixHead ([] ++ _) _ = _
      rw [Nat.sub_self, List.take_zero, List.append_nil, prefixHead_nil]
      simp only [prefixHead, List.append_nil]

theorem sepLoop_all (d : Char) (rm : Bool) (data : Arg) (P : V → Prop)
    (hs : ∀ i j, ∀ u ∈ data.slice i j, P u) (i : Nat) (ts : List V) (st : SepSt) (start : Nat)
    (cur : List V) (hc : ∀ u ∈ cur, P u) :
    ∀ g ∈ sepLoop d rm data i ts st start cur, ∀ u ∈ g, P u := by
  have app : ∀ (cur : List V) i j, (∀ u ∈ cur, P u) → ∀ u ∈ cur ++ data.slice i j, P u := by
    intro cur i j hc u hu
    rcases List.mem_append.1 hu with h | h
    · exact hc u h
    · exact hs i j u h
  induction ts generalizing i st start cur with
  | nil =>
    intro g hg
    simp [sepLoop] at hg
    subst hg
    exact app cur _ _ hc
  | cons t ts ih =>
    rw [sepLoop]
    split
    · exact ih _ _ _ _ hc
    · exact ih _ _ _ _ (app cur _ _ hc)
    · intro g hg
      rcases List.mem_cons.1 hg with rfl | hg
      · exact app cur _ _ hc
      · exact ih _ _ _ _ (by simp) g hg

theorem squash_tokens (g : List V) (h : ∀ v ∈ g, isPiece v = true) :
    (squash g).tokens = V.tokensAll g ∧ isText (squash g) = true := by
  have hp := strjoin_piece g h
  have ht : ∀ v ∈ strjoin g, isText v = true := fun v hv => isPiece_text (hp v hv)
  unfold squash
  rw [← strjoin_tokens g]
  split
  · rename_i v hv
    rw [hv]
    exact ⟨by simp [V.tokensAll], ht v (by simp [hv])⟩
  · exact ⟨join_tokens _ ht, join_text _ ht⟩

theorem strjoin_strs (g : List V) (h : ∀ v ∈ g, v.isStr = true) : ∀ v ∈ strjoin g, v.isStr = true := by
  induction g with
  | nil => simp [strjoin]
  | cons v g ih =>
    have ih := ih (fun v hv => h v (by simp [hv]))
    have hv := h v (by simp)
    cases v <;> simp [V.isStr] at hv
    rw [strjoin]
    split
    · rename_i hj
      intro u hu
      rcases List.mem_cons.1 hu with rfl | hu
      · rfl
      · exact ih u (by rw [hj]; simp [hu])
    · intro u hu
      rcases List.mem_cons.1 hu with rfl | hu
      · rfl
      · exact ih u hu

theorem squash_strs (g : List V) (h : ∀ v ∈ g, v.isStr = true) : (squash g).isStr = true := by
  have hs := strjoin_strs g h
  unfold squash
  split
  · rename_i v hv; exact hs v (by simp [hv])
  · exact join_strs _ hs

/-- The arguments as tokens. -/
theorem separateArgs_tokens (d : Char) (rm : Bool) (v : V) :
    (separateArgs d rm (.one v)).map V.tokens = sepT d rm .init v.tokens ∧
      ∀ p ∈ separateArgs d rm (.one v), isText p = true := by
  have hp := sepLoop_all d rm (.one v) (fun u => isPiece u = true) (fun i j => getSlice_iter_piece v i j)
    0 v.tokens .init 0 [] (by simp)
  have ht := sepLoop_tokens d rm v 0 v.tokens .init 0 [] (by omega) rfl
  simp only [V.tokensAll, List.nil_append, Nat.sub_self, List.take_zero, prefixHead_nil] at ht
  constructor
  · rw [← ht, separateArgs, List.map_map]
    apply List.map_congr_left
    intro g hg
    exact (squash_tokens g (hp g hg)).1
  · intro p hp'
    rw [separateArgs, List.mem_map] at hp'
    obtain ⟨g, hg, rfl⟩ := hp'
    exact (squash_tokens g (hp g hg)).2

/-! ### strings -/

/-- The arguments as strings. -/
def sepC (d : Char) (rm : Bool) : SepSt → Str → List Str
  | _, [] => [[]]
  | st, c :: cs =>
    match (sepStep d rm st (.str [c])).2 with
    | .keep => prefixHead [c] (sepC d rm (sepStep d rm st (.str [c])).1 cs)
    | .cut => sepC d rm (sepStep d rm st (.str [c])).1 cs
    | .split => [] :: sepC d rm (sepStep d rm st (.str [c])).1 cs

theorem sepC_ne (d : Char) (rm : Bool) (st : SepSt) (s : Str) : sepC d rm st s ≠ [] := by
  induction s generalizing st with
  | nil => simp [sepC]
  | cons c cs ih =>
    rw [sepC]
    split
    · cases h : sepC d rm (sepStep d rm st (.str [c])).1 cs with
      | nil => exact absurd h (ih _)
      | cons g gs => simp [prefixHead]
    · exact ih _
    · simp

theorem sepT_chars (d : Char) (rm : Bool) (st : SepSt) (s : Str) :
    sepT d rm st (chars s) = (sepC d rm st s).map chars := by
  induction s generalizing st with
  | nil => simp [sepT, sepC, chars]
  | cons c cs ih =>
    show sepT d rm st (.str [c] :: chars cs) = _
    rw [sepT, sepC, ih]
    split
    · cases h : sepC d rm (sepStep d rm st (.str [c])).1 cs with
      | nil => exact absurd h (sepC_ne _ _ _ _)
      | cons g gs => simp [consHead, prefixHead, chars]
    · rfl
    · rfl

theorem chars_inj {a b : Str} (h : chars a = chars b) : a = b := by
  induction a generalizing b with
  | nil => cases b <;> simp [chars] at h ⊢
  | cons c a ih =>
    cases b with
    | nil => simp [chars] at h
    | cons c' b =>
      simp only [chars, List.map_cons, List.cons.injEq, V.str.injEq] at h
      rw [h.1.1, ih h.2]

theorem slice_strs (s : Str) (i j : Nat) : ∀ u ∈ Arg.slice (.one (.str s)) i j, u.isStr = true := by
  intro u hu
  simp only [Arg.slice, V.getSlice, Arg.iter, V.tokens] at hu
  obtain ⟨c, _, rfl⟩ := List.mem_map.1 hu
  rfl

theorem separateArgs_str (d : Char) (rm : Bool) (s : Str) :
    separateArgs d rm (.one (.str s)) = (sepC d rm .init s).map .str := by
  obtain ⟨h1, h2⟩ := separateArgs_tokens d rm (.str s)
  rw [tokens_str, sepT_chars] at h1
  have h3 : ∀ p ∈ separateArgs d rm (.one (.str s)), p.isStr = true := by
    intro p hp
    rw [separateArgs, List.mem_map] at hp
    obtain ⟨g, hg, rfl⟩ := hp
    exact squash_strs g (sepLoop_all d rm _ (fun u => u.isStr = true) (slice_strs s) _ _ _ _ _ (by simp) g hg)
  revert h1 h2 h3
  generalize separateArgs d rm (.one (.str s)) = ps
  generalize sepC d rm .init s = qs
  intro h1 h2 h3
  induction ps generalizing qs with
  | nil => cases qs <;> simp at h1 ⊢
  | cons p ps ih =>
    cases qs with
    | nil => simp at h1
    | cons q qs =>
      simp only [List.map_cons, List.cons.injEq] at h1 ⊢
      refine ⟨?_, ih _ h1.2 (fun p hp => h2 p (by simp [hp])) (fun p hp => h3 p (by simp [hp]))⟩
      exact str_of_tokens (h2 p (by simp)) (h3 p (by simp)) h1.1

/-! ### joining back -/

theorem sepStep_split {d : Char} {rm : Bool} {st : SepSt} {t : V} (h : (sepStep d rm st t).2 = .split) :
    t = .str [d] := by
  cases t with
  | str s =>
    simp only [sepStep] at h
    split at h; · simp at h
    split at h; · simp at h
    split at h; · simp at h
    split at h; · simp at h
    split at h; · simp at h
    split at h; · cases rm <;> simp at h
    split at h; · cases rm <;> simp at h
    split at h
    · rename_i h'; rw [h'.1]
    · simp at h
  | _ => simp [sepStep] at h

theorem sepStep_nocut (d : Char) (st : SepSt) (t : V) : (sepStep d false st t).2 ≠ .cut := by
  cases t with
  | str s =>
    simp only [sepStep]
    repeat' split
    all_goals simp_all
  | _ => simp [sepStep]

theorem sepBy_cons_ne {α : Type} (x : α) (l : List α) (gs : List (List α)) (h : gs ≠ []) :
    sepBy x (l :: gs) = l ++ x :: sepBy x gs := by
  cases gs with
  | nil => exact absurd rfl h
  | cons g gs => rfl

theorem sepBy_consHead (x v : V) (gs : List (List V)) (h : gs ≠ []) :
    sepBy x (consHead v gs) = v :: sepBy x gs := by
  cases gs with
  | nil => exact absurd rfl h
  | cons g gs => cases gs <;> simp [consHead, sepBy]

theorem sepBy_sepT (d : Char) (st : SepSt) (ts : List V) :
    sepBy (.str [d]) (sepT d false st ts) = ts := by
  induction ts generalizing st with
  | nil => rfl
  | cons t ts ih =>
    rw [sepT]
    split
    · rw [sepBy_consHead _ _ _ (sepT_ne _ _ _ _), ih]
    · rename_i h; exact absurd h (sepStep_nocut _ _ _)
    · rename_i h
      rw [sepBy_cons_ne _ _ _ (sepT_ne _ _ _ _), ih, sepStep_split h]; rfl

/-! ### where arguments end -/

/-- The state behind a text. -/
def sepRun (d : Char) (rm : Bool) (st : SepSt) (ts : List V) : SepSt :=
  ts.foldl (fun st t => (sepStep d rm st t).1) st

theorem sepT_at (d : Char) (st : SepSt) (pre : List V) (t : V) (post : List V)
    (h : (sepStep d false (sepRun d false st pre) t).2 = .split) :
    sepT d false st (pre ++ t :: post) = sepT d false st pre ++
      sepT d false (sepStep d false (sepRun d false st pre) t).1 post := by
  induction pre generalizing st with
  | nil =>
    simp only [sepRun, List.foldl_nil] at h
    show sepT d false st (t :: post) = _
    simp only [sepT, h]; rfl
  | cons p pre ih =>
    have h' : (sepStep d false (sepRun d false (sepStep d false st p).1 pre) t).2 = .split := h
    have e : sepRun d false st (p :: pre) = sepRun d false (sepStep d false st p).1 pre := rfl
    rw [List.cons_append, sepT, ih _ h', e]
    conv => rhs; rw [sepT]
    split
    · cases hg : sepT d false (sepStep d false st p).1 pre with
      | nil => exact absurd hg (sepT_ne _ _ _ _)
      | cons g gs => simp [consHead]
    · rfl
    · rfl

theorem sepT_bound (d : Char) (st : SepSt) (ts : List V) (l r : List (List V)) (hl : l ≠ []) (hr : r ≠ [])
    (h : sepT d false st ts = l ++ r) :
    (sepStep d false (sepRun d false st (sepBy (.str [d]) l)) (.str [d])).2 = .split := by
  induction ts generalizing st l with
  | nil =>
    simp only [sepT] at h
    have := congrArg List.length h
    cases l <;> cases r <;> simp at this hl hr
  | cons t ts ih =>
    rw [sepT] at h
    split at h
    · cases hg : sepT d false (sepStep d false st t).1 ts with
      | nil => exact absurd hg (sepT_ne _ _ _ _)
      | cons g gs =>
        rw [hg] at h
        cases l with
        | nil => exact absurd rfl hl
        | cons l0 l =>
          simp only [consHead, List.cons_append, List.cons.injEq] at h
          obtain ⟨rfl, h⟩ := h
          have := ih (sepStep d false st t).1 (g :: l) (by simp) (by rw [hg, h]; rfl)
          have e : sepBy (V.str [d]) ((t :: g) :: l) = t :: sepBy (.str [d]) (g :: l) := by
            cases l <;> simp [sepBy]
          rw [e]; exact this
    · rename_i hc; exact absurd hc (sepStep_nocut _ _ _)
    · rename_i hc
      cases l with
      | nil => exact absurd rfl hl
      | cons l0 l =>
        simp only [List.cons_append, List.cons.injEq] at h
        obtain ⟨rfl, h⟩ := h
        have ht := sepStep_split hc
        subst ht
        cases l with
        | nil => exact hc
        | cons l1 l =>
          have := ih (sepStep d false st (.str [d])).1 (l1 :: l) (by simp) h
          exact this

/-! ### the state in words -/

@[elab_as_elim]
theorem snocInd {α : Type} {P : List α → Prop} (l : List α) (nil : P [])
    (snoc : ∀ s x, P s → P (s ++ [x])) : P l := by
  have h : ∀ r : List α, P r.reverse := by
    intro r
    induction r with
    | nil => exact nil
    | cons a r ih => rw [List.reverse_cons]; exact snoc _ _ ih
  simpa using h l.reverse

/-- Nesting depth, stray closing brackets ignored. -/
def clamp (o c : Char) (s : Str) : Nat :=
  s.foldl (fun n x => if x = o then n + 1 else if x = c then n - 1 else n) 0

theorem clamp_snoc (o c : Char) (s : Str) (x : Char) : clamp o c (s ++ [x]) =
    if x = o then clamp o c s + 1 else if x = c then clamp o c s - 1 else clamp o c s := by
  simp [clamp]

theorem prefix_snoc {α : Type} {p b : List α} {x : α} (h : p <+: b ++ [x]) : p <+: b ∨ p = b ++ [x] := by
  rw [List.prefix_concat_iff] at h
  rcases h with h | h
  · exact .inr h
  · exact .inl h

theorem clamp_iff {o c : Char} (hoc : o ≠ c) (s : Str) (k : Nat) :
    k + 1 ≤ clamp o c s ↔ ∃ a b, s = a ++ o :: b ∧ (∀ p, p <+: b → p.count c ≤ p.count o) ∧
      b.count c + k ≤ b.count o := by
  induction s using snocInd generalizing k with
  | nil => simp [clamp]
  | snoc s x ih =>
    rw [clamp_snoc]
    constructor
    · intro h
      by_cases h1 : x = o
      · subst h1
        cases k with
        | zero => exact ⟨s, [], by simp, by simp, by simp⟩
        | succ k =>
          obtain ⟨a, b, rfl, hp, hk⟩ := (ih k).1 (by simpa using h)
          refine ⟨a, b ++ [x], by simp, ?_, ?_⟩
          · intro p hp'
            rcases prefix_snoc hp' with h | rfl
            · exact hp p h
            · simp [List.count_append, hoc]; omega
          · simp [List.count_append, hoc]; omega
      · by_cases h2 : x = c
        · subst h2
          simp only [h1, if_false, if_true] at h
          obtain ⟨a, b, rfl, hp, hk⟩ := (ih (k + 1)).1 (by omega)
          refine ⟨a, b ++ [x], by simp, ?_, ?_⟩
          · intro p hp'
            rcases prefix_snoc hp' with h | rfl
            · exact hp p h
            · simp [List.count_append, h1]; omega
          · simp [List.count_append, h1]; omega
        · simp only [h1, h2, if_false] at h
          obtain ⟨a, b, rfl, hp, hk⟩ := (ih k).1 h
          refine ⟨a, b ++ [x], by simp, ?_, ?_⟩
          · intro p hp'
            rcases prefix_snoc hp' with h | rfl
            · exact hp p h
            · simp [List.count_append, h1, h2]; omega
          · simp [List.count_append, h1, h2]; omega
    · rintro ⟨a, b, e, hp, hk⟩
      rcases List.eq_nil_or_concat b with rfl | ⟨b, y, rfl⟩
      · have : s ++ [x] = a ++ [o] := e
        obtain ⟨rfl, h2⟩ := List.append_inj' this rfl
        simp at h2 hk
        subst h2 hk
        simp
      · rw [List.concat_eq_append] at e hp hk
        have : s ++ [x] = (a ++ o :: b) ++ [y] := by simpa using e
        obtain ⟨rfl, h2⟩ := List.append_inj' this rfl
        simp at h2
        subst h2
        have hp' : ∀ p, p <+: b → p.count c ≤ p.count o :=
          fun p h => hp p (h.trans (List.prefix_append _ _))
        have hk0 := hp b (List.prefix_append _ _)
        have hf := hp (b ++ [x]) (List.prefix_refl _)
        by_cases h1 : x = o
        · subst h1
          simp only [if_true]
          simp [List.count_append, hoc] at hk
          cases k with
          | zero => omega
          | succ k =>
            have := (ih k).2 ⟨a, b, rfl, hp', by omega⟩
            omega
        · by_cases h2 : x = c
          · subst h2
            simp only [h1, if_false, if_true]
            simp [List.count_append, h1] at hk
            have := (ih (k + 1)).2 ⟨a, b, rfl, hp', by omega⟩
            omega
          · simp only [h1, h2, if_false]
            simp [List.count_append, h1, h2] at hk
            exact (ih k).2 ⟨a, b, rfl, hp', hk⟩

theorem inside_iff {o c : Char} (hoc : o ≠ c) (s : Str) : Inside o c s ↔ clamp o c s ≠ 0 := by
  have := clamp_iff hoc s 0
  constructor
  · rintro ⟨a, b, e, hp⟩
    have := this.2 ⟨a, b, e, hp, hp b (List.prefix_refl _)⟩
    omega
  · intro h
    obtain ⟨a, b, e, hp, _⟩ := this.1 (by omega)
    exact ⟨a, b, e, hp⟩

/-- A backslash waits for its character. -/
def dangling (s : Str) : Bool :=
  s.foldl (fun b x => !b && decide (x = '\\')) false

theorem dangling_snoc (s : Str) (x : Char) : dangling (s ++ [x]) = (!dangling s && decide (x = '\\')) := by
  simp [dangling]

theorem dangling_rep (a : Str) (h : a.getLast? ≠ some '\\') (n : Nat) :
    dangling (a ++ List.replicate n '\\') = decide (n % 2 = 1) := by
  induction n with
  | zero =>
    simp only [List.replicate_zero, List.append_nil]
    rcases List.eq_nil_or_concat a with rfl | ⟨a, y, rfl⟩
    · rfl
    · rw [List.concat_eq_append, dangling_snoc]
      simp at h
      simp [h]
  | succ n ih =>
    rw [List.replicate_succ', ← List.append_assoc, dangling_snoc, ih]
    by_cases h : n % 2 = 1
    · have : ¬ (n + 1) % 2 = 1 := by omega
      simp [h, this]
    · have : (n + 1) % 2 = 1 := by omega
      simp [h, this]

theorem run_exists (s : Str) : ∃ a n, s = a ++ List.replicate n '\\' ∧ a.getLast? ≠ some '\\' := by
  induction s using snocInd with
  | nil => exact ⟨[], 0, rfl, by simp⟩
  | snoc s x ih =>
    by_cases h : x = '\\'
    · obtain ⟨a, n, rfl, h'⟩ := ih
      exact ⟨a, n + 1, by rw [List.replicate_succ', h, List.append_assoc], h'⟩
    · exact ⟨s ++ [x], 0, by simp, by simp [h]⟩

theorem escaped_iff (s : Str) : Escaped s ↔ dangling s = true := by
  constructor
  · rintro ⟨a, n, rfl, h⟩
    rw [dangling_rep a h]
    simp
  · intro h
    obtain ⟨a, n, rfl, h'⟩ := run_exists s
    rw [dangling_rep a h'] at h
    simp at h
    exact ⟨a, n / 2, by rw [show 2 * (n / 2) + 1 = n by omega], h'⟩

theorem live_cons (c : Char) (h : c ≠ '\\') (s : Str) : live (c :: s) = c :: live s := by
  rw [live.eq_def]
  split <;> simp_all

theorem live_snoc (s : Str) (x : Char) :
    live (s ++ [x]) = if dangling s = true ∨ x = '\\' then live s else live s ++ [x] := by
  induction s using live.induct with
  | case1 =>
    by_cases h : x = '\\'
    · subst h; simp [live, dangling]
    · simp [live_cons x h, live, dangling, h]
  | case2 => simp [live, dangling]
  | case3 c rest ih =>
    have : dangling ('\\' :: c :: rest) = dangling rest := by simp [dangling]
    rw [this]
    simp only [List.cons_append, live]
    exact ih
  | case4 c rest h1 h2 ih =>
    have hc : c ≠ '\\' := by
      rintro rfl
      cases rest with
      | nil => exact h1 rfl rfl
      | cons y ys => exact h2 y ys rfl rfl
    have : dangling (c :: rest) = dangling rest := by simp [dangling, hc]
    rw [this, List.cons_append, live_cons c hc, live_cons c hc, ih]
    split <;> simp

/-- The state, from the letters. -/
def stOf (s : Str) : SepSt :=
  ⟨clamp '[' ']' (live s), clamp '(' ')' (live s), decide ((live s).count '"' % 2 = 1), dangling s⟩

theorem stOf_snoc (d : Char) (hd : d ≠ '"') (rm : Bool) (s : Str) (x : Char) :
    (sepStep d rm (stOf s) (.str [x])).1 = stOf (s ++ [x]) := by
  unfold stOf
  rw [live_snoc, dangling_snoc]
  by_cases h0 : dangling s = true
  · simp [sepStep, h0]
  by_cases h1 : x = '['
  · subst h1; simp [sepStep, h0, clamp_snoc, List.count_append]
  by_cases h2 : x = ']'
  · subst h2; simp [sepStep, h0, clamp_snoc, List.count_append]
  by_cases h3 : x = '('
  · subst h3; simp [sepStep, h0, clamp_snoc, List.count_append]
  by_cases h4 : x = ')'
  · subst h4; simp [sepStep, h0, clamp_snoc, List.count_append]
  by_cases h5 : x = '"'
  · subst h5
    simp [sepStep, h0, hd, clamp_snoc, List.count_append]
    by_cases h : List.count '"' (live s) % 2 = 1
    · have h' : ¬ (List.count '"' (live s) + 1) % 2 = 1 := by omega
      simp [h, h']
    · have h' : (List.count '"' (live s) + 1) % 2 = 1 := by omega
      simp [h, h']
  by_cases h6 : x = '\\'
  · subst h6; simp [sepStep, h0]
  · have hc : List.count '"' [x] = 0 := by simp [h5]
    simp [sepStep, h0, h1, h2, h3, h4, h5, h6, clamp_snoc, List.count_append, hc]
    split <;> rfl

theorem letters_snoc_str (ts : List V) (c : Char) : letters (ts ++ [.str [c]]) = letters ts ++ [c] := by
  simp [letters]

theorem sepRun_snoc (d : Char) (rm : Bool) (st : SepSt) (ts : List V) (t : V) :
    sepRun d rm st (ts ++ [t]) = (sepStep d rm (sepRun d rm st ts) t).1 := by
  simp [sepRun]

theorem sepRun_letters (d : Char) (hd : d ≠ '"') (rm : Bool) (ts : List V) (h : ∀ t ∈ ts, isTok t = true) :
    sepRun d rm .init ts = stOf (letters ts) := by
  induction ts using snocInd with
  | nil => rfl
  | snoc ts t ih =>
    have ih := ih (fun t ht => h t (by simp [ht]))
    have ht := h t (by simp)
    rw [sepRun_snoc, ih]
    cases t with
    | str s =>
      match s, ht with
      | [c], _ => rw [stOf_snoc d hd, letters_snoc_str]
      | [], ht => simp [isTok] at ht
      | _ :: _ :: _, ht => simp [isTok] at ht
    | _ => simp [sepStep, letters]

theorem top_iff {d : Char} (hd : d ∉ sepSpecial) (rm : Bool) (s : Str) :
    (sepStep d rm (stOf s) (.str [d])).2 = .split ↔ TopLevel s := by
  simp [sepSpecial] at hd
  obtain ⟨h1, h2, h3, h4, h5, h6⟩ := hd
  have hq : (decide ((live s).count '"' % 2 = 1) = false) ↔ (live s).count '"' % 2 = 0 := by
    rw [decide_eq_false_iff_not]; omega
  unfold TopLevel
  rw [escaped_iff, inside_iff (by decide), inside_iff (by decide), ← hq]
  simp only [sepStep, stOf, List.cons.injEq, h1, h2, h3, h4, h5, h6, false_and, if_false, Decidable.not_not]
  by_cases h0 : dangling s = true
  · simp [h0]
  · simp only [h0]
    by_cases hA : clamp '[' ']' (live s) = 0 <;> by_cases hB : clamp '(' ')' (live s) = 0 <;>
      by_cases hC : decide ((live s).count '"' % 2 = 1) = false <;> simp [hA, hB, hC]

/-! ### removing quotes and backslashes -/

/-- Removal on tokens; `skip`: a backslash came before. -/
def unqT : Bool → List V → List V
  | _, [] => []
  | skip, .str s :: ts =>
    if skip then .str s :: unqT false ts
    else if s = c! "\"" then unqT false ts
    else if s = c! "\\" then unqT true ts
    else .str s :: unqT false ts
  | skip, t :: ts => t :: unqT skip ts

/-- Removal in the arguments; the first may start behind a backslash. -/
def unqHead (skip : Bool) : List (List V) → List (List V)
  | [] => []
  | g :: gs => unqT skip g :: gs.map (unqT false)

theorem unqHead_false (gs : List (List V)) : unqHead false gs = gs.map (unqT false) := by
  cases gs <;> rfl

theorem sepStep_fst (d : Char) (st : SepSt) (t : V) :
    (sepStep d true st t).1 = (sepStep d false st t).1 := by
  cases t <;> simp only [sepStep] <;> repeat' split
  all_goals rfl

theorem sepT_remove (d : Char) (hd : d ≠ '"') (st : SepSt) (ts : List V) :
    sepT d true st ts = unqHead st.skip (sepT d false st ts) := by
  induction ts generalizing st with
  | nil => simp [sepT, unqHead, unqT]
  | cons t ts ih =>
    have key : ∀ st' : SepSt, ∃ g gs, sepT d false st' ts = g :: gs := by
      intro st'
      cases h : sepT d false st' ts with
      | nil => exact absurd h (sepT_ne _ _ _ _)
      | cons g gs => exact ⟨g, gs, rfl⟩
    rw [sepT, sepT, ih, sepStep_fst]
    obtain ⟨g, gs, hg⟩ := key (sepStep d false st t).1
    rw [hg]
    cases t with
    | str s =>
      simp only [sepStep]
      by_cases h0 : st.skip = true
      · simp [h0, unqHead, consHead, unqT]
      simp only [h0, Bool.false_eq_true, if_false]
      have h0 : st.skip = false := by simpa using h0
      by_cases h1 : s = ['[']
      · simp [h1, unqHead, consHead, unqT]
      by_cases h2 : s = [']']
      · simp [h2, unqHead, consHead, unqT]
      by_cases h3 : s = ['(']
      · simp [h3, unqHead, consHead, unqT]
      by_cases h4 : s = [')']
      · simp [h4, unqHead, consHead, unqT]
      by_cases h5 : s = ['"']
      · simp [h5, hd, unqHead, consHead, unqT]
      by_cases h6 : s = ['\\']
      · simp [h6, unqHead, consHead, unqT]
      simp only [h1, h2, h3, h4, h5, h6, false_and, if_false]
      by_cases h7 : s = [d] ∧ st.brackets = 0 ∧ st.parens = 0 ∧ st.quotes = false
      · simp only [if_pos h7]; simp [unqHead, unqT, h0]
      · simp only [if_neg h7]; simp [unqHead, consHead, unqT, h0, h5, h6]
    | _ => simp [sepStep, unqHead, consHead, unqT]

theorem unqT_chars (b : Bool) (s : Str) : unqT b (chars s) =
    chars (if b then (match s with | [] => [] | c :: r => c :: unquote r) else unquote s) := by
  induction s generalizing b with
  | nil => cases b <;> simp [chars, unqT, unquote]
  | cons c s ih =>
    show unqT b (.str [c] :: chars s) = _
    rw [unqT]
    cases b with
    | true => rw [if_pos rfl, ih]; simp [chars]
    | false =>
      simp only [Bool.false_eq_true, if_false, List.cons.injEq, and_true]
      by_cases h1 : c = '"'
      · subst h1; simp [ih, unquote]
      by_cases h2 : c = '\\'
      · subst h2
        simp only [h1, if_false, if_true, ih]
        cases s <;> simp [unquote]
      · have : unquote (c :: s) = c :: unquote s := by
          rw [unquote.eq_def]
          split <;> simp_all
        rw [if_neg h1, if_neg h2, ih, this]; simp [chars]

/-! ### escaping -/

theorem sepC_escape (d : Char) (a rest : Str) :
    sepC d true .init (escapeArg d a ++ rest) = prefixHead a (sepC d true .init rest) := by
  induction a with
  | nil => simp [escapeArg, prefixHead_nil]
  | cons c a ih =>
    have pre : ∀ gs : List Str, prefixHead [c] (prefixHead a gs) = prefixHead (c :: a) gs := by
      intro gs; cases gs <;> simp [prefixHead]
    by_cases h : c = d ∨ c ∈ sepSpecial
    · have e : escapeArg d (c :: a) ++ rest = '\\' :: c :: (escapeArg d a ++ rest) := by
        simp [escapeArg, h]
      rw [e, sepC, sepC, ← pre, ← ih]
      simp [sepStep, SepSt.init]
    · have e : escapeArg d (c :: a) ++ rest = c :: (escapeArg d a ++ rest) := by
        simp [escapeArg, h]
      rw [e, sepC, ← pre, ← ih]
      simp [sepSpecial] at h
      simp [sepStep, SepSt.init, h]

theorem sepC_delim {d : Char} (hd : d ∉ sepSpecial) (rm : Bool) (rest : Str) :
    sepC d rm .init (d :: rest) = [] :: sepC d rm .init rest := by
  simp [sepSpecial] at hd
  rw [sepC]
  simp [sepStep, SepSt.init, hd]

theorem sepC_join {d : Char} (hd : d ∉ sepSpecial) (args : List Str) (h : args ≠ []) :
    sepC d true .init (sepBy d (args.map (escapeArg d))) = args := by
  induction args with
  | nil => exact absurd rfl h
  | cons a args ih =>
    cases args with
    | nil =>
      have := sepC_escape d a []
      simpa [sepBy, sepC, prefixHead] using this
    | cons b args =>
      simp only [List.map_cons, sepBy] at ih ⊢
      rw [sepC_escape, sepC_delim hd, ih (by simp)]
      simp [prefixHead]

/-! ### plain text -/

theorem sepC_plain {d : Char} (hd : d ∉ sepSpecial) (rm : Bool) (s : Str) (h : ∀ c ∈ s, c ∉ sepSpecial) :
    sepBy d (sepC d rm .init s) = s ∧ ∀ p ∈ sepC d rm .init s, d ∉ p := by
  induction s with
  | nil => simp [sepC, sepBy]
  | cons c s ih =>
    obtain ⟨i1, i2⟩ := ih (fun c hc => h c (by simp [hc]))
    by_cases hc : c = d
    · subst hc
      rw [sepC_delim hd, sepBy_cons_ne _ _ _ (sepC_ne _ _ _ _), i1]
      refine ⟨rfl, ?_⟩
      intro p hp
      rcases List.mem_cons.1 hp with rfl | hp
      · simp
      · exact i2 p hp
    · have hs := h c (by simp)
      simp [sepSpecial] at hs
      have e : sepC d rm .init (c :: s) = prefixHead [c] (sepC d rm .init s) := by
        rw [sepC]; simp [sepStep, SepSt.init, hs, hc]
      rw [e]
      cases hg : sepC d rm .init s with
      | nil => exact absurd hg (sepC_ne _ _ _ _)
      | cons g gs =>
        rw [hg] at i1 i2
        constructor
        · rw [← i1]; cases gs <;> simp [prefixHead, sepBy]
        · intro p hp
          simp only [prefixHead, List.mem_cons] at hp
          rcases hp with rfl | hp
          · have := i2 g (by simp)
            simp [this, Ne.symm hc]
          · exact i2 p (by simp [hp])

end ALint
