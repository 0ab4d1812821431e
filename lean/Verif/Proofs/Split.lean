import Verif.Proofs.Var

namespace ALint
open ALint.Spec
open V (toStrAll tokensAll)

/-! ### splitting lists at a separator -/

section generic
variable {α : Type} [DecidableEq α]

/-- Splitting a list at a separator, at most `n` times. -/
def splitT (c : α) : Option Nat → List α → List (List α)
  | some 0, s => [s]
  | _, [] => [[]]
  | n, x :: xs =>
    if x = c then [] :: splitT c (n.map (· - 1)) xs
    else match splitT c n xs with
      | [] => [[x]]
      | p :: ps => (x :: p) :: ps

theorem splitT_zero (c : α) (s : List α) : splitT c (some 0) s = [s] := by
  cases s <;> simp [splitT]

theorem splitT_nil (c : α) (n : Option Nat) : splitT c n [] = [[]] := by
  unfold splitT; split <;> simp_all

theorem splitT_cons (c x : α) (xs : List α) (n : Option Nat) (hn : n ≠ some 0) :
    splitT c n (x :: xs) = if x = c then [] :: splitT c (n.map (· - 1)) xs
      else match splitT c n xs with
        | [] => [[x]]
        | p :: ps => (x :: p) :: ps := by
  rw [splitT]; exact hn

theorem splitT_ne (c : α) (n : Option Nat) (s : List α) : splitT c n s ≠ [] := by
  induction s generalizing n with
  | nil => rw [splitT_nil]; simp
  | cons x xs ih =>
    by_cases hn : n = some 0
    · subst hn; rw [splitT_zero]; simp
    · rw [splitT_cons _ _ _ _ hn]
      split
      · simp
      · split <;> simp

/-- Gluing the last of the first pieces to the first of the second. -/
def glue : List (List α) → List (List α) → List (List α)
  | [], gs => gs
  | [x], [] => [x]
  | [x], g :: gs => (x ++ g) :: gs
  | x :: y :: r, gs => x :: glue (y :: r) gs

theorem splitT_append (c : α) (n : Option Nat) (a b : List α) :
    splitT c n (a ++ b) =
      glue (splitT c n a) (splitT c (n.map (· - ((splitT c n a).length - 1))) b) := by
  induction a generalizing n with
  | nil =>
    rw [splitT_nil]
    have : n.map (· - ([([] : List α)].length - 1)) = n := by cases n <;> simp
    rw [this, List.nil_append]
    cases h : splitT c n b with
    | nil => exact absurd h (splitT_ne c n b)
    | cons p ps => simp [glue]
  | cons x xs ih =>
    by_cases hn : n = some 0
    · subst hn; simp [splitT_zero, glue]
    · rw [List.cons_append, splitT_cons _ _ _ _ hn, splitT_cons _ _ _ _ hn]
      by_cases hx : x = c
      · simp only [hx, if_true]
        rw [ih]
        cases h : splitT c (n.map (· - 1)) xs with
        | nil => exact absurd h (splitT_ne _ _ _)
        | cons p ps =>
          simp only [glue, List.length_cons, Option.map_map]
          congr 3
          cases n with
          | none => rfl
          | some n => simp; omega
      · simp only [hx, if_false]
        rw [ih]
        cases h : splitT c n xs with
        | nil => exact absurd h (splitT_ne _ _ _)
        | cons p ps =>
          simp only [List.length_cons]
          cases ps with
          | nil =>
            generalize h2 : splitT c (Option.map (fun x => x - (([] : List (List α)).length + 1 - 1)) n) b = l
            cases l with
            | nil => exact absurd h2 (splitT_ne _ _ _)
            | cons q qs => simp [glue]
          | cons q qs => simp [glue]

theorem sepBy_splitT (c : α) (n : Option Nat) (s : List α) : sepBy c (splitT c n s) = s := by
  induction s generalizing n with
  | nil => rw [splitT_nil]; rfl
  | cons x xs ih =>
    by_cases hn : n = some 0
    · subst hn; rw [splitT_zero]; rfl
    · rw [splitT_cons _ _ _ _ hn]
      split
      · rename_i hx
        have := ih (n.map (· - 1))
        cases h : splitT c (n.map (· - 1)) xs with
        | nil => exact absurd h (splitT_ne _ _ _)
        | cons p ps => rw [h] at this; simp [sepBy, this, hx]
      · have := ih n
        cases h : splitT c n xs with
        | nil => exact absurd h (splitT_ne _ _ _)
        | cons p ps =>
          rw [h] at this
          cases ps with
          | nil => simpa [sepBy] using this
          | cons q qs => simpa [sepBy] using this

theorem splitT_dropLast (c : α) (n : Option Nat) (s : List α) :
    ∀ p ∈ (splitT c n s).dropLast, c ∉ p := by
  induction s generalizing n with
  | nil => rw [splitT_nil]; simp
  | cons x xs ih =>
    by_cases hn : n = some 0
    · subst hn; rw [splitT_zero]; simp
    · rw [splitT_cons _ _ _ _ hn]
      split
      · have := ih (n.map (· - 1))
        cases h : splitT c (n.map (· - 1)) xs with
        | nil => simp
        | cons p ps => rw [h] at this; simpa using this
      · rename_i hx
        have := ih n
        cases h : splitT c n xs with
        | nil => simp
        | cons p ps =>
          rw [h] at this
          cases ps with
          | nil => simp
          | cons q qs => simp at this ⊢; exact ⟨⟨Ne.symm hx, this.1⟩, this.2⟩

theorem splitT_length (c : α) (n : Nat) (s : List α) : (splitT c (some n) s).length ≤ n + 1 := by
  induction s generalizing n with
  | nil => rw [splitT_nil]; simp
  | cons x xs ih =>
    cases n with
    | zero => rw [splitT_zero]; simp
    | succ n =>
      rw [splitT_cons _ _ _ _ (by simp)]
      split
      · have := ih n
        simp; omega
      · have := ih (n + 1)
        cases h : splitT c (some (n + 1)) xs with
        | nil => simp
        | cons p ps => rw [h] at this; simpa using this

theorem splitT_short (c : α) (n : Option Nat) (s : List α)
    (h : ∀ m, n = some m → (splitT c n s).length < m + 1) : ∀ p ∈ splitT c n s, c ∉ p := by
  induction s generalizing n with
  | nil => rw [splitT_nil]; simp
  | cons x xs ih =>
    by_cases hn : n = some 0
    · have := h 0 hn; subst hn; rw [splitT_zero] at this; simp at this
    · rw [splitT_cons _ _ _ _ hn] at h ⊢
      split
      · rename_i hx
        simp only [hx, if_true] at h
        have := ih (n.map (· - 1)) (by
          intro m hm
          cases n with
          | none => simp at hm
          | some k =>
            have := h k rfl
            simp at hm
            simp at this ⊢
            omega)
        intro p hp
        rcases List.mem_cons.1 hp with rfl | hp
        · simp
        · exact this p hp
      · rename_i hx
        simp only [hx, if_false] at h
        have := ih n (by
          intro m hm
          have := h m hm
          cases h : splitT c n xs with
          | nil => simp
          | cons p ps => rw [h] at this; simpa using this)
        cases h : splitT c n xs with
        | nil => simp; exact Ne.symm hx
        | cons p ps =>
          rw [h] at this
          intro q hq
          rcases List.mem_cons.1 hq with rfl | hq
          · have := this p (by simp)
            simp; exact ⟨Ne.symm hx, this⟩
          · exact this q (by simp [hq])

theorem splitT_no (c : α) (n : Option Nat) (s : List α) (h : c ∉ s) : splitT c n s = [s] := by
  induction s generalizing n with
  | nil => rw [splitT_nil]
  | cons x xs ih =>
    by_cases hn : n = some 0
    · subst hn; rw [splitT_zero]
    · simp at h
      rw [splitT_cons _ _ _ _ hn, if_neg (Ne.symm h.1), ih n h.2]

end generic

/-! ### `V.split` -/

/-- The tokens of a string. -/
def chars (s : Str) : List V := s.map fun c => V.str [c]

theorem chars_append (a b : Str) : chars (a ++ b) = chars a ++ chars b := List.map_append ..

theorem tokens_str (s : Str) : (V.str s).tokens = chars s := by rw [V.tokens]; rfl

theorem splitN_tokens (c : Char) (n : Option Nat) (s : Str) :
    (splitN c n s).map chars = splitT (V.str [c]) n (chars s) := by
  induction s generalizing n with
  | nil =>
    have : splitN c n [] = [[]] := by unfold splitN; split <;> simp_all
    rw [this, show chars [] = [] from rfl, splitT_nil]; rfl
  | cons x xs ih =>
    by_cases hn : n = some 0
    · subst hn; simp [splitN, splitT_zero]
    · have e : splitN c n (x :: xs) = if x = c then [] :: splitN c (n.map (· - 1)) xs
          else match splitN c n xs with
            | [] => [[x]]
            | p :: ps => (x :: p) :: ps := by 
        rw [splitN]
        · rfl
        · exact hn
      rw [e, show chars (x :: xs) = V.str [x] :: chars xs from rfl, splitT_cons _ _ _ _ hn]
      by_cases hx : x = c
      · have := ih (n.map (· - 1))
        simp only [hx, if_true, List.map_cons, this]
        rfl
      · have : V.str [x] ≠ V.str [c] := by simpa using hx
        simp only [hx, if_false, this]
        rw [← ih]
        cases splitN c n xs with
        | nil => simp [chars]
        | cons p ps => simp [chars]

theorem spread_tokens (subs : List Str) (hne : subs ≠ []) (gs : List (List V)) (hg : gs ≠ []) :
    (spread subs gs).map tokensAll = glue (subs.map chars) (gs.map tokensAll) := by
  induction subs with
  | nil => exact absurd rfl hne
  | cons p ps ih =>
    obtain ⟨g, gs, rfl⟩ := List.exists_cons_of_ne_nil hg
    cases ps with
    | nil =>
      simp only [spread, List.map_cons, List.map_nil, glue]
      cases p with
      | nil => simp [chars]
      | cons c cs => simp [consHead, tokensAll, tokens_str]
    | cons q qs =>
      simp only [spread, List.map_cons, glue]
      have := ih (by simp)
      simp only [List.map_cons] at this
      rw [this]
      cases p with
      | nil => simp [chars, tokensAll]
      | cons c cs => simp [tokensAll, tokens_str]

theorem splitGroups_ne (c : Char) (n : Option Nat) (items : List V) : splitGroups c n items ≠ [] := by
  have hc : ∀ (v : V) gs, consHead v gs ≠ [] := by intro v gs; cases gs <;> simp [consHead]
  have hs : ∀ (subs : List Str) (gs : List (List V)), gs ≠ [] → spread subs gs ≠ [] := by
    intro subs gs hg
    cases subs with
    | nil => simpa [spread] using hg
    | cons p ps =>
      cases ps with
      | nil => simp only [spread]; split; exact hg; exact hc _ _
      | cons q qs => simp [spread]
  induction items generalizing n with
  | nil => simp [splitGroups]
  | cons v vs ih =>
    cases v with
    | str s =>
      simp only [splitGroups]
      split
      · exact hc _ _
      · exact hs _ _ (ih _)
    | _ => simp only [splitGroups]; exact hc _ _

theorem splitN_ne (c : Char) (n : Option Nat) (s : Str) : splitN c n s ≠ [] := by
  intro h
  have := splitN_tokens c n s
  rw [h] at this
  exact splitT_ne _ _ _ this.symm

theorem consHead_tokens (v : V) (gs : List (List V)) (hg : gs ≠ []) :
    (consHead v gs).map tokensAll = glue [v.tokens] (gs.map tokensAll) := by
  obtain ⟨g, gs, rfl⟩ := List.exists_cons_of_ne_nil hg
  simp [consHead, tokensAll, glue]

theorem mem_chars {c : Char} {s : Str} : V.str [c] ∈ chars s ↔ c ∈ s := by simp [chars]

theorem splitGroups_tokens (c : Char) (n : Option Nat) (items : List V)
    (h : ∀ v ∈ items, isPiece v = true) :
    (splitGroups c n items).map tokensAll = splitT (V.str [c]) n (tokensAll items) := by
  induction items generalizing n with
  | nil => rw [splitGroups, tokensAll, splitT_nil]; rfl
  | cons v vs ih =>
    have hi := fun n => ih n (fun u hu => h u (by simp [hu]))
    have hv := h v (by simp)
    have sub0 : ∀ n : Option Nat, n.map (· - ([v.tokens].length - 1)) = n := by
      intro n; cases n <;> simp
    cases v with
    | str s =>
      rw [tokensAll, splitT_append, tokens_str]
      simp only [splitGroups]
      split
      · rename_i hc
        rw [consHead_tokens _ _ (splitGroups_ne c n vs), hi, tokens_str]
        have : splitT (V.str [c]) n (chars s) = [chars s] := by
          rcases hc with hc | hc
          · exact splitT_no _ _ _ (fun hm => hc (mem_chars.1 hm))
          · subst hc; exact splitT_zero _ _
        rw [this]
        cases n <;> simp
      · rw [spread_tokens _ (splitN_ne _ _ _) _ (splitGroups_ne _ _ _), hi, splitN_tokens]
        congr 3
        rw [← splitN_tokens]
        simp
    | atom k nm st l =>
      rw [tokensAll, splitT_append]
      simp only [splitGroups]
      rw [consHead_tokens _ _ (splitGroups_ne c n vs), hi]
      have : splitT (V.str [c]) n (V.atom k nm st l).tokens = [(V.atom k nm st l).tokens] :=
        splitT_no _ _ _ (by simp [V.tokens])
      rw [this, sub0]
    | lst l => simp [isPiece] at hv
    | int l => simp [isPiece] at hv
    | none => simp [isPiece] at hv

theorem splitGroups_piece (c : Char) (n : Option Nat) (items : List V)
    (h : ∀ v ∈ items, isPiece v = true) : ∀ g ∈ splitGroups c n items, ∀ v ∈ g, isPiece v = true := by
  have hc : ∀ (v : V) (gs : List (List V)), isPiece v = true → (∀ g ∈ gs, ∀ u ∈ g, isPiece u = true) →
      ∀ g ∈ consHead v gs, ∀ u ∈ g, isPiece u = true := by
    intro v gs hv hg
    cases gs with
    | nil => simpa [consHead] using hv
    | cons g gs =>
      intro g' hg'
      rcases List.mem_cons.1 hg' with rfl | hg'
      · intro u hu
        rcases List.mem_cons.1 hu with rfl | hu
        · exact hv
        · exact hg g (by simp) u hu
      · exact hg g' (by simp [hg'])
  have hs : ∀ (subs : List Str) (gs : List (List V)), (∀ g ∈ gs, ∀ u ∈ g, isPiece u = true) →
      ∀ g ∈ spread subs gs, ∀ u ∈ g, isPiece u = true := by
    intro subs
    induction subs with
    | nil => intro gs hg; simpa [spread] using hg
    | cons p ps ih =>
      intro gs hg
      cases ps with
      | nil => simp only [spread]; split; exact hg; exact hc _ _ rfl hg
      | cons q qs =>
        simp only [spread]
        intro g hg'
        rcases List.mem_cons.1 hg' with rfl | hg'
        · split
          · simp
          · simp [isPiece]
        · exact ih gs hg g hg'
  induction items generalizing n with
  | nil => simp [splitGroups]
  | cons v vs ih =>
    have hi := fun n => ih n (fun u hu => h u (by simp [hu]))
    have hv := h v (by simp)
    cases v with
    | str s =>
      simp only [splitGroups]
      split
      · exact hc _ _ hv (hi _)
      · exact hs _ _ (hi _)
    | atom k nm st l => simp only [splitGroups]; exact hc _ _ hv (hi _)
    | lst l => simp [isPiece] at hv
    | int l => simp [isPiece] at hv
    | none => simp [isPiece] at hv

theorem joinGroup_tokens (g : List V) (h : ∀ v ∈ g, isPiece v = true) :
    (joinGroup g).tokens = tokensAll g := by
  unfold joinGroup
  split
  · rfl
  · simp [tokensAll]
  · exact join_tokens _ (fun v hv => isPiece_text (h v hv))

theorem joinGroup_text (g : List V) (h : ∀ v ∈ g, isPiece v = true) : isText (joinGroup g) = true := by
  unfold joinGroup
  split
  · rfl
  · exact isPiece_text (h _ (by simp))
  · exact join_text _ (fun v hv => isPiece_text (h v hv))

/-- Splitting a mixed text is splitting its tokens. -/
theorem split_tokens (c : Char) (n : Option Nat) (v : V) (h : isMixed v = true) :
    ∃ ps, v.split c n = .ok ps ∧ ps.map V.tokens = splitT (V.str [c]) n v.tokens ∧
      (∀ p ∈ ps, isText p = true) := by
  cases v with
  | str s =>
    refine ⟨_, rfl, ?_, ?_⟩
    · rw [tokens_str, ← splitN_tokens, List.map_map]
      apply List.map_congr_left
      intro p _
      exact tokens_str p
    · intro p hp
      simp only [List.mem_map] at hp
      obtain ⟨q, _, rfl⟩ := hp
      rfl
  | lst items =>
    have hp : ∀ v ∈ items, isPiece v = true := by simpa [isMixed] using h
    have hg := splitGroups_piece c n items hp
    refine ⟨_, rfl, ?_, ?_⟩
    · rw [V.tokens, ← splitGroups_tokens c n items hp, List.map_map]
      apply List.map_congr_left
      intro g hgm
      exact joinGroup_tokens g (hg g hgm)
    · intro p hp'
      simp only [List.mem_map] at hp'
      obtain ⟨g, hgm, rfl⟩ := hp'
      exact joinGroup_text g (hg g hgm)
  | _ => simp [isMixed] at h

end ALint
