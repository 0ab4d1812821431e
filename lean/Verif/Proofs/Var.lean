import Verif.Spec.Var
import Verif.Proofs.Str

namespace ALint
open ALint.Spec
open V (toStrAll tokensAll)

/-! ### tokens and text -/

theorem tokensAll_append (a b : List V) : tokensAll (a ++ b) = tokensAll a ++ tokensAll b := by
  induction a with
  | nil => rfl
  | cons v vs ih => simp [tokensAll, ih]

/-- Concatenation of results. -/
def catE (a b : Except Exc Str) : Except Exc Str :=
  match a, b with
  | .error e, _ => .error e
  | .ok _, .error e => .error e
  | .ok a, .ok b => .ok (a ++ b)

theorem toStrAll_cons (v : V) (vs : List V) : toStrAll (v :: vs) = catE v.toStr (toStrAll vs) := by
  simp only [toStrAll]
  rfl

theorem catE_assoc (a b c : Except Exc Str) : catE (catE a b) c = catE a (catE b c) := by
  cases a <;> cases b <;> cases c <;> simp [catE]

theorem catE_nil (a : Except Exc Str) : catE a (.ok []) = a := by
  cases a <;> simp [catE]

theorem nil_catE (a : Except Exc Str) : catE (.ok []) a = a := by
  cases a <;> simp [catE]

theorem toStrAll_append (a b : List V) : toStrAll (a ++ b) = catE (toStrAll a) (toStrAll b) := by
  induction a with
  | nil => simp [toStrAll, nil_catE]
  | cons v vs ih => rw [List.cons_append, toStrAll_cons, ih, toStrAll_cons, catE_assoc]

theorem toStrAll_single (v : V) : toStrAll [v] = v.toStr := by
  rw [toStrAll_cons]; simp [toStrAll, catE_nil]

theorem toStrAll_chars (s : Str) : toStrAll (s.map fun c => V.str [c]) = .ok s := by
  induction s with
  | nil => rfl
  | cons c cs ih => rw [List.map_cons, toStrAll_cons, ih]; simp [V.toStr, catE]

mutual
/-- The text of a value is that of its tokens. -/
theorem toStr_tokens : (v : V) → isText v = true → v.toStr = toStrAll v.tokens
  | .str s, _ => by rw [V.tokens, toStrAll_chars, V.toStr]
  | .lst items, h => by
    rw [V.tokens, ← toStrAll_tokens items (by simpa [isText] using h), V.toStr]
  | .atom k n s l, _ => by rw [V.tokens, toStrAll_single]
  | .int _, h => by simp [isText] at h
  | .none, h => by simp [isText] at h
theorem toStrAll_tokens : (vs : List V) → isTexts vs = true → toStrAll vs = toStrAll (tokensAll vs)
  | [], _ => rfl
  | v :: vs, h => by
    simp only [isTexts, Bool.and_eq_true] at h
    rw [toStrAll_cons, tokensAll, toStrAll_append, toStr_tokens v h.1, toStrAll_tokens vs h.2]
end

theorem isTexts_iff (vs : List V) : isTexts vs = true ↔ ∀ v ∈ vs, isText v = true := by
  induction vs with
  | nil => simp [isTexts]
  | cons v vs ih => simp [isTexts, ih]

theorem isTexts_append (a b : List V) : isTexts (a ++ b) = (isTexts a && isTexts b) := by
  induction a with
  | nil => rfl
  | cons v vs ih => simp [isTexts, ih, Bool.and_assoc]

theorem isPiece_text {v : V} (h : isPiece v = true) : isText v = true := by
  cases v <;> simp_all [isPiece, isText]

/-- Every token is a one-character string or a variable. -/
def isTok : V → Bool
  | .str [_] => true
  | .atom .. => true
  | _ => false

mutual
theorem tokens_isTok : (v : V) → ∀ t ∈ v.tokens, isTok t = true
  | .str s => by
    intro t ht
    simp only [V.tokens, List.mem_map] at ht
    obtain ⟨c, _, rfl⟩ := ht
    rfl
  | .lst items => by rw [V.tokens]; exact tokensAll_isTok items
  | .atom k n s l => by simp [V.tokens, isTok]
  | .int _ => by simp [V.tokens]
  | .none => by simp [V.tokens]
theorem tokensAll_isTok : (vs : List V) → ∀ t ∈ tokensAll vs, isTok t = true
  | [] => by simp [tokensAll]
  | v :: vs => by
    intro t ht
    rw [tokensAll, List.mem_append] at ht
    rcases ht with ht | ht
    · exact tokens_isTok v t ht
    · exact tokensAll_isTok vs t ht
end

theorem isTok_piece {v : V} (h : isTok v = true) : isPiece v = true := by
  cases v <;> simp_all [isPiece, isTok]

theorem isTok_tokens {v : V} (h : isTok v = true) : v.tokens = [v] := by
  cases v with
  | str s =>
    match s, h with
    | [c], _ => rfl
    | [], h => simp [isTok] at h
    | _ :: _ :: _, h => simp [isTok] at h
  | atom => rfl
  | _ => simp [isTok] at h

theorem tokensAll_toks (vs : List V) (h : ∀ t ∈ vs, isTok t = true) : tokensAll vs = vs := by
  induction vs with
  | nil => rfl
  | cons v vs ih =>
    rw [tokensAll, isTok_tokens (h v (by simp)), ih (fun t ht => h t (by simp [ht]))]
    rfl

theorem truthy_iff {v : V} (h : isText v = true) : v.truthy = true ↔ v.tokens ≠ [] := by
  cases v with
  | str s => cases s <;> simp [V.truthy, V.tokens]
  | lst items => simp [V.truthy, V.tokens]
  | atom => simp [V.truthy, V.tokens]
  | _ => simp [isText] at h

theorem truthy_false {v : V} (h : isText v = true) (ht : v.truthy = false) : v.tokens = [] := by
  by_cases hx : v.tokens = []
  · exact hx
  · rw [(truthy_iff h).2 hx] at ht; simp at ht

/-! ### join -/

theorem joinCons_tokens (v : V) (rest : List V) :
    tokensAll (joinCons v rest) = v.tokens ++ tokensAll rest := by
  unfold joinCons
  split
  · simp [tokensAll, V.tokens]
  · simp [tokensAll]

theorem joinItems_tokens (vs : List V) (h : ∀ v ∈ vs, isText v = true) :
    tokensAll (joinItems vs) = tokensAll vs := by
  induction vs with
  | nil => rfl
  | cons v vs ih =>
    have hi := ih (fun u hu => h u (by simp [hu]))
    simp only [joinItems]
    split
    · rw [joinCons_tokens, hi, tokensAll]
    · rename_i ht
      rw [hi, tokensAll, truthy_false (h v (by simp)) (by simpa using ht), List.nil_append]

theorem joinCons_text (v : V) (rest : List V) (hv : isText v = true) (h : ∀ u ∈ rest, isText u = true) :
    ∀ u ∈ joinCons v rest, isText u = true := by
  unfold joinCons
  split
  · intro u hu
    rcases List.mem_cons.1 hu with rfl | hu
    · rfl
    · exact h u (by simp [hu])
  · intro u hu
    rcases List.mem_cons.1 hu with rfl | hu
    · exact hv
    · exact h u hu

theorem joinItems_text (vs : List V) (h : ∀ v ∈ vs, isText v = true) :
    ∀ v ∈ joinItems vs, isText v = true := by
  induction vs with
  | nil => simp [joinItems]
  | cons v vs ih =>
    have hi := ih (fun u hu => h u (by simp [hu]))
    simp only [joinItems]
    split
    · exact joinCons_text v _ (h v (by simp)) hi
    · exact hi

theorem join_text (vs : List V) (h : ∀ v ∈ vs, isText v = true) : isText (join vs) = true := by
  have := joinItems_text vs h
  unfold join
  split
  · rfl
  · rename_i v hv; exact this v (by simp [hv])
  · rename_i l _ _ 
    simp only [isText]
    exact (isTexts_iff _).2 this

theorem join_tokens (vs : List V) (h : ∀ v ∈ vs, isText v = true) :
    (join vs).tokens = tokensAll vs := by
  rw [← joinItems_tokens vs h]
  unfold join
  split
  · rename_i hv; rw [hv]; rfl
  · rename_i v hv; rw [hv]; simp [tokensAll]
  · rfl

theorem join_toStr (vs : List V) (h : ∀ v ∈ vs, isText v = true) : (join vs).toStr = toStrAll vs := by
  rw [toStr_tokens _ (join_text vs h), join_tokens vs h, ← toStrAll_tokens vs ((isTexts_iff vs).2 h)]

theorem joinCons_ne (v : V) (rest : List V) : joinCons v rest ≠ [] := by
  unfold joinCons; split <;> simp

theorem joinCons_compact (v : V) (rest : List V) (hv : v ≠ .str []) (h : Compact rest) :
    Compact (joinCons v rest) := by
  unfold joinCons
  split
  · rename_i s t r
    have hs : s ≠ [] := fun e => hv (by rw [e])
    cases r with
    | nil => simp [Compact, hs]
    | cons w r =>
      simp only [Compact] at h ⊢
      exact ⟨by simp [hs], h.2.1, h.2.2⟩
  · rename_i hx
    cases rest with
    | nil => simpa [Compact] using hv
    | cons w rest =>
      refine ⟨hv, ?_, h⟩
      intro hs
      cases v <;> simp [V.isStr] at hs
      cases w <;> simp [V.isStr]
      exact (hx _ _ _ rfl rfl).elim

theorem joinItems_compact (vs : List V) : Compact (joinItems vs) := by
  induction vs with
  | nil => trivial
  | cons v vs ih =>
    simp only [joinItems]
    split
    · rename_i ht
      exact joinCons_compact v _ (by rintro rfl; simp [V.truthy] at ht) ih
    · exact ih

theorem joinItems_strs (vs : List V) (h : ∀ v ∈ vs, v.isStr = true) :
    joinItems vs = [] ∨ ∃ s, joinItems vs = [.str s] := by
  induction vs with
  | nil => exact .inl rfl
  | cons v vs ih =>
    have hi := ih (fun u hu => h u (by simp [hu]))
    simp only [joinItems]
    split
    · have hv := h v (by simp)
      obtain ⟨s, rfl⟩ : ∃ s, v = .str s := by cases v <;> simp_all [V.isStr]
      rcases hi with hi | ⟨t, hi⟩
      · exact .inr ⟨s, by rw [hi]; rfl⟩
      · exact .inr ⟨s ++ t, by rw [hi]; rfl⟩
    · exact hi

theorem join_strs (vs : List V) (h : ∀ v ∈ vs, v.isStr = true) : (join vs).isStr = true := by
  unfold join
  rcases joinItems_strs vs h with h | ⟨s, h⟩ <;> rw [h] <;> rfl

/-- A string is determined by its tokens. -/
theorem str_of_tokens {a : V} {s : Str} (ha : isText a = true) (hs : a.isStr = true)
    (h : a.tokens = s.map fun c => V.str [c]) : a = .str s := by
  cases a <;> simp [V.isStr] at hs
  rename_i t
  simp only [V.tokens] at h
  have := congrArg (fun l => l.filterMap fun v => match v with | V.str [c] => some c | _ => none) h
  simp [List.filterMap_map] at this
  have e : ((fun v => match v with | V.str [c] => some c | _ => none) ∘ fun c => V.str [c]) = some := by
    funext c; rfl
  rw [e] at this
  simpa using this

theorem joinItems_piece (vs : List V) (h : ∀ v ∈ vs, isPiece v = true) :
    ∀ v ∈ joinItems vs, isPiece v = true := by
  induction vs with
  | nil => simp [joinItems]
  | cons v vs ih =>
    have hi := ih (fun u hu => h u (by simp [hu]))
    simp only [joinItems]
    split
    · unfold joinCons
      split
      · rename_i hr _
        rw [hr] at hi
        intro u hu
        rcases List.mem_cons.1 hu with rfl | hu
        · rfl
        · exact hi u (by simp [hu])
      · intro u hu
        rcases List.mem_cons.1 hu with rfl | hu
        · exact h u (by simp)
        · exact hi u hu
    · exact hi

/-- Joining pieces gives a string, a variable or a sequence of pieces. -/
theorem join_pieces (vs : List V) (h : ∀ v ∈ vs, isPiece v = true) :
    isPiece (join vs) = true ∨ isMixed (join vs) = true := by
  have := joinItems_piece vs h
  unfold join
  split
  · exact .inl rfl
  · rename_i v hv; exact .inl (this v (by simp [hv]))
  · exact .inr (by simpa [isMixed] using this)

/-! ### strjoin and slices -/

theorem strjoin_tokens (vs : List V) : tokensAll (strjoin vs) = tokensAll vs := by
  induction vs with
  | nil => rfl
  | cons v vs ih =>
    cases v with
    | str s =>
      simp only [strjoin]
      split
      · rename_i t r h
        rw [show tokensAll (V.str s :: vs) = (V.str s).tokens ++ tokensAll vs from rfl, ← ih, h]
        simp [tokensAll, V.tokens]
      · rw [tokensAll, tokensAll, ih]
    | _ => simp only [strjoin]; rw [tokensAll, tokensAll, ih]

theorem strjoin_piece (vs : List V) (h : ∀ v ∈ vs, isPiece v = true) :
    ∀ v ∈ strjoin vs, isPiece v = true := by
  induction vs with
  | nil => simp [strjoin]
  | cons v vs ih =>
    have hi := ih (fun u hu => h u (by simp [hu]))
    cases v with
    | str s =>
      simp only [strjoin]
      split
      · rename_i t r hr
        rw [hr] at hi
        intro u hu
        rcases List.mem_cons.1 hu with rfl | hu
        · rfl
        · exact hi u (by simp [hu])
      · intro u hu
        rcases List.mem_cons.1 hu with rfl | hu
        · rfl
        · exact hi u hu
    | atom k n s l =>
      simp only [strjoin]
      intro u hu
      rcases List.mem_cons.1 hu with rfl | hu
      · rfl
      · exact hi u hu
    | lst l => have := h (.lst l) (by simp); simp [isPiece] at this
    | int l => have := h (.int l) (by simp); simp [isPiece] at this
    | none => have := h .none (by simp); simp [isPiece] at this

/-- The tokens of a slice. -/
theorem getSlice_tokens (v : V) (i j : Nat) :
    tokensAll (v.getSlice i j).iter = (v.tokens.drop i).take (j - i) := by
  have key : ∀ u : V, (∀ t ∈ u.tokens, isTok t = true) →
      tokensAll (Arg.iter (match strjoin ((u.tokens.drop i).take (j - i)) with
        | [x] => .one x
        | l => .many l)) = (u.tokens.drop i).take (j - i) := by
    intro u hu
    have ht : tokensAll ((u.tokens.drop i).take (j - i)) = (u.tokens.drop i).take (j - i) :=
      tokensAll_toks _ (fun t ht => hu t (List.mem_of_mem_drop (List.mem_of_mem_take ht)))
    rw [← strjoin_tokens] at ht
    split
    · rename_i x hx
      rw [hx] at ht
      rw [← ht]
      simp only [Arg.iter]
      rw [tokensAll_toks _ (tokens_isTok x)]
      simp [tokensAll]
    · exact ht
  cases v with
  | str s =>
    simp only [V.getSlice, Arg.iter, V.tokens]
    rw [tokensAll_toks]
    · rw [List.map_take, List.map_drop]
    · intro t ht
      simp only [List.mem_map] at ht
      obtain ⟨c, _, rfl⟩ := ht
      rfl
  | lst l => exact key (.lst l) (tokens_isTok _)
  | atom k n s l => exact key (.atom k n s l) (tokens_isTok _)
  | int l => exact key (.int l) (tokens_isTok _)
  | none => exact key .none (tokens_isTok _)

theorem getSlice_iter_piece (v : V) (i j : Nat) : ∀ u ∈ (v.getSlice i j).iter, isPiece u = true := by
  have key : ∀ u : V, (∀ t ∈ u.tokens, isTok t = true) →
      ∀ x ∈ (Arg.iter (match strjoin ((u.tokens.drop i).take (j - i)) with
        | [x] => .one x
        | l => .many l)), isPiece x = true := by
    intro u hu
    have h1 := strjoin_piece ((u.tokens.drop i).take (j - i))
      (fun t ht => isTok_piece (hu t (List.mem_of_mem_drop (List.mem_of_mem_take ht))))
    split
    · rename_i y hy
      simp only [Arg.iter]
      intro x hx
      exact isTok_piece (tokens_isTok y x hx)
    · exact h1
  cases v with
  | str s =>
    simp only [V.getSlice, Arg.iter]
    intro u hu
    exact isTok_piece (tokens_isTok _ u hu)
  | lst l => exact key (.lst l) (tokens_isTok _)
  | atom k n s l => exact key (.atom k n s l) (tokens_isTok _)
  | int l => exact key (.int l) (tokens_isTok _)
  | none => exact key .none (tokens_isTok _)

theorem join_getSlice_tokens (v : V) (i j : Nat) :
    (join (v.getSlice i j).iter).tokens = (v.tokens.drop i).take (j - i) := by
  rw [join_tokens _ (fun u hu => isPiece_text (getSlice_iter_piece v i j u hu)), getSlice_tokens]

theorem join_getSlice_text (v : V) (i j : Nat) : isText (join (v.getSlice i j).iter) = true :=
  join_text _ (fun u hu => isPiece_text (getSlice_iter_piece v i j u hu))

end ALint
