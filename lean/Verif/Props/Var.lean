import Verif.Proofs.Split
import Verif.Proofs.Balance
import Verif.Proofs.CouldMatch

/-!
# C34, C35, C37, C38: joining, splitting, matching, balance
-/

namespace ALint.Props
open ALint ALint.Spec

/-- `${name}`. -/
private def var (name : Str) : V := .atom .var (.str name) .none .none

/-! ## C34 -/

/-- C34: the joined pieces print as the concatenation of the printed pieces (and
printing fails iff printing one of them fails). -/
theorem C34_text (vs : List V) (h : ∀ v ∈ vs, isText v = true) :
    (join vs).toStr = V.toStrAll vs := join_toStr vs h

/-- C34: the same for iterating. -/
theorem C34_iter (vs : List V) (h : ∀ v ∈ vs, isText v = true) :
    (join vs).tokens = vs.flatMap V.tokens := by
  rw [join_tokens vs h]
  clear h
  induction vs with
  | nil => rfl
  | cons v vs ih => rw [V.tokensAll, ih, List.flatMap_cons]

/-- C34: strings join to a string, the concatenation. -/
theorem C34_string (ss : List Str) : join (ss.map .str) = .str ss.flatten := by
  have hs : ∀ v ∈ ss.map V.str, v.isStr = true := by simp [V.isStr]
  have ht : ∀ v ∈ ss.map V.str, isText v = true := by simp [isText]
  apply str_of_tokens (join_text _ ht) (join_strs _ hs)
  rw [C34_iter _ ht]
  clear hs ht
  induction ss with
  | nil => rfl
  | cons s ss ih => simp [List.flatMap_cons, ih, V.tokens]

/-- C34: the result is a string, a single piece, or two or more pieces among which
there are neither empty strings nor two adjacent strings. -/
theorem C34_compact (vs : List V) :
    join vs = .str [] ∨ (∃ v, joinItems vs = [v] ∧ join vs = v) ∨
      ∃ l, join vs = .lst l ∧ 2 ≤ l.length ∧ Compact l := by
  have hc := joinItems_compact vs
  unfold join
  split
  · exact .inl rfl
  · rename_i v hv; exact .inr (.inl ⟨v, hv, rfl⟩)
  · rename_i h1 h2
    refine .inr (.inr ⟨_, rfl, ?_, hc⟩)
    cases h : joinItems vs with
    | nil => exact absurd h h1
    | cons a l =>
      cases l with
      | nil => exact absurd h (h2 a)
      | cons b l => simp

example : join [.str (c! "a"), .str [], .str (c! "b"), var (c! "x"), .str (c! "c")] =
    .lst [.str (c! "ab"), var (c! "x"), .str (c! "c")] := by decide
example : (join [.str (c! "a"), .str [], .str (c! "b"), var (c! "x"), .str (c! "c")]).toStr =
    .ok (c! "ab${x}c") := by decide

/-! ## C35 -/

/-- C35 (strings, and sequences of strings and variables): the pieces joined with the
token give back the text, item by item. -/
theorem C35_rejoin_partial (c : Char) (n : Option Nat) (v : V) (h : isMixed v = true) :
    ∃ ps, v.split c n = .ok ps ∧ ps ≠ [] ∧ sepBy (.str [c]) (ps.map V.tokens) = v.tokens := by
  obtain ⟨ps, h1, h2, _⟩ := split_tokens c n v h
  refine ⟨ps, h1, ?_, by rw [h2, sepBy_splitT]⟩
  rintro rfl
  exact splitT_ne _ _ _ h2.symm

/-- C35: without a limit no piece contains the token. -/
theorem C35_unlimited_partial (c : Char) (v : V) (h : isMixed v = true) (ps : List V)
    (hs : v.split c none = .ok ps) : ∀ p ∈ ps, V.str [c] ∉ p.tokens := by
  obtain ⟨ps', h1, h2, _⟩ := split_tokens c none v h
  rw [hs] at h1
  simp only [Except.ok.injEq] at h1
  subst h1
  intro p hp
  exact splitT_short _ none _ (by simp) _ (h2 ▸ List.mem_map_of_mem hp)

/-- C35: with limit `n` there are at most `n + 1` pieces, the token can occur in the last
one only (the cuts are at the leftmost tokens), and only if there are `n + 1` pieces. -/
theorem C35_limited_partial (c : Char) (n : Nat) (v : V) (h : isMixed v = true) (ps : List V)
    (hs : v.split c (some n) = .ok ps) :
    ps.length ≤ n + 1 ∧ (∀ p ∈ ps.dropLast, V.str [c] ∉ p.tokens) ∧
      (ps.length < n + 1 → ∀ p ∈ ps, V.str [c] ∉ p.tokens) := by
  obtain ⟨ps', h1, h2, _⟩ := split_tokens c (some n) v h
  rw [hs] at h1
  simp only [Except.ok.injEq] at h1
  subst h1
  have hl : (splitT (V.str [c]) (some n) v.tokens).length = ps.length := by rw [← h2]; simp
  refine ⟨?_, ?_, ?_⟩
  · rw [← hl]; exact splitT_length _ _ _
  · intro p hp
    apply splitT_dropLast (V.str [c]) (some n) v.tokens
    rw [← h2, ← List.map_dropLast]
    exact List.mem_map_of_mem hp
  · intro hlt p hp
    apply splitT_short (V.str [c]) (some n) v.tokens
    · intro m hm
      simp at hm
      subst hm
      rw [hl]; exact hlt
    · rw [← h2]; exact List.mem_map_of_mem hp

/-- `C35_violated`: a single variable or expression is split inside its name. -/
theorem C35_violated : ∃ (v : V) (ps : List V), isText v = true ∧ v.toStr = .ok (c! "$[a=b]") ∧
    v.split '=' (some 1) = .ok ps ∧ ps = [.str (c! "a"), .str (c! "b")] ∧
    sepBy (.str (c! "=")) (ps.map V.tokens) ≠ v.tokens :=
  ⟨.atom .expr (.str (c! "a=b")) .none .none, _, by decide, by decide, rfl, by decide, by decide⟩

example : V.split ':' none (.lst [.str (c! "a:b"), var (c! "x"), .str (c! ":")]) =
    .ok [.str (c! "a"), .lst [.str (c! "b"), var (c! "x")], .str []] := by decide
example : V.split '=' (some 1) (.lst [.str (c! "a=b="), var (c! "x"), .str (c! "=")]) =
    .ok [.str (c! "a"), .lst [.str (c! "b="), var (c! "x"), .str (c! "=")]] := by decide

/-! ## C37 -/

/-- C37: a text with variables could match a value iff the value arises by putting some
text in place of each occurrence of a variable. -/
theorem C37_occurrences (v : V) (hv : v.isVar = true) (value : Str) (hlf : '\n' ∉ value) :
    v.couldMatch value = true ↔ Fills v.tokens value := by
  have key := matchToks_iff v.tokens (tokens_isTok v) value hlf
  cases v with
  | lst l => exact key
  | atom k n s l =>
    simp only [V.couldMatch]
    split
    · simp only [true_iff]
      have := Fills.var k n s l value .nil
      simpa [V.tokens] using this
    · exact key
  | _ => simp [V.isVar] at hv

/-- C37 for any value: text with variables could match iff the value, or the value without
a line feed at its end, arises by putting text of a single line in place of each variable. -/
theorem C37_lines (items : List V) (value : Str) :
    (V.lst items).couldMatch value = true ↔
      FillsLine (V.lst items).tokens value ∨ ∃ u, value = u ++ ['\n'] ∧ FillsLine (V.lst items).tokens u :=
  matchToks_line _ (tokens_isTok _) value

/-- C37: whatever the values of the variables, the resulting text could be matched. -/
theorem C37_complete (v : V) (hv : v.isVar = true) (σ : V → Str) (hlf : '\n' ∉ subst σ v) :
    v.couldMatch (subst σ v) = true :=
  (C37_occurrences v hv _ hlf).2 (fills_subst σ v.tokens (tokens_isTok v))

/-- C37, if no variable occurs twice: it could match iff some choice of values makes the
text equal to the value. -/
theorem C37_exact_partial (v : V) (hv : v.isVar = true) (value : Str) (hlf : '\n' ∉ value)
    (hn : (v.tokens.filter V.isVar).Nodup) :
    v.couldMatch value = true ↔ ∃ σ : V → Str, subst σ v = value := by
  constructor
  · intro h
    exact subst_of_fills _ _ ((C37_occurrences v hv value hlf).1 h) hn
  · rintro ⟨σ, rfl⟩
    exact C37_complete v hv σ hlf

/-- `C37_violated`: `${a}-${a}` could match `x-y` according to the code, although no
value of `a` makes them equal. -/
theorem C37_violated : ∃ v : V, v.isVar = true ∧ v.couldMatch (c! "x-y") = true ∧
    ¬ ∃ σ : V → Str, subst σ v = c! "x-y" := by
  refine ⟨.lst [var (c! "a"), .str (c! "-"), var (c! "a")], rfl, by decide, ?_⟩
  rintro ⟨σ, h⟩
  have e : subst σ (.lst [var (c! "a"), .str (c! "-"), var (c! "a")]) =
      σ (var (c! "a")) ++ '-' :: σ (var (c! "a")) := by
    simp [subst, V.tokens, V.tokensAll, var, List.flatMap_cons]
  rw [e] at h
  have hl := congrArg List.length h
  simp at hl
  match hs : σ (var (c! "a")) with
  | [] => simp [hs] at hl
  | [c] =>
    rw [hs] at h
    simp at h
    exact absurd (h.1.symm.trans h.2) (by decide)
  | _ :: _ :: _ => simp [hs] at hl; omega

example : V.couldMatch (.lst [var (c! "n"), .str (c! "23")]) (c! "123") = true ∧
    V.couldMatch (.lst [var (c! "u"), .str (c! "@"), var (c! "d")]) (c! "label") = false := by decide
example : ((V.lst [var (c! "u"), .str (c! "@"), var (c! "d")]).tokens.filter V.isVar).Nodup := by
  decide

/-! ## C38 -/

/-- C38: the balance check passes iff the text is properly nested. -/
theorem C38_balance (v : V) : balanced v.tokens = true ↔ Bal v.tokens :=
  balanced_iff v.tokens (tokens_isTok v)

example : balanced (V.str (c! "f(a[1],\")}\",'\"(')x")).tokens = true := by decide
example : balanced (V.lst [.str (c! "f("), var (c! "x"), .str (c! "]")]).tokens = false := by decide

end ALint.Props
