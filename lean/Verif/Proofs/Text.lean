import Verif.Spec.Text
import Verif.Props.Varfun
import Verif.Props.Var
import Verif.Proofs.DialplanText

namespace ALint
open ALint.Spec ALint.Props
open V (tokens tokensAll truthy isVar)

/-! ## Joining -/

theorem strjoin_cons_str (s : Str) (rest : List V) : strjoin (.str s :: rest) = joinCons (.str s) (strjoin rest) := by
  rw [strjoin]
  unfold joinCons
  split <;> split <;> simp_all

theorem joinCons_joinCons (s t : Str) (l : List V) :
    joinCons (.str s) (joinCons (.str t) l) = joinCons (.str (s ++ t)) l := by
  cases l with
  | nil => rfl
  | cons x xs => cases x <;> simp [joinCons]

theorem strjoin_chars (c : Char) (s : Str) (rest : List V) :
    strjoin ((c :: s).map (fun c => V.str [c]) ++ rest) = joinCons (.str (c :: s)) (strjoin rest) := by
  induction s generalizing c with
  | nil => simpa using strjoin_cons_str [c] rest
  | cons d s ih =>
    rw [List.map_cons, List.cons_append, strjoin_cons_str, ih, joinCons_joinCons]
    rfl

/-- Joining pieces only depends on the tokens. -/
theorem joinItems_strjoin (vs : List V) (h : ∀ v ∈ vs, isPiece v = true) : joinItems vs = strjoin (tokensAll vs) := by
  induction vs with
  | nil => rfl
  | cons v vs ih =>
    have ih := ih (fun u hu => h u (by simp [hu]))
    have hv := h v (by simp)
    cases v with
    | str s =>
      cases s with
      | nil => simpa [joinItems, truthy, tokensAll, tokens] using ih
      | cons c s =>
        have := strjoin_chars c s (tokensAll vs)
        rw [joinItems, if_pos (by simp [truthy]), ih, tokensAll, tokens, this]
    | atom k n s l =>
      rw [joinItems, if_pos (by simp [truthy]), ih, tokensAll, tokens]
      simp [strjoin, joinCons]
    | _ => simp [isPiece] at hv

theorem join_determined {vs ws : List V} (h1 : ∀ v ∈ vs, isPiece v = true) (h2 : ∀ v ∈ ws, isPiece v = true)
    (h : tokensAll vs = tokensAll ws) : join vs = join ws := by
  unfold join
  rw [joinItems_strjoin vs h1, joinItems_strjoin ws h2, h]

theorem joinItems_congr (x : V) {a b : List V} (h : joinItems a = joinItems b) : joinItems (x :: a) = joinItems (x :: b) := by
  simp [joinItems, h]

theorem joinItems_empty (a : List V) : joinItems (.str [] :: a) = joinItems a := by simp [joinItems, truthy]

theorem joinItems_two (s t : Str) (a : List V) : joinItems (.str (s ++ t) :: a) = joinItems (.str s :: .str t :: a) := by
  cases s with
  | nil => rw [joinItems_empty]; rfl
  | cons c s =>
    cases t with
    | nil => rw [List.append_nil]; exact (joinItems_congr _ (joinItems_empty a)).symm
    | cons d t => simp [joinItems, truthy, joinCons_joinCons]

theorem meaning_piece (t : Txt) : ∀ v ∈ t.meaning, isPiece v = true := by
  induction t with
  | nil => simp [Txt.meaning]
  | _ => simp [Txt.meaning, isPiece]; assumption

/-! ## Level text -/

theorem Spec.Level.append {l r : Char} {a b : Str} (ha : Level l r a) (hb : Level l r b) : Level l r (a ++ b) := by
  refine ⟨by simp [ha.1, hb.1], ?_⟩
  rintro p ⟨q, hp⟩
  rcases List.append_eq_append_iff.1 hp with ⟨c, h, _⟩ | ⟨c, h, h'⟩
  · exact ha.2 p ⟨c, h.symm⟩
  · have := hb.2 c ⟨q, h'.symm⟩
    have := ha.1
    rw [h]
    simp; omega

theorem Spec.Level.none {l r : Char} {a : Str} (h1 : l ∉ a) (h2 : r ∉ a) : Level l r a := by
  refine ⟨by rw [List.count_eq_zero.2 h1, List.count_eq_zero.2 h2], ?_⟩
  intro p hp
  rw [List.count_eq_zero.2 fun h => h2 (hp.subset h)]
  omega

theorem Spec.Level.wrap {l r : Char} (hne : l ≠ r) {a : Str} (h : Level l r a) : Level l r (l :: (a ++ [r])) := by
  refine ⟨by simp [List.count_append, h.1, hne, hne.symm], ?_⟩
  intro p hp
  cases p with
  | nil => simp
  | cons x p =>
    obtain ⟨rfl, hp2⟩ := List.cons_prefix_cons.1 hp
    obtain ⟨q, hq⟩ := hp2
    rcases List.append_eq_append_iff.1 hq with ⟨c, h', _⟩ | ⟨c, h', h2⟩
    · have := h.2 p ⟨c, h'.symm⟩
      simp [hne]; omega
    · have : c.count r ≤ 1 := by
        have := List.Sublist.count_le r (List.prefix_append c q).sublist
        rw [← h2] at this
        simpa using this
      have := h.1
      rw [h']
      simp [hne]; omega

theorem Spec.Level.encloses {l r : Char} {a : Str} (h : Level l r a) (tail : Str) : Encloses l r (a ++ r :: tail) a tail :=
  ⟨rfl, h.1, h.2⟩

theorem legal_free {n : Str} (h : legalName n = true) {c : Char} (hc : (c.isAlphanum || c == '_') = false) : c ∉ n := by
  intro hm
  have := List.all_eq_true.1 h c hm
  simp_all

theorem numeral_free {s : Str} (h : IsNumeral s) {c : Char} (h1 : c.isDigit = false) (h2 : c ≠ '-') : c ∉ s := by
  obtain ⟨t, hs, _, ht⟩ := h
  intro hm
  have : c ∈ t := by
    rcases hs with rfl | rfl
    · exact hm
    · simpa [h2] using hm
  simp [ht c this] at h1

/-- The text in the braces of a substring. -/
def subText (n s : Str) (l : Option Str) : Str := n ++ ':' :: (s ++ lengthText l)

theorem subText_free {n s : Str} {l : Option Str} (hn : legalName n = true) (hs : IsNumeral s)
    (hl : ∀ x, l = some x → IsNumeral x) {c : Char} (h1 : (c.isAlphanum || c == '_') = false) (h2 : c.isDigit = false)
    (h3 : c ≠ '-') (h4 : c ≠ ':') : c ∉ subText n s l := by
  unfold subText
  simp only [List.mem_append, List.mem_cons, not_or]
  refine ⟨legal_free hn h1, h4, numeral_free hs h2 h3, ?_⟩
  cases l with
  | none => simp [lengthText]
  | some x => simp [lengthText, h4, numeral_free (hl x rfl) h2 h3]

/-- Text inside a substitution is level. -/
theorem level_write (env : FEnv) (t : Txt) (h : GoodTxt env true t) : Level '{' '}' t.write ∧ Level '[' ']' t.write := by
  induction t with
  | nil => exact ⟨.none (by simp [Txt.write]) (by simp [Txt.write]), .none (by simp [Txt.write]) (by simp [Txt.write])⟩
  | text s r ih =>
    obtain ⟨_, h2, h3⟩ := h
    exact ⟨(h2 rfl).1.append (ih h3).1, (h2 rfl).2.append (ih h3).2⟩
  | var n r ih =>
    obtain ⟨⟨_, hn⟩, h3⟩ := h
    have e : (Txt.var n r).write = ['$'] ++ (('{' :: (n ++ ['}'])) ++ r.write) := by simp [Txt.write]
    rw [e]
    refine ⟨.append (.none (by decide) (by decide)) (.append (.wrap (by decide) (.none (legal_free hn (by decide)) (legal_free hn (by decide)))) (ih h3).1),
      .append (.none (by decide) (by decide)) (.append (.none ?_ ?_) (ih h3).2)⟩
    · simp [legal_free hn (c := '[') (by decide)]
    · simp [legal_free hn (c := ']') (by decide)]
  | sub n s l r ih =>
    obtain ⟨⟨_, hn⟩, hs, hl, _, h3⟩ := h
    have e : (Txt.sub n s l r).write = ['$'] ++ (('{' :: (subText n s l ++ ['}'])) ++ r.write) := by
      simp [Txt.write, subText]
    have hf {c : Char} (h1 : (c.isAlphanum || c == '_') = false) (h2 : c.isDigit = false) (h3 : c ≠ '-') (h4 : c ≠ ':') :=
      subText_free hn hs (fun x hx => (hl x hx).1) h1 h2 h3 h4
    rw [e]
    refine ⟨.append (.none (by decide) (by decide)) (.append (.wrap (by decide) (.none (hf (by decide) (by decide) (by decide) (by decide))
      (hf (by decide) (by decide) (by decide) (by decide)))) (ih h3).1),
      .append (.none (by decide) (by decide)) (.append (.none ?_ ?_) (ih h3).2)⟩
    · simp [hf (c := '[') (by decide) (by decide) (by decide) (by decide)]
    · simp [hf (c := ']') (by decide) (by decide) (by decide) (by decide)]
  | call f a r iha ih =>
    obtain ⟨⟨_, hn⟩, _, _, ha, h3⟩ := h
    have e : (Txt.call f a r).write = ['$'] ++ (('{' :: (((f ++ ['(']) ++ (a.write ++ [')'])) ++ ['}'])) ++ r.write) := by simp [Txt.write]
    have e2 : (Txt.call f a r).write = (('$' :: '{' :: (f ++ ['('])) ++ (a.write ++ [')', '}'])) ++ r.write := by simp [Txt.write]
    constructor
    · rw [e]
      refine .append (.none (by decide) (by decide)) (.append (.wrap (by decide) (.append (.none ?_ ?_)
        (.append (iha ha).1 (.none (by decide) (by decide))))) (ih h3).1)
      · simp [legal_free hn (c := '{') (by decide)]
      · simp [legal_free hn (c := '}') (by decide)]
    · rw [e2]
      refine .append (.append (.none ?_ ?_) (.append (iha ha).2 (.none (by decide) (by decide)))) (ih h3).2
      · simp [legal_free hn (c := '[') (by decide)]
      · simp [legal_free hn (c := ']') (by decide)]
  | expr e r ihe ih =>
    obtain ⟨he, h3⟩ := h
    have e1 : (Txt.expr e r).write = ['$'] ++ (('[' :: (e.write ++ [']'])) ++ r.write) := by simp [Txt.write]
    have e2 : (Txt.expr e r).write = (['$', '['] ++ (e.write ++ [']'])) ++ r.write := by simp [Txt.write]
    constructor
    · rw [e2]
      exact .append (.append (.none (by decide) (by decide)) (.append (ihe he).1 (.none (by decide) (by decide)))) (ih h3).1
    · rw [e1]
      exact .append (.none (by decide) (by decide)) (.append (.wrap (by decide) (ihe he).2) (ih h3).2)

/-! ## Substitutions one by one -/

theorem noDollar {s : Str} (h : '$' ∉ s) : ¬ HasSubst s := by
  rintro (h' | h') <;> exact h (h'.subset (by simp))

theorem hasTok_str (c : Char) (s : Str) : (V.str s).hasTok c = true ↔ c ∈ s := by
  simp only [V.hasTok, V.tokens, List.any_map, List.any_eq_true, Function.comp_def]
  simp

theorem hasTok_str_false {c : Char} {s : Str} (h : c ∉ s) : (V.str s).hasTok c = false := by
  rw [Bool.eq_false_iff, ne_eq, hasTok_str]; exact h

theorem countVar_legal {n : Str} (h : legalName n = true) (w : Where) : countVar w n = ⟨[.var n w], .ok ()⟩ := by
  have : n.all legalVarChar = true := by rw [legal_iff]; exact h
  simp [countVar, this, Tr.bind, Tr.pure, Tr.note]

theorem processVariable_name (env : FEnv) (w : Where) {n : Str} (h : legalName n = true) :
    processVariable env w (.str n) = ⟨[.var n w], .ok (.atom .var (.str n) .none .none)⟩ := by
  unfold processVariable
  rw [if_neg (by rw [hasTok_str_false (legal_free h (by decide))]; simp),
    if_neg (by rw [hasTok_str_false (legal_free h (by decide))]; simp)]
  simp [countUnlessVar, isVar, countArg, countVar_legal h, Tr.bind, Tr.pure]

theorem splitN_none_free {c : Char} {a : Str} (h : c ∉ a) : splitN c none a = [a] := by
  induction a with
  | nil => rfl
  | cons x xs ih =>
    simp only [List.mem_cons, not_or] at h
    simp only [splitN, ih h.2]
    rw [if_neg (fun e => h.1 e.symm)]

theorem splitN_none_cons {c : Char} {a : Str} (h : c ∉ a) (b : Str) :
    splitN c none (a ++ c :: b) = a :: splitN c none b := by
  induction a with
  | nil => simp [splitN]
  | cons x xs ih =>
    simp only [List.mem_cons, not_or] at h
    simp only [List.cons_append, splitN, ih h.2]
    rw [if_neg (fun e => h.1 e.symm)]

theorem isDigitS_ascii {t : Str} (h1 : t ≠ []) (h2 : ∀ d ∈ t, d.isDigit = true) : isDigitS t = true := by
  simp only [isDigitS, Bool.and_eq_true, List.all_eq_true]
  refine ⟨by cases t <;> simp at h1 ⊢, fun d h => ?_⟩
  simp [isDigitC, decVal_ascii (h2 d h)]

theorem numeral_reads {s : Str} (h : IsNumeral s) : looksInt s = true ∧ pyInt s = .ok (numeral s) := by
  obtain ⟨t, hs, h1, h2⟩ := h
  have hd := isDigitS_ascii h1 h2
  have hv := decNat_decimal t h2 0
  rcases hs with rfl | rfl
  · cases s with
    | nil => exact absurd rfl h1
    | cons c s =>
      have hc : c ≠ '-' := by rintro rfl; have := h2 '-' (by simp); simp [Char.isDigit] at this
      constructor
      · unfold looksInt; split
        · rename_i h; simp at h; exact absurd h.1 hc
        · exact hd
      · unfold pyInt numeral
        split
        · rename_i h; simp at h; exact absurd h.1 hc
        · simp only [hv]
          rfl
  · exact ⟨hd, by simp [pyInt, hv, numeral, decimal]⟩

theorem processVariable_sub (env : FEnv) (w : Where) {n s : Str} {l : Option Str} (hn : legalName n = true)
    (hs : IsNumeral s) (hl : ∀ x, l = some x → IsNumeral x ∧ numeral x ≠ 0 ∧ (numeral s < 0 → numeral s + numeral x < 0))
    (hz : numeral s = 0 → l ≠ none) :
    processVariable env w (.str (subText n s l)) = ⟨[.var n w], .ok (.atom .slice (.str n) (.int (numeral s)) (numeralV l))⟩ := by
  obtain ⟨len, hlen⟩ : ∃ len, len = numeralV l := ⟨_, rfl⟩
  rw [← hlen]
  have hp : (V.str (subText n s l)).hasTok '(' = false := hasTok_str_false
    (subText_free hn hs (fun x hx => (hl x hx).1) (by decide) (by decide) (by decide) (by decide))
  have hc : (V.str (subText n s l)).hasTok ':' = true := (hasTok_str _ _).2 (by simp [subText])
  have hg : GoodSlice (.int (numeral s)) len := by
    refine ⟨.inl ⟨_, rfl⟩, ?_, ?_⟩
    · cases l with
      | none => exact .inl hlen
      | some x =>
        obtain ⟨_, h2, h3⟩ := hl x rfl
        exact .inr (.inr ⟨_, _, rfl, hlen, h2, h3⟩)
    · intro h
      cases l with
      | none => simp at h; exact absurd rfl (hz h)
      | some x => rw [hlen]; simp [numeralV]
  have hm {x : Str} (h : IsNumeral x) : Means (.str x) (.int (numeral x)) :=
    .inr ⟨x, _, rfl, rfl, (numeral_reads h).1, (numeral_reads h).2⟩
  have hcn : ':' ∉ n := legal_free hn (by decide)
  have hcs : ':' ∉ s := numeral_free hs (by decide) (by decide)
  have hsplit : ∃ parts, (V.str (subText n s l)).split ':' none = .ok parts ∧
      LegalSlice parts (.str n) (.int (numeral s)) len := by
    cases l with
    | none =>
      refine ⟨[.str n, .str s], ?_, hg, .inl ⟨.str s, rfl, hm hs, hlen⟩⟩
      simp [V.split, subText, lengthText, splitN_none_cons hcn, splitN_none_free hcs]
    | some x =>
      refine ⟨[.str n, .str s, .str x], ?_, hg, .inr ⟨.str s, .str x, rfl, hm hs, by rw [hlen]; exact hm (hl x rfl).1⟩⟩
      simp [V.split, subText, lengthText, splitN_none_cons hcn, splitN_none_cons hcs,
        splitN_none_free (numeral_free (c := ':') (hl x rfl).1 (by decide) (by decide))]
  obtain ⟨parts, h1, h2⟩ := hsplit
  have hi : sliceInit (.int (numeral s)) len = .ok () := by
    cases l with
    | none => rw [hlen]; rfl
    | some x =>
      obtain ⟨_, h2, h3⟩ := hl x rfl
      rw [hlen]
      simp only [sliceInit, numeralV]
      rw [if_neg h2]
      split
      · rfl
      · split
        · rename_i h; rw [if_pos (h3 h)]
        · rfl
  have hv : len.isVar = false := by rw [hlen]; cases l <;> rfl
  unfold processVariable
  rw [if_neg (by rw [hp]; simp), if_pos hc, processSlice, C36_legal w _ rfl parts h1 _ _ _ h2, Tr.pure_bind]
  simp only [hv, show isVar (.int (numeral s)) = false from rfl, countUnlessVar, show isVar (.str n) = false from rfl]
  simp [ countArg, countVar_legal hn, hi, Tr.bind, Tr.pure, Tr.lift]

/-! ## Function calls -/

theorem text_chars (s : Str) : (V.str s).tokens = s.map fun c => V.str [c] := rfl

theorem findIdx_chars {f : Str} (h : '(' ∉ f) (rest : List V) :
    firstParen ((f.map fun c => V.str [c]) ++ V.str ['('] :: rest) = f.length := by
  unfold firstParen
  induction f with
  | nil => simp [List.findIdx_cons]
  | cons c f ih =>
    simp only [List.mem_cons, not_or] at h
    have hc : ((V.str [c]) == V.str ['(']) = false := by
      rw [beq_eq_false_iff_ne]; intro e; simp at e; exact h.1 e.symm
    simp only [List.map_cons, List.cons_append, List.findIdx_cons]
    have hc' : ((V.str [c]) == V.str (c! "(")) = false := hc
    rw [hc']
    simp [ih h.2]

theorem lastParen_snoc (ts : List V) (i : Nat) (h : i < ts.length) :
    lastParen (ts ++ [V.str [')']]) i = some ts.length := by
  unfold lastParen
  have : (ts ++ [V.str [')']]).reverse.findIdx (· == V.str (c! ")")) = 0 := by
    simp [List.findIdx_cons]
  simp only [this]
  simp
  exact h

/-- A slice that is a text. -/
theorem getSlice_chars {v : V} {i j : Nat} {s : Str} (hs : s ≠ [])
    (h : (v.tokens.drop i).take (j - i) = s.map fun c => V.str [c]) : v.getSlice i j = .one (.str s) := by
  have key : strjoin ((v.tokens.drop i).take (j - i)) = [.str s] := by
    rw [h]
    cases s with
    | nil => exact absurd rfl hs
    | cons c s => simpa [strjoin, joinCons] using strjoin_chars c s []
  cases v with
  | str x =>
    simp only [V.getSlice]
    rw [text_chars, ← List.map_drop, ← List.map_take] at h
    rw [List.map_inj_right (by intro a b e; simpa using e)] at h
    rw [h]
  | _ => unfold V.getSlice; simp only [key]

theorem readFunction_call {env : FEnv} (w : Where) {f m : Str} {args data : V} (hf : IsName f)
    (hfi : env.funcs (env.lower f) = some ⟨f, m, .plain⟩) (hb : Bal args.tokens)
    (hargs : ∃ vs, (∀ v ∈ vs, isPiece v = true) ∧ args = join vs)
    (hd : data.tokens = (f.map fun c => V.str [c]) ++ V.str ['('] :: (args.tokens ++ [V.str [')']])) :
    processVariable env w data = ⟨[.func (env.lower f)],
      .ok (.atom .func (join [.str f, .str (c! "("), args, .str (c! ")")]) .none .none)⟩ := by
  obtain ⟨hne, hl⟩ := hf
  have hp : '(' ∉ f := legal_free hl (by decide)
  have hhas : data.hasTok '(' = true := by simp [V.hasTok, hd]
  have hfirst : firstParen data.tokens = f.length := by rw [hd, findIdx_chars hp]
  have hlen : data.tokens.length = f.length + 1 + args.tokens.length + 1 := by rw [hd]; simp; try omega
  have hlast : lastParen data.tokens f.length = some (f.length + 1 + args.tokens.length) := by
    have : data.tokens = ((f.map fun c => V.str [c]) ++ V.str ['('] :: args.tokens) ++ [V.str [')']] := by rw [hd]; simp
    rw [this, lastParen_snoc _ _ (by simp)]
    simp; omega
  have hfun : data.getSlice 0 f.length = .one (.str f) := by
    apply getSlice_chars hne
    rw [hd]
    simp
  have hmid : join (data.getSlice (f.length + 1) (f.length + 1 + args.tokens.length)).iter = args := by
    obtain ⟨vs, hvs, rfl⟩ := hargs
    refine join_determined (getSlice_iter_piece _ _ _) hvs ?_
    rw [getSlice_tokens, hd, join_tokens _ fun v hv => isPiece_text (hvs v hv)]
    have e : (f.map (fun c => V.str [c]) ++ V.str ['('] :: (tokensAll vs ++ [V.str [')']])) =
      (f.map (fun c => V.str [c]) ++ [V.str ['(']]) ++ (tokensAll vs ++ [V.str [')']]) := by simp
    rw [e, List.drop_append_of_le_length (by simp), List.drop_eq_nil_of_le (by simp), List.nil_append,
      show f.length + 1 + (tokensAll vs).length - (f.length + 1) = (tokensAll vs).length by omega]
    simp
  have htail : join (data.getSlice (f.length + 1 + args.tokens.length + 1) data.tokens.length).iter = .str [] := by
    refine join_determined (ws := []) (getSlice_iter_piece _ _ _) (by simp) ?_
    rw [getSlice_tokens, List.drop_eq_nil_of_le (by omega)]
    simp [tokensAll]
  have hbal : balanced args.tokens = true := (C38_balance args).2 hb
  unfold processVariable
  rw [if_pos hhas]
  unfold readFunction
  simp only [hfirst, hfun, funcArgs, hlast, hmid, htail]
  have ht : (Arg.one (V.str f)).truthy = true := by cases f <;> simp [Arg.truthy, truthy] at hne ⊢
  simp [ht, funcTail, truthy, getFunc, hfi, callFuncTop, callFunc, funcBalance, Arg.iter, hbal, mkReadFunc, funcName,
    Tr.bind, Tr.pure, Tr.note, Tr.lift]

/-! ## The whole text -/

theorem parse_of_items {env : FEnv} {w : Where} {s : Str} {ev : List Ev} {l m : List V}
    (h : items env w s = ⟨ev, .ok l⟩) (hj : joinItems l = joinItems m) :
    parseVariables env w s = ⟨ev, .ok (join m)⟩ := by
  rw [parseVariables_eq, h]
  simp [Tr.bind, Tr.pure, join, hj]

theorem items_good (env : FEnv) (w : Where) (i : Bool) (t : Txt) (hg : GoodTxt env i t) (pre post : Str)
    (h1 : '$' ∉ pre) (h2 : '$' ∉ post) :
    ∃ l, items env w (pre ++ (t.write ++ post)) = ⟨t.used env w, .ok l⟩ ∧
      joinItems l = joinItems (.str pre :: (t.meaning ++ [.str post])) := by
  induction t generalizing i pre post with
  | nil =>
    refine ⟨[.str (pre ++ post)], ?_, ?_⟩
    · rw [Txt.write, List.nil_append, items_none ((findSubst_none _).2 (noDollar (by simp [h1, h2])))]
      rfl
    · rw [joinItems_two]; rfl
  | text s r ih =>
    obtain ⟨hs, _, hr⟩ := hg
    obtain ⟨l, e1, e2⟩ := ih i hr (pre ++ s) post (by simp [h1, hs]) h2
    refine ⟨l, by rw [← List.append_assoc] at e1; simpa [Txt.write, Txt.used] using e1, ?_⟩
    rw [e2, joinItems_two]; rfl
  | var n r ih =>
    obtain ⟨⟨hne, hn⟩, hr⟩ := hg
    obtain ⟨l, e1, e2⟩ := ih i hr [] post (by simp) h2
    refine ⟨.str pre :: .atom .var (.str n) .none .none :: l, ?_, ?_⟩
    · have := C32_curly env w pre _ n (r.write ++ post) (noDollar h1)
        (Spec.Level.encloses (.none (legal_free hn (by decide)) (legal_free hn (by decide))) _)
      rw [C32_plain env w n (noDollar (legal_free hn (by decide))), Tr.pure_bind, processVariable_name env w hn] at this
      rw [List.nil_append] at e1
      rw [e1] at this
      simpa [Txt.write, Txt.used, Tr.bind, Tr.pure] using this
    · rw [joinItems_empty] at e2
      exact joinItems_congr _ (joinItems_congr _ e2)
  | sub n s l r ih =>
    obtain ⟨⟨hne, hn⟩, hs, hl, hz, hr⟩ := hg
    obtain ⟨l', e1, e2⟩ := ih i hr [] post (by simp) h2
    have hf {c : Char} (h1 : (c.isAlphanum || c == '_') = false) (h2 : c.isDigit = false) (h3 : c ≠ '-') (h4 : c ≠ ':') :=
      subText_free hn hs (fun x hx => (hl x hx).1) h1 h2 h3 h4
    refine ⟨.str pre :: .atom .slice (.str n) (.int (numeral s)) (numeralV l) :: l', ?_, ?_⟩
    · have := C32_curly env w pre _ (subText n s l) (r.write ++ post) (noDollar h1)
        (Spec.Level.encloses (.none (hf (by decide) (by decide) (by decide) (by decide))
          (hf (by decide) (by decide) (by decide) (by decide))) _)
      rw [C32_plain env w _ (noDollar (hf (by decide) (by decide) (by decide) (by decide))), Tr.pure_bind,
        processVariable_sub env w hn hs hl hz] at this
      rw [List.nil_append] at e1
      rw [e1] at this
      simpa [Txt.write, Txt.used, subText, Tr.bind, Tr.pure] using this
    · rw [joinItems_empty] at e2
      exact joinItems_congr _ (joinItems_congr _ e2)
  | call f a r iha ih =>
    obtain ⟨⟨hne, hn⟩, ⟨m, hm⟩, hb, ha, hr⟩ := hg
    obtain ⟨l, e1, e2⟩ := ih i hr [] post (by simp) h2
    have hd : '$' ∉ f ++ ['('] := by simp [legal_free hn (c := '$') (by decide)]
    obtain ⟨la, a1, a2⟩ := iha true ha (f ++ ['(']) [')'] hd (by decide)
    have hpieces : ∀ v ∈ (V.str (f ++ ['(']) :: (a.meaning ++ [V.str [')']])), isPiece v = true := by
      intro v hv
      simp only [List.mem_cons, List.mem_append, List.not_mem_nil, or_false] at hv
      rcases hv with rfl | hv | rfl
      · rfl
      · exact meaning_piece a v hv
      · rfl
    have hcall := readFunction_call (env := env) w (args := join a.meaning)
      (data := join (V.str (f ++ ['(']) :: (a.meaning ++ [V.str [')']]))) ⟨hne, hn⟩ hm hb
      ⟨_, meaning_piece a, rfl⟩ (by
        rw [join_tokens _ fun v hv => isPiece_text (hpieces v hv),
          join_tokens _ fun v hv => isPiece_text (meaning_piece a v hv)]
        simp [tokensAll, tokensAll_append, tokens])
    refine ⟨.str pre :: .atom .func (join [.str f, .str (c! "("), join a.meaning, .str (c! ")")]) .none .none :: l, ?_, ?_⟩
    · have hlev : Level '{' '}' ((f ++ ['(']) ++ (a.write ++ [')'])) :=
        .append (.none (by simp [legal_free hn (c := '{') (by decide)]) (by simp [legal_free hn (c := '}') (by decide)]))
          (.append (level_write env a ha).1 (.none (by decide) (by decide)))
      have := C32_curly env w pre _ _ (r.write ++ post) (noDollar h1) (hlev.encloses _)
      rw [parse_of_items a1 a2] at this
      rw [List.nil_append] at e1
      simp only [e1] at this
      rw [show ∀ x : V, Tr.bind (⟨a.used env w, .ok x⟩ : Tr V) = fun f => ⟨a.used env w ++ (f x).ev, (f x).val⟩ from
        fun x => by funext f; simp [Tr.bind]] at this
      simp only [hcall] at this
      simpa [Txt.write, Txt.used, Tr.bind, Tr.pure] using this
    · rw [joinItems_empty] at e2
      exact joinItems_congr _ (joinItems_congr _ e2)
  | expr e r ihe ih =>
    obtain ⟨he, hr⟩ := hg
    obtain ⟨l, e1, e2⟩ := ih i hr [] post (by simp) h2
    obtain ⟨le, a1, a2⟩ := ihe true he [] [] (by simp) (by simp)
    have a2 : joinItems le = joinItems e.meaning := by
      rw [a2, joinItems_empty, ← List.nil_append [V.str []]]
      have key : ∀ l : List V, joinItems (l ++ [V.str []]) = joinItems l := by
        intro l
        induction l with
        | nil => rfl
        | cons x xs ih => exact joinItems_congr x ih
      simpa using key e.meaning
    refine ⟨.str pre :: .atom .expr (join e.meaning) .none .none :: l, ?_, ?_⟩
    · have := C32_square env w pre _ e.write (r.write ++ post) (noDollar h1) ((level_write env e he).2.encloses _)
      rw [List.nil_append, List.append_nil] at a1
      rw [parse_of_items a1 a2] at this
      rw [List.nil_append] at e1
      simp only [e1] at this
      simpa [Txt.write, Txt.used, Tr.bind, Tr.pure] using this
    · rw [joinItems_empty] at e2
      exact joinItems_congr _ (joinItems_congr _ e2)

end ALint

namespace ALint
open ALint.Spec ALint.Props
open V (tokens tokensAll truthy isVar)

/-! ## Arguments as values -/

theorem join_single {v : V} (h : isPiece v = true) : join [v] = v := by
  cases v with
  | str s => cases s <;> rfl
  | atom => rfl
  | _ => simp [isPiece] at h

theorem squash_eq_join (g : List V) (h : ∀ v ∈ g, isPiece v = true) : squash g = join g := by
  have e : join (strjoin g) = join g := join_determined (strjoin_piece g h) h (strjoin_tokens g)
  unfold squash
  split
  · rename_i v hv
    rw [hv] at e
    rw [← e, join_single (strjoin_piece g h v (by simp [hv]))]
  · exact e

/-- Separating arguments only depends on the tokens. -/
theorem separateArgs_join (d : Char) (rm : Bool) (v : V) :
    separateArgs d rm (.one v) = (sepT d rm .init v.tokens).map join := by
  have hp := sepLoop_all d rm (.one v) (fun u => isPiece u = true) (fun i j => getSlice_iter_piece v i j)
    0 v.tokens .init 0 [] (by simp)
  have ht := sepLoop_tokens d rm v 0 v.tokens .init 0 [] (by omega) rfl
  simp only [V.tokensAll, List.nil_append, Nat.sub_self, List.take_zero, prefixHead_nil] at ht
  rw [← ht, separateArgs, List.map_map]
  apply List.map_congr_left
  intro g hg
  have hg' := hp g hg
  rw [squash_eq_join g hg']
  refine join_determined hg' ?_ ?_
  · exact fun t ht => isTok_piece (tokensAll_isTok g t ht)
  · rw [tokensAll_toks _ (tokensAll_isTok g)]

/-- Tokens without meaning for the separation of arguments. -/
def PlainTok (d : Char) (t : V) : Prop := ∀ c, t = .str [c] → c ∉ sepSpecial ∧ c ≠ d

theorem sepStep_plain {d : Char} {rm : Bool} {t : V} (h : PlainTok d t) : sepStep d rm .init t = (.init, .keep) := by
  cases t with
  | str s =>
    have key : ∀ c, c ∈ sepSpecial ∨ c = d → s ≠ [c] := by
      rintro c hc rfl
      rcases hc with hc | rfl
      · exact (h c rfl).1 hc
      · exact (h c rfl).2 rfl
    have e : ∀ c, c ∈ sepSpecial ∨ c = d → (s = [c]) = False := fun c hc => by simp [key c hc]
    simp only [sepStep, SepSt.init, e '[' (by simp [sepSpecial]), e ']' (by simp [sepSpecial]), e '(' (by simp [sepSpecial]),
      e ')' (by simp [sepSpecial]), e '"' (by simp [sepSpecial]), e '\\' (by simp [sepSpecial]), e d (by simp)]
    simp
  | _ => rfl

theorem sepT_one {d : Char} {rm : Bool} {ts : List V} (h : ∀ t ∈ ts, PlainTok d t) : sepT d rm .init ts = [ts] := by
  induction ts with
  | nil => rfl
  | cons t ts ih =>
    have := ih fun t ht => h t (by simp [ht])
    simp only [sepT, sepStep_plain (h t (by simp)), this, consHead]

theorem sepT_more {d : Char} (hd : d ∉ sepSpecial) {rm : Bool} {ts : List V} (h : ∀ t ∈ ts, PlainTok d t) (rest : List V) :
    sepT d rm .init (ts ++ .str [d] :: rest) = ts :: sepT d rm .init rest := by
  induction ts with
  | nil =>
    have hs : sepStep d rm .init (.str [d]) = (.init, .split) := by
      have e : ∀ c, c ∈ sepSpecial → d ≠ c := by rintro c hc rfl; exact hd hc
      simp [sepStep, SepSt.init, e '[' (by decide), e ']' (by decide), e '(' (by decide),
        e ')' (by decide), e '"' (by decide), e '\\' (by decide)]
    simp only [List.nil_append, sepT, hs]
  | cons t ts ih =>
    have := ih fun t ht => h t (by simp [ht])
    simp only [List.cons_append, sepT, sepStep_plain (h t (by simp)), this, consHead]

theorem sepT_plain {d : Char} (hd : d ∉ sepSpecial) {rm : Bool} : ∀ {parts : List (List V)}, parts ≠ [] →
    (∀ p ∈ parts, ∀ t ∈ p, PlainTok d t) → sepT d rm .init (sepBy (.str [d]) parts) = parts
  | [], h, _ => absurd rfl h
  | [p], _, h => by simpa [sepBy] using sepT_one (h p (by simp))
  | p :: q :: rest, _, h => by
    rw [sepBy, sepT_more hd (h p (by simp)), sepT_plain hd (by simp) fun p hp => h p (by simp [hp])]

end ALint
