import Verif.Proofs.Assign

/-!
# Texts with variables and function calls
-/

namespace ALint
open ALint.Spec

/-- Issuing a message exactly if the condition holds. -/
theorem exactly_emit {p : Prop} {b : Bool} (hb : b = true ↔ p) {m : Msg} {evs : List Ev} (h : Exactly p m evs)
    (hr : p → ∃ r, m.render = .ok r) : (if b = true then Tr.emit m else .pure ()) = ⟨evs, .ok ()⟩ := by
  rcases h with ⟨hp, rfl⟩ | ⟨hp, rfl⟩
  · obtain ⟨r, hr⟩ := hr hp
    rw [if_pos (hb.2 hp)]
    simp [Tr.emit, hr, Except.map]
  · rw [if_neg (fun h => hp (hb.1 h))]
    rfl

theorem bind_done {ev ev' : List Ev} {f : Unit → Tr Unit} (h : f () = ⟨ev', .ok ()⟩) :
    Tr.bind (⟨ev, .ok ()⟩ : Tr Unit) f = ⟨ev ++ ev', .ok ()⟩ := by
  simp [Tr.bind, h]

variable {env : FEnv} {w : Where}

/-! ## Whole texts -/

open ALint.Props
open V (tokens tokensAll truthy isVar)

theorem level_says {i : Bool} {t : Txt} {evs : List Ev} (h : TextSays env w i t evs) :
    i = true → Level '{' '}' t.write ∧ Level '[' ']' t.write := by
  induction h with
  | nil => exact fun _ => ⟨.none (by simp [Txt.write]) (by simp [Txt.write]), .none (by simp [Txt.write]) (by simp [Txt.write])⟩
  | text _ h2 _ ih => exact fun hi => ⟨(h2 hi).1.append (ih hi).1, (h2 hi).2.append (ih hi).2⟩
  | @var i n r tok e' hn _ _ ih =>
    intro hi
    have e : (Txt.var n r).write = ['$'] ++ (('{' :: (n ++ ['}'])) ++ r.write) := by simp [Txt.write]
    rw [e]
    refine ⟨.append (.none (by decide) (by decide)) (.append (.wrap (by decide) (.none (hn _ (by decide)) (hn _ (by decide)))) (ih hi).1),
      .append (.none (by decide) (by decide)) (.append (.none ?_ ?_) (ih hi).2)⟩
    · simp [hn '[' (by decide)]
    · simp [hn ']' (by decide)]
  | @sub i n s l r e' hn hs hl _ _ ih =>
    intro hi
    obtain ⟨_, hn⟩ := hn
    have e : (Txt.sub n s l r).write = ['$'] ++ (('{' :: (subText n s l ++ ['}'])) ++ r.write) := by
      simp [Txt.write, subText]
    have hf {c : Char} (h1 : (c.isAlphanum || c == '_') = false) (h2 : c.isDigit = false) (h3 : c ≠ '-') (h4 : c ≠ ':') :=
      subText_free hn hs (fun x hx => (hl x hx).1) h1 h2 h3 h4
    rw [e]
    refine ⟨.append (.none (by decide) (by decide)) (.append (.wrap (by decide) (.none (hf (by decide) (by decide) (by decide) (by decide))
      (hf (by decide) (by decide) (by decide) (by decide)))) (ih hi).1),
      .append (.none (by decide) (by decide)) (.append (.none ?_ ?_) (ih hi).2)⟩
    · simp [hf (c := '[') (by decide) (by decide) (by decide) (by decide)]
    · simp [hf (c := ']') (by decide) (by decide) (by decide) (by decide)]
  | @call i f a r fi ea look call e' _ hn _ _ _ _ iha ih =>
    intro hi
    have e : (Txt.call f a r).write = ['$'] ++ (('{' :: (((f ++ ['(']) ++ (a.write ++ [')'])) ++ ['}'])) ++ r.write) := by simp [Txt.write]
    have e2 : (Txt.call f a r).write = (('$' :: '{' :: (f ++ ['('])) ++ (a.write ++ [')', '}'])) ++ r.write := by simp [Txt.write]
    constructor
    · rw [e]
      refine .append (.none (by decide) (by decide)) (.append (.wrap (by decide) (.append (.none ?_ ?_)
        (.append (iha rfl).1 (.none (by decide) (by decide))))) (ih hi).1)
      · simp [hn '{' (by decide)]
      · simp [hn '}' (by decide)]
    · rw [e2]
      refine .append (.append (.none ?_ ?_) (.append (iha rfl).2 (.none (by decide) (by decide)))) (ih hi).2
      · simp [hn '[' (by decide)]
      · simp [hn ']' (by decide)]
  | @expr i x r ex e' _ _ ihx ih =>
    intro hi
    have e1 : (Txt.expr x r).write = ['$'] ++ (('[' :: (x.write ++ [']'])) ++ r.write) := by simp [Txt.write]
    have e2 : (Txt.expr x r).write = (['$', '['] ++ (x.write ++ [']'])) ++ r.write := by simp [Txt.write]
    constructor
    · rw [e2]
      exact .append (.append (.none (by decide) (by decide)) (.append (ihx rfl).1 (.none (by decide) (by decide)))) (ih hi).1
    · rw [e1]
      exact .append (.none (by decide) (by decide)) (.append (.wrap (by decide) (ihx rfl).2) (ih hi).2)

theorem processVariable_says {n : Str} (hn : PlainName n) {use : List Ev} (h : NameCounts w n use) :
    processVariable env w (.str n) = ⟨use, .ok (.atom .var (.str n) .none .none)⟩ := by
  unfold processVariable
  rw [if_neg (by rw [hasTok_str_false (hn _ (by decide))]; simp),
    if_neg (by rw [hasTok_str_false (hn _ (by decide))]; simp)]
  have : countUnlessVar w (.str n) = ⟨use, .ok ()⟩ := countVar_iff.2 h
  rw [this]
  simp [Tr.bind, Tr.pure]

theorem readFunction_says {f : Str} {fi : FuncInfo} {look call : List Ev} {args data : V} (hne : f ≠ []) (hp : '(' ∉ f)
    (hlook : LooksUp env w f fi look) (hcall : FuncSays env w fi (.one args) call) (hargs : Normal args)
    (hd : data.tokens = (f.map fun c => V.str [c]) ++ V.str ['('] :: (args.tokens ++ [V.str [')']])) :
    processVariable env w data = ⟨look ++ call,
      .ok (.atom .func (join [.str f, .str (c! "("), args, .str (c! ")")]) .none .none)⟩ := by
  have hhas : data.hasTok '(' = true := by simp [V.hasTok, hd]
  have hfirst : firstParen data.tokens = f.length := by rw [hd, findIdx_chars hp]
  have hlen : data.tokens.length = f.length + 1 + args.tokens.length + 1 := by rw [hd]; simp; try omega
  have hlast : lastParen data.tokens f.length = some (f.length + 1 + args.tokens.length) := by
    have : data.tokens = ((f.map fun c => V.str [c]) ++ V.str ['('] :: args.tokens) ++ [V.str [')']] := by rw [hd]; simp
    rw [this, lastParen_snoc _ _ (by simp)]
    simp; omega
  have hfun : data.getSlice 0 f.length = .one (.str f) := by
    apply getSlice_chars hne
    rw [hd]
    simp
  have hmid : join (data.getSlice (f.length + 1) (f.length + 1 + args.tokens.length)).iter = args := by
    obtain ⟨vs, hvs, rfl⟩ := hargs
    refine join_determined (getSlice_iter_piece _ _ _) hvs ?_
    rw [getSlice_tokens, hd, join_tokens _ fun v hv => isPiece_text (hvs v hv)]
    have e : (f.map (fun c => V.str [c]) ++ V.str ['('] :: (tokensAll vs ++ [V.str [')']])) =
      (f.map (fun c => V.str [c]) ++ [V.str ['(']]) ++ (tokensAll vs ++ [V.str [')']]) := by simp
    rw [e, List.drop_append_of_le_length (by simp), List.drop_eq_nil_of_le (by simp), List.nil_append,
      show f.length + 1 + (tokensAll vs).length - (f.length + 1) = (tokensAll vs).length by omega]
    simp
  have htail : join (data.getSlice (f.length + 1 + args.tokens.length + 1) data.tokens.length).iter = .str [] := by
    refine join_determined (ws := []) (getSlice_iter_piece _ _ _) (by simp) ?_
    rw [getSlice_tokens, List.drop_eq_nil_of_le (by omega)]
    simp [tokensAll]
  unfold processVariable
  rw [if_pos hhas]
  unfold readFunction
  simp only [hfirst, hfun, funcArgs, hlast, hmid, htail]
  have ht : (Arg.one (V.str f)).truthy = true := by cases f <;> simp [Arg.truthy, truthy] at hne ⊢
  simp [ht, funcTail, truthy, getFunc_iff.2 hlook, says_call hcall, mkReadFunc, funcName, Tr.bind, Tr.pure, Tr.lift]

theorem items_says {i : Bool} {t : Txt} {evs : List Ev} (h : TextSays env w i t evs) (pre post : Str)
    (h1 : '$' ∉ pre) (h2 : '$' ∉ post) :
    ∃ l, items env w (pre ++ (t.write ++ post)) = ⟨evs, .ok l⟩ ∧
      joinItems l = joinItems (.str pre :: (t.meaning ++ [.str post])) := by
  induction h generalizing pre post with
  | nil =>
    refine ⟨[.str (pre ++ post)], ?_, ?_⟩
    · rw [Txt.write, List.nil_append, items_none ((findSubst_none _).2 (noDollar (by simp [h1, h2])))]
      rfl
    · rw [joinItems_two]; rfl
  | @text i s r e' hs _ hr ih =>
    obtain ⟨l, e1, e2⟩ := ih (pre ++ s) post (by simp [h1, hs]) h2
    refine ⟨l, by rw [← List.append_assoc] at e1; simpa [Txt.write] using e1, ?_⟩
    rw [e2, joinItems_two]; rfl
  | @var i n r tok e' hn ht hr ih =>
    obtain ⟨l, e1, e2⟩ := ih [] post (by simp) h2
    refine ⟨.str pre :: .atom .var (.str n) .none .none :: l, ?_, ?_⟩
    · have := C32_curly env w pre _ n (r.write ++ post) (noDollar h1)
        (Spec.Level.encloses (.none (hn _ (by decide)) (hn _ (by decide))) _)
      rw [C32_plain env w n (noDollar (hn _ (by decide))), Tr.pure_bind, processVariable_says hn ht] at this
      rw [List.nil_append] at e1
      rw [e1] at this
      simpa [Txt.write, Tr.bind, Tr.pure] using this
    · rw [joinItems_empty] at e2
      exact joinItems_congr _ (joinItems_congr _ e2)
  | @sub i n s l r e' hn hs hl hz hr ih =>
    obtain ⟨hne, hn⟩ := hn
    obtain ⟨l', e1, e2⟩ := ih [] post (by simp) h2
    have hf {c : Char} (h1 : (c.isAlphanum || c == '_') = false) (h2 : c.isDigit = false) (h3 : c ≠ '-') (h4 : c ≠ ':') :=
      subText_free hn hs (fun x hx => (hl x hx).1) h1 h2 h3 h4
    refine ⟨.str pre :: .atom .slice (.str n) (.int (numeral s)) (numeralV l) :: l', ?_, ?_⟩
    · have := C32_curly env w pre _ (subText n s l) (r.write ++ post) (noDollar h1)
        (Spec.Level.encloses (.none (hf (by decide) (by decide) (by decide) (by decide))
          (hf (by decide) (by decide) (by decide) (by decide))) _)
      rw [C32_plain env w _ (noDollar (hf (by decide) (by decide) (by decide) (by decide))), Tr.pure_bind,
        processVariable_sub env w hn hs hl hz] at this
      rw [List.nil_append] at e1
      rw [e1] at this
      simpa [Txt.write, subText, Tr.bind, Tr.pure] using this
    · rw [joinItems_empty] at e2
      exact joinItems_congr _ (joinItems_congr _ e2)
  | @call i f a r fi ea look call e' hne hn ha hlook hcall hr iha ih =>
    obtain ⟨l, e1, e2⟩ := ih [] post (by simp) h2
    have hd : '$' ∉ f ++ ['('] := by simp [hn '$' (by decide)]
    obtain ⟨la, a1, a2⟩ := iha (f ++ ['(']) [')'] hd (by decide)
    have hpieces : ∀ v ∈ (V.str (f ++ ['(']) :: (a.meaning ++ [V.str [')']])), isPiece v = true := by
      intro v hv
      simp only [List.mem_cons, List.mem_append, List.not_mem_nil, or_false] at hv
      rcases hv with rfl | hv | rfl
      · rfl
      · exact meaning_piece a v hv
      · rfl
    have hcall := readFunction_says (env := env) (args := join a.meaning)
      (data := join (V.str (f ++ ['(']) :: (a.meaning ++ [V.str [')']]))) hne (hn _ (by decide)) hlook hcall
      ⟨_, meaning_piece a, rfl⟩ (by
        rw [join_tokens _ fun v hv => isPiece_text (hpieces v hv),
          join_tokens _ fun v hv => isPiece_text (meaning_piece a v hv)]
        simp [tokensAll, tokensAll_append, tokens])
    refine ⟨.str pre :: .atom .func (join [.str f, .str (c! "("), join a.meaning, .str (c! ")")]) .none .none :: l, ?_, ?_⟩
    · have hlev : Level '{' '}' ((f ++ ['(']) ++ (a.write ++ [')'])) :=
        .append (.none (by simp [hn '{' (by decide)]) (by simp [hn '}' (by decide)]))
          (.append (level_says ha rfl).1 (.none (by decide) (by decide)))
      have := C32_curly env w pre _ _ (r.write ++ post) (noDollar h1) (hlev.encloses _)
      rw [parse_of_items a1 a2] at this
      rw [List.nil_append] at e1
      simp only [e1] at this
      rw [show ∀ x : V, Tr.bind (⟨ea, .ok x⟩ : Tr V) = fun f => ⟨ea ++ (f x).ev, (f x).val⟩ from
        fun x => by funext f; simp [Tr.bind]] at this
      simp only [hcall] at this
      simpa [Txt.write, Tr.bind, Tr.pure] using this
    · rw [joinItems_empty] at e2
      exact joinItems_congr _ (joinItems_congr _ e2)
  | @expr i x r ex e' hx hr ihe ih =>
    obtain ⟨l, e1, e2⟩ := ih [] post (by simp) h2
    obtain ⟨le, a1, a2⟩ := ihe [] [] (by simp) (by simp)
    have a2 : joinItems le = joinItems x.meaning := by
      rw [a2, joinItems_empty, ← List.nil_append [V.str []]]
      have key : ∀ l : List V, joinItems (l ++ [V.str []]) = joinItems l := by
        intro l
        induction l with
        | nil => rfl
        | cons x xs ih => exact joinItems_congr x ih
      simpa using key x.meaning
    refine ⟨.str pre :: .atom .expr (join x.meaning) .none .none :: l, ?_, ?_⟩
    · have := C32_square env w pre _ x.write (r.write ++ post) (noDollar h1) ((level_says hx rfl).2.encloses _)
      rw [List.nil_append, List.append_nil] at a1
      rw [parse_of_items a1 a2] at this
      rw [List.nil_append] at e1
      simp only [e1] at this
      simpa [Txt.write, Tr.bind, Tr.pure] using this
    · rw [joinItems_empty] at e2
      exact joinItems_congr _ (joinItems_congr _ e2)

theorem text_says {t : Txt} {evs : List Ev} (h : TextSays env w false t evs) :
    parseVariables env w t.write = ⟨evs, .ok (join t.meaning)⟩ := by
  obtain ⟨l, e1, e2⟩ := items_says h [] [] (by simp) (by simp)
  rw [List.nil_append, List.append_nil] at e1
  refine parse_of_items e1 ?_
  rw [e2, joinItems_empty]
  have key : ∀ l : List V, joinItems (l ++ [V.str []]) = joinItems l := by
    intro l
    induction l with
    | nil => rfl
    | cons x xs ih => exact joinItems_congr x ih
  exact key _

end ALint
