import Verif.Proofs.Print

/-!
# C32, C33, C36, C39: parsing variables, expressions and functions
-/

namespace ALint.Props
open ALint ALint.Spec

/-- For the examples: no functions but `INC` and the one for unknown names. -/
private def env0 : FEnv where
  lower := fun s => s.map Char.toLower
  funcs := fun s =>
    if s = c! "inc" then some ⟨c! "INC", c! "func_math", .count⟩
    else if s = c! "len" then some ⟨c! "LEN", c! "func_strings", .plain⟩
    else if s = c! "unknown" then some ⟨c! "UNKNOWN", c! "<unknown>", .plain⟩
    else none
private def w0 : Where := ⟨c! "extensions.conf", 3, []⟩

/-! ## C32 -/

/-- C32: a text without `${` and `$[` is plain text. -/
theorem C32_plain (env : FEnv) (w : Where) (s : Str) (h : ¬ HasSubst s) :
    parseVariables env w s = .pure (.str s) := by
  rw [parseVariables_eq, items_none ((findSubst_none s).2 h), Tr.pure_bind]
  cases s <;> rfl

theorem innerVal_eq {env : FEnv} {w : Where} {curly : Bool} {s inner tail : Str} {more : Bool}
    (hb : bracketsEnd (brOpen curly) (brClose curly) 0 s = some (inner, more, tail)) :
    innerVal env w more inner = parseVariables env w inner := by
  have hm := bracketsEnd_more curly 0 _ _ _ _ hb
  cases more with
  | true => rfl
  | false =>
    have : ¬ HasSubst inner := fun hh => by have := hm.2 hh; simp at this
    rw [C32_plain env w inner this]; rfl

/-- C32: the first `${` extends to the first `}` at which curly brackets are balanced;
the text between is parsed by itself, and then the text behind. -/
theorem C32_curly (env : FEnv) (w : Where) (pre s inner tail : Str) (h1 : ¬ HasSubst pre)
    (h2 : Encloses '{' '}' s inner tail) :
    items env w (pre ++ '$' :: '{' :: s) =
      .bind (parseVariables env w inner) fun data =>
      .bind (processVariable env w data) fun v =>
      .bind (items env w tail) fun l => .pure (.str pre :: v :: l) := by
  obtain ⟨more, hb⟩ := (bracketsEnd_iff true 0 s inner tail).2 ((enclosesAt_zero ..).2 h2)
  have hf : findSubst (pre ++ '$' :: '{' :: s) = _ := (findSubst_some _ pre s true).2 ⟨h1, rfl⟩
  rw [items_subst hf hb, innerVal_eq hb]
  rfl

/-- C32: the same for `$[` and `]`. -/
theorem C32_square (env : FEnv) (w : Where) (pre s inner tail : Str) (h1 : ¬ HasSubst pre)
    (h2 : Encloses '[' ']' s inner tail) :
    items env w (pre ++ '$' :: '[' :: s) =
      .bind (parseVariables env w inner) fun data =>
      .bind (items env w tail) fun l => .pure (.str pre :: .atom .expr data .none .none :: l) := by
  obtain ⟨more, hb⟩ := (bracketsEnd_iff false 0 s inner tail).2 ((enclosesAt_zero ..).2 h2)
  have hf : findSubst (pre ++ '$' :: '[' :: s) = _ := (findSubst_some _ pre s false).2 ⟨h1, rfl⟩
  rw [items_subst hf hb, innerVal_eq hb]
  congr 1

/-- C32: that position is unique. -/
theorem C32_unique (l r : Char) (h : (l, r) = ('{', '}') ∨ (l, r) = ('[', ']'))
    (s i1 t1 i2 t2 : Str) (h1 : Encloses l r s i1 t1) (h2 : Encloses l r s i2 t2) : i1 = i2 ∧ t1 = t2 := by
  rcases h with h | h
  · simp at h; obtain ⟨rfl, rfl⟩ := h; exact encloses_unique true h1 h2
  · simp at h; obtain ⟨rfl, rfl⟩ := h; exact encloses_unique false h1 h2

/-- C32: parsing fails for want of a bracket only if some `${` or `$[` is not closed. -/
theorem C32_closed (env : FEnv) (w : Where) (s : Str) (h : Closed s) :
    (parseVariables env w s).val ≠ .error .varParseError := by
  have := items_closed env w s h
  intro he
  rw [parseVariables_eq] at he
  rcases Tr.bind_err he with he | ⟨a, _, he⟩
  · exact (this _ he).1 rfl
  · simp [Tr.pure] at he

/-- C32: and it does fail in that case: either for that reason, or because something in
front of the unclosed bracket already failed. -/
theorem C32_unclosed (env : FEnv) (w : Where) (s : Str) (h : ¬ Closed s) :
    ∃ e, (parseVariables env w s).val = .error e := by
  cases hv : (parseVariables env w s).val with
  | error e => exact ⟨e, rfl⟩
  | ok v =>
    rw [parseVariables_eq] at hv
    obtain ⟨l, hl, _⟩ := Tr.bind_ok hv
    exact absurd (closed_of_items env w s l hl) h

/-- C32: if nothing else fails, it fails iff a bracket is not closed. -/
theorem C32_iff (env : FEnv) (w : Where) (s : Str)
    (h : ∀ e, (parseVariables env w s).val = .error e → e = .varParseError) :
    (parseVariables env w s).val = .error .varParseError ↔ ¬ Closed s := by
  constructor
  · intro he hc; exact C32_closed env w s hc he
  · intro hc
    obtain ⟨e, he⟩ := C32_unclosed env w s hc
    rw [he, h e he]

/-- C32: parsing terminates: the bound of the recursion in the model is never reached,
and the outcome does not depend on it. -/
theorem C32_terminates (env : FEnv) (w : Where) (s : Str) :
    (parseVariables env w s).val ≠ .error .recursionError ∧
    ∀ n, s.length < n → parseItems env w n s = items env w s := by
  constructor
  · intro he
    rw [parseVariables_eq] at he
    rcases Tr.bind_err he with he | ⟨a, _, he⟩
    · exact items_noRec env w s _ he rfl
    · simp [Tr.pure] at he
  · intro n hn; exact parseItems_fuel env w s _ _ (by omega) (by omega)

example : Encloses '{' '}' (c! "a{b}c}d}") (c! "a{b}c") (c! "d}") := by
  exact (enclosesAt_zero ..).1 ((bracketsEnd_iff true 0 _ _ _).1 ⟨false, by decide⟩)

example : (parseVariables env0 w0 (c! "x${a{b}c}d}")).val =
    .ok (.lst [.str (c! "x"), .atom .var (.str (c! "a{b}c")) .none .none, .str (c! "d}")]) := by decide
example : (parseVariables env0 w0 (c! "x${a")).val = .error .varParseError := by decide
example : (parseVariables env0 w0 (c! "$[1 + ${a]}")).val = .error .varParseError := by decide

/-! ## C33 -/

/-- C33, in part: if no message about a dropped part is issued, integers behind colons
are written without leading zeros, and there are no `${}`, `$[]` and `$[:`, then printing
gives back the text.  Without these conditions it does not hold, see below. -/
theorem C33_roundtrip_partial (env : FEnv) (w : Where) (s : Str) (v : V)
    (h : (parseVariables env w s).val = .ok v) (h1 : Lossless (parseVariables env w s).ev)
    (h2 : CanonNumbers s) (h3 : NoOddSubst s) : v.toStr = .ok s := by
  rw [parseVariables_eq] at h h1
  obtain ⟨l, hl, h, hev⟩ := Tr.bind_ok h
  simp [Tr.pure] at h; subst h
  rw [hev] at h1
  obtain ⟨hp, hs, _⟩ := items_print env w s l hl (Lossless.left h1) h2 h3
  rw [join_toStr _ (fun v hv => isPiece_text (hp v hv)), hs]

/-- A text without colons meets the second condition. -/
theorem C33_no_colons (s : Str) (h : ':' ∉ s) : CanonNumbers s := by
  intro n z hi
  exact absurd (hi.subset (by simp)) h

example : (parseVariables env0 w0 (c! "a${LEN(${b}x)}$[${c} > 1]")).val.bind V.toStr =
    .ok (c! "a${LEN(${b}x)}$[${c} > 1]") := by decide

/-- C33 is violated: leading zeros are dropped without a message. -/
theorem C33_violated_zeros (env : FEnv) (w : Where) :
    parseVariables env w (c! "${a:007}") =
      ⟨[.var (c! "a") w], .ok (.atom .slice (.str (c! "a")) (.int 7) .none)⟩ ∧
    (V.atom .slice (.str (c! "a")) (.int 7) .none).toStr = .ok (c! "${a:7}") := by
  refine ⟨?_, by decide⟩
  rfl

/-- C33 is violated: an empty variable cannot be printed. -/
theorem C33_violated_empty (env : FEnv) (w : Where) :
    parseVariables env w (c! "${}") =
      ⟨[.var [] w], .ok (.atom .var (.str []) .none .none)⟩ ∧
    (V.atom .var (.str []) .none .none).toStr = .error .attributeError := by
  refine ⟨?_, by decide⟩
  rfl

/-- C33 is violated: a missing parenthesis is reported and added. -/
theorem C33_violated_paren :
    (parseVariables env0 w0 (c! "${LEN(x}")).val.bind V.toStr = .ok (c! "${LEN(x)}") := by decide

/-- C33 is violated: an expression behind a function may become a substring. -/
theorem C33_violated_tail :
    (parseVariables env0 w0 (c! "${LEN(x)$[:3]}")).val.bind V.toStr = .ok (c! "${LEN(x):3}") ∧
    (∀ m, Ev.msg m ∉ (parseVariables env0 w0 (c! "${LEN(x)$[:3]}")).ev) := by
  constructor
  · decide
  · have : (parseVariables env0 w0 (c! "${LEN(x)$[:3]}")).ev = [.func (c! "len")] := by decide
    rw [this]; simp

/-! ## C36 -/

/-- C36: if a substring expression is accepted, either no substring is left or it is a
valid one. -/
theorem C36_valid_partial (w : Where) (data : V) (hd : isMixed data = true) (name start length : V)
    (h : (splitSlice w data).val = .ok (name, start, length)) :
    start = .none ∨ GoodSlice start length := by
  obtain ⟨ps, hps, htok, htext⟩ := split_tokens ':' none data hd
  have hne : ps ≠ [] := by rintro rfl; exact splitT_ne _ _ _ htok.symm
  rcases (splitSlice_cases w data ps hps hne htext name start length h).2 with ⟨h, _⟩ | ⟨_, _, h⟩
  · exact .inr h.1
  · exact h

/-- C36: legal parts are taken as they are, without a message. -/
theorem C36_legal (w : Where) (data : V) (hd : isMixed data = true) (parts : List V)
    (hp : data.split ':' none = .ok parts) (name start length : V)
    (h : LegalSlice parts name start length) :
    splitSlice w data = .pure (name, start, length) := by
  refine splitSlice_legal w data parts hp name start length h ?_
  intro hv
  rcases h.2 with ⟨s, rfl, _, rfl⟩ | ⟨s, l, rfl, _, hl⟩
  · simp [V.isVar] at hv
  · rcases hl with ⟨_, rfl⟩ | ⟨_, _, _, rfl, _⟩
    · exact parsed_truthy (split_parsed ':' none data hd _ hp _ (by simp)) hv
    · simp [V.isVar] at hv

/-- C36: illegal parts are reported, and no length is left. -/
theorem C36_reported (w : Where) (data : V) (hd : isMixed data = true) (parts : List V)
    (hp : data.split ':' none = .ok parts)
    (h : ¬ ∃ name start length, LegalSlice parts name start length) (name start length : V)
    (hok : (splitSlice w data).val = .ok (name, start, length)) :
    (∃ m, Ev.msg m ∈ (splitSlice w data).ev ∧
      m.kind ∈ [MK.E_VAR_SUBSTR_ARGS, .E_VAR_SUBSTR_START, .E_VAR_SUBSTR_LENGTH]) ∧
    length.truthy = false := by
  obtain ⟨ps, hps, htok, htext⟩ := split_tokens ':' none data hd
  rw [hp] at hps
  simp only [Except.ok.injEq] at hps
  subst hps
  have hne : parts ≠ [] := by rintro rfl; exact splitT_ne _ _ _ htok.symm
  rcases (splitSlice_cases w data parts hp hne htext name start length hok).2 with ⟨h', _⟩ | ⟨h1, h2, _⟩
  · exact absurd ⟨_, _, _, h'⟩ h
  · refine ⟨splitSlice_msg w data h1, ?_⟩
    rcases h2 with rfl | h2
    · rfl
    · exact h2

/-- C36: nothing is raised, provided that printing works, that there are none of the odd
digits such as `²`, and that a variable start has no numeric length.  Without the last
two conditions it does not hold, see below. -/
theorem C36_returns_partial (w : Where) (data : V) (hd : isMixed data = true) (parts : List V)
    (hp : data.split ':' none = .ok parts) (text : Str) (ht : data.toStr = .ok text)
    (h1 : ∀ s, V.str s ∈ parts → ∀ c ∈ s, isDigitOnly c = false)
    (h2 : ∀ v s l, parts = [v, s, .str l] → s.isVar = true → looksInt l = false) :
    ∃ r, (splitSlice w data).val = .ok r := by
  obtain ⟨ps, hps, htok, htext⟩ := split_tokens ':' none data hd
  rw [hp] at hps
  simp only [Except.ok.injEq] at hps
  subst hps
  have hne : parts ≠ [] := by rintro rfl; exact splitT_ne _ _ _ htok.symm
  exact splitSlice_returns w data parts hp hne htext text ht h1 h2

/-- C36: a valid substring passes the assertions of the constructor. -/
theorem C36_constructed (start length : V) (h : GoodSlice start length) :
    sliceInit start length = .ok () := goodSlice_init h

example : LegalSlice [.str (c! "a"), .str (c! "-3"), .str (c! "2")] (.str (c! "a")) (.int (-3)) (.int 2) :=
  ⟨⟨.inl ⟨_, rfl⟩, .inr (.inr ⟨_, _, rfl, rfl, by decide, by decide⟩), by simp⟩,
    .inr ⟨_, _, rfl, .inr ⟨_, _, rfl, rfl, by decide, by decide⟩, .inr ⟨_, _, rfl, rfl, by decide, by decide⟩⟩⟩
example : splitSlice w0 (.str (c! "a:-3:3")) =
    ⟨[.msg (mkMsg .E_VAR_SUBSTR_LENGTH w0 [(c! "length", .one .none)])],
      .ok (.str (c! "a"), .int (-3), .none)⟩ := by decide

/-- C36 is violated: a variable as start with a number as length raises. -/
theorem C36_violated_type (env : FEnv) (w : Where) :
    (parseVariables env w (c! "${foo:${x}:2}")).val = .error .typeError := rfl

/-- C36 is violated: so does a superscript digit. -/
theorem C36_violated_digit (env : FEnv) (w : Where) :
    (parseVariables env w (c! "${a:²}")).val = .error .valueError := by
  have : (parseVariables env0 w0 (c! "${a:²}")).val = .error .valueError := by decide
  exact this

/-! ## C39 -/

/-- C39: the uses of a closed text are determined by it. -/
theorem C39_determined (s : Str) (h : Closed s) :
    ∃ k names, Uses s k names ∧ ∀ k' names', Uses s k' names' → k' = k ∧ names' = names := by
  obtain ⟨k, n, u⟩ := uses_of_closed h
  exact ⟨k, n, u, fun _ _ u' => uses_unique u' u⟩

/-- C39: a parsed text adds exactly one use for each variable named in it, if no function
counts variables itself. -/
theorem C39_exact (env : FEnv) (w : Where) (s : Str) (k : List (Option Char)) (names : List Str) (v : V)
    (hu : Uses s k names) (hc : ∀ s f, env.funcs s = some f → f.beh ≠ .count)
    (h : (parseVariables env w s).val = .ok v) :
    usedNames (parseVariables env w s).ev = names := by
  rw [parseVariables_eq] at h ⊢
  obtain ⟨l, hl, h, hev⟩ := Tr.bind_ok h
  obtain ⟨_, k', n', u', _, _, he⟩ := items_uses env w s l hl
  obtain ⟨rfl, rfl⟩ := uses_unique hu u'
  rw [hev, usedNames_append, he hc]
  simp [Tr.pure, usedNames]

/-- C39: in general (`INC` and `DEC` count the variable they change) these uses are among
the recorded ones, in order. -/
theorem C39_each (env : FEnv) (w : Where) (s : Str) (k : List (Option Char)) (names : List Str) (v : V)
    (hu : Uses s k names) (h : (parseVariables env w s).val = .ok v) :
    names.Sublist (usedNames (parseVariables env w s).ev) := by
  rw [parseVariables_eq] at h ⊢
  obtain ⟨l, hl, h, hev⟩ := Tr.bind_ok h
  obtain ⟨_, k', n', u', _, hs, _⟩ := items_uses env w s l hl
  obtain ⟨rfl, rfl⟩ := uses_unique hu u'
  rw [hev, usedNames_append]
  exact hs.trans (List.sublist_append_left _ _)

/-- C39: every recorded use with illegal characters is reported, once, and nothing else;
even if parsing fails. -/
theorem C39_reported (env : FEnv) (w : Where) (s : Str) :
    reportedNames (parseVariables env w s).ev =
      ((usedNames (parseVariables env w s).ev).filter fun n => !legalName n).map fun n => .one (.str n) := by
  have := Keeps.bind (I := pairedInv) (paired_items env w s) (f := fun l => Tr.pure (join l))
    (fun _ => Keeps.pure _)
  exact this

/-- C39: each use is recorded for the given place. -/
theorem C39_where (env : FEnv) (w w' : Where) (s n : Str)
    (h : Ev.var n w' ∈ (parseVariables env w s).ev) : w' = w := place_of_use h

example : usedNames (parseVariables env0 w0 (c! "${a${b}}x${c:1}${LEN(${d})}${e-f}")).ev =
    [c! "b", c! "c", c! "d", c! "e-f"] := by decide
example : Uses (c! "${a${b}}") [none] [c! "b"] := by
  refine Uses.curly (pre := []) (s := c! "a${b}}") (inner := c! "a${b}") (tail := [])
    (k1 := [some 'a', none]) (k2 := []) (n1 := [c! "b"]) (n2 := []) not_hasSubst_nil ?_ ?_ (.plain not_hasSubst_nil)
  · exact (enclosesAt_zero ..).1 ((bracketsEnd_iff true 0 _ _ _).1 ⟨true, by decide⟩)
  · refine Uses.curly (pre := c! "a") (s := c! "b}") (inner := c! "b") (tail := [])
      (k1 := [some 'b']) (k2 := []) (n1 := []) (n2 := []) ?_ ?_ (.plain ?_) (.plain not_hasSubst_nil)
    · rw [← findSubst_none]; rfl
    · exact (enclosesAt_zero ..).1 ((bracketsEnd_iff true 0 _ _ _).1 ⟨false, by decide⟩)
    · rw [← findSubst_none]; rfl
example : usedNames (parseVariables env0 w0 (c! "${INC(x)}")).ev = [c! "x"] := by decide

end ALint.Props
