import Verif.Proofs.Uses

namespace ALint
open ALint.Spec

theorem catE_ok {a b : Except Exc Str} {t : Str} (h : catE a b = .ok t) :
    ∃ x y, a = .ok x ∧ b = .ok y ∧ t = x ++ y := by
  cases a with
  | error e => simp [catE] at h
  | ok x =>
    cases b with
    | error e => simp [catE] at h
    | ok y => simp [catE] at h; exact ⟨x, y, rfl, rfl, h.symm⟩

theorem toStrAll_append_ok {a b : List V} {t : Str} (h : V.toStrAll (a ++ b) = .ok t) :
    ∃ x y, V.toStrAll a = .ok x ∧ V.toStrAll b = .ok y ∧ t = x ++ y := by
  rw [toStrAll_append] at h; exact catE_ok h

theorem toStrAll_cons_ok {v : V} {b : List V} {t : Str} (h : V.toStrAll (v :: b) = .ok t) :
    ∃ x y, v.toStr = .ok x ∧ V.toStrAll b = .ok y ∧ t = x ++ y := by
  rw [toStrAll_cons] at h; exact catE_ok h

theorem Lossless.left {a b : List Ev} (h : Lossless (a ++ b)) : Lossless a :=
  fun m hm => h m (by simp [hm])
theorem Lossless.right {a b : List Ev} (h : Lossless (a ++ b)) : Lossless b :=
  fun m hm => h m (by simp [hm])

/-- The messages about substrings. -/
def sliceKinds : List MK := [.E_VAR_SUBSTR_ARGS, .E_VAR_SUBSTR_START, .E_VAR_SUBSTR_LENGTH]

/-- All events are such messages. -/
def lossyInv : EvInv where
  P := fun evs => ∀ e ∈ evs, ∃ m, e = .msg m ∧ m.kind ∈ sliceKinds
  nil := by simp
  append := by
    intro a b ha hb e he
    rcases List.mem_append.1 he with he | he
    · exact ha e he
    · exact hb e he

theorem lossy_emit (k : MK) (w : Where) (args : List (Str × Arg)) (hk : k ∈ sliceKinds) :
    Keeps lossyInv (Tr.emit (mkMsg k w args)) := by
  intro e he
  simp [Tr.emit] at he
  exact ⟨_, he, hk⟩

theorem slice_splitSlice (w : Where) (data : V) : Keeps lossyInv (splitSlice w data) := by
  unfold splitSlice
  refine .bind (.lift _) fun ps => ?_
  dsimp only
  refine .bind (.ite (.pure _) (lossy_emit _ _ _ (by decide))) fun _ => .bind ?_ fun _ => .bind ?_ fun _ =>
    .bind ?_ fun _ => .pure _
  · unfold sliceStart
    split
    · exact .ite (.bind (.lift _) fun _ => .pure _) (.bind (lossy_emit _ _ _ (by decide)) fun _ => .pure _)
    · exact .pure _
  · unfold sliceLength
    split
    · refine .ite (.bind (.lift _) fun _ => .bind (.lift _) fun _ => ?_)
        (.bind (lossy_emit _ _ _ (by decide)) fun _ => .pure _)
      exact .ite (.bind (lossy_emit _ _ _ (by decide)) fun _ => .pure _) (.pure _)
    · exact .pure _
  · unfold sliceZero
    exact .ite (.bind (lossy_emit _ _ _ (by decide)) fun _ => .pure _) (.pure _)

theorem splitSlice_lossless {w : Where} {data : V} (h : Lossless (splitSlice w data).ev) :
    (splitSlice w data).ev = [] := by
  cases he : (splitSlice w data).ev with
  | nil => rfl
  | cons e es =>
    have h1 := slice_splitSlice w data e (by simp [he])
    obtain ⟨m, rfl, hk⟩ := h1
    exact absurd (by revert hk; cases m.kind <;> decide) (h m (by simp [he]))

theorem splitSlice_msg (w : Where) (data : V) (h : (splitSlice w data).ev ≠ []) :
    ∃ m, Ev.msg m ∈ (splitSlice w data).ev ∧
      m.kind ∈ [MK.E_VAR_SUBSTR_ARGS, .E_VAR_SUBSTR_START, .E_VAR_SUBSTR_LENGTH] := by
  cases he : (splitSlice w data).ev with
  | nil => exact absurd he h
  | cons e es =>
    have h1 := slice_splitSlice w data e (by simp [he])
    obtain ⟨m, rfl, hk⟩ := h1
    exact ⟨m, by simp, hk⟩

/-! ### substrings -/

theorem parsed_truthy {v : V} (h : isParsed v = true) (hv : v.isVar = true) : v.truthy = true := by
  rw [truthy_iff (isParsed_text h)]
  intro he
  have := (all_some_iff h).1 (by simp [he])
  rw [hv] at this; simp at this

theorem means_print {p v : V} {t : Str} (h : Means p v) (hp : p.toStr = .ok t)
    (hc : ∀ z, looksInt t = true → pyInt t = .ok z → intStr z = t) : v.toStr = .ok t := by
  rcases h with ⟨_, rfl⟩ | ⟨s, n, rfl, rfl, h1, h2⟩
  · exact hp
  · simp [V.toStr] at hp
    subst hp
    rw [V.toStr, hc n h1 h2]

theorem slice_toStr (k : Kind) (hk : k = .slice ∨ k = .dynSlice ∨ k = .funcSlice) (n s l : V) (tn ts : Str)
    (hn : n.toStr = .ok tn) (hs : s.toStr = .ok ts) :
    (l.truthy = false → (V.atom k n s l).toStr = .ok (c! "${" ++ tn ++ c! ":" ++ ts ++ c! "}")) ∧
    (∀ tl, l.truthy = true → l.toStr = .ok tl →
      (V.atom k n s l).toStr = .ok (c! "${" ++ tn ++ c! ":" ++ ts ++ c! ":" ++ tl ++ c! "}")) := by
  have e : (V.atom k n s l).toStr = match V.toStr n, V.toStr s, V.toStr l with
      | .error e, _, _ => .error e
      | .ok _, .error e, _ => .error e
      | .ok tn, .ok ts, tl =>
        if l.truthy then tl.map (fun tl => c! "${" ++ tn ++ c! ":" ++ ts ++ c! ":" ++ tl ++ c! "}")
        else .ok (c! "${" ++ tn ++ c! ":" ++ ts ++ c! "}") := by
    rcases hk with rfl | rfl | rfl <;> (rw [V.toStr]; rfl)
  rw [e, hn, hs]
  constructor
  · intro h; simp [h]
  · intro tl h h2; simp [h, h2, Except.map]

theorem legal_print (k : Kind) (hk : k = .slice ∨ k = .dynSlice ∨ k = .funcSlice) (data : V)
    (hd : isText data = true) (ps : List V) (name start length : V)
    (hps : sepBy (V.str [':']) (ps.map V.tokens) = data.tokens) (hpp : ∀ p ∈ ps, isParsed p = true)
    (hl : LegalSlice ps name start length) (t : Str) (ht : data.toStr = .ok t) (hc : CanonNumbers t) :
    ∃ tname rest, t = tname ++ rest ∧ name.toStr = .ok tname ∧
      ∀ nm tn, nm.toStr = .ok tn → (V.atom k nm start length).toStr = .ok (c! "${" ++ tn ++ rest ++ c! "}") := by
  obtain ⟨⟨g1, g2, g3⟩, hp⟩ := hl
  rw [toStr_tokens data hd, ← hps] at ht
  rcases hp with ⟨s, rfl, ms, rfl⟩ | ⟨s, l, rfl, ms, ml⟩
  · simp only [List.map_cons, List.map_nil, sepBy] at ht
    obtain ⟨tn, t2, h1, h2, rfl⟩ := toStrAll_append_ok ht
    obtain ⟨tc, ts, h3, h4, rfl⟩ := toStrAll_cons_ok h2
    simp only [V.toStr, Except.ok.injEq] at h3
    subst h3
    rw [← toStr_tokens _ (isParsed_text (hpp _ (by simp)))] at h1 h4
    refine ⟨tn, [':'] ++ ts, rfl, h1, ?_⟩
    intro nm tnm hnm
    have hst := means_print ms h4 (fun z a b => hc ts z ⟨tn, [], by simp⟩ a b)
    have := (slice_toStr k hk nm start .none tnm ts hnm hst).1 rfl
    rw [this]
    simp
  · simp only [List.map_cons, List.map_nil, sepBy] at ht
    obtain ⟨tn, t2, h1, h2, rfl⟩ := toStrAll_append_ok ht
    obtain ⟨tc, t3, h3, h4, rfl⟩ := toStrAll_cons_ok h2
    obtain ⟨ts, t4, h5, h6, rfl⟩ := toStrAll_append_ok h4
    obtain ⟨tc', tl, h7, h8, rfl⟩ := toStrAll_cons_ok h6
    simp only [V.toStr, Except.ok.injEq] at h3 h7
    subst h3; subst h7
    rw [← toStr_tokens _ (isParsed_text (hpp _ (by simp)))] at h1 h5 h8
    refine ⟨tn, [':'] ++ (ts ++ ([':'] ++ tl)), rfl, h1, ?_⟩
    intro nm tnm hnm
    have hst := means_print ms h5 (fun z a b => hc ts z ⟨tn, ':' :: tl, by simp⟩ a b)
    have hln := means_print ml h8 (fun z a b => hc tl z ⟨tn ++ ':' :: ts, [], by simp⟩ a b)
    have htr : length.truthy = true := by
      rcases ml with ⟨hv, rfl⟩ | ⟨_, n, _, rfl, _⟩
      · exact parsed_truthy (hpp _ (by simp)) hv
      · rcases g2 with h | h | ⟨_, _, _, h, hn, _⟩
        · simp at h
        · simp [V.isVar] at h
        · simp at h; subst h; simpa [V.truthy] using hn
    have := (slice_toStr k hk nm start length tnm ts hnm hst).2 tl htr hln
    rw [this]
    simp

/-! ### atoms -/

/-- A variable whose name is text starts with a colon only if it ends with a parenthesis. -/
def AtomOK (v : V) : Prop :=
  ∀ k t s l, v = .atom k (.str t) s l → t.head? ≠ some ':' ∨ t.getLast? = some ')'

theorem atomOK_str (s : Str) : AtomOK (.str s) := by intro k t s l h; simp at h

/-- Splitting the name of such a variable never gives a legal substring without a name. -/
theorem atom_split {v : V} (hv : AtomOK v) (ha : isPiece v = true ∧ v.isVar = true) {ps : List V}
    (hs : v.split ':' none = .ok ps) {name start length : V} (hl : LegalSlice ps name start length) :
    name.truthy = true := by
  cases v <;> simp [isPiece] at ha <;> simp [V.isVar] at ha
  rename_i k n s l
  simp only [V.split] at hs
  split at hs
  case isFalse => simp at hs
  rename_i htr
  simp only [Except.ok.injEq] at hs
  obtain ⟨_, hp⟩ := hl
  have one : ∀ g, ps = [g] → False := by
    rintro g rfl
    rcases hp with ⟨_, h, _⟩ | ⟨_, _, h, _⟩ <;> simp at h
  cases n with
  | str t =>
    have hm : V.split ':' none (V.str t) = .ok ((splitN ':' none t).map .str) := rfl
    -- the parts as strings
    have hps : ps = (splitN ':' none t).map .str := by
      subst hs
      simp only [splitGroups]
      split
      · rename_i h
        replace h : ':' ∉ t := by simpa using h
        have : splitN ':' none t = [t] := by
          clear hm one hp hv htr
          induction t with
          | nil => rfl
          | cons x xs ih =>
            simp at h
            simp only [splitN]
            rw [if_neg (fun e => h.1 e.symm), ih h.2]
        simp [this, consHead, joinGroup]
      · have gen : ∀ l : List Str, l ≠ [] → (spread l [[]]).map joinGroup = l.map V.str := by
          intro l
          induction l with
          | nil => intro h; exact absurd rfl h
          | cons p l ih =>
            intro _
            cases l with
            | nil =>
              simp only [spread]
              split
              · rename_i h; simp at h; simp [h, joinGroup]
              · simp [consHead, joinGroup]
            | cons q l =>
              simp only [spread, List.map_cons]
              rw [ih (by simp)]
              split
              · rename_i h; simp at h; simp [h, joinGroup]
              · simp [joinGroup]
        exact gen _ (splitN_ne _ _ _)
    have htoks : ps.map V.tokens = splitT (V.str [':']) none (chars t) := by
      rw [hps, List.map_map, ← splitN_tokens]
      apply List.map_congr_left
      intro x _
      simp [tokens_str]
    have hsep := sepBy_splitT (V.str [':']) none (chars t)
    rw [← htoks] at hsep
    -- all parts are strings
    have hstr : ∀ p ∈ ps, ∃ x, p = .str x := by
      intro p h; rw [hps] at h; obtain ⟨x, _, rfl⟩ := List.mem_map.1 h; exact ⟨x, rfl⟩
    have hint : ∀ p v, Means p v → p ∈ ps → ∃ x, p = .str x ∧ x.getLast? ≠ some ')' ∧ x ≠ [] := by
      intro p v hm hp
      obtain ⟨x, rfl⟩ := hstr p hp
      refine ⟨x, rfl, ?_⟩
      rcases hm with ⟨h, _⟩ | ⟨y, n, h, _, h1, _⟩
      · simp [V.isVar] at h
      · simp at h; subst h
        have key : ∀ z : Str, isDigitS z = true → z.getLast? ≠ some ')' ∧ z ≠ [] := by
          intro z hz
          simp only [isDigitS, Bool.and_eq_true, List.all_eq_true] at hz
          constructor
          · intro h
            have := hz.2 ')' (List.mem_of_getLast? h)
            exact absurd this (by decide)
          · rintro rfl; simp at hz
        unfold looksInt at h1
        split at h1
        · rename_i z _
          have := key z h1
          refine ⟨?_, by simp⟩
          rw [List.getLast?_cons]
          cases hz : z.getLast? with
          | none => simp at hz; exact absurd hz this.2
          | some c => simp; intro e; subst e; exact this.1 hz
        · exact key _ h1
    have unch : ∀ {x y : Str}, chars x = chars y → x = y := by
      intro x y h
      have := congrArg (fun l => (l.map skel).filterMap id) h
      simp only [← tokens_str, filterMap_skel_str] at this
      exact this
    rcases hv k t s l rfl with hh | hh
    · -- the name part is not empty
      cases hnt : name.truthy with
      | true => rfl
      | false =>
        exfalso
        have : ∃ x, name = .str x ∧ ∃ y, t = x ++ ':' :: y := by
          rcases hp with ⟨s', h, _⟩ | ⟨s', l', h, _⟩
          · obtain ⟨x, hx⟩ := hstr name (by simp [h])
            obtain ⟨y, hy⟩ := hstr s' (by simp [h])
            refine ⟨x, hx, y, ?_⟩
            rw [h, hx, hy] at hsep
            simp only [List.map_cons, List.map_nil, sepBy, tokens_str] at hsep
            apply unch
            rw [← hsep, chars_append]; rfl
          · obtain ⟨x, hx⟩ := hstr name (by simp [h])
            obtain ⟨y, hy⟩ := hstr s' (by simp [h])
            obtain ⟨z, hz⟩ := hstr l' (by simp [h])
            refine ⟨x, hx, y ++ ':' :: z, ?_⟩
            rw [h, hx, hy, hz] at hsep
            simp only [List.map_cons, List.map_nil, sepBy, tokens_str] at hsep
            apply unch
            rw [← hsep, chars_append]
            show _ = chars x ++ V.str [':'] :: chars (y ++ ':' :: z)
            rw [chars_append]; rfl
        obtain ⟨x, rfl, y, rfl⟩ := this
        simp [V.truthy] at hnt
        subst hnt
        simp at hh
    · exfalso
      rcases hp with ⟨s', h, ms, _⟩ | ⟨s', l', h, ms, ml⟩
      · obtain ⟨x, hx⟩ := hstr name (by simp [h])
        obtain ⟨y, rfl, hy, hy0⟩ := hint s' _ ms (by simp [h])
        rw [h, hx] at hsep
        simp only [List.map_cons, List.map_nil, sepBy, tokens_str] at hsep
        have : t = x ++ ':' :: y := by apply unch; rw [← hsep, chars_append]; rfl
        rw [this, List.getLast?_append, List.getLast?_cons] at hh
        cases hz : y.getLast? with
        | none => simp at hz; exact hy0 hz
        | some c => rw [hz] at hh hy; simp at hh; exact hy (by rw [hh])
      · obtain ⟨x, hx⟩ := hstr name (by simp [h])
        obtain ⟨y, rfl, _, _⟩ := hint s' _ ms (by simp [h])
        obtain ⟨z, rfl, hz, hz0⟩ := hint l' _ ml (by simp [h])
        rw [h, hx] at hsep
        simp only [List.map_cons, List.map_nil, sepBy, tokens_str] at hsep
        have : t = (x ++ ':' :: y) ++ ':' :: z := by
          apply unch; rw [← hsep, chars_append, chars_append, List.append_assoc]; rfl
        rw [this, List.getLast?_append, List.getLast?_cons] at hh
        cases hzz : z.getLast? with
        | none => simp at hzz; exact hz0 hzz
        | some c => rw [hzz] at hh hz; simp at hh; exact hz (by rw [hh])
  | lst items => exact absurd hs.symm (one _)
  | atom k' n' s' l' => exact absurd hs.symm (one _)
  | int m => exact absurd hs.symm (one _)
  | none => exact absurd hs.symm (one _)

/-! ### functions -/

theorem firstParen_get {v : V} (h : v.hasTok '(' = true) :
    ∃ hi : firstParen v.tokens < v.tokens.length, v.tokens[firstParen v.tokens] = .str ['('] := by
  unfold V.hasTok at h
  obtain ⟨x, hx, hp⟩ := List.any_eq_true.1 h
  have hi : firstParen v.tokens < v.tokens.length := List.findIdx_lt_length_of_exists ⟨x, hx, hp⟩
  refine ⟨hi, ?_⟩
  have := List.findIdx_getElem (w := hi)
  exact beq_iff_eq.1 this

theorem lastParen_get {toks : List V} {i n : Nat} (h : lastParen toks i = some n) :
    i < n ∧ ∃ hn : n < toks.length, toks[n] = .str [')'] := by
  unfold lastParen at h
  dsimp only at h
  split at h
  · rename_i hc
    simp only [Bool.and_eq_true, decide_eq_true_eq] at hc
    simp only [Option.some.injEq] at h
    subst h
    refine ⟨hc.2, by omega, ?_⟩
    have hw : toks.reverse.findIdx (· == V.str [')']) < toks.reverse.length := by simpa using hc.1
    have := List.findIdx_getElem (w := hw)
    rw [List.getElem_reverse] at this
    simpa using this
  · simp at h

/-- The text around both parentheses. -/
theorem parens_split (toks : List V) (i n : Nat) (hi : i < n) (hn : n < toks.length)
    (h1 : toks[i] = .str ['(']) (h2 : toks[n] = .str [')']) :
    toks = toks.take i ++ .str ['('] :: ((toks.drop (i + 1)).take (n - (i + 1)) ++
      .str [')'] :: (toks.drop (n + 1)).take (toks.length - (n + 1))) := by
  have e1 : toks.drop i = toks[i] :: toks.drop (i + 1) := List.drop_eq_getElem_cons (by omega)
  have e2 : toks.drop n = toks[n] :: toks.drop (n + 1) := List.drop_eq_getElem_cons hn
  have e3 : (toks.drop (i + 1)).drop (n - (i + 1)) = toks.drop n := by
    rw [List.drop_drop]; congr 1; omega
  have e4 : (toks.drop (n + 1)).take (toks.length - (n + 1)) = toks.drop (n + 1) := by
    rw [List.take_of_length_le]; simp
  rw [e4]
  conv => lhs; rw [← List.take_append_drop i toks, e1, h1,
    ← List.take_append_drop (n - (i + 1)) (toks.drop (i + 1)), e3, e2, h2]

theorem getSlice_str {v : V} {i j : Nat} {f : Str} (h : v.getSlice i j = .one (.str f)) :
    chars f = (v.tokens.drop i).take (j - i) := by
  have := getSlice_tokens v i j
  rw [h] at this
  rw [← this, Arg.iter, tokens_str, tokensAll_toks]
  intro t ht
  rw [← tokens_str] at ht
  exact tokens_isTok _ _ ht

theorem toStrAll_chars' (f : Str) : V.toStrAll (chars f) = .ok f := toStrAll_chars f

theorem funcName_tokens (f : Str) (a : V) (ha : isText a = true) :
    (funcName (.str f) a).tokens = chars f ++ (V.str ['('] :: a.tokens ++ [V.str [')']]) ∧
      isText (funcName (.str f) a) = true := by
  have ht : ∀ v ∈ [V.str f, .str (c! "("), a, .str (c! ")")], isText v = true := by
    intro v hv
    simp at hv
    rcases hv with rfl | rfl | rfl | rfl
    · rfl
    · rfl
    · exact ha
    · rfl
  refine ⟨?_, join_text _ ht⟩
  unfold funcName
  rw [join_tokens _ ht]
  simp [V.tokensAll, V.tokens, chars]

theorem atomOK_func (f : Str) (a : V) (ha : isText a = true) (k : Kind) (s l : V) :
    AtomOK (.atom k (funcName (.str f) a) s l) := by
  intro k' t s' l' h
  simp only [V.atom.injEq] at h
  right
  have h1 := (funcName_tokens f a ha).1
  rw [h.2.1, tokens_str] at h1
  have h2 := congrArg (fun l => (l.map skel).getLast?) h1
  simp only [skel_chars] at h2
  have e : (List.map skel (chars f ++ (V.str ['('] :: a.tokens ++ [V.str [')']]))).getLast? = some (some ')') := by
    rw [← List.append_assoc, List.map_append, List.map_cons, List.map_nil,
      List.getLast?_concat]; rfl
  rw [e, List.getLast?_map] at h2
  simpa using h2

/-- The conditions under which printing gives back the text pass to parts of it. -/
theorem CanonNumbers.infix {a b : Str} (h : CanonNumbers b) (hi : a <:+: b) : CanonNumbers a :=
  fun n z hn => h n z (hn.trans hi)

theorem NoOddSubst.infix {a b : Str} (h : NoOddSubst b) (hi : a <:+: b) : NoOddSubst a :=
  ⟨fun h' => h.1 (h'.trans hi), fun h' => h.2.1 (h'.trans hi), fun h' => h.2.2 (h'.trans hi)⟩

theorem Lossless.emit {k : MK} {w : Where} {args : List (Str × Arg)}
    (h : Lossless (Tr.emit (mkMsg k w args)).ev) : k ∉ lossy := by
  have := h (mkMsg k w args) (by simp [Tr.emit])
  exact this

theorem atomOK_tail {v tail : V} (h : ∀ t ∈ v.tokens, AtomOK t) (ht : isParsed tail = true)
    (hs : ∀ t ∈ tail.tokens, t ∈ v.tokens) (hm : isMixed tail = false) :
    AtomOK tail ∧ isPiece tail = true ∧ tail.isVar = true := by
  cases tail with
  | str s => simp [isMixed] at hm
  | lst l => simp [isParsed, isMixed] at ht hm; obtain ⟨x, hx, h'⟩ := hm; have := ht.1 x hx; rw [this] at h'; simp at h'
  | atom k n s l => exact ⟨h _ (hs _ (by simp [V.tokens])), rfl, rfl⟩
  | _ => simp [isParsed] at ht

/-- The substring parts of a lone variable start with a name. -/
theorem splitSlice_atom {w : Where} {v : V} (ha : AtomOK v) (hv : isPiece v = true ∧ v.isVar = true)
    {name st ln : V} (hsl : (splitSlice w v).val = .ok (name, st, ln)) (hev : (splitSlice w v).ev = []) :
    name.truthy = true := by
  obtain ⟨h3, h4⟩ := hv
  cases v <;> simp [isPiece] at h3 <;> simp [V.isVar] at h4
  rename_i k nm s l
  have key : ∀ ps, (V.atom k nm s l).split ':' none = .ok ps → ps ≠ [] → (∀ p ∈ ps, isText p = true) →
      name.truthy = true := by
    intro ps hps hne htext
    have hcases := splitSlice_cases w _ ps hps hne htext name st ln hsl
    rcases hcases.2 with ⟨hleg, _⟩ | ⟨h, _⟩
    · exact atom_split ha ⟨rfl, rfl⟩ hps hleg
    · exact absurd hev h
  have one : ∀ x, (V.atom k nm s l).split ':' none = .ok [x] → False := by
    intro x hx
    unfold splitSlice at hsl hev
    rw [hx] at hsl hev
    obtain ⟨ps', hps', hsl, hev1⟩ := Tr.bind_ok hsl
    rw [hev1] at hev
    simp only [Tr.lift, Except.ok.injEq] at hps'
    subst hps'
    dsimp only [sliceParts] at hsl hev
    obtain ⟨_, _, _, hev1⟩ := Tr.bind_ok hsl
    rw [hev1] at hev
    simp [Tr.emit] at hev
  cases hn : nm.truthy with
  | false =>
    exfalso
    unfold splitSlice at hsl
    simp [V.split, hn, Tr.lift, Tr.bind] at hsl
  | true =>
    cases nm with
    | str t =>
      refine key _ (by rw [V.split, if_pos hn]) (by simp [splitGroups_ne]) ?_
      intro p hp
      obtain ⟨g, hg, rfl⟩ := List.mem_map.1 hp
      exact joinGroup_text g (splitGroups_piece ':' none [.str t] (by simp [isPiece]) g hg)
    | atom k' n' s' l' =>
      refine key _ (by rw [V.split, if_pos hn]) (by simp [splitGroups_ne]) ?_
      intro p hp
      obtain ⟨g, hg, rfl⟩ := List.mem_map.1 hp
      exact joinGroup_text g (splitGroups_piece ':' none [.atom k' n' s' l'] (by simp [isPiece]) g hg)
    | lst l' => exact (one _ (by rw [V.split, if_pos hn]; rfl)).elim
    | int m => exact (one _ (by rw [V.split, if_pos hn]; rfl)).elim
    | none => simp [V.truthy] at hn

theorem readFunction_print (env : FEnv) (w : Where) (data v : V) (hd : isParsed data = true) (text : Str)
    (hp : data.hasTok '(' = true) (ht : data.toStr = .ok text) (ha : ∀ t ∈ data.tokens, AtomOK t)
    (hc : CanonNumbers text) (hok : (readFunction env w data).val = .ok v)
    (hl : Lossless (readFunction env w data).ev) :
    v.toStr = .ok (c! "${" ++ text ++ c! "}") ∧ AtomOK v := by
  obtain ⟨hi, hg1⟩ := firstParen_get hp
  unfold readFunction at hok hl
  dsimp only at hok hl
  split at hok
  · simp [Tr.raise] at hok
  · rename_i hfunc
    rw [if_neg hfunc] at hl
    obtain ⟨⟨args, tail⟩, hargs, hok, hev⟩ := Tr.bind_ok hok
    rw [hev] at hl; clear hev
    have hl1 := (Lossless.left hl)
    replace hl := (Lossless.right hl)
    obtain ⟨⟨start, length⟩, htail, hok, hev⟩ := Tr.bind_ok hok
    rw [hev] at hl; clear hev
    have hl2 := (Lossless.left hl)
    replace hl := (Lossless.right hl)
    -- the closing parenthesis
    unfold funcArgs at hargs hl1
    dsimp only at hargs hl1
    split at hargs
    case h_2 =>
      rename_i hnone
      rw [hnone] at hl1
      dsimp only at hl1
      obtain ⟨_, hb, _, hev⟩ := Tr.bind_ok hargs
      rw [hev] at hl1
      exact absurd (by decide) (Lossless.emit (Lossless.left hl1))
    rename_i n hlast
    obtain ⟨hin, hn, hg2⟩ := lastParen_get hlast
    simp only [Tr.pure, Except.ok.injEq, Prod.mk.injEq] at hargs
    obtain ⟨rfl, rfl⟩ := hargs
    have hsplit := parens_split data.tokens (firstParen data.tokens) n hin hn hg1 hg2
    generalize hA : join (data.getSlice (firstParen data.tokens + 1) n).iter = args at hok hl htail hl2
    generalize hT : join (data.getSlice (n + 1) data.tokens.length).iter = tail at hok hl htail hl2
    have hAt : args.tokens = (data.tokens.drop (firstParen data.tokens + 1)).take (n - (firstParen data.tokens + 1)) := by
      rw [← hA, join_getSlice_tokens]
    have hTt : tail.tokens = (data.tokens.drop (n + 1)).take (data.tokens.length - (n + 1)) := by
      rw [← hT, join_getSlice_tokens]
    have hAx : isText args = true := by rw [← hA]; exact join_getSlice_text _ _ _
    have hTp : isParsed tail = true := by
      rw [← hT]; exact join_parsed _ (getSlice_iter_piece _ _ _)
    rw [← hAt, ← hTt] at hsplit
    split at hok
    · simp [Tr.raise] at hok
    · -- the name is text
      rename_i f hf
      rw [hf] at hl
      dsimp only at hl
      obtain ⟨fi, _, hok, _⟩ := Tr.bind_ok hok
      obtain ⟨_, _, hok, _⟩ := Tr.bind_ok hok
      have hfc := getSlice_str hf
      rw [List.drop_zero, Nat.sub_zero] at hfc
      rw [← hfc] at hsplit
      -- the text
      rw [toStr_tokens data (isParsed_text hd), hsplit] at ht
      obtain ⟨t1, t2, e1, e2, rfl⟩ := toStrAll_append_ok ht
      rw [toStrAll_chars'] at e1
      simp only [Except.ok.injEq] at e1
      subst e1
      obtain ⟨t3, t4, e3, e4, rfl⟩ := toStrAll_cons_ok e2
      simp only [V.toStr, Except.ok.injEq] at e3
      subst e3
      obtain ⟨t5, t6, e5, e6, rfl⟩ := toStrAll_append_ok e4
      obtain ⟨t7, t8, e7, e8, rfl⟩ := toStrAll_cons_ok e6
      simp only [V.toStr, Except.ok.injEq] at e7
      subst e7
      rw [← toStr_tokens tail (isParsed_text hTp)] at e8
      -- the printed name
      obtain ⟨hnt, hnx⟩ := funcName_tokens f args hAx
      have hname : (funcName (.str f) args).toStr = .ok (f ++ ('(' :: t5 ++ [')'])) := by
        rw [toStr_tokens _ hnx, hnt, toStrAll_append, toStrAll_chars', List.cons_append, toStrAll_cons,
          toStrAll_append, e5, toStrAll_single]
        simp [V.toStr, catE]
      have hntr : (funcName (.str f) args).truthy = true := by
        rw [truthy_iff hnx, hnt]; simp
      unfold funcTail at htail hl2
      split at htail
      · rename_i htr
        rw [if_pos htr] at hl2
        obtain ⟨⟨name, st, ln⟩, hsl, htail, hev⟩ := Tr.bind_ok htail
        rw [hev] at hl2
        have hev0 := splitSlice_lossless (Lossless.left hl2)
        replace hl2 := (Lossless.right hl2)
        split at htail
        · rename_i hnt'
          rw [if_pos hnt'] at hl2
          obtain ⟨_, hb, _, hev⟩ := Tr.bind_ok htail
          rw [hev] at hl2
          exact absurd (by decide) (Lossless.emit (Lossless.left hl2))
        · rename_i hnt'
          simp only [Tr.pure, Except.ok.injEq, Prod.mk.injEq] at htail
          obtain ⟨hst, hln⟩ := htail
          subst hst hln
          -- the parts of the tail
          have hmix : isMixed tail = true := by
            cases hm : isMixed tail with
            | true => rfl
            | false =>
              exfalso
              obtain ⟨h1, h2⟩ := atomOK_tail ha hTp (by
                intro t ht'; rw [hsplit]; simp [ht']) hm
              exact hnt' (splitSlice_atom h1 h2 hsl hev0)
          obtain ⟨ps, hps, htok, htext⟩ := split_tokens ':' none tail hmix
          have hne : ps ≠ [] := by
            rintro rfl
            exact splitT_ne _ _ _ htok.symm
          have hcases := splitSlice_cases w tail ps hps hne htext name st ln hsl
          rcases hcases.2 with ⟨hleg, _⟩ | ⟨hne', _⟩
          · have hcan : CanonNumbers t8 := CanonNumbers.infix hc ⟨f ++ '(' :: (t5 ++ [')']), [], by simp⟩
            obtain ⟨tname, rest, hr, htn, hpr⟩ := legal_print .funcSlice (.inr (.inr rfl)) tail
              (isParsed_text hTp) ps name st ln (by rw [htok, sepBy_splitT])
              (split_parsed ':' none tail hmix ps hps) hleg t8 e8 hcan
            have hnn : tname = [] := by
              have hnp : isText name = true := by
                have := hcases.1
                cases ps with
                | nil => simp at this
                | cons p ps => simp at this; subst this; exact htext p (by simp)
              have := truthy_false hnp (by simpa using hnt')
              rw [toStr_tokens name hnp, this] at htn
              simpa [V.toStrAll] using htn.symm
            subst hnn
            unfold mkReadFunc at hok
            have hsn : st ≠ .none := by
              rintro rfl
              rcases hleg.1.1 with ⟨n, h⟩ | h
              · simp at h
              · simp [V.isVar] at h
            rw [if_neg hsn, goodSlice_init hleg.1] at hok
            simp only [Tr.lift, Except.map, Except.ok.injEq] at hok
            subst hok
            refine ⟨?_, atomOK_func f args hAx _ _ _⟩
            rw [hpr _ _ hname, hr]
            simp
          · exact absurd hev0 hne'
      · rename_i htr
        simp only [Tr.pure, Except.ok.injEq, Prod.mk.injEq] at htail
        obtain ⟨rfl, rfl⟩ := htail
        have := truthy_false (isParsed_text hTp) (by simpa using htr)
        rw [toStr_tokens tail (isParsed_text hTp), this] at e8
        simp only [V.toStrAll, Except.ok.injEq] at e8
        subst e8
        simp only [mkReadFunc, if_true, Tr.lift, Except.ok.injEq] at hok
        subst hok
        refine ⟨?_, atomOK_func f args hAx _ _ _⟩
        rw [V.toStr]
        simp only [hntr, if_true, hname, Except.map]
        simp
    · -- the name is a variable
      rename_i u hu _
      obtain ⟨_, hem, _, _⟩ := Tr.bind_ok hok
      have hk : (Tr.emit (mkMsg .W_FUNC_DYNAMIC w [(c! "func", Arg.one u)])).val = .error .keyError := rfl
      rw [hk] at hem
      simp at hem

/-! ### all substitutions -/

theorem processSubst_print (env : FEnv) (w : Where) (curly : Bool) (data v : V) (hd : isParsed data = true)
    (text : Str) (ht : data.toStr = .ok text) (ha : ∀ t ∈ data.tokens, AtomOK t)
    (hc : CanonNumbers text) (ho : NoOddSubst ('$' :: brOpen curly :: text ++ [brClose curly]))
    (hok : (processSubst env w curly data).val = .ok v)
    (hl : Lossless (processSubst env w curly data).ev) :
    v.toStr = .ok ('$' :: brOpen curly :: text ++ [brClose curly]) ∧ AtomOK v := by
  have hnil : data.truthy = false → text = [] := by
    intro h
    have := truthy_false (isParsed_text hd) h
    rw [toStr_tokens data (isParsed_text hd), this] at ht
    simpa [V.toStrAll] using ht.symm
  have noColon : ∀ {n : V} {t : Str}, n = .str t → V.str [':'] ∉ n.tokens → t.head? ≠ some ':' := by
    rintro n t rfl h he
    apply h
    rw [tokens_str]
    cases t with
    | nil => simp at he
    | cons c t => simp at he; subst he; simp [chars]
  cases curly with
  | false =>
    simp only [processSubst, Bool.false_eq_true, if_false, processExpression, Tr.pure, Except.ok.injEq] at hok
    subst hok
    have htr : data.truthy = true := by
      cases h : data.truthy with
      | true => rfl
      | false => rw [hnil h] at ho; exact absurd ⟨[], [], rfl⟩ ho.2.1
    constructor
    · rw [V.toStr]
      simp [htr, ht, Except.map, brOpen, brClose]
    · intro k t s l h
      simp only [V.atom.injEq] at h
      left
      intro he
      rw [h.2.1] at ht
      simp only [V.toStr, Except.ok.injEq] at ht
      subst ht
      cases t with
      | nil => simp at he
      | cons c t => simp at he; subst he; exact ho.2.2 ⟨[], t ++ [']'], rfl⟩
  | true =>
    simp only [processSubst, if_true] at hok hl
    unfold processVariable at hok hl
    by_cases hp : data.hasTok '(' = true
    · rw [if_pos hp] at hok hl
      have := readFunction_print env w data v hd text hp ht ha hc hok hl
      exact ⟨by rw [this.1]; rfl, this.2⟩
    · rw [if_neg hp] at hok hl
      by_cases hs : data.hasTok ':' = true
      · rw [if_pos hs] at hok hl
        have hm := parsed_mixed hd _ hs
        obtain ⟨ps, hps, htok, htext⟩ := split_tokens ':' none data hm
        have hne : ps ≠ [] := by
          rintro rfl
          exact splitT_ne _ _ _ htok.symm
        unfold processSlice at hok hl
        obtain ⟨⟨name, start, length⟩, hsl, hok, hev⟩ := Tr.bind_ok hok
        rw [hev] at hl; clear hev
        have hev0 := splitSlice_lossless (Lossless.left hl)
        obtain ⟨_, _, hok, _⟩ := Tr.bind_ok hok
        have hcases := splitSlice_cases w data ps hps hne htext name start length hsl
        rcases hcases.2 with ⟨hleg, _⟩ | ⟨hne', _⟩
        · have hsn : start ≠ .none := by
            rintro rfl
            rcases hleg.1.1 with ⟨n, h⟩ | h
            · simp at h
            · simp [V.isVar] at h
          have hat : ∀ k, AtomOK (.atom k name start length) := by
            intro k k' t s l h
            simp only [V.atom.injEq] at h
            left
            refine noColon h.2.1 ?_
            have : name ∈ ps := by
              have := hcases.1
              cases ps with
              | nil => simp at this
              | cons p ps => simp at this; simp [this]
            exact splitT_short _ none _ (by simp) _ (htok ▸ List.mem_map_of_mem this)
          have pr : ∀ k, k = Kind.slice ∨ k = .dynSlice ∨ k = .funcSlice →
              (V.atom k name start length).toStr = .ok ('$' :: brOpen true :: text ++ [brClose true]) := by
            intro k hk
            obtain ⟨tname, rest, hr, htn, hpr⟩ := legal_print k hk data
              (isParsed_text hd) ps name start length (by rw [htok, sepBy_splitT])
              (split_parsed ':' none data hm ps hps) hleg text ht hc
            rw [hpr name tname htn, hr]
            simp [brOpen, brClose]
          dsimp only at hok
          rw [if_neg hsn] at hok
          split at hok
          · simp only [Tr.pure, Except.ok.injEq] at hok
            subst hok
            exact ⟨pr _ (.inr (.inl rfl)), hat _⟩
          · obtain ⟨_, _, hok, _⟩ := Tr.bind_ok hok
            simp only [Tr.pure, Except.ok.injEq] at hok
            subst hok
            exact ⟨pr _ (.inl rfl), hat _⟩
        · exact absurd hev0 hne'
      · rw [if_neg hs] at hok hl
        obtain ⟨_, _, hok, _⟩ := Tr.bind_ok hok
        simp only [Tr.pure, Except.ok.injEq] at hok
        subst hok
        have htr : data.truthy = true := by
          cases h : data.truthy with
          | true => rfl
          | false => rw [hnil h] at ho; exact absurd ⟨[], [], rfl⟩ ho.1
        constructor
        · rw [V.toStr]
          simp [htr, ht, Except.map, brOpen, brClose]
        · intro k t s l h
          simp only [V.atom.injEq] at h
          left
          refine noColon h.2.1 ?_
          intro hh
          exact hs ((hasTok_skel _ _).2 (List.mem_map_of_mem (f := skel) hh))

/-- Printing the pieces gives back the text. -/
theorem items_print (env : FEnv) (w : Where) (s : Str) :
    ∀ l, (items env w s).val = .ok l → Lossless (items env w s).ev → CanonNumbers s → NoOddSubst s →
      (∀ v ∈ l, isPiece v = true) ∧ V.toStrAll l = .ok s ∧ ∀ t ∈ V.tokensAll l, AtomOK t := by
  induction s using parse_induction with
  | plain s hf =>
    intro l hl _ _ _
    rw [items_none hf] at hl
    simp [Tr.pure] at hl; subst hl
    refine ⟨by simp [isPiece], by simp [toStrAll_single, V.toStr], ?_⟩
    simp only [V.tokensAll, tokens_str, List.append_nil]
    intro t ht
    simp [chars] at ht
    obtain ⟨c, _, rfl⟩ := ht
    exact atomOK_str _
  | opened s pre rest curly hf hb => intro l hl; rw [items_open hf hb] at hl; simp [Tr.raise] at hl
  | subst s pre rest curly inner more tail hf hb ih1 ih2 =>
    intro l hl hless hcan hodd
    rw [items_subst hf hb] at hl hless
    obtain ⟨d, hd, hl, hev⟩ := Tr.bind_ok hl
    rw [hev] at hless; clear hev
    have hl1 := (Lossless.left hless)
    replace hless := (Lossless.right hless)
    obtain ⟨v, hv, hl, hev⟩ := Tr.bind_ok hl
    rw [hev] at hless; clear hev
    have hl2 := (Lossless.left hless)
    replace hless := (Lossless.right hless)
    obtain ⟨t, ht, hl, hev⟩ := Tr.bind_ok hl
    rw [hev] at hless; clear hev
    have hl3 := (Lossless.left hless)
    simp only [Tr.pure, Except.ok.injEq] at hl
    subst hl
    obtain ⟨hpre, rfl⟩ := (findSubst_some ..).1 hf
    obtain ⟨rfl, _⟩ := (enclosesAt_zero ..).1 ((bracketsEnd_iff ..).1 ⟨more, hb⟩)
    have i1 : inner <:+: pre ++ '$' :: brOpen curly :: (inner ++ brClose curly :: tail) :=
      ⟨pre ++ ['$', brOpen curly], brClose curly :: tail, by simp⟩
    have i2 : tail <:+: pre ++ '$' :: brOpen curly :: (inner ++ brClose curly :: tail) :=
      ⟨pre ++ '$' :: brOpen curly :: inner ++ [brClose curly], [], by simp⟩
    have i3 : '$' :: brOpen curly :: inner ++ [brClose curly] <:+:
        pre ++ '$' :: brOpen curly :: (inner ++ brClose curly :: tail) :=
      ⟨pre, tail, by simp⟩
    obtain ⟨hp2, hs2, ha2⟩ := ih2 t ht hl3 (CanonNumbers.infix hcan i2) (NoOddSubst.infix hodd i2)
    have hat := processSubst_atom hv
    have inn : isParsed d = true ∧ d.toStr = .ok inner ∧ ∀ t ∈ d.tokens, AtomOK t := by
      unfold innerVal at hd hl1
      cases more with
      | false =>
        simp [Tr.pure] at hd; subst hd
        refine ⟨rfl, rfl, ?_⟩
        rw [tokens_str]
        intro t ht
        simp [chars] at ht
        obtain ⟨c, _, rfl⟩ := ht
        exact atomOK_str _
      | true =>
        simp only [if_true] at hd hl1
        obtain ⟨l', hl', hd, hev⟩ := Tr.bind_ok hd
        simp [Tr.pure] at hd; subst hd
        rw [hev] at hl1
        obtain ⟨hp1, hs1, ha1⟩ := ih1 l' hl' (Lossless.left hl1) (CanonNumbers.infix hcan i1) (NoOddSubst.infix hodd i1)
        have htx : ∀ v ∈ l', isText v = true := fun v hv => isPiece_text (hp1 v hv)
        refine ⟨join_parsed _ hp1, by rw [join_toStr _ htx, hs1], ?_⟩
        rw [join_tokens _ htx]; exact ha1
    obtain ⟨hdp, hds, hda⟩ := inn
    obtain ⟨hvs, hva⟩ := processSubst_print env w curly d v hdp inner hds hda (CanonNumbers.infix hcan i1)
      (NoOddSubst.infix hodd i3) hv hl2
    refine ⟨?_, ?_, ?_⟩
    · intro x hx
      simp at hx
      rcases hx with rfl | rfl | hx
      · rfl
      · exact hat.1
      · exact hp2 x hx
    · rw [toStrAll_cons, toStrAll_cons, hvs, hs2]
      simp [V.toStr, catE]
    · simp only [V.tokensAll, tokens_str, (atom_tokens hat).1]
      intro x hx
      simp [chars] at hx
      rcases hx with ⟨c, _, rfl⟩ | rfl | hx
      · exact atomOK_str _
      · exact hva
      · exact ha2 x hx

end ALint
