import Verif.Proofs.Args

/-!
# C40, C41, C42, C43, C46, C47: applications and their arguments
-/

namespace ALint.Props
open ALint ALint.Spec

private def w0 : Where := ⟨c! "extensions.conf", 3, []⟩
private def mixed : V := .lst [.str (c! "a,\\"), .atom .var (.str (c! "x")) .none .none, .str (c! ",b,(c,d)")]

/-! ## C40 -/

/-- C40: there is at least one argument, and joining the arguments with the delimiter
gives back the data, character for character and variable for variable. -/
theorem C40_lossless (d : Char) (data : V) :
    separateArgs d false (.one data) ≠ [] ∧
    (∀ p ∈ separateArgs d false (.one data), isText p = true) ∧
    sepBy (.str [d]) ((separateArgs d false (.one data)).map V.tokens) = data.tokens := by
  obtain ⟨h1, h2⟩ := separateArgs_tokens d false data
  refine ⟨?_, h2, ?_⟩
  · intro h
    rw [h] at h1
    exact sepT_ne _ _ _ _ h1.symm
  · rw [h1, sepBy_sepT]

/-- C40: for data without variables: these are texts, and joining gives back the text. -/
theorem C40_strings (d : Char) (s : Str) :
    ∃ parts : List Str, separateArgs d false (.one (.str s)) = parts.map .str ∧ parts ≠ [] ∧
      sepBy d parts = s := by
  refine ⟨_, separateArgs_str d false s, sepC_ne _ _ _ _, ?_⟩
  have h := sepBy_sepT d .init (chars s)
  rw [sepT_chars] at h
  apply chars_inj
  rw [← h]
  generalize sepC d false .init s = gs
  induction gs with
  | nil => rfl
  | cons g gs ih =>
    cases gs with
    | nil => rfl
    | cons g' gs =>
      simp only [sepBy, List.map_cons] at ih ⊢
      rw [← ih]
      simp [chars]

/-- C40: there is at least one argument in the other mode, too. -/
theorem C40_some (d : Char) (rm : Bool) (data : V) : separateArgs d rm (.one data) ≠ [] := by
  obtain ⟨h1, _⟩ := separateArgs_tokens d rm data
  intro h
  rw [h] at h1
  exact sepT_ne _ _ _ _ h1.symm

example : separateArgs ',' false (.one mixed) = [.str (c! "a"),
    .lst [.str (c! "\\"), .atom .var (.str (c! "x")) .none .none, .str (c! ",b")], .str (c! "(c,d)")] := by
  decide

/-! ## C41 -/

/-- C41: escape the special characters, join, split with removal: the list is back. -/
theorem C41_roundtrip (d : Char) (hd : d ∉ sepSpecial) (args : List Str) (h : args ≠ []) :
    separateArgs d true (.one (.str (sepBy d (args.map (escapeArg d))))) = args.map .str := by
  rw [separateArgs_str, sepC_join hd args h]

example : sepBy ',' ([c! "a,b", c! "", c! "(\"\\"].map (escapeArg ',')) = c! "a\\,b,,\\(\\\"\\\\" := by decide
example : separateArgs ',' true (.one (.str (c! "a\\,b,,\\(\\\"\\\\"))) =
    [.str (c! "a,b"), .str [], .str (c! "(\"\\")] := by decide

/-! ## C42 -/

/-- C42: a delimiter in the data separates two arguments (those before it make up what is
in front of it) iff it is at top level. -/
theorem C42_boundary (d : Char) (hd : d ∉ sepSpecial) (data : V) (pre post : List V)
    (h : data.tokens = pre ++ .str [d] :: post) :
    TopLevel (letters pre) ↔ ∃ l r : List V, l ≠ [] ∧ r ≠ [] ∧
      separateArgs d false (.one data) = l ++ r ∧ pre = sepBy (.str [d]) (l.map V.tokens) := by
  obtain ⟨h1, _⟩ := separateArgs_tokens d false data
  have hq : d ≠ '"' := by rintro rfl; simp [sepSpecial] at hd
  have htok : ∀ t ∈ pre, isTok t = true := fun t ht => tokens_isTok data t (by rw [h]; simp [ht])
  rw [← top_iff hd false, ← sepRun_letters d hq false pre htok]
  constructor
  · intro hs
    have hsplit := sepT_at d .init pre (.str [d]) post hs
    rw [← h, ← h1] at hsplit
    obtain ⟨l, r, e, hl, hr⟩ := List.map_eq_append_iff.1 hsplit
    refine ⟨l, r, ?_, ?_, e, ?_⟩
    · rintro rfl; exact sepT_ne _ _ _ _ hl.symm
    · rintro rfl; exact sepT_ne _ _ _ _ hr.symm
    · rw [hl, sepBy_sepT]
  · rintro ⟨l, r, hl, hr, e, hp⟩
    have := sepT_bound d .init data.tokens (l.map V.tokens) (r.map V.tokens) (by simpa using hl)
      (by simpa using hr) (by rw [← h1, e, List.map_append])
    rw [← hp] at this
    exact this

/-- C42: text without brackets, quotes and backslashes is split at every delimiter: no
argument has one. -/
theorem C42_plain (d : Char) (hd : d ∉ sepSpecial) (rm : Bool) (s : Str) (h : ∀ c ∈ s, c ∉ sepSpecial) :
    ∃ parts : List Str, separateArgs d rm (.one (.str s)) = parts.map .str ∧ sepBy d parts = s ∧
      ∀ p ∈ parts, d ∉ p :=
  ⟨_, separateArgs_str d rm s, sepC_plain hd rm s h⟩

/-- C42: with removal the arguments are the same, without quotes and backslashes. -/
theorem C42_removal (d : Char) (hd : d ≠ '"') (s : Str) :
    ∃ parts : List Str, separateArgs d false (.one (.str s)) = parts.map .str ∧
      separateArgs d true (.one (.str s)) = (parts.map unquote).map .str := by
  refine ⟨_, separateArgs_str d false s, ?_⟩
  rw [separateArgs_str]
  congr 1
  have h := sepT_remove d hd .init (chars s)
  rw [sepT_chars, sepT_chars] at h
  have h' : (sepC d true .init s).map chars = ((sepC d false .init s).map unquote).map chars := by
    rw [h]
    show unqHead false _ = _
    rw [unqHead_false, List.map_map, List.map_map]
    apply List.map_congr_left
    intro g _
    simp [unqT_chars]
  revert h'
  generalize sepC d true .init s = a
  generalize (sepC d false .init s).map unquote = b
  intro h'
  induction a generalizing b with
  | nil => cases b <;> simp at h' ⊢
  | cons x a ih =>
    cases b with
    | nil => simp at h'
    | cons y b =>
      simp only [List.map_cons, List.cons.injEq] at h'
      rw [chars_inj h'.1, ih b h'.2]

example : TopLevel (c! "a\\\\(\"x)\"[y])") := by
  have h := (top_iff (d := ',') (by decide) false (c! "a\\\\(\"x)\"[y])")).1
  exact h (by decide)
example : ¬ TopLevel (c! "a(b") := by
  rintro ⟨_, _, h, _⟩
  exact h ⟨c! "a", c! "b", by decide, by
    intro p hp
    have : p = [] ∨ p = ['b'] := by
      rcases List.prefix_cons_iff.1 hp with h | ⟨t, h, ht⟩
      · exact .inl h
      · right; rw [h]; simp at ht; rw [ht]
    rcases this with rfl | rfl <;> decide⟩
example : mixed.tokens = [.str ['a']] ++ .str [','] :: mixed.tokens.drop 2 := by decide

/-! ## C43 -/

theorem callArgs_eq (w : Where) (name : Str) (mn : Option Nat) (behs : List ArgBeh) (data : V) :
    callArgs w name mn behs data =
      ⟨(minMaxCheck w name mn (some behs.length) (separateArgs ',' false (.one data))).ev ++
        ((validateArgs w name 1 behs (separateArgs ',' false (.one data))).ev ++
          ((pipeCheck w name data (separateArgs ',' false (.one data))).ev ++ [])),
        .ok (separateArgs ',' false (.one data))⟩ := by
  unfold callArgs
  rw [Tr.bind_unit (minMax_val ..), Tr.bind_unit (validateArgs_val ..), Tr.bind_unit (pipe_val ..)]
  rfl

/-- C43: for an application with the given minimum and descriptions of arguments, "too few"
is issued iff fewer than the minimum are given, "too many" iff more than there are
descriptions; each once.  The check never fails. -/
theorem C43_counts (w : Where) (name : Str) (mn : Option Nat) (behs : List ArgBeh) (data : V)
    (hb : behs ≠ []) (hm : ∀ m, mn = some m → m ≤ behs.length) :
    (callArgs w name mn behs data).val = .ok (separateArgs ',' false (.one data)) ∧
    countKind .E_APP_ARG_FEW (callArgs w name mn behs data).ev =
      (if given (separateArgs ',' false (.one data)) < mn.getD 0 then 1 else 0) ∧
    countKind .E_APP_ARG_MANY (callArgs w name mn behs data).ev =
      (if behs.length < given (separateArgs ',' false (.one data)) then 1 else 0) := by
  obtain ⟨c1, c2, _⟩ := C40_lossless ',' data
  obtain ⟨h1, h2, _⟩ := minMax_counts w name mn behs.length _ c1 c2
    (by cases behs <;> simp at hb ⊢) hm
  rw [callArgs_eq]
  simp only [countKind_append, h1, h2]
  have v := validateArgs_number w name 1 behs (separateArgs ',' false (.one data))
  have p := pipe_kinds w name data (separateArgs ',' false (.one data))
  have z : ∀ k : MK, k ≠ .E_APP_ARG_BADOPT → k ≠ .E_APP_ARG_DUPEOPT → k ≠ .E_APP_ARG_PIPEDELIM →
      countKind k (validateArgs w name 1 behs (separateArgs ',' false (.one data))).ev = 0 ∧
      countKind k (pipeCheck w name data (separateArgs ',' false (.one data))).ev = 0 := by
    intro k k1 k2 k3
    constructor
    · apply countKind_zero
      intro m hm e
      rcases (v m hm).1 with h | h
      · exact k1 (e ▸ h)
      · exact k2 (e ▸ h)
    · apply countKind_zero
      intro m hm e
      exact k3 (e ▸ p m hm)
  have z1 := z .E_APP_ARG_FEW (by decide) (by decide) (by decide)
  have z2 := z .E_APP_ARG_MANY (by decide) (by decide) (by decide)
  rw [z1.1, z1.2, z2.1, z2.2]
  exact ⟨trivial, rfl, rfl⟩

/-- C43: the same for the one to three arguments of `Goto` and `Gosub`. -/
theorem C43_jump_counts (w : Where) (name : Str) (data : V) :
    (jumpArgs w name data).val = .ok (separateArgs ',' false (.one data)) ∧
    countKind .E_APP_ARG_FEW (jumpArgs w name data).ev =
      (if given (separateArgs ',' false (.one data)) < 1 then 1 else 0) ∧
    countKind .E_APP_ARG_MANY (jumpArgs w name data).ev =
      (if 3 < given (separateArgs ',' false (.one data)) then 1 else 0) := by
  obtain ⟨c1, c2, _⟩ := C40_lossless ',' data
  obtain ⟨h1, h2, _⟩ := minMax_counts w name (some 1) 3 _ c1 c2 (by omega) (by simp)
  have p := pipe_kinds w name data (separateArgs ',' false (.one data))
  unfold jumpArgs
  rw [Tr.bind_unit (minMax_val ..), Tr.bind_unit (pipe_val ..)]
  simp only [countKind_append, h1, h2]
  rw [countKind_zero (k := .E_APP_ARG_FEW) (fun m hm e => by have := p m hm; rw [e] at this; simp at this),
    countKind_zero (k := .E_APP_ARG_MANY) (fun m hm e => by have := p m hm; rw [e] at this; simp at this)]
  exact ⟨rfl, rfl, rfl⟩

/-- C43: an argument described as options: "unrecognised options" is issued once, with the
letters outside the allowed set, iff there are such letters; "duplicate options" once iff
a letter occurs twice. -/
theorem C43_options (w : Where) (name : Str) (mn : Option Nat) (behs : List ArgBeh) (data : V)
    (hb : behs ≠ []) (hm : ∀ m, mn = some m → m ≤ behs.length) (i : Nat) (opts : Str) (a : V)
    (h1 : behs[i]? = some (.options opts)) (h2 : (separateArgs ',' false (.one data))[i]? = some a) :
    about .E_APP_ARG_BADOPT (i + 1) (callArgs w name mn behs data).ev =
      (if ∀ c ∈ letters a.tokens, c ∈ opts then [] else
        [mkMsg .E_APP_ARG_BADOPT w [(c! "argno", natV (i + 1)), (c! "app", strV name),
          (c! "opts", strV ((letters a.tokens).filter fun c => decide (c ∉ opts)))]]) ∧
    about .E_APP_ARG_DUPEOPT (i + 1) (callArgs w name mn behs data).ev =
      (if (letters a.tokens).Nodup then [] else
        [mkMsg .E_APP_ARG_DUPEOPT w [(c! "argno", natV (i + 1)), (c! "app", strV name), (c! "opts", .one a)]]) := by
  obtain ⟨c1, c2, _⟩ := C40_lossless ',' data
  obtain ⟨_, _, h3⟩ := minMax_counts w name mn behs.length _ c1 c2
    (by cases behs <;> simp at hb ⊢) hm
  have p := pipe_kinds w name data (separateArgs ',' false (.one data))
  have z : ∀ k : MK, k ≠ .E_APP_ARG_PIPEDELIM →
      about k (i + 1) (pipeCheck w name data (separateArgs ',' false (.one data))).ev = [] := by
    intro k k3
    apply about_nil
    intro m hm e
    exact absurd (e ▸ p m hm) k3
  obtain ⟨o1, o2⟩ := validate_options w name (1 + i) opts a
  have hbad : (∀ c ∈ letters a.tokens, c ∈ opts) ↔
      (letters a.tokens).filter (fun c => decide (c ∉ opts)) = [] := by
    rw [List.filter_eq_nil_iff]; simp
  rw [callArgs_eq]
  simp only [about_append, h3, z .E_APP_ARG_BADOPT (by decide), z .E_APP_ARG_DUPEOPT (by decide),
    List.nil_append, List.append_nil, hbad]
  rw [show i + 1 = 1 + i by omega, validateArgs_about _ w name 1 behs _ i _ a h1 h2,
    validateArgs_about _ w name 1 behs _ i _ a h1 h2, o1, o2]
  exact ⟨rfl, rfl⟩

/-- C43: no such message is about an argument without restriction or one that is not
there. -/
theorem C43_no_options (w : Where) (name : Str) (mn : Option Nat) (behs : List ArgBeh) (data : V)
    (hb : behs ≠ []) (hm : ∀ m, mn = some m → m ≤ behs.length) (i : Nat)
    (h : behs[i]? = none ∨ behs[i]? = some .any ∨ (separateArgs ',' false (.one data))[i]? = none) :
    ∀ k, about k (i + 1) (callArgs w name mn behs data).ev = [] := by
  intro k
  obtain ⟨c1, c2, _⟩ := C40_lossless ',' data
  obtain ⟨_, _, h3⟩ := minMax_counts w name mn behs.length _ c1 c2
    (by cases behs <;> simp at hb ⊢) hm
  have z : about k (i + 1) (pipeCheck w name data (separateArgs ',' false (.one data))).ev = [] := by
    unfold pipeCheck
    split
    · split <;> simp [about, msgs, Tr.emit, Tr.pure, mkMsg, List.lookup]
    · rfl
  rw [callArgs_eq]
  simp only [about_append, h3, z, List.nil_append, List.append_nil]
  rw [show i + 1 = 1 + i by omega, validateArgs_none k w name 1 behs _ i h]

example : (callArgs w0 (c! "Verbose") (some 1) [.any, .options (c! "ab")] (.str (c! "x,abbc"))).ev =
    [.msg (mkMsg .E_APP_ARG_BADOPT w0 [(c! "argno", natV 2), (c! "app", strV (c! "Verbose")), (c! "opts", strV (c! "c"))]),
     .msg (mkMsg .E_APP_ARG_DUPEOPT w0 [(c! "argno", natV 2), (c! "app", strV (c! "Verbose")),
       (c! "opts", .one (.str (c! "abbc")))])] := by decide
example : countKind .E_APP_ARG_FEW (callArgs w0 (c! "Verbose") (some 1) [.any] (.str [])).ev = 1 := by decide
example : countKind .E_APP_ARG_MANY (callArgs w0 (c! "Verbose") (some 1) [.any] (.str (c! "a,b"))).ev = 1 := by
  decide

/-! ## C47 -/

/-- One turn of the loop `while len(jumpdest) != 3: jumpdest.insert(0, None)`. -/
def padTurn (l : List V) : List V := .none :: l

/-- The turns taken so far do not end the loop. -/
def padTurns : Nat → List V → List V
  | 0, l => l
  | n + 1, l => padTurns n (padTurn l)

theorem padTurns_length (n : Nat) (l : List V) : (padTurns n l).length = n + l.length := by
  induction n generalizing l with
  | zero => simp [padTurns]
  | succ n ih => rw [padTurns, ih]; simp [padTurn]; omega

/-- C47: what the model says about the padding loop is what the loop does: it ends with
the given parts iff after some number of turns the length is three for the first time. -/
theorem C47_loop (args : List V) (c e p : V) :
    padJump args = .ok ⟨c, e, .one p⟩ ↔
      ∃ n, padTurns n args = [c, e, p] ∧ ∀ m, m < n → (padTurns m args).length ≠ 3 := by
  constructor
  · intro h
    match args with
    | [] => simp [padJump] at h; obtain ⟨rfl, rfl, rfl⟩ := h
            exact ⟨3, rfl, by intro m hm; rw [padTurns_length]; simp; omega⟩
    | [a] => simp [padJump] at h; obtain ⟨rfl, rfl, rfl⟩ := h
             exact ⟨2, rfl, by intro m hm; rw [padTurns_length]; simp; omega⟩
    | [a, b] => simp [padJump] at h; obtain ⟨rfl, rfl, rfl⟩ := h
                exact ⟨1, rfl, by intro m hm; rw [padTurns_length]; simp; omega⟩
    | [a, b, d] => simp [padJump] at h; obtain ⟨rfl, rfl, rfl⟩ := h
                   exact ⟨0, rfl, by intro m hm; omega⟩
    | a :: b :: d :: f :: rest => simp [padJump] at h
  · rintro ⟨n, h1, _⟩
    have hl := congrArg List.length h1
    rw [padTurns_length] at hl
    simp at hl
    match args, n with
    | [], 3 => simp [padTurns, padTurn] at h1; obtain ⟨rfl, rfl, rfl⟩ := h1; rfl
    | [a], 2 => simp [padTurns, padTurn] at h1; obtain ⟨rfl, rfl, rfl⟩ := h1; rfl
    | [a, b], 1 => simp [padTurns, padTurn] at h1; obtain ⟨rfl, rfl, rfl⟩ := h1; rfl
    | [a, b, d], 0 => simp [padTurns] at h1; obtain ⟨rfl, rfl, rfl⟩ := h1; rfl
    | [], 0 | [], 1 | [], 2 | [_], 0 | [_], 1 | [_, _], 0 => simp at hl
    | [], n + 4 | [_], n + 3 | [_, _], n + 2 | [_, _, _], n + 1 => simp at hl; try omega
    | _ :: _ :: _ :: _ :: rest, n => simp at hl; omega

/-- C47 is violated: with more than three arguments the loop never ends. -/
theorem C47_violated_hang (args : List V) (h : 3 < args.length) :
    padJump args = .error .hang ∧ ∀ n, (padTurns n args).length ≠ 3 := by
  constructor
  · match args with
    | a :: b :: c :: d :: rest => rfl
    | [] | [_] | [_, _] | [_, _, _] => simp at h
  · intro n; rw [padTurns_length]; omega

/-- C47 is violated: so `Goto(a,b,c,d)` does not terminate, wherever it occurs. -/
theorem C47_violated_goto (env : FEnv) (inner : Option Str → Arg → Tr (Option Str)) (sp : Option Str)
    (w : Where) (name module : Str) :
    (callApp env inner sp w ⟨name, module, .goto⟩ (.str (c! "a,b,c,d"))).val = .error .hang := rfl

/-- C47: with at most three arguments the parts are right-aligned. -/
theorem C47_aligned (args : List V) (h : args.length ≤ 3) :
    ∃ c e p, padJump args = .ok ⟨c, e, .one p⟩ ∧ Aligned args c e p := by
  match args with
  | [] => exact ⟨_, _, _, rfl, rfl⟩
  | [a] => exact ⟨_, _, _, rfl, rfl⟩
  | [a, b] => exact ⟨_, _, _, rfl, rfl⟩
  | [a, b, c] => exact ⟨_, _, _, rfl, rfl⟩
  | _ :: _ :: _ :: _ :: _ => simp at h

/-- C47, in part: `Goto` with at most three arguments has one destination, in which the
arguments are right-aligned. -/
theorem C47_goto_partial (env : FEnv) (inner : Option Str → Arg → Tr (Option Str)) (sp : Option Str)
    (w : Where) (name module : Str) (data : V) (h : (separateArgs ',' false (.one data)).length ≤ 3) :
    ∃ c e p, (callApp env inner sp w ⟨name, module, .goto⟩ data).val = .ok (sp, [⟨c, e, .one p⟩]) ∧
      Aligned (separateArgs ',' false (.one data)) c e p := by
  obtain ⟨c, e, p, h1, h2⟩ := C47_aligned _ h
  refine ⟨c, e, p, ?_, h2⟩
  obtain ⟨j, _⟩ := C43_jump_counts w name data
  simp only [callApp]
  rw [(Tr.bind_val_ok j).1, (Tr.bind_val_ok (show (Tr.lift (padJump _)).val = .ok _ from h1)).1]
  rfl

theorem mapM_aligned (as : List Arg) (h : ∀ a ∈ as, (separateArgs ',' true a).length ≤ 3) :
    ∃ js, (Tr.mapM (fun a => Tr.lift (padJump (separateArgs ',' true a))) as).val = .ok js ∧
      Zips (fun (a : Arg) (j : Jump) => ∃ c e p, j = ⟨c, e, .one p⟩ ∧
        Aligned (separateArgs ',' true a) c e p) as js := by
  induction as with
  | nil => exact ⟨[], rfl, .nil⟩
  | cons a as ih =>
    obtain ⟨js, i1, i2⟩ := ih (fun a ha => h a (by simp [ha]))
    obtain ⟨c, e, p, h1, h2⟩ := C47_aligned _ (h a (by simp))
    refine ⟨⟨c, e, .one p⟩ :: js, ?_, .cons ⟨c, e, p, rfl, h2⟩ i2⟩
    rw [Tr.mapM, (Tr.bind_val_ok (show (Tr.lift (padJump _)).val = .ok _ from h1)).1, (Tr.bind_val_ok i1).1]
    rfl

/-- C47, in part: `GotoIf` has one destination for each action that is not empty, in order,
if its data can be taken apart and each action has at most three arguments. -/
theorem C47_gotoif_partial (env : FEnv) (inner : Option Str → Arg → Tr (Option Str)) (sp : Option Str)
    (w : Where) (name module : Str) (data : V) (p : V × Arg × V) (hp : (condSplit w name data).val = .ok p)
    (h : ∀ a ∈ actions p.2, (separateArgs ',' true a).length ≤ 3) :
    ∃ js, (callApp env inner sp w ⟨name, module, .gotoIf⟩ data).val = .ok (sp, js) ∧
      Zips (fun (a : Arg) (j : Jump) => ∃ c e p, j = ⟨c, e, .one p⟩ ∧
        Aligned (separateArgs ',' true a) c e p) (actions p.2) js := by
  obtain ⟨js, h1, h2⟩ := mapM_aligned _ h
  refine ⟨js, ?_, h2⟩
  simp only [callApp]
  rw [(Tr.bind_val_ok hp).1, (Tr.bind_val_ok h1).1]
  rfl

/-- The priority of a `Gosub`: what is in front of the first parenthesis. -/
theorem gosubPrio_val (w : Where) (p : V) : ∃ a, (gosubPrio w p).val = .ok a ∧
    V.tokensAll a.iter = p.tokens.takeWhile (· ≠ .str ['(']) := by
  unfold gosubPrio
  by_cases h : p.hasTok '(' = true
  · rw [if_pos h]
    refine ⟨p.getSlice 0 (firstParen p.tokens), ?_, ?_⟩
    · split <;> rfl
    · rw [getSlice_tokens]
      simp only [List.drop_zero, Nat.sub_zero, firstParen]
      generalize p.tokens = l
      induction l with
      | nil => rfl
      | cons t l ih =>
        rw [List.findIdx_cons, List.takeWhile_cons]
        by_cases ht : t = .str ['(']
        · simp [ht]
        · have hb : (t == V.str ['(']) = false := by simpa using ht
          simp only [hb, cond_false, List.take_succ_cons, ih, ne_eq, ht, not_false_eq_true, decide_true, if_true]
  · rw [if_neg h]
    refine ⟨.one p, rfl, ?_⟩
    show V.tokensAll p.tokens = _
    rw [tokensAll_toks _ (tokens_isTok p)]
    symm
    simp only [V.hasTok, List.any_eq_true, not_exists, not_and] at h
    revert h
    generalize p.tokens = l
    intro h
    induction l with
    | nil => rfl
    | cons t l ih =>
      have h1 := h t (by simp)
      have h1 : t ≠ V.str ['('] := by simpa using h1
      rw [List.takeWhile_cons, ih (fun t ht => h t (by simp [ht]))]
      simp [h1]

theorem joinExcess_tokens (c : V) (l : List V) (hc : isText c = true) (hm : ∀ x ∈ l, isText x = true) :
    (joinExcess c l).tokens = sepBy (.str [',']) ((c :: l).map V.tokens) := by
  unfold joinExcess
  rw [join_tokens]
  · induction l generalizing c with
    | nil => simp [V.tokensAll, sepBy]
    | cons x l ih =>
      have := ih x (hm x (by simp)) (fun y hy => hm y (by simp [hy]))
      simp only [List.flatMap_cons, List.map_cons, V.tokensAll, List.cons_append, List.nil_append,
        sepBy, V.tokens, List.map_nil] at this ⊢
      rw [this]
  · intro v hv
    rcases List.mem_cons.1 hv with rfl | hv
    · exact hc
    · obtain ⟨i, hi, hv⟩ := List.mem_flatMap.1 hv
      simp at hv
      rcases hv with rfl | rfl
      · rfl
      · exact hm _ hi

/-- C47: `Gosub` always has one destination; the first two arguments (if there are three or
more) are context and extension, missing parts are absent, the priority is what is in
front of the first parenthesis of the rest (with its commas). -/
theorem C47_gosub (w : Where) (name : Str) (warn : Bool) (args : List V) (h : args ≠ [])
    (ht : ∀ a ∈ args, isText a = true) :
    ∃ c e p rest, (gosubDest w name warn args).val = .ok ⟨c, e, p⟩ ∧
      Aligned (args.take 2 ++ (if args.length ≤ 2 then [] else [rest])) c e
        (if args.length ≤ 2 then args.getLast h else rest) ∧
      (2 < args.length → rest.tokens = sepBy (.str [',']) ((args.drop 2).map V.tokens)) ∧
      V.tokensAll p.iter =
        (if args.length ≤ 2 then args.getLast h else rest).tokens.takeWhile (· ≠ .str ['(']) := by
  match args, h with
  | [a], _ =>
    obtain ⟨p, h1, h2⟩ := gosubPrio_val w a
    refine ⟨.none, .none, p, .none, ?_, rfl, by simp, by simpa using h2⟩
    simp only [gosubDest]; rw [(Tr.bind_val_ok h1).1]; rfl
  | [a, b], _ =>
    obtain ⟨p, h1, h2⟩ := gosubPrio_val w b
    refine ⟨.none, a, p, .none, ?_, rfl, by simp, by simpa using h2⟩
    simp only [gosubDest]; rw [(Tr.bind_val_ok h1).1]; rfl
  | [a, b, c], _ =>
    obtain ⟨p, h1, h2⟩ := gosubPrio_val w c
    refine ⟨a, b, p, c, ?_, rfl, by simp [sepBy], by simpa using h2⟩
    simp only [gosubDest]; rw [(Tr.bind_val_ok h1).1]; rfl
  | a :: b :: c :: d :: more, _ =>
    obtain ⟨p, h1, h2⟩ := gosubPrio_val w (joinExcess c (d :: more))
    refine ⟨a, b, p, joinExcess c (d :: more), ?_, rfl, ?_, by simpa using h2⟩
    · simp only [gosubDest]
      rw [(Tr.bind_val_ok (a := ()) (by cases warn <;> rfl)).1, (Tr.bind_val_ok h1).1]; rfl
    · intro _
      have hc := ht c (by simp)
      have hm : ∀ x ∈ d :: more, isText x = true := fun x hx => ht x (by simp at hx ⊢; exact .inr (.inr (.inr hx)))
      exact joinExcess_tokens c (d :: more) hc hm

example : (gosubDest w0 (c! "Gosub") false [.str (c! "ctx"), .str (c! "s"), .str (c! "1(a"), .str (c! "b)")]).val =
    .ok ⟨.str (c! "ctx"), .str (c! "s"), .one (.str (c! "1"))⟩ := by decide
example : padJump [.str (c! "s"), .str (c! "1")] = .ok ⟨.none, .str (c! "s"), .one (.str (c! "1"))⟩ := by decide

end ALint.Props
