import Verif.Props.Clean
import Verif.Props.Text

/-!
# C76 continued: applications with substitutions in their data
-/

namespace ALint

theorem contains_infix (sub s : Str) : contains sub s = true ↔ sub <:+: s := by
  induction s with
  | nil => simp [contains]
  | cons c s ih => rw [contains, List.infix_cons_iff, Bool.or_eq_true, ih, List.isPrefixOf_iff_prefix]

namespace Props
open ALint ALint.Spec

theorem join_chars (s : Str) : join (s.map fun c => V.str [c]) = .str s := by
  rw [← join_single (v := .str s) rfl]
  refine join_determined (by simp [isPiece]) (by simp [isPiece]) ?_
  rw [tokensAll_toks _ (by simp [isTok])]
  simp [V.tokensAll, V.tokens]

theorem used_silent (env : FEnv) (w : Where) (t : Txt) : evMsgs (t.used env w) = [] := by
  have key : ∀ a b : List Ev, evMsgs (a ++ b) = evMsgs a ++ evMsgs b := fun a b => List.filterMap_append
  induction t with
  | nil => rfl
  | text s r ih => exact ih
  | var n r ih => exact ih
  | sub n s l r ih => exact ih
  | call f a r iha ih =>
    rw [Txt.used, key, iha]
    exact ih
  | expr e r ihe ih => rw [Txt.used, key, ihe, ih]; rfl

/-- The name as registered, and data in order. -/
structure TextCall (env : DEnv) (name : Str) (data : Txt) (a : AppInfo) : Prop where
  depth : 0 < env.depth
  known : env.apps (env.lower name) = some a
  spelled : a.name = name
  named : name ≠ [] ∧ '(' ∉ name ∧ NoLead name ∧ NoTrail name
  good : GoodTxt env.toFEnv false data

theorem parseInner_text (env : FEnv) (w : Where) (app : Str) (t : Txt) (h : GoodTxt env false t) :
    parseInner env w app t.write = ⟨t.used env w, .ok (join t.meaning)⟩ := by
  have hp := C77_understood env w t h
  unfold parseInner
  split
  · rw [hp]; rfl
  · rename_i hc
    rw [← hp]
    have : ¬ HasSubst t.write := by
      rw [Bool.or_eq_true, contains_infix, contains_infix] at hc
      exact hc
    rw [C32_plain env w _ this]

/-- An application inside another one. -/
def innerApp (env : DEnv) (w : Where) (sp : Option Str) (raw : Arg) : Tr (Option Str) :=
  .bind (runApp env.toAEnv (env.depth - 1) sp w raw) fun r => .pure r.1

/-- Running it: the application is noted, then what the data uses, and it is called. -/
theorem runApp_text {env : DEnv} {name : Str} {data : Txt} {a : AppInfo} (h : TextCall env name data a)
    (hb : a.beh ≠ .background) (sp : Option Str) (w : Where) :
    runApp env.toAEnv env.depth sp w (strV (name ++ '(' :: (data.write ++ [')']))) =
      ⟨.app (env.lower name) :: (data.used env.toFEnv w ++ (callApp env.toFEnv (innerApp env w) sp w a (join data.meaning)).ev),
        (callApp env.toFEnv (innerApp env w) sp w a (join data.meaning)).val⟩ := by
  have hd := h.depth
  obtain ⟨d, hd⟩ : ∃ d, env.depth = d + 1 := ⟨env.depth - 1, by omega⟩
  have hi : innerApp env w = fun sp raw => .bind (runApp env.toAEnv d sp w raw) fun r => .pure r.1 := by
    unfold innerApp
    rw [show env.depth - 1 = d by omega]
  rw [hi]
  have hs : splitAppData env.toFEnv w (strV (name ++ '(' :: (data.write ++ [')']))) = .pure (some (name, data.write)) := by
    obtain ⟨h1, h2, h3, h4⟩ := h.named
    exact splitApp_named h1 h2 h3 h4 data.write w
  rw [hd, runApp, hs, Tr.pure_bind]
  have hga : getApp env.toAEnv sp w name = ⟨[.app (env.lower name)], .ok (a, sp)⟩ := by
    simp [getApp, h.known, checkAvailability, appName, hb, h.spelled, chooseSpelling, Tr.note, Tr.bind, Tr.pure]
  show Tr.bind (getApp env.toAEnv sp w name) _ = _
  rw [hga, parseInner_text env.toFEnv w name data h.good]
  simp [Tr.bind]

/-- So it is enough that the call is silent. -/
theorem quiet_text {env : DEnv} {name : Str} {data : Txt} {a : AppInfo} (h : TextCall env name data a)
    (hb : a.beh ≠ .background) (js : List Jump)
    (hc : ∀ inner sp w, callApp env.toFEnv inner sp w a (join data.meaning) = .pure (sp, js)) :
    QuietApp env (name ++ '(' :: (data.write ++ [')'])) js := by
  intro sp w
  rw [runApp_text h hb sp w, hc]
  refine ⟨_, sp, rfl, ?_⟩
  simpa [Tr.pure, evMsgs] using used_silent env.toFEnv w data

theorem text_tokens (t : Txt) : (join t.meaning).tokens = V.tokensAll t.meaning :=
  join_tokens _ fun v hv => isPiece_text (meaning_piece t v hv)

/-- C76: nothing is reported about an application that only wants its data balanced. -/
theorem C76_plain_text {env : DEnv} {name : Str} {data : Txt} {a : AppInfo} (h : TextCall env name data a)
    (hb : a.beh = .plain) (hbal : Bal (join data.meaning).tokens) :
    QuietApp env (name ++ '(' :: (data.write ++ [')'])) [] := by
  refine quiet_text h (by simp [hb]) [] fun inner sp w => ?_
  simp [callApp, hb, appBalance, (C38_balance _).2 hbal, Tr.bind, Tr.pure]

theorem append_write (a b : Txt) : (a.append b).write = a.write ++ b.write := by
  induction a with
  | nil => rfl
  | _ => simp_all [Txt.append, Txt.write]

theorem append_meaning (a b : Txt) : (a.append b).meaning = a.meaning ++ b.meaning := by
  induction a with
  | nil => rfl
  | _ => simp_all [Txt.append, Txt.meaning]

theorem commas_write (ts : List Txt) : (Txt.commas ts).write = sepBy ',' (ts.map (·.write)) := by
  induction ts with
  | nil => rfl
  | cons t ts ih =>
    cases ts with
    | nil => rfl
    | cons u ts => simp [Txt.commas, append_write, sepBy, Txt.write, ih]

theorem commas_tokens (ts : List Txt) :
    V.tokensAll (Txt.commas ts).meaning = sepBy (.str [',']) (ts.map fun t => V.tokensAll t.meaning) := by
  induction ts with
  | nil => rfl
  | cons t ts ih =>
    cases ts with
    | nil => rfl
    | cons u ts => simp [Txt.commas, append_meaning, sepBy, Txt.meaning, tokensAll_append, V.tokensAll, V.tokens, ih]

/-- Arguments in whose text no character has a meaning; a single one is not empty and has no `|`. -/
structure PlainTexts (args : List Txt) : Prop where
  chars : ∀ a ∈ args, ∀ c, V.str [c] ∈ V.tokensAll a.meaning → c ∉ sepSpecial ∧ c ≠ ','
  one : ∀ a, args = [a] → V.tokensAll a.meaning ≠ [] ∧ V.str ['|'] ∉ V.tokensAll a.meaning
  some : args ≠ []

theorem separate_texts {args : List Txt} (h : PlainTexts args) (rm : Bool) :
    separateArgs ',' rm (.one (join (Txt.commas args).meaning)) = args.map fun a => join a.meaning := by
  rw [separateArgs_join, text_tokens, commas_tokens, sepT_plain (by decide) (by simpa using h.some)]
  · rw [List.map_map]
    apply List.map_congr_left
    intro a _
    refine join_determined (fun t ht => isTok_piece (tokensAll_isTok _ t ht)) (meaning_piece a) ?_
    rw [tokensAll_toks _ (tokensAll_isTok _)]
  · intro p hp t ht
    obtain ⟨a, ha, rfl⟩ := List.mem_map.1 hp
    rintro c rfl
    exact h.chars a ha c ht

theorem hasTok_text {c : Char} {t : Txt} (h : V.str [c] ∉ V.tokensAll t.meaning) : (join t.meaning).hasTok c = false := by
  rw [V.hasTok, text_tokens, List.any_eq_false]
  intro v hv
  simp only [beq_iff_eq]
  rintro rfl
  exact h hv

theorem text_isText (t : Txt) : isText (join t.meaning) = true :=
  join_text _ fun v hv => isPiece_text (meaning_piece t v hv)

theorem truthy_text {t : Txt} (h : V.tokensAll t.meaning ≠ []) : (join t.meaning).truthy = true := by
  rw [truthy_iff (text_isText t), text_tokens]
  exact h

theorem pipeCheck_texts {args : List Txt} (h : PlainTexts args) (w : Where) (name : Str) (data : V) :
    pipeCheck w name data (args.map fun a => join a.meaning) = .pure () := by
  match args, h with
  | [], h => exact absurd rfl h.some
  | [a], h => simp [pipeCheck, hasTok_text (h.one a rfl).2]
  | _ :: _ :: _, _ => rfl

theorem minMax_texts {args : List Txt} (h : PlainTexts args) (w : Where) (name : Str) (mn mx : Option Nat)
    (h1 : ∀ m, mn = some m → m ≤ args.length) (h2 : ∀ m, mx = some m → args.length ≤ m) :
    minMaxCheck w name mn mx (args.map fun a => join a.meaning) = .pure () := by
  have e1 : minMaxCheck.tooFew mn (args.map fun a => join a.meaning) = false := by
    cases mn with
    | none => rfl
    | some m =>
      have := h1 m rfl
      match args, h with
      | [], h => exact absurd rfl h.some
      | [a], h => simp [minMaxCheck.tooFew, truthy_text (h.one a rfl).1] at this ⊢; omega
      | _ :: _ :: _, _ => simp [minMaxCheck.tooFew] at this ⊢; omega
  have e2 : minMaxCheck.tooMany mx (args.map fun a => join a.meaning) = false := by
    cases mx with
    | none => rfl
    | some m => have := h2 m rfl; simp [minMaxCheck.tooMany]; omega
  simp [minMaxCheck, e1, e2]

/-- The argument is as described: anything will do, or it is a suitable text. -/
def SuitsTxt (t : Txt) (b : ArgBeh) : Prop := b = .any ∨ ∃ x, t = .text x .nil ∧ SuitsArg x b

theorem validateArg_suits {x : Str} {b : ArgBeh} (h : SuitsArg x b) (w : Where) (name : Str) (n : Nat) :
    validateArg w name n b (.str x) = .pure () := by
  cases b with
  | any => rfl
  | appOrExten => rcases h with rfl | rfl <;> rfl
  | options opts =>
    obtain ⟨ho, hn⟩ := h
    have hlet : letters (V.str x).tokens = x := letters_chars x
    have e1 : badOptions opts (.str x) = [] := by
      rw [badOptions_eq, hlet, List.map_eq_nil_iff, List.filter_eq_nil_iff]
      simpa using ho
    have e2 := mt (dupes_iff (.str x)).1 (by rw [hlet]; simpa using hn)
    simp only [validateArg, e1, if_neg e2]
    rfl

/-- C76: nor about an application with such arguments of which there are enough and not
too many, each as described. -/
theorem C76_args_text {env : DEnv} {name : Str} {args : List Txt} {a : AppInfo} {mn : Option Nat} {behs : List ArgBeh}
    (h : TextCall env name (.commas args) a) (hb : a.beh = .args mn behs) (hp : PlainTexts args)
    (hmin : ∀ m, mn = some m → m ≤ args.length) (hmax : args.length ≤ behs.length)
    (hopt : ∀ (i : Nat) (t : Txt) (b : ArgBeh), args[i]? = some t → behs[i]? = some b → SuitsTxt t b) :
    QuietApp env (name ++ '(' :: (sepBy ',' (args.map (·.write)) ++ [')'])) [] := by
  rw [← commas_write]
  refine quiet_text h (by simp [hb]) [] fun inner sp w => ?_
  have hv : ∀ (n : Nat) (bs : List ArgBeh) (xs : List Txt),
      (∀ (i : Nat) (t : Txt) (b : ArgBeh), xs[i]? = some t → bs[i]? = some b → SuitsTxt t b) →
      validateArgs w a.name n bs (xs.map fun a => join a.meaning) = .pure () := by
    intro n bs
    induction bs generalizing n with
    | nil => intro xs _; simp [validateArgs]
    | cons b bs ih =>
      intro xs hx
      cases xs with
      | nil => simp [validateArgs]
      | cons t xs =>
        have h1 : validateArg w a.name n b (join t.meaning) = .pure () := by
          rcases hx 0 t b rfl rfl with rfl | ⟨x, rfl, hs⟩
          · rfl
          · rw [Txt.meaning, Txt.meaning, join_single rfl]
            exact validateArg_suits hs w a.name n
        rw [List.map_cons, validateArgs, h1, Tr.pure_bind]
        exact ih _ _ fun i x b h h' => hx (i + 1) x b (by simpa using h) (by simpa using h')
  simp [callApp, hb, callArgs, separate_texts hp, minMax_texts hp w a.name mn (some behs.length) hmin (by simpa using hmax),
    pipeCheck_texts hp, hv 1 behs args hopt, Tr.bind, Tr.pure]

/-- C76: nor about an assignment to a plain name. -/
theorem C76_set_text {env : DEnv} {name key : Str} {value : Txt} {a : AppInfo}
    (h : TextCall env name (.text (key ++ c! "=") value) a)
    (hb : a.beh = .set) (hk : '=' ∉ key ∧ ' ' ∉ key ∧ key.getLast? ≠ some ')')
    (hbal : Bal (join (Txt.text (key ++ c! "=") value).meaning).tokens) :
    QuietApp env (name ++ '(' :: ((key ++ '=' :: value.write) ++ [')'])) [] := by
  have hw : (Txt.text (key ++ c! "=") value).write = key ++ '=' :: value.write := by simp [Txt.write]
  rw [← hw]
  refine quiet_text h (by simp [hb]) [] fun inner sp w => ?_
  have htok : (join (Txt.text (key ++ c! "=") value).meaning).tokens =
      key.map (fun c => V.str [c]) ++ V.str ['='] :: V.tokensAll value.meaning := by
    rw [text_tokens]; simp [Txt.meaning, V.tokensAll, V.tokens]
  have ht : (join (Txt.text (key ++ c! "=") value).meaning).truthy = true := by
    apply truthy_text
    rw [← text_tokens, htok]
    simp
  have hmix : isMixed (join (Txt.text (key ++ c! "=") value).meaning) = true := by
    rcases join_pieces _ (meaning_piece (.text (key ++ c! "=") value)) with hp | hp
    · cases hv : join (Txt.text (key ++ c! "=") value).meaning with
      | str s => rfl
      | atom k n s l =>
        rw [hv] at htok
        cases key <;> simp [V.tokens] at htok
      | _ => simp [hv, isPiece] at hp
    · exact hp
  obtain ⟨ps, h1, h2, -⟩ := split_tokens '=' (some 1) _ hmix
  have hsp : splitT (V.str ['=']) (some 1) (key.map (fun c => V.str [c]) ++ V.str ['='] :: V.tokensAll value.meaning) =
      [key.map (fun c => V.str [c]), V.tokensAll value.meaning] := by
    have := hk.1
    clear h hk hbal hw htok ht hmix h1 h2
    induction key with
    | nil => simp [splitT, splitT_zero]
    | cons c key ih =>
      simp only [List.mem_cons, not_or] at this
      have hc : V.str [c] ≠ V.str ['='] := by intro e; simp at e; exact this.1 e.symm
      simp only [List.map_cons, List.cons_append, splitT, if_neg hc, ih this.2]
  rw [htok, hsp] at h2
  obtain ⟨d, v, rfl, hd⟩ : ∃ d v, ps = [d, v] ∧ d.tokens = key.map (fun c => V.str [c]) := by
    match ps, h2 with
    | [], h2 => simp at h2
    | [_], h2 => simp at h2
    | [d, v], h2 => simp at h2; exact ⟨d, v, rfl, h2.1⟩
    | _ :: _ :: _ :: _, h2 => simp at h2
  have e1 : d.hasTok ' ' = false := by
    simp only [V.hasTok, hd, List.any_map, List.any_eq_false]
    intro c hc
    simp
    rintro rfl
    exact hk.2.1 hc
  have e2 : endsParen d = false := by
    simp only [endsParen, hd, List.getLast?_map]
    cases hx : key.getLast? with
    | none => rfl
    | some c =>
      have : c ≠ ')' := by rintro rfl; exact hk.2.2 hx
      simpa using this
  simp [callApp, hb, parseAssignment, Arg.truthy, ht, h1, e1, e2, appBalance, (C38_balance _).2 hbal, Tr.lift, Tr.bind, Tr.pure]

/-! ### Conditions -/

/-- A single substitution, with something in it. -/
inductive Single : Txt → Prop
  | var (n : Str) : Single (.var n .nil)
  | sub (n s : Str) (l : Option Str) : Single (.sub n s l .nil)
  | call (f : Str) (a : Txt) : Single (.call f a .nil)
  | expr (e : Txt) : V.tokensAll e.meaning ≠ [] → Single (.expr e .nil)

/-- Arguments of a jump depending on a condition; none is no jump. -/
def PlainDest (args : List Str) : Prop :=
  args = [] ∨ (PlainArgs args ∧ args.length ≤ 3 ∧ ∀ a ∈ args, '?' ∉ a ∧ ':' ∉ a)

/-- `yes` or `yes:no`. -/
def choice (yes no : List Str) : Str :=
  sepBy ',' yes ++ if no = [] then [] else ':' :: sepBy ',' no

def destJumps (args : List Str) : List Jump := if args = [] then [] else [gotoJump args]

theorem mem_sepBy {d c : Char} {l : List Str} (h : c ∈ sepBy d l) : c = d ∨ ∃ a ∈ l, c ∈ a := by
  induction l with
  | nil => simp [sepBy] at h
  | cons x xs ih =>
    cases xs with
    | nil => exact .inr ⟨x, by simp, by simpa [sepBy] using h⟩
    | cons y ys =>
      simp only [sepBy, List.mem_append, List.mem_cons] at h
      rcases h with h | h | h
      · exact .inr ⟨x, by simp, h⟩
      · exact .inl h
      · rcases ih h with h | ⟨a, ha, h⟩
        · exact .inl h
        · exact .inr ⟨a, by simp [ha], h⟩

theorem plainDest_chars {args : List Str} (h : PlainDest args) : ∀ c ∈ sepBy ',' args, c ∉ sepSpecial ∧ c ≠ '?' ∧ c ≠ ':' := by
  intro c hc
  rcases h with rfl | ⟨hp, -, h⟩
  · simp [sepBy] at hc
  · rcases mem_sepBy hc with rfl | ⟨a, ha, hc⟩
    · decide
    · refine ⟨(hp.chars a ha c hc).1, ?_, ?_⟩ <;> rintro rfl
      · exact (h a ha).1 hc
      · exact (h a ha).2 hc

theorem sepBy_ne {args : List Str} (h : PlainArgs args) : sepBy ',' args ≠ [] := by
  match args, h with
  | [], h => exact absurd rfl h.some
  | [a], h => simpa [sepBy] using (h.one a rfl).1
  | a :: b :: _, _ => simp [sepBy]

theorem plainTok_char {d c : Char} (h : c ∉ sepSpecial ∧ c ≠ d) : PlainTok d (.str [c]) := by
  rintro e h'
  simp at h'
  subst h'
  exact h

/-- The parts of the data and the actions. -/
theorem condSplit_text {cond : V} {k : Kind} {n s l : V} (hc : cond = .atom k n s l) (hn : n.truthy = true)
    {yes no : List Str} (h1 : PlainDest yes) (h2 : PlainDest no) (data : V)
    (hd : data.tokens = cond :: V.str ['?'] :: (choice yes no).map fun c => V.str [c]) (w : Where) (name : Str) :
    ∃ acts, condSplit w name data = .pure (cond, acts) ∧
      actions acts = ([sepBy ',' yes, sepBy ',' no].filter (· ≠ [])).map fun s => .one (.str s) := by
  have key : ∀ c ∈ choice yes no, c ∉ sepSpecial ∧ c ≠ '?' := by
    intro c hc
    rcases List.mem_append.1 hc with hc | hc
    · have := plainDest_chars h1 c hc; exact ⟨this.1, this.2.1⟩
    · split at hc
      · simp at hc
      · rcases List.mem_cons.1 hc with rfl | hc
        · decide
        · have := plainDest_chars h2 c hc; exact ⟨this.1, this.2.1⟩
  have hq : separateArgs '?' true (.one data) = [cond, .str (choice yes no)] := by
    rw [separateArgs_join, hd]
    have := sepT_more (d := '?') (by decide) (rm := true) (ts := [cond]) (by
      rintro t ht c rfl
      simp [hc] at ht) ((choice yes no).map fun c => V.str [c])
    rw [List.cons_append, List.nil_append] at this
    rw [this, sepT_one, List.map_cons, List.map_cons, List.map_nil, join_chars, join_single (by rw [hc]; rfl)]
    intro t ht
    obtain ⟨c, hc, rfl⟩ := List.mem_map.1 ht
    exact plainTok_char (key c hc)
  have hcol : separateArgs ':' false (.one (.str (choice yes no))) =
      (if no = [] then [sepBy ',' yes] else [sepBy ',' yes, sepBy ',' no]).map .str := by
    have p1 : ∀ t ∈ (sepBy ',' yes).map fun c => V.str [c], PlainTok ':' t := by
      intro t ht
      obtain ⟨c, hc, rfl⟩ := List.mem_map.1 ht
      have := plainDest_chars h1 c hc
      exact plainTok_char ⟨this.1, this.2.2⟩
    have p2 : ∀ t ∈ (sepBy ',' no).map fun c => V.str [c], PlainTok ':' t := by
      intro t ht
      obtain ⟨c, hc, rfl⟩ := List.mem_map.1 ht
      have := plainDest_chars h2 c hc
      exact plainTok_char ⟨this.1, this.2.2⟩
    rw [separateArgs_join, V.tokens, choice]
    by_cases he : no = []
    · simp only [he, if_true, List.append_nil]
      rw [sepT_one p1]
      simp [join_chars]
    · simp only [he, if_false, List.map_append, List.map_cons]
      rw [sepT_more (by decide) p1, sepT_one p2]
      simp [join_chars]
  refine ⟨ifActions (separateArgs ':' false (.one (.str (choice yes no)))), ?_, ?_⟩
  · have hs : cond.strip = .ok cond := by rw [hc]; simp [V.strip, hn]
    have hne : cond ≠ .str [] := by rw [hc]; simp
    have hk : condConst cond = false := by rw [hc]; simp [condConst, V.isStr, V.tokens]
    simp [condSplit, ifSplit, ifParts, hq, hs, hne, hk, Tr.bind, Tr.pure, Tr.lift]
  · rw [hcol]
    by_cases he : no = []
    · subst he
      by_cases hy : sepBy ',' yes = []
      · simp [ifActions, actions, Arg.truthy, V.truthy, hy, sepBy]
      · simp [ifActions, actions, List.filter_cons, Arg.truthy, V.truthy, hy, sepBy]
    · have hno : sepBy ',' no ≠ [] := sepBy_ne (h2.resolve_left he).1
      by_cases hy : sepBy ',' yes = []
      · simp [ifActions, actions, Arg.truthy, V.truthy, hy, he, hno]
      · simp [ifActions, actions, Arg.truthy, V.truthy, hy, he, hno]

theorem single_atom {env : FEnv} {i : Bool} {t : Txt} (h : Single t) (hg : GoodTxt env i t) :
    ∃ k n s l, t.meaning = [V.atom k n s l] ∧ n.truthy = true := by
  cases h with
  | var n =>
    refine ⟨_, _, _, _, rfl, ?_⟩
    cases n with
    | nil => exact absurd rfl hg.1.1
    | cons _ _ => rfl
  | sub n s l =>
    refine ⟨_, _, _, _, rfl, ?_⟩
    cases n with
    | nil => exact absurd rfl hg.1.1
    | cons _ _ => rfl
  | call f a =>
    refine ⟨_, _, _, _, rfl, ?_⟩
    have hp : ∀ v ∈ [V.str f, .str (c! "("), join a.meaning, .str (c! ")")], isText v = true := by
      intro v hv
      simp only [List.mem_cons, List.not_mem_nil, or_false] at hv
      rcases hv with rfl | rfl | rfl | rfl
      · rfl
      · rfl
      · exact text_isText a
      · rfl
    have ht := join_tokens _ hp
    rw [truthy_iff]
    · rw [ht]; simp [V.tokensAll, V.tokens]
    · exact join_text _ hp
  | expr e he => exact ⟨_, _, _, _, rfl, truthy_text he⟩

/-- The data of an application with a condition: `cond?yes` or `cond?yes:no`. -/
def condData (cond : Txt) (yes no : List Str) : Txt := cond.append (.text (c! "?" ++ choice yes no) .nil)

theorem condData_write (cond : Txt) (yes no : List Str) :
    (condData cond yes no).write = cond.write ++ '?' :: choice yes no := by
  rw [condData, append_write]
  simp [Txt.write]

theorem condData_split {env : FEnv} {cond : Txt} {yes no : List Str} (hs : Single cond)
    (hg : GoodTxt env false (condData cond yes no))
    (h1 : PlainDest yes) (h2 : PlainDest no) (w : Where) (name : Str) :
    ∃ c acts, condSplit w name (join (condData cond yes no).meaning) = .pure (c, acts) ∧
      actions acts = ([sepBy ',' yes, sepBy ',' no].filter (· ≠ [])).map fun s => .one (.str s) := by
  have hg' : GoodTxt env false cond := by
    cases hs <;> simp_all [condData, Txt.append, GoodTxt]
  obtain ⟨k, n, s, l, hm, ht⟩ := single_atom hs hg'
  obtain ⟨acts, h⟩ := condSplit_text (cond := .atom k n s l) rfl ht h1 h2 (join (condData cond yes no).meaning) (by
    rw [text_tokens, condData, append_meaning, hm]
    simp [Txt.meaning, V.tokensAll, V.tokens]) w name
  exact ⟨_, acts, h⟩

theorem padJump_plain {args : List Str} (h : PlainArgs args) (hl : args.length ≤ 3) (rm : Bool) :
    padJump (separateArgs ',' rm (.one (.str (sepBy ',' args)))) = .ok (gotoJump args) := by
  rw [separate_plain h]
  match args, hl, h.some with
  | [p], _, _ => rfl
  | [e, p], _, _ => rfl
  | [c, e, p], _, _ => rfl
  | _ :: _ :: _ :: _ :: _, hl, _ => simp at hl
  | [], _, h => exact absurd rfl h

/-- Doing something for each destination present. -/
theorem mapM_dests {f : Arg → Tr Jump} (hf : ∀ args, PlainArgs args → args.length ≤ 3 → f (.one (.str (sepBy ',' args))) = .pure (gotoJump args))
    {yes no : List Str} (h1 : PlainDest yes) (h2 : PlainDest no) :
    Tr.mapM f (([sepBy ',' yes, sepBy ',' no].filter (· ≠ [])).map fun s => .one (.str s)) =
      .pure (destJumps yes ++ destJumps no) := by
  rcases h1 with rfl | ⟨p1, l1, -⟩ <;> rcases h2 with rfl | ⟨p2, l2, -⟩
  · rfl
  · simp [sepBy_ne p2, sepBy, destJumps, p2.some, Tr.mapM, hf no p2 l2, Tr.pure_bind]
  · simp [sepBy_ne p1, sepBy, destJumps, p1.some, Tr.mapM, hf yes p1 l1, Tr.pure_bind]
  · simp [sepBy_ne p1, sepBy_ne p2, destJumps, p1.some, p2.some, Tr.mapM, hf yes p1 l1, hf no p2 l2, Tr.pure_bind]

/-- C76: nor about a `GotoIf` with a substitution as its condition; it jumps to either. -/
theorem C76_gotoif {env : DEnv} {name : Str} {cond : Txt} {yes no : List Str} {a : AppInfo}
    (h : TextCall env name (condData cond yes no) a) (hb : a.beh = .gotoIf) (hs : Single cond)
    (h1 : PlainDest yes) (h2 : PlainDest no) :
    QuietApp env (name ++ '(' :: ((cond.write ++ '?' :: choice yes no) ++ [')'])) (destJumps yes ++ destJumps no) := by
  rw [← condData_write]
  refine quiet_text h (by simp [hb]) _ fun inner sp w => ?_
  obtain ⟨c, acts, e1, e2⟩ := condData_split hs h.good h1 h2 w a.name
  have := mapM_dests (f := fun a => .lift (padJump (separateArgs ',' true a))) (fun args hp hl => by
    rw [padJump_plain hp hl]; rfl) h1 h2
  simp only [callApp, hb, e1, e2, Tr.pure_bind, this]

theorem gosubDest_plain {args : List Str} (h : PlainArgs args) (hl : args.length ≤ 3) (rm warn : Bool) (w : Where) (name : Str) :
    gosubDest w name warn (separateArgs ',' rm (.one (.str (sepBy ',' args)))) = .pure (gotoJump args) := by
  have key : ∀ a ∈ args, gosubPrio w (.str a) = .pure (.one (.str a)) := by
    intro a ha
    have : (V.str a).hasTok '(' = false := hasTok_str_false fun hc => (h.chars a ha _ hc).1 (by decide)
    simp [gosubPrio, this]
  rw [separate_plain h]
  match args, hl, h.some with
  | [p], _, _ => simp [gosubDest, key p (by simp), Tr.pure_bind, gotoJump]
  | [e, p], _, _ => simp [gosubDest, key p (by simp), Tr.pure_bind, gotoJump]
  | [c, e, p], _, _ => simp [gosubDest, key p (by simp), Tr.pure_bind, gotoJump]
  | _ :: _ :: _ :: _ :: _, hl, _ => simp at hl
  | [], _, h => exact absurd rfl h

/-- C76: the same for `GosubIf`. -/
theorem C76_gosubif {env : DEnv} {name : Str} {cond : Txt} {yes no : List Str} {a : AppInfo}
    (h : TextCall env name (condData cond yes no) a) (hb : a.beh = .gosubIf) (hs : Single cond)
    (h1 : PlainDest yes) (h2 : PlainDest no) :
    QuietApp env (name ++ '(' :: ((cond.write ++ '?' :: choice yes no) ++ [')'])) (destJumps yes ++ destJumps no) := by
  rw [← condData_write]
  refine quiet_text h (by simp [hb]) _ fun inner sp w => ?_
  obtain ⟨c, acts, e1, e2⟩ := condData_split hs h.good h1 h2 w a.name
  have := mapM_dests (f := fun x => gosubDest w a.name true (separateArgs ',' true x)) (fun args hp hl =>
    gosubDest_plain hp hl _ _ _ _) h1 h2
  simp only [callApp, hb, e1, e2, Tr.pure_bind, this]

/-- C76: and for a `Gosub` with plain arguments. -/
theorem C76_gosub {env : DEnv} {name : Str} {args : List Str} {a : AppInfo}
    (h : LiteralCall env name (sepBy ',' args) a) (hb : a.beh = .gosub) (hp : PlainArgs args) (hl : args.length ≤ 3) :
    QuietApp env (name ++ '(' :: (sepBy ',' args ++ [')'])) [gotoJump args] := by
  intro sp w
  obtain ⟨inner, hr⟩ := runApp_literal h (by simp [hb]) sp w
  rw [hr]
  refine ⟨[.app (env.lower name)], sp, ?_, rfl⟩
  have hlen : 1 ≤ args.length := List.length_pos_iff.2 hp.some
  have hg := gosubDest_plain hp hl false false w a.name
  rw [separate_plain hp] at hg
  simp [callApp, hb, jumpArgs, separate_plain hp, minMax_plain hp w a.name (some 1) (some 3) (by simpa using hlen) (by simpa using hl),
    pipeCheck_plain hp, hg, Tr.bind, Tr.pure]

/-- A call in the text of which no character but the parentheses has a meaning. -/
structure PlainCall (act : Str) : Prop where
  parts : ∃ n d, act = n ++ '(' :: (d ++ [')']) ∧ (∀ c ∈ n, c ∉ sepSpecial ∧ c ≠ '?' ∧ c ≠ ':') ∧
    (∀ c ∈ d, c ∉ sepSpecial ∧ c ≠ '?' ∧ c ≠ ':')

theorem sepT_paren {d : Char} {rm : Bool} (hd : d = '?' ∨ d = ':') {act : Str} (h : PlainCall act) :
    sepT d rm .init (act.map fun c => V.str [c]) = [act.map fun c => V.str [c]] := by
  obtain ⟨n, x, rfl, hn, hx⟩ := h.parts
  have hne : d ≠ '(' ∧ d ≠ ')' ∧ d ∉ sepSpecial := by rcases hd with rfl | rfl <;> decide
  have cls : ∀ (ys : Str), (∀ c ∈ ys, c ∉ sepSpecial ∧ c ≠ '?' ∧ c ≠ ':') →
      sepT d rm ⟨0, 1, false, false⟩ ((ys ++ [')']).map fun c => V.str [c]) = [(ys ++ [')']).map fun c => V.str [c]] := by
    intro ys hy
    induction ys with
    | nil =>
      simp [sepT, sepStep, consHead]
    | cons c ys ih =>
      have := ih fun c hc => hy c (by simp [hc])
      have hc := hy c (by simp)
      have e : ∀ y, y ∈ sepSpecial → c ≠ y := by rintro y hy rfl; exact hc.1 hy
      have hs : sepStep d rm ⟨0, 1, false, false⟩ (.str [c]) = (⟨0, 1, false, false⟩, .keep) := by
        simp [sepStep, e '[' (by decide), e ']' (by decide), e '(' (by decide),
          e ')' (by decide), e '"' (by decide), e '\\' (by decide)]
      simp only [List.cons_append, List.map_cons, sepT, hs] at this ⊢
      rw [this]
      rfl
  have op : ∀ ys : Str, (∀ c ∈ ys, c ∉ sepSpecial ∧ c ≠ '?' ∧ c ≠ ':') →
      sepT d rm .init ((ys ++ '(' :: (x ++ [')'])).map fun c => V.str [c]) = [(ys ++ '(' :: (x ++ [')'])).map fun c => V.str [c]] := by
    intro ys hy
    induction ys with
    | nil =>
      have hs : sepStep d rm .init (.str ['(']) = (⟨0, 1, false, false⟩, .keep) := by
        simp [sepStep, SepSt.init]
      have := cls x hx
      simp only [List.nil_append, List.map_cons, sepT, hs]
      rw [this]
      rfl
    | cons c ys ih =>
      have := ih fun c hc => hy c (by simp [hc])
      have hc := hy c (by simp)
      have hcd : c ≠ d := by
        rcases hd with rfl | rfl
        · exact hc.2.1
        · exact hc.2.2
      have hs := sepStep_plain (rm := rm) (plainTok_char ⟨hc.1, hcd⟩)
      simp only [List.cons_append, List.map_cons, sepT, hs] at this ⊢
      rw [this]
      rfl
  exact op n hn

/-- C76: nor about an `ExecIf` with a substitution as its condition, if nothing is reported
about the application it runs. -/
theorem C76_execif {env : DEnv} {name act : Str} {cond : Txt} {a : AppInfo}
    (h : TextCall env name (cond.append (.text (c! "?" ++ act) .nil)) a) (hb : a.beh = .execIf) (hs : Single cond)
    (hact : PlainCall act) {js : List Jump} (hq : QuietApp { env with depth := env.depth - 1 } act js) :
    QuietApp env (name ++ '(' :: ((cond.write ++ '?' :: act) ++ [')'])) [] := by
  have hw : (cond.append (.text (c! "?" ++ act) .nil)).write = cond.write ++ '?' :: act := by
    rw [append_write]; simp [Txt.write]
  rw [← hw]
  intro sp w
  have hg : GoodTxt env.toFEnv false cond := by
    have := h.good
    cases hs <;> simp_all [Txt.append, GoodTxt]
  obtain ⟨k, n, s, l, hm, ht⟩ := single_atom hs hg
  obtain ⟨ev, sp', he, hev⟩ := hq sp w
  have hd : (join (cond.append (.text (c! "?" ++ act) .nil)).meaning).tokens =
      .atom k n s l :: V.str ['?'] :: act.map fun c => V.str [c] := by
    rw [text_tokens, append_meaning, hm]
    simp [Txt.meaning, V.tokensAll, V.tokens]
  have hq : separateArgs '?' true (.one (join (cond.append (.text (c! "?" ++ act) .nil)).meaning)) = [.atom k n s l, .str act] := by
    rw [separateArgs_join, hd]
    have := sepT_more (d := '?') (by decide) (rm := true) (ts := [V.atom k n s l]) (by
      rintro t ht c rfl
      simp at ht) (act.map fun c => V.str [c])
    rw [List.cons_append, List.nil_append] at this
    rw [this, sepT_paren (.inl rfl) hact, List.map_cons, List.map_cons, List.map_nil, join_chars, join_single rfl]
  have hcol : separateArgs ':' false (.one (.str act)) = [.str act] := by
    rw [separateArgs_join, V.tokens, sepT_paren (.inr rfl) hact, List.map_cons, List.map_nil, join_chars]
  have hne : act ≠ [] := by
    obtain ⟨n, d, rfl, -⟩ := hact.parts
    simp
  have hc : condSplit w a.name (join (cond.append (.text (c! "?" ++ act) .nil)).meaning) =
      .pure (.atom k n s l, .one (.str act), .none) := by
    generalize join (cond.append (.text (c! "?" ++ act) .nil)).meaning = data at hq
    simp [condSplit, ifSplit, ifParts, hq, hcol, ifActions, condConst, V.strip, ht, V.isStr, V.tokens, Tr.bind, Tr.pure, Tr.lift]
  have hacts : actions (.one (.str act), .none) = [.one (.str act)] := by
    simp [actions, List.filter_cons, Arg.truthy, V.truthy, hne]
  rw [runApp_text h (by simp [hb]) sp w]
  have hcall : callApp env.toFEnv (innerApp env w) sp w a (join (cond.append (.text (c! "?" ++ act) .nil)).meaning) = ⟨ev, .ok (sp', [])⟩ := by
    simp only [callApp, hb, hc, Tr.pure_bind, hacts, execAll, innerApp]
    have he' : runApp env.toAEnv (env.depth - 1) sp w (.one (.str act)) = ⟨ev, .ok (sp', js)⟩ := he
    rw [he']
    simp [Tr.bind, Tr.pure]
  rw [hcall]
  refine ⟨_, sp', rfl, ?_⟩
  have key : ∀ a b : List Ev, evMsgs (a ++ b) = evMsgs a ++ evMsgs b := fun a b => List.filterMap_append
  exact (key [.app (env.lower name)] ((cond.append (.text (c! "?" ++ act) .nil)).used env.toFEnv w ++ ev)).trans (by
    rw [key, used_silent, hev]; rfl)

/-- C76: nor about a condition on the time, which is text. -/
theorem C76_iftime {env : DEnv} {name cond act : Str} {a : AppInfo}
    (h : LiteralCall env name (cond ++ '?' :: act) a) (hb : a.beh = .ifTime)
    (hc : cond ≠ [] ∧ NoLead cond ∧ NoTrail cond ∧ ∀ c ∈ cond, c ∉ sepSpecial ∧ c ≠ '?') (ha : ∀ c ∈ act, c ∉ sepSpecial ∧ c ≠ '?') :
    QuietApp env (name ++ '(' :: ((cond ++ '?' :: act) ++ [')'])) [] := by
  intro sp w
  obtain ⟨inner, hr⟩ := runApp_literal h (by simp [hb]) sp w
  rw [hr]
  refine ⟨[.app (env.lower name)], sp, ?_, rfl⟩
  have hq : separateArgs '?' true (.one (.str (cond ++ '?' :: act))) = [.str cond, .str act] := by
    have p : ∀ x : Str, (∀ c ∈ x, c ∉ sepSpecial ∧ c ≠ '?') → ∀ t ∈ x.map fun c => V.str [c], PlainTok '?' t := by
      intro x hx t ht
      obtain ⟨c, hc, rfl⟩ := List.mem_map.1 ht
      exact plainTok_char (hx c hc)
    rw [separateArgs_join, V.tokens, List.map_append, List.map_cons, sepT_more (by decide) (p _ hc.2.2.2), sepT_one (p _ ha)]
    simp [join_chars]
  have hs : stripP isSpace cond ≠ [] := by
    obtain ⟨h1, h2, h3, -⟩ := hc
    have hr : rstripP isSpace cond = cond := rstripP_self _ _ fun c hc => by
      obtain ⟨r, rfl⟩ := List.getLast?_eq_some_iff.1 hc
      exact h3 r c rfl
    have hl : lstripP isSpace cond = cond := lstripP_self _ _ fun c hc => by
      cases cond with
      | nil => simp at hc
      | cons x xs => simp at hc; subst hc; exact h2 _ _ rfl
    rw [stripP, hr, hl]
    exact h1
  simp [callApp, hb, ifSplit, ifParts, hq, V.strip, hs, Tr.bind, Tr.pure, Tr.lift]

/-! ### Examples -/

private def condEnv : DEnv where
  lower := fun s => s.map Char.toLower
  funcs := fun _ => none
  apps := fun s =>
    if s = c! "set" then some ⟨c! "Set", c! "<builtin>", .set⟩
    else if s = c! "dial" then some ⟨c! "Dial", c! "app_dial", .args (some 1) [.any, .any, .options (c! "tT")]⟩
    else if s = c! "gotoif" then some ⟨c! "GotoIf", c! "<builtin>", .gotoIf⟩
    else if s = c! "gosub" then some ⟨c! "Gosub", c! "app_stack", .gosub⟩
    else if s = c! "gosubif" then some ⟨c! "GosubIf", c! "app_stack", .gosubIf⟩
    else if s = c! "execif" then some ⟨c! "ExecIf", c! "app_exec", .execIf⟩
    else if s = c! "wait" then some ⟨c! "Wait", c! "<builtin>", .plain⟩
    else if s = c! "verbose" then some ⟨c! "Verbose", c! "app_verbose", .plain⟩
    else none
  depth := 9

private theorem condCall {name : Str} {data : Txt} {a : AppInfo} (h1 : condEnv.apps (condEnv.lower name) = some a)
    (h2 : a.name = name) (h3 : name ≠ [] ∧ '(' ∉ name) (h4 : ∀ c, name.head? = some c → isSpace c = false)
    (h5 : ∀ c, name.getLast? = some c → isSpace c = false) (h6 : GoodTxt condEnv.toFEnv false data) :
    TextCall condEnv name data a :=
  ⟨by decide, h1, h2, ⟨h3.1, h3.2, noLead_of h4, noTrail_of h5⟩, h6⟩

example : QuietApp condEnv (c! "Verbose(hello ${A})") [] :=
  C76_plain_text (name := c! "Verbose") (a := ⟨c! "Verbose", c! "app_verbose", .plain⟩) (data := .text (c! "hello ") (.var (c! "A") .nil))
    (condCall rfl rfl (by decide) (by decide) (by decide) ⟨by decide, by simp, ⟨by decide, by decide⟩, trivial⟩) rfl
    ((C38_balance _).1 (by decide))

example : QuietApp condEnv (c! "Set(x=$[${A} + 1])") [] :=
  C76_set_text (name := c! "Set") (a := ⟨c! "Set", c! "<builtin>", .set⟩) (key := c! "x") (value := .expr (.var (c! "A") (.text (c! " + 1") .nil)) .nil)
    (condCall rfl rfl (by decide) (by decide) (by decide) ⟨by decide, by simp,
      ⟨⟨by decide, by decide⟩, by decide, fun _ => ⟨.none (by decide) (by decide), .none (by decide) (by decide)⟩, trivial⟩, trivial⟩)
    rfl (by decide) ((C38_balance _).1 (by decide))

example : QuietApp condEnv (c! "Dial(SIP/${A},20,t)") [] :=
  C76_args_text (name := c! "Dial") (a := ⟨c! "Dial", c! "app_dial", .args (some 1) [.any, .any, .options (c! "tT")]⟩) (args := [.text (c! "SIP/") (.var (c! "A") .nil), .text (c! "20") .nil, .text (c! "t") .nil])
    (condCall rfl rfl (by decide) (by decide) (by decide)
      ⟨by decide, by simp, ⟨by decide, by decide⟩, by decide, by simp, by decide, by simp, by decide, by simp, by decide, by simp, trivial⟩)
    rfl
    ⟨by
      intro a ha c hc
      simp only [List.mem_cons, List.not_mem_nil, or_false] at ha
      rcases ha with rfl | rfl | rfl <;>
        simp [Txt.meaning, V.tokensAll, V.tokens] at hc <;>
        (first | (subst hc; decide) | (rcases hc with h | h | h | h <;> subst h <;> decide) | (rcases hc with h | h <;> subst h <;> decide)),
      by simp, by simp⟩
    (by simp) (by simp) (by
      intro i t b h1 h2
      match i with
      | 0 => simp at h1 h2; exact .inl h2.symm
      | 1 => simp at h1 h2; exact .inl h2.symm
      | 2 =>
        simp at h1 h2
        subst h1; subst h2
        exact .inr ⟨_, rfl, by decide, by decide⟩
      | i + 3 => simp at h1)

private theorem condDest (args : List Str) (h1 : ∀ a ∈ args, ∀ c ∈ a, c ∉ sepSpecial ∧ c ≠ ',')
    (h2 : args ≠ [] ∧ ∀ x ∈ args.head?, x ≠ [] ∧ '|' ∉ x) (h3 : args.length ≤ 3) (h4 : ∀ a ∈ args, '?' ∉ a ∧ ':' ∉ a) :
    PlainDest args :=
  .inr ⟨⟨h1, by rintro x rfl; exact h2.2 x rfl, h2.1⟩, h3, h4⟩

example : QuietApp condEnv (c! "GotoIf($[${A} > 1]?big:other,s,1)")
    [⟨.none, .none, .one (.str (c! "big"))⟩, ⟨.str (c! "other"), .str (c! "s"), .one (.str (c! "1"))⟩] :=
  C76_gotoif (name := c! "GotoIf") (a := ⟨c! "GotoIf", c! "<builtin>", .gotoIf⟩) (cond := .expr (.var (c! "A") (.text (c! " > 1") .nil)) .nil) (yes := [c! "big"]) (no := [c! "other", c! "s", c! "1"])
    (condCall rfl rfl (by decide) (by decide) (by decide)
      ⟨⟨⟨by decide, by decide⟩, by decide, fun _ => ⟨.none (by decide) (by decide), .none (by decide) (by decide)⟩, trivial⟩,
        by decide, by simp, trivial⟩)
    rfl (.expr _ (by decide)) (condDest _ (by decide) (by decide) (by decide) (by decide))
    (condDest _ (by decide) (by decide) (by decide) (by decide))

example : QuietApp condEnv (c! "GosubIf(${A}?:sub,s,1)") [⟨.str (c! "sub"), .str (c! "s"), .one (.str (c! "1"))⟩] :=
  C76_gosubif (name := c! "GosubIf") (a := ⟨c! "GosubIf", c! "app_stack", .gosubIf⟩) (cond := .var (c! "A") .nil) (yes := []) (no := [c! "sub", c! "s", c! "1"])
    (condCall rfl rfl (by decide) (by decide) (by decide) ⟨⟨by decide, by decide⟩, by decide, by simp, trivial⟩)
    rfl (.var _) (.inl rfl) (condDest _ (by decide) (by decide) (by decide) (by decide))

example : QuietApp condEnv (c! "ExecIf(${A}?Wait(1))") [] :=
  C76_execif (name := c! "ExecIf") (a := ⟨c! "ExecIf", c! "app_exec", .execIf⟩) (cond := .var (c! "A") .nil) (act := c! "Wait(1)")
    (condCall rfl rfl (by decide) (by decide) (by decide) ⟨⟨by decide, by decide⟩, by decide, by simp, trivial⟩)
    rfl (.var _) ⟨c! "Wait", c! "1", rfl, by decide, by decide⟩
    (C76_plain_text (env := { condEnv with depth := 8 }) (name := c! "Wait") (a := ⟨c! "Wait", c! "<builtin>", .plain⟩)
      (data := .text (c! "1") .nil)
      ⟨by decide, rfl, rfl, ⟨by decide, by decide, noLead_of (by decide), noTrail_of (by decide)⟩, by decide, by simp, trivial⟩ rfl
      ((C38_balance _).1 (by decide)))

end Props
end ALint
