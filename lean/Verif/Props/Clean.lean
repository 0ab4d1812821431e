import Verif.Proofs.CleanDp
import Verif.Proofs.Balance
import Verif.Props.App
import Verif.Props.Var
import Verif.Props.Dialplan

/-!
# C76: a clean dialplan passes silently and is read as written
-/

namespace ALint.Props
open ALint ALint.Spec

/-- C76: about a clean dialplan nothing is reported, neither while reading nor when its
jumps are followed, and the dialplan is the one meant. -/
theorem C76_silent (fs : FS) (env : DEnv) (hdepth : 0 < env.depth) (f : CFile) (hg : GoodFile env f)
    (sp : Option Str) (path : Str) (n : Nat) (hn : (fileLines f).length < n) :
    ∃ st, checkDialplan fs env sp n path (fileBytes (fileLines f)) = ⟨[], .ok (some st)⟩ ∧ AsMeant f st.dp := by
  have hl := restChunks_lines f
  have hr := runs_file hg sp
  rw [← restChunks_ces] at hr
  obtain ⟨st, h1, hm, hd, hp⟩ := pipe_file fs env path _ (headerLine (c! "general")) _ (restChunks f)
    (hg.lines _ (by rw [← hl]; simp)) (readsAs_header _ (by decide)) (restChunks_ok hg) n _ hr (by
      have := congrArg List.length hl
      simp only [List.length_cons] at this
      omega)
  rw [hl] at h1
  refine ⟨st, ?_, hm⟩
  have hc : onComplete st.dp = ⟨[], .ok ()⟩ := by
    have h2 := hm.general
    have h3 := hm.globals
    unfold onComplete
    cases hx : st.dp.contexts with
    | nil => rfl
    | cons c cs =>
      cases hy : st.dp.general with
      | none => simp [hy] at h2
      | some g =>
        cases hz : st.dp.globals with
        | none => simp [hz] at h3
        | some g => rfl
  unfold checkDialplan
  rw [Res.bind_quiet h1]
  show Res.bind (onComplete st.dp) _ = _
  rw [Res.bind_quiet hc, Res.bind_quiet (walkDests_quiet hm hg.names hp hdepth _ hd)]
  rfl

/-! ## Applications about which nothing is reported -/

/-- The name as registered, and literal data: neither `${` nor `$[`. -/
structure LiteralCall (env : DEnv) (name data : Str) (a : AppInfo) : Prop where
  depth : 0 < env.depth
  known : env.apps (env.lower name) = some a
  spelled : a.name = name
  named : name ≠ [] ∧ '(' ∉ name ∧ NoLead name ∧ NoTrail name
  literal : contains (c! "${") data = false ∧ contains (c! "$[") data = false

theorem splitN_first (c : Char) (name rest : Str) (h : c ∉ name) :
    splitN c (some 1) (name ++ c :: rest) = [name, rest] := by
  induction name with
  | nil => simp [splitN]
  | cons x xs ih =>
    simp only [List.mem_cons, not_or] at h
    have := ih h.2
    simp only [List.cons_append, splitN, this]
    rw [if_neg (fun e => h.1 e.symm)]

/-- Reading the text of a call. -/
theorem splitApp_named {env : FEnv} {name : Str} (h1 : name ≠ []) (h2 : '(' ∉ name) (h3 : NoLead name) (h4 : NoTrail name)
    (data : Str) (w : Where) :
    splitAppData env w (strV (name ++ '(' :: (data ++ [')']))) = .pure (some (name, data)) := by
  have hr : rstripP isSpace name = name := rstripP_self _ _ fun c hc => by
    obtain ⟨r, rfl⟩ := List.getLast?_eq_some_iff.1 hc
    exact h4 r c rfl
  have hl : lstripP isSpace name = name := lstripP_self _ _ fun c hc => by
    cases name with
    | nil => simp at hc
    | cons x xs => simp at hc; subst hc; exact h3 _ _ rfl
  have hs : stripParens ('(' :: (data ++ [')'])) = data := by
    simp [stripParens, List.getLast?_cons]
  simp [splitAppData, strV, V.split, splitN_first _ _ _ h2, splitAppEnd, hr, hl, h1, hs, Tr.lift, Tr.bind, Tr.pure,
    V.toStr]

theorem splitApp_literal {env : DEnv} {name data : Str} {a : AppInfo} (h : LiteralCall env name data a) (w : Where) :
    splitAppData env.toFEnv w (strV (name ++ '(' :: (data ++ [')']))) = .pure (some (name, data)) := by
  obtain ⟨h1, h2, h3, h4⟩ := h.named
  exact splitApp_named h1 h2 h3 h4 data w

/-- Running it: the application is noted and called with the data. -/
theorem runApp_literal {env : DEnv} {name data : Str} {a : AppInfo} (h : LiteralCall env name data a)
    (hb : a.beh ≠ .background) (sp : Option Str) (w : Where) :
    ∃ inner, runApp env.toAEnv env.depth sp w (strV (name ++ '(' :: (data ++ [')']))) =
      ⟨.app (env.lower name) :: (callApp env.toFEnv inner sp w a (.str data)).ev,
        (callApp env.toFEnv inner sp w a (.str data)).val⟩ := by
  have hd := h.depth
  obtain ⟨d, hd⟩ : ∃ d, env.depth = d + 1 := ⟨env.depth - 1, by omega⟩
  refine ⟨fun sp raw => .bind (runApp env.toAEnv d sp w raw) fun r => .pure r.1, ?_⟩
  rw [hd, runApp, splitApp_literal h, Tr.pure_bind]
  have hp : parseInner env.toFEnv w name data = .pure (.str data) := by
    simp [parseInner, h.literal.1, h.literal.2]
  have hga : getApp env.toAEnv sp w name = ⟨[.app (env.lower name)], .ok (a, sp)⟩ := by
    simp [getApp, h.known, checkAvailability, appName, hb, h.spelled, chooseSpelling, Tr.note, Tr.bind, Tr.pure]
  show Tr.bind (getApp env.toAEnv sp w name) _ = _
  rw [hga, hp]
  simp [Tr.bind, Tr.pure]

/-- C76: nothing is reported about an application that only wants its data balanced. -/
theorem C76_plain {env : DEnv} {name data : Str} {a : AppInfo} (h : LiteralCall env name data a)
    (hb : a.beh = .plain) (hbal : Bal (V.str data).tokens) :
    QuietApp env (name ++ '(' :: (data ++ [')'])) [] := by
  intro sp w
  obtain ⟨inner, hr⟩ := runApp_literal h (by simp [hb]) sp w
  have := (C38_balance (.str data)).2 hbal
  rw [hr]
  refine ⟨[.app (env.lower name)], sp, ?_, rfl⟩
  simp [callApp, hb, appBalance, this, Tr.bind, Tr.pure]

/-- C76: nor about an assignment to a plain name. -/
theorem C76_set {env : DEnv} {name key value : Str} {a : AppInfo} (h : LiteralCall env name (key ++ '=' :: value) a)
    (hb : a.beh = .set) (hk : '=' ∉ key ∧ ' ' ∉ key ∧ key.getLast? ≠ some ')')
    (hbal : Bal (V.str (key ++ '=' :: value)).tokens) :
    QuietApp env (name ++ '(' :: ((key ++ '=' :: value) ++ [')'])) [] := by
  intro sp w
  obtain ⟨inner, hr⟩ := runApp_literal h (by simp [hb]) sp w
  have hbal := (C38_balance (.str (key ++ '=' :: value))).2 hbal
  rw [hr]
  refine ⟨[.app (env.lower name)], sp, ?_, rfl⟩
  have ht : (Arg.one (.str (key ++ '=' :: value))).truthy = true := by
    cases key <;> simp [Arg.truthy, V.truthy]
  have h1 : (V.str key).hasTok ' ' = false := by
    simp only [V.hasTok, V.tokens, List.any_map, List.any_eq_false]
    intro c hc
    simp
    rintro rfl
    exact hk.2.1 hc
  have h2 : endsParen (.str key) = false := by
    simp only [endsParen, V.tokens, List.getLast?_map]
    cases hx : key.getLast? with
    | none => rfl
    | some c =>
      have : c ≠ ')' := by rintro rfl; exact hk.2.2 hx
      simpa using this
  simp [callApp, hb, parseAssignment, ht, V.split, splitN_first _ _ _ hk.1, h1, h2, appBalance, hbal, Tr.lift, Tr.bind, Tr.pure]

/-! ### Arguments -/

theorem sepBy_cons_eq {d : Char} {p q : Str} {x y : Str} (hp : d ∉ p) (hq : d ∉ q) (h : p ++ d :: x = q ++ d :: y) :
    p = q ∧ x = y := by
  induction p generalizing q with
  | nil =>
    cases q with
    | nil => simpa using h
    | cons c cs => simp at h hq; exact absurd h.1 hq.1
  | cons c cs ih =>
    cases q with
    | nil => simp at h hp; exact absurd h.1.symm hp.1
    | cons e es =>
      simp only [List.cons_append, List.cons.injEq] at h
      simp only [List.mem_cons, not_or] at hp hq
      obtain ⟨rfl, h⟩ := h
      obtain ⟨e1, e2⟩ := ih hp.2 hq.2 h
      exact ⟨by rw [e1], e2⟩

/-- Only one way to divide a text at every delimiter. -/
theorem sepBy_unique {d : Char} : ∀ {ps qs : List Str}, ps ≠ [] → qs ≠ [] → (∀ p ∈ ps, d ∉ p) → (∀ q ∈ qs, d ∉ q) →
    sepBy d ps = sepBy d qs → ps = qs
  | [], _, h, _, _, _, _ => absurd rfl h
  | _, [], _, h, _, _, _ => absurd rfl h
  | [p], [q], _, _, _, _, h => by simpa [sepBy] using h
  | [p], q :: q' :: qs, _, _, hp, _, h => by
    have : d ∈ p := by simp only [sepBy] at h; rw [h]; simp
    exact absurd this (hp p (by simp))
  | p :: p' :: ps, [q], _, _, _, hq, h => by
    have : d ∈ q := by simp only [sepBy] at h; rw [← h]; simp
    exact absurd this (hq q (by simp))
  | p :: p' :: ps, q :: q' :: qs, _, _, hp, hq, h => by
    simp only [sepBy] at h
    obtain ⟨e1, e2⟩ := sepBy_cons_eq (hp p (by simp)) (hq q (by simp)) h
    have := sepBy_unique (ps := p' :: ps) (qs := q' :: qs) (by simp) (by simp) (fun x hx => hp x (by simp [hx]))
      (fun x hx => hq x (by simp [hx])) e2
    rw [this, e1]

/-- Arguments in which no character has a meaning; a single one is not empty and has no
`|`, which once separated arguments. -/
structure PlainArgs (args : List Str) : Prop where
  chars : ∀ a ∈ args, ∀ c ∈ a, c ∉ sepSpecial ∧ c ≠ ','
  one : ∀ a, args = [a] → a ≠ [] ∧ '|' ∉ a
  some : args ≠ []

theorem separate_plain {args : List Str} (h : PlainArgs args) (rm : Bool) :
    separateArgs ',' rm (.one (.str (sepBy ',' args))) = args.map .str := by
  have hmem : ∀ (l : List Str) (c : Char), c ∈ sepBy ',' l → c = ',' ∨ ∃ a ∈ l, c ∈ a := by
    intro l
    induction l with
    | nil => intro c hc; simp [sepBy] at hc
    | cons x xs ih =>
      intro c hc
      cases xs with
      | nil => exact .inr ⟨x, by simp, by simpa [sepBy] using hc⟩
      | cons y ys =>
        simp only [sepBy, List.mem_append, List.mem_cons] at hc
        rcases hc with hc | hc | hc
        · exact .inr ⟨x, by simp, hc⟩
        · exact .inl hc
        · rcases ih c hc with h | ⟨a, ha, hc⟩
          · exact .inl h
          · exact .inr ⟨a, by simp [ha], hc⟩
  have hs : ∀ c ∈ sepBy ',' args, c ∉ sepSpecial := by
    intro c hc
    rcases hmem _ c hc with rfl | ⟨a, ha, hc⟩
    · decide
    · exact (h.chars a ha c hc).1
  obtain ⟨h1, h2⟩ := sepC_plain (d := ',') (by decide) rm _ hs
  rw [separateArgs_str, sepBy_unique (sepC_ne _ _ _ _) h.some h2 (fun a ha hc => (h.chars a ha _ hc).2 rfl) h1]

theorem pipeCheck_plain {args : List Str} (h : PlainArgs args) (w : Where) (name : Str) (data : V) :
    pipeCheck w name data (args.map .str) = .pure () := by
  match args, h with
  | [], h => exact absurd rfl h.some
  | [a], h =>
    have : (V.str a).hasTok '|' = false := by
      simp only [V.hasTok, V.tokens, List.any_map, List.any_eq_false]
      intro c hc
      simp
      rintro rfl
      exact (h.one a rfl).2 hc
    simp [pipeCheck, this]
  | _ :: _ :: _, _ => rfl

theorem minMax_plain {args : List Str} (h : PlainArgs args) (w : Where) (name : Str) (mn mx : Option Nat)
    (h1 : ∀ m, mn = some m → m ≤ args.length) (h2 : ∀ m, mx = some m → args.length ≤ m) :
    minMaxCheck w name mn mx (args.map .str) = .pure () := by
  have e1 : minMaxCheck.tooFew mn (args.map .str) = false := by
    cases mn with
    | none => rfl
    | some m =>
      have := h1 m rfl
      match args, h with
      | [], h => exact absurd rfl h.some
      | [a], h =>
        have ha := (h.one a rfl).1
        cases a with
        | nil => exact absurd rfl ha
        | cons x xs => simp [minMaxCheck.tooFew, V.truthy] at this ⊢; omega
      | _ :: _ :: _, _ => simp [minMaxCheck.tooFew] at this ⊢; omega
  have e2 : minMaxCheck.tooMany mx (args.map .str) = false := by
    cases mx with
    | none => rfl
    | some m => have := h2 m rfl; simp [minMaxCheck.tooMany]; omega
  simp [minMaxCheck, e1, e2]

/-- What a `Goto` with these arguments means: context, extension and priority, of which
the first may be missing. -/
def gotoJump : List Str → Jump
  | [p] => ⟨.none, .none, .one (.str p)⟩
  | [e, p] => ⟨.none, .str e, .one (.str p)⟩
  | [c, e, p] => ⟨.str c, .str e, .one (.str p)⟩
  | _ => ⟨.none, .none, .one .none⟩

/-- C76: nor about a `Goto` with one to three plain arguments; it jumps there. -/
theorem C76_goto {env : DEnv} {name : Str} {args : List Str} {a : AppInfo}
    (h : LiteralCall env name (sepBy ',' args) a) (hb : a.beh = .goto) (hp : PlainArgs args) (hl : args.length ≤ 3) :
    QuietApp env (name ++ '(' :: (sepBy ',' args ++ [')'])) [gotoJump args] := by
  intro sp w
  obtain ⟨inner, hr⟩ := runApp_literal h (by simp [hb]) sp w
  rw [hr]
  refine ⟨[.app (env.lower name)], sp, ?_, rfl⟩
  have hj : padJump (args.map .str) = .ok (gotoJump args) := by
    match args, hl, hp.some with
    | [p], _, _ => rfl
    | [e, p], _, _ => rfl
    | [c, e, p], _, _ => rfl
    | _ :: _ :: _ :: _ :: _, hl, _ => simp at hl
    | [], _, h => exact absurd rfl h
  have hlen : 1 ≤ args.length := List.length_pos_iff.2 hp.some
  simp [callApp, hb, jumpArgs, separate_plain hp, minMax_plain hp w a.name (some 1) (some 3) (by simpa using hlen) (by simpa using hl),
    pipeCheck_plain hp, hj, Tr.lift, Tr.bind, Tr.pure]

theorem letters_chars (x : Str) : letters (V.str x).tokens = x := by
  simp only [V.tokens]
  induction x with
  | nil => rfl
  | cons c cs ih => simpa [letters] using ih

/-- The argument is as described: options are letters from the list, each once. -/
def SuitsArg (x : Str) : ArgBeh → Prop
  | .any => True
  | .options opts => (∀ c ∈ x, c ∈ opts) ∧ x.Nodup
  | .appOrExten => x = c! "app" ∨ x = c! "exten"

/-- C76: nor about an application with plain arguments of which there are enough and not
too many, each as described. -/
theorem C76_args {env : DEnv} {name : Str} {args : List Str} {a : AppInfo} {mn : Option Nat} {behs : List ArgBeh}
    (h : LiteralCall env name (sepBy ',' args) a) (hb : a.beh = .args mn behs) (hp : PlainArgs args)
    (hmin : ∀ m, mn = some m → m ≤ args.length) (hmax : args.length ≤ behs.length)
    (hopt : ∀ (i : Nat) (x : Str) (b : ArgBeh), args[i]? = some x → behs[i]? = some b → SuitsArg x b) :
    QuietApp env (name ++ '(' :: (sepBy ',' args ++ [')'])) [] := by
  intro sp w
  obtain ⟨inner, hr⟩ := runApp_literal h (by simp [hb]) sp w
  rw [hr]
  refine ⟨[.app (env.lower name)], sp, ?_, rfl⟩
  have hv : ∀ (n : Nat) (bs : List ArgBeh) (xs : List Str), 
      (∀ (i : Nat) (x : Str) (b : ArgBeh), xs[i]? = some x → bs[i]? = some b → SuitsArg x b) →
      validateArgs w a.name n bs (xs.map .str) = .pure () := by
    intro n bs
    induction bs generalizing n with
    | nil => intro xs _; simp [validateArgs]
    | cons b bs ih =>
      intro xs hx
      cases xs with
      | nil => simp [validateArgs]
      | cons x xs =>
        have h1 : validateArg w a.name n b (.str x) = .pure () := by
          have hb := hx 0 x b rfl rfl
          cases b with
          | any => rfl
          | appOrExten => rcases hb with rfl | rfl <;> rfl
          | options opts =>
            obtain ⟨ho, hn⟩ := hb
            have hlet : letters (V.str x).tokens = x := letters_chars x
            have e1 : badOptions opts (.str x) = [] := by
              rw [badOptions_eq, hlet, List.map_eq_nil_iff, List.filter_eq_nil_iff]
              simpa using ho
            have e2 := mt (dupes_iff (.str x)).1 (by rw [hlet]; simpa using hn)
            simp only [validateArg, e1, if_neg e2]
            rfl
        rw [List.map_cons, validateArgs, h1, Tr.pure_bind]
        exact ih _ _ fun i x b h h' => hx (i + 1) x b (by simpa using h) (by simpa using h')
  simp [callApp, hb, callArgs, separate_plain hp, minMax_plain hp w a.name mn (some behs.length) hmin (by simpa using hmax),
    pipeCheck_plain hp, hv 1 behs args hopt, Tr.bind, Tr.pure]

/-! ## An example -/

/-- Two contexts, an include, a pattern, a label and jumps. -/
def cleanDemo : CFile where
  general := [(c! "static", c! "yes")]
  globals := [(c! "TRUNK", c! "SIP/a b")]
  contexts := [
    ⟨c! "default", [c! "inner"], [
      ⟨c! "_1XX", ⟨none, c! "NoOp(start (of) it)"⟩, [⟨some (c! "top"), c! "NoOp(again)"⟩, ⟨none, c! "Goto(top)"⟩]⟩,
      ⟨c! "200", ⟨none, c! "Goto(inner,s,1)"⟩, []⟩]⟩,
    ⟨c! "inner", [], [⟨c! "s", ⟨none, c! "NoOp()"⟩, [⟨none, c! "Goto(1)"⟩]⟩]⟩]

example : fileBytes (fileLines cleanDemo) = utf8 (c! "[general]
static=yes

[globals]
TRUNK=SIP/a b

[default]
include => inner
exten => _1XX,1,NoOp(start (of) it)
 same => n(top),NoOp(again)
 same => n,Goto(top)
exten => 200,1,Goto(inner,s,1)

[inner]
exten => s,1,NoOp()
 same => n,Goto(1)
") := by decide +kernel

theorem demoNoOp (data : Str) (h1 : contains (c! "${") data = false) (h2 : contains (c! "$[") data = false)
    (hb : balanced (V.str data).tokens = true) : QuietApp demoEnv (c! "NoOp" ++ '(' :: (data ++ [')'])) [] :=
  C76_plain (a := ⟨c! "NoOp", c! "<builtin>", .plain⟩)
    ⟨by decide, by decide, rfl, ⟨by decide, by decide, by
      intro c r h; cases h; decide, by
      intro r c h
      have := congrArg List.getLast? h
      simp at this; subst this; decide⟩, h1, h2⟩ rfl ((C38_balance _).1 hb)

theorem demoGoto (args : List Str) (h1 : contains (c! "${") (sepBy ',' args) = false)
    (h2 : contains (c! "$[") (sepBy ',' args) = false) (hl : args.length ≤ 3) (hp : PlainArgs args) :
    QuietApp demoEnv (c! "Goto" ++ '(' :: (sepBy ',' args ++ [')'])) [gotoJump args] :=
  C76_goto (a := ⟨c! "Goto", c! "<builtin>", .goto⟩)
    ⟨by decide, by decide, rfl, ⟨by decide, by decide, by
      intro c r h; cases h; decide, by
      intro r c h
      have := congrArg List.getLast? h
      simp at this; subst this; decide⟩, h1, h2⟩ rfl hp hl

theorem noLead_of {s : Str} (h : ∀ c, s.head? = some c → isSpace c = false) : NoLead s := by
  rintro c r rfl; exact h c rfl

theorem noTrail_of {s : Str} (h : ∀ c, s.getLast? = some c → isSpace c = false) : NoTrail s := by
  rintro r c rfl; exact h c (by simp)

theorem cleanDemo_good : GoodFile demoEnv cleanDemo where
  lines := by decide +kernel
  settings := by
    intro kv h
    simp only [cleanDemo, List.cons_append, List.nil_append, List.mem_cons, List.not_mem_nil, or_false] at h
    rcases h with rfl | rfl
    · exact ⟨⟨by decide, noLead_of (by decide), noTrail_of (by decide), by decide, by decide⟩, noLead_of (by decide), by decide⟩
    · exact ⟨⟨by decide, noLead_of (by decide), noTrail_of (by decide), by decide, by decide⟩, noLead_of (by decide), by decide⟩
  names := by decide
  contexts := by
    have plain : ∀ a : List Str, (∀ x ∈ a, ∀ c ∈ x, c ∉ sepSpecial ∧ c ≠ ',') →
        (a ≠ [] ∧ ∀ x ∈ a.head?, x ≠ [] ∧ '|' ∉ x) → PlainArgs a := by
      intro a h1 h2
      refine ⟨h1, ?_, h2.1⟩
      rintro x rfl
      exact h2.2 x rfl
    intro c h
    simp only [cleanDemo, List.mem_cons, List.not_mem_nil, or_false] at h
    rcases h with rfl | rfl
    · refine ⟨by decide, by decide, ?_, ?_, ?_⟩
      · intro i hi
        simp only [List.mem_cons, List.not_mem_nil, or_false] at hi
        subst hi
        exact noLead_of (by decide)
      · intro e he
        simp only [List.mem_cons, List.not_mem_nil, or_false] at he
        rcases he with rfl | rfl
        · refine ⟨by decide, noLead_of (by decide), ⟨_, rfl, by decide, ?_⟩, by decide⟩
          intro s hs
          simp only [CExt.steps, List.mem_cons, List.not_mem_nil, or_false] at hs
          rcases hs with rfl | rfl | rfl
          · exact ⟨by simp, [], demoNoOp (c! "start (of) it") (by decide) (by decide) (by decide), by simp⟩
          · exact ⟨by simp, [], demoNoOp (c! "again") (by decide) (by decide) (by decide), by simp⟩
          · refine ⟨by simp, _, demoGoto [c! "top"] (by decide) (by decide) (by decide) (plain _ (by decide) (by decide)), ?_⟩
            intro j hj
            simp only [List.mem_cons, List.not_mem_nil, or_false] at hj
            subst hj
            refine ⟨_, _, c! "top", ⟨.inl ⟨rfl, rfl⟩, .inl ⟨rfl, rfl⟩, rfl⟩, _, by simp [cleanDemo], rfl,
              _, by simp; exact .inl rfl, ?_, 1, _, rfl, .inr ⟨by decide, rfl⟩⟩
            refine (dials_iff (raw := c! "_1XX") rfl _).1 ?_
            decide
        · refine ⟨by decide, noLead_of (by decide), ⟨_, rfl, by decide, ?_⟩, by decide⟩
          intro s hs
          simp only [CExt.steps, List.mem_cons, List.not_mem_nil, or_false] at hs
          subst hs
          refine ⟨by simp, _, demoGoto [c! "inner", c! "s", c! "1"] (by decide) (by decide) (by decide)
            (plain _ (by decide) (by decide)), ?_⟩
          intro j hj
          simp only [List.mem_cons, List.not_mem_nil, or_false] at hj
          subst hj
          refine ⟨_, _, c! "1", ⟨.inr ⟨rfl, by decide⟩, .inr ⟨rfl, by decide⟩, rfl⟩, _, by simp [cleanDemo]; exact .inr rfl, rfl,
            _, by simp; rfl, ?_, 0, _, rfl, .inl ⟨by decide, by decide, by decide⟩⟩
          refine (dials_iff (raw := c! "s") rfl _).1 ?_
          decide
      · simp only [List.pairwise_cons, List.mem_cons, List.not_mem_nil, or_false, forall_eq, false_imp_iff, implies_true,
          List.Pairwise.nil, and_true]
        intro va vb ha hb
        cases ha; cases hb
        decide
    · refine ⟨by decide, by decide, by simp, ?_, by simp⟩
      intro e he
      simp only [List.mem_cons, List.not_mem_nil, or_false] at he
      subst he
      refine ⟨by decide, noLead_of (by decide), ⟨_, rfl, by decide, ?_⟩, by decide⟩
      intro s hs
      simp only [CExt.steps, List.mem_cons, List.not_mem_nil, or_false] at hs
      rcases hs with rfl | rfl
      · exact ⟨by simp, [], demoNoOp [] (by decide) (by decide) (by decide), by simp⟩
      · refine ⟨by simp, _, demoGoto [c! "1"] (by decide) (by decide) (by decide) (plain _ (by decide) (by decide)), ?_⟩
        intro j hj
        simp only [List.mem_cons, List.not_mem_nil, or_false] at hj
        subst hj
        refine ⟨_, _, c! "1", ⟨.inl ⟨rfl, rfl⟩, .inl ⟨rfl, rfl⟩, rfl⟩, _, by simp [cleanDemo], rfl,
          _, by simp; rfl, ?_, 0, _, rfl, .inl ⟨by decide, by decide, by decide⟩⟩
        refine (dials_iff (raw := c! "s") rfl _).1 ?_
        decide

/-- So the text above passes. -/
example : ∃ st, checkDialplan (fun _ => none) demoEnv none 20 (c! "extensions.conf") (fileBytes (fileLines cleanDemo)) =
    ⟨[], .ok (some st)⟩ ∧ AsMeant cleanDemo st.dp :=
  C76_silent _ demoEnv (by decide) _ cleanDemo_good none _ 20 (by decide)

end ALint.Props
