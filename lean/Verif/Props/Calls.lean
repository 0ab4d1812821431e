import Verif.Proofs.Reading
import Verif.Props.Reported
import Verif.Props.CleanText
import Verif.Props.Registry

/-!
# C91: variables and function calls are checked exactly; C92: assignments are
-/

namespace ALint.Props
open ALint ALint.Spec

/-- C91: the text is taken for what it means, and exactly what there is to say about its
variables and function calls is said, in the order in which they are written, a function
after its arguments. -/
theorem C91_said (env : FEnv) (w : Where) (t : Txt) (evs : List Ev) (h : TextSays env w false t evs) :
    parseVariables env w t.write = ⟨evs, .ok (join t.meaning)⟩ :=
  text_says h

/-- C91: there is only one thing to say. -/
theorem C91_unique (env : FEnv) (w : Where) (t : Txt) (evs evs' : List Ev) (h : TextSays env w false t evs)
    (h' : TextSays env w false t evs') : evs = evs' := by
  have := (text_says h).symm.trans (text_says h')
  exact congrArg Tr.ev this

/-- C91: about any text whatsoever, exactly what there is to say is said, if the check of it
ends without an exception; and the text is taken for what it means. -/
theorem C91_exact (env : FEnv) (w : Where) (s : Str) (evs : List Ev) (v : V) :
    parseVariables env w s = ⟨evs, .ok v⟩ ↔ ∃ pieces, TextReads env w s pieces evs ∧ v = join pieces :=
  reading_iff

/-- C91: a text with a substitution that is not closed is found to be so, and exactly what
there is to say about what is in front of it is said. -/
theorem C91_breaks (env : FEnv) (w : Where) (s : Str) (evs : List Ev) :
    parseVariables env w s = ⟨evs, .error .varParseError⟩ ↔ BreaksOff env w s evs :=
  break_iff

/-- C91: a text as it should be written is read as such. -/
theorem C91_regular (env : FEnv) (w : Where) (t : Txt) (evs : List Ev) (h : TextSays env w false t evs) :
    ∃ pieces, TextReads env w t.write pieces evs ∧ join t.meaning = join pieces :=
  reading_iff.1 (text_says h)

/-- C91: the functions that come with the program and are not content with balanced
arguments. -/
theorem C91_special : ∀ f ∈ funcModFiles.flatMap ModFile.regs,
    (f.beh = .audiohook ↔ f.name = c! "AUDIOHOOK_INHERIT") ∧ (f.beh = .set ↔ f.name = c! "SET") ∧
      (f.beh = .count ↔ (f.name = c! "INC" ∨ f.name = c! "DEC")) := by
  decide +kernel

theorem parseInner_exact {env : FEnv} {w : Where} (app : Str) {t : Txt} {evs : List Ev} (h : TextSays env w false t evs) :
    parseInner env w app t.write = ⟨evs, .ok (join t.meaning)⟩ := by
  have hp := text_says h
  unfold parseInner
  split
  · rw [hp]; rfl
  · rename_i hc
    rw [← hp]
    have : ¬ HasSubst t.write := by
      rw [Bool.or_eq_true, contains_infix, contains_infix] at hc
      exact hc
    rw [C32_plain env w _ this]

theorem getApp_named {env : AEnv} {name : Str} {a : AppInfo} (h : env.apps (env.lower name) = some a) (hn : a.name = name)
    (hb : a.beh ≠ .background) (sp : Option Str) (w : Where) :
    getApp env sp w name = ⟨[.app (env.lower name)], .ok (a, sp)⟩ := by
  simp [getApp, h, checkAvailability, appName, hb, hn, chooseSpelling, Tr.note, Tr.bind, Tr.pure]

theorem appBalance_says {w : Where} {a : V} {s : Str} {bal : List Ev} (hs : a.toStr = .ok s)
    (h : Exactly (¬ Bal a.tokens) (mkMsg .W_APP_BALANCE w [(c! "data", strV s)]) bal) : appBalance w a = ⟨bal, .ok ()⟩ := by
  have hb : balanced a.tokens = true ↔ Bal a.tokens := Props.C38_balance a
  unfold appBalance
  simp only [hs]
  rcases h with ⟨hp, rfl⟩ | ⟨hp, rfl⟩
  · rw [if_neg (fun h => hp (hb.1 h))]
    rfl
  · rw [if_pos (hb.2 (Classical.byContradiction hp))]
    rfl

/-- C92: `Set(...)` says what there is to say about the text, then about the assignment,
and then whether brackets and quotes are balanced.  Nothing else. -/
theorem C92_set_partial (env : AEnv) (depth : Nat) (sp : Option Str) (w : Where) (name : Str) (a : AppInfo) (t : Txt) (s : Str)
    (used asg bal : List Ev) (hn : name ≠ [] ∧ '(' ∉ name ∧ NoLead name ∧ NoTrail name)
    (ha : env.apps (env.lower name) = some a) (hname : a.name = name) (hb : a.beh = .set)
    (ht : TextSays env.toFEnv w false t used) (hs : (join t.meaning).toStr = .ok s)
    (hg : AssignSays env.toFEnv w (join t.meaning) asg)
    (hl : Exactly (¬ Bal (join t.meaning).tokens) (mkMsg .W_APP_BALANCE w [(c! "data", strV s)]) bal) :
    runApp env (depth + 1) sp w (strV (name ++ '(' :: (t.write ++ [')']))) =
      ⟨.app (env.lower name) :: (used ++ (asg ++ bal)), .ok (sp, [])⟩ := by
  rw [runApp_named hn.1 hn.2.1 hn.2.2.1 hn.2.2.2, getApp_named ha hname (by simp [hb]), parseInner_exact name ht]
  simp [Tr.bind, Tr.pure, callApp, hb, says_assign hg, appBalance_says hs hl]

theorem data_normal {env : FEnv} {w : Where} {app s : Str} {v : V} {evs : List Ev} (h : DataSays env w app s v evs) : Normal v := by
  cases h with
  | text h => exact ⟨_, reads_pieces h, rfl⟩
  | unread => exact normal_str s

/-- C92: whatever is written in the parentheses of `Set(...)`: what is said is exactly what
there is to say about the text, then about the assignment, and then whether brackets and
quotes are balanced, if the check of it ends without an exception. -/
theorem C92_exact_partial (env : AEnv) (depth : Nat) (sp sp' : Option Str) (w : Where) (name data : Str) (a : AppInfo) (js : List Jump)
    (evs : List Ev) (hn : name ≠ [] ∧ '(' ∉ name ∧ NoLead name ∧ NoTrail name)
    (ha : env.apps (env.lower name) = some a) (hname : a.name = name) (hb : a.beh = .set) :
    runApp env (depth + 1) sp w (strV (name ++ '(' :: (data ++ [')']))) = ⟨evs, .ok (sp', js)⟩ ↔
      sp' = sp ∧ js = [] ∧ ∃ v used asg bal, DataSays env.toFEnv w name data v used ∧ AssignSays env.toFEnv w v asg ∧
        BalanceSays w v bal ∧ evs = .app (env.lower name) :: (used ++ (asg ++ bal)) := by
  rw [runApp_named hn.1 hn.2.1 hn.2.2.1 hn.2.2.2, getApp_named ha hname (by simp [hb])]
  constructor
  · intro h
    obtain ⟨p, e1, e2, h1, h2, rfl⟩ := bind_iff.1 h
    simp only [Tr.mk.injEq, Except.ok.injEq] at h1
    obtain ⟨rfl, rfl⟩ := h1
    obtain ⟨v, e3, e4, h3, h4, rfl⟩ := bind_iff.1 h2
    simp only [callApp, hb] at h4
    obtain ⟨⟨⟩, e5, e6, h5, h6, rfl⟩ := bind_iff.1 h4
    obtain ⟨⟨⟩, e7, e8, h7, h8, rfl⟩ := bind_iff.1 h6
    obtain ⟨h9, rfl⟩ := pure_iff.1 h8
    simp only [Prod.mk.injEq] at h9
    have hd := parseInner_iff.1 h3
    exact ⟨h9.1, h9.2, v, e3, e5, e7, hd, (assign_iff (data_normal hd)).1 h5, appBalance_iff.1 h7, by simp⟩
  · rintro ⟨rfl, rfl, v, used, asg, bal, h1, h2, h3, rfl⟩
    rw [parseInner_iff.2 h1]
    have h4 : appBalance w v = ⟨bal, .ok ()⟩ := appBalance_iff.2 h3
    simp [Tr.bind, Tr.pure, callApp, hb, says_assign h2, h4]

/-- C92: the applications that come with the program and assign. -/
theorem C92_special : ∀ a ∈ appModFiles.flatMap ModFile.regs, a.beh = .set ↔ a.name = c! "Set" := by
  decide +kernel

/-! ## Examples -/

private def env1 : AEnv where
  lower := fun s => s.map Char.toLower
  funcs := fun s => if s = c! "len" then some ⟨c! "LEN", c! "func_strings", .plain⟩
    else if s = c! "inc" then some ⟨c! "INC", c! "func_math", .count⟩
    else if s = c! "unknown" then some ⟨c! "UNKNOWN", c! "<unknown>", .plain⟩ else none
  apps := fun s => if s = c! "set" then some ⟨c! "Set", c! "<builtin>", .set⟩ else none

private theorem plain_of {n : Str} (h : ['$', '{', '}', '[', ']', '(', ':'].all (fun c => !n.contains c) = true) : PlainName n := by
  intro c hc
  have := List.all_eq_true.1 h c hc
  simpa using this

private theorem bal_of {v : V} (h : balanced v.tokens = true) : Bal v.tokens := (Props.C38_balance v).1 h

/-- `${len(a(${x-y})} ${INC(n)}`: bad tokens in `x-y`, bad case of `LEN`, unbalanced
parentheses; `n` counts as a variable. -/
example (w : Where) : ∃ evs, TextSays env1.toFEnv w false
    (.call (c! "len") (.text (c! "a(") (.var (c! "x-y") .nil)) (.text (c! " ") (.call (c! "INC") (.text (c! "n") .nil) .nil))) evs ∧
    evs = [.msg (mkMsg .E_VAR_BAD_TOKENS w [(c! "data", strV (c! "x-y"))]), .var (c! "x-y") w, .func (c! "len"),
      .msg (mkMsg .E_FUNC_BAD_CASE w [(c! "func", strV (c! "len")), (c! "proper", strV (c! "LEN"))]),
      .msg (mkMsg .W_FUNC_BALANCE w [(c! "data", strV (c! "a(${x-y}"))]), .func (c! "inc"), .var (c! "n") w] := by
  refine ⟨_, .call (by decide) (plain_of (by decide))
    (.text (by decide) (fun _ => ⟨.none (by decide) (by decide), .none (by decide) (by decide)⟩)
      (.var (plain_of (by decide)) (.mk (.inl ⟨by decide, rfl⟩)) .nil))
    (.miscased (fi := ⟨c! "LEN", c! "func_strings", .plain⟩) (.inl (by decide)) (by decide) (by decide))
    (.plain rfl (.text (s := c! "a(${x-y}") (by rw [← Props.C38_balance]; decide) rfl))
    (.text (by decide) (by simp) (.call (by decide) (plain_of (by decide))
      (.text (by decide) (fun _ => ⟨.none (by decide) (by decide), .none (by decide) (by decide)⟩) .nil)
      (.known (fi := ⟨c! "INC", c! "func_math", .count⟩) (.inl (by decide)) (by decide))
      (.count rfl (.fine (bal_of (v := .str (c! "n")) (by decide))) (.mk (.inr ⟨by decide, rfl⟩))) .nil)), ?_⟩
  rfl

/-- An unknown function. -/
example (w : Where) : parseVariables env1.toFEnv w (c! "${NONE()}") =
    ⟨[.func (c! "none"), .msg (mkMsg .E_FUNC_MISSING w [(c! "func", strV (c! "NONE"))])],
      .ok (.atom .func (.str (c! "NONE()")) .none .none)⟩ :=
  C91_said env1.toFEnv w (.call (c! "NONE") .nil .nil) _ (.call (by decide) (plain_of (by decide)) .nil
    (.unknown (fi := ⟨c! "UNKNOWN", c! "<unknown>", .plain⟩) (.inr (by decide)) (by decide) rfl)
    (.plain rfl (.fine (bal_of (v := .str []) (by decide)))) .nil)

theorem no_subst {s : Str} (h : contains (c! "${") s = false ∧ contains (c! "$[") s = false) : ¬ HasSubst s := by
  rintro (h' | h')
  · rw [← contains_infix, h.1] at h'; cases h'
  · rw [← contains_infix, h.2] at h'; cases h'

private theorem closed_by {s inner tail : Str} (h : ∃ more, bracketsEnd '{' '}' 0 s = some (inner, more, tail)) :
    Encloses '{' '}' s inner tail :=
  (enclosesAt_zero _ _ _ _ _).1 ((bracketsEnd_iff true 0 s inner tail).1 h)

/-- `${x:a}`: the start is not a number.  The text is not as it should be written. -/
example (w : Where) : TextReads env1.toFEnv w (c! "${x:a}") [.str [], .atom .var (.str (c! "x")) .none .none, .str []]
    [.msg (mkMsg .E_VAR_SUBSTR_START w [(c! "start", .one .none)]), .var (c! "x") w] := by
  have h1 : Encloses '{' '}' (c! "x:a}") (c! "x:a") [] := closed_by ⟨_, rfl⟩
  have h2 : Fields ':' (.str (c! "x:a")) [.str (c! "x"), .str (c! "a")] :=
    .text (parts := [(c! "x").map tk, (c! "a").map tk]) rfl (by simp) (by decide) (by decide)
  exact .curly (pre := []) (no_subst (by decide)) h1 (.plain (no_subst (by decide)))
    (.slice (name := .str (c! "x")) (start := .none) (length := .none) (by decide) (by decide)
      (.badStart h2 (by simp) (by decide)) (.name (.mk (.inr ⟨by decide, rfl⟩)))) (.plain (no_subst (by decide)))

/-- `${x} ${y`: only the first is read. -/
example (w : Where) : BreaksOff env1.toFEnv w (c! "${x} ${y") [.var (c! "x") w] := by
  have h1 : Encloses '{' '}' (c! "x} ${y") (c! "x") (c! " ${y") := closed_by ⟨_, rfl⟩
  exact .behindCurly (pre := []) (no_subst (by decide)) h1 (.plain (no_subst (by decide)))
    (.var (by decide) (by decide) (.name (.mk (.inr ⟨by decide, rfl⟩))))
    (.curly (pre := [' ']) (no_subst (by decide)) fun inner tail h => by
      obtain ⟨more, hm⟩ := (bracketsEnd_iff true 0 (c! "y") inner tail).2 ((enclosesAt_zero _ _ _ _ _).2 h)
      have hm' : none = some (inner, more, tail) := hm
      cases hm')

/-- `Set(my var=${x})`: the space is reported. -/
example (w : Where) : runApp env1 1 none w (strV (c! "Set(my var=${x})")) =
    ⟨[.app (c! "set"), .var (c! "x") w, .msg (mkMsg .W_ASSIGN_SPACES w [(c! "name", strV (c! "my var"))])], .ok (none, [])⟩ :=
  C92_set_partial env1 0 none w (c! "Set") ⟨c! "Set", c! "<builtin>", .set⟩ (.text (c! "my var=") (.var (c! "x") .nil))
    (c! "my var=${x}") [.var (c! "x") w] _ []
    ⟨by decide, by decide, fun c r h => by cases h; decide, noTrail_of (by decide)⟩ (by decide) rfl rfl
    (.text (by decide) (by simp) (.var (plain_of (by decide)) (.mk (.inr ⟨by decide, rfl⟩)) .nil)) (by decide)
    (.variable (dest := (c! "my var").map tk) (rest := [.atom .var (.str (c! "x")) .none .none]) rfl rfl
      (by decide) (by decide) ⟨.inl ⟨by decide, rfl⟩, fun _ => ⟨c! "my var", rfl⟩⟩)
    (.inr ⟨by rw [← Props.C38_balance]; decide, rfl⟩)

/-- `Set(inc(a b)=1)`: a function by another case, its argument not a name. -/
example (w : Where) : ∃ evs, AssignSays env1.toFEnv w (.str (c! "inc(a b)=1")) evs ∧ evs =
    [.msg (mkMsg .W_ASSIGN_SPACES w [(c! "name", strV (c! "inc(a b)"))]), .func (c! "inc"),
      .msg (mkMsg .E_FUNC_BAD_CASE w [(c! "func", strV (c! "inc")), (c! "proper", strV (c! "INC"))]),
      .msg (mkMsg .E_VAR_BAD_TOKENS w [(c! "data", strV (c! "a b"))]), .var (c! "a b") w] := by
  refine ⟨_, .function (name := c! "inc") (args := (c! "a b").map tk) (rest := [tk '1']) rfl (by decide) (by decide) (by decide)
    (by decide) ⟨.inl ⟨by decide, rfl⟩, fun _ => ⟨c! "inc(a b)", rfl⟩⟩ .text
    (.miscased (fi := ⟨c! "INC", c! "func_math", .count⟩) (.inl (by decide)) (by decide) (by decide))
    (.count rfl (.fine (bal_of (v := .str (c! "a b")) (by decide))) (.mk (.inl ⟨by decide, rfl⟩))), rfl⟩

/-! ## What is not as it should be -/

/-- C92 fails: `Set($[a=b])` assigns to nothing, and nothing is said: the `=` is found
inside the expression. -/
theorem C92_violated_inside (w : Where) : (runApp env1 1 none w (strV (c! "Set($[a=b])"))).ev = [.app (c! "set")] ∧
    tk '=' ∉ (join (Txt.expr (.text (c! "a=b") .nil) .nil).meaning).tokens := by
  refine ⟨?_, by decide⟩
  rfl

/-- C92 fails: if the argument of a function that is written to has variables, the check for
balance goes wrong both ways.  `a(${x})` is reported, `a(${x}` is not. -/
theorem C92_violated_balance (w : Where) :
    (evMsgs (runApp env1 1 none w (strV (c! "Set(LEN(a(${x}))=1)"))).ev).map Msg.kind = [.W_FUNC_BALANCE] ∧
    (evMsgs (runApp env1 1 none w (strV (c! "Set(LEN(a(${x})=1)"))).ev).map Msg.kind = [.W_APP_BALANCE] ∧
    Bal (join (Txt.text (c! "a(") (.var (c! "x") (.text (c! ")") .nil))).meaning).tokens := by
  refine ⟨rfl, rfl, ?_⟩
  rw [← Props.C38_balance]
  decide

/-- C92 fails: a destination that ends in a parenthesis that was not opened, a function name
with a variable in it, and `INC` of a variable name given by a variable end the program. -/
theorem C92_violated_crash (w : Where) :
    (runApp env1 1 none w (strV (c! "Set(a)=1)"))).val = .error .unboundLocalError ∧
    (runApp env1 1 none w (strV (c! "Set(${y}(a)=1)"))).val = .error .attributeError ∧
    (runApp env1 1 none w (strV (c! "Set(INC(${x})=1)"))).val = .error .assertionError := by
  refine ⟨?_, ?_, ?_⟩ <;> rfl

end ALint.Props
