import Verif.Proofs.DialplanLog
import Verif.Props.Lookup
import Verif.Props.Located

/-!
# What is said about a dialplan (C94)
-/

namespace ALint.Props
open ALint ALint.Spec

/-- C94: exactly the messages of the specification are issued for the elements of a dialplan, in
that order. -/
theorem C94_says (env : DEnv) (sp : Option Str) (es : List Elem) (log : List Msg) (st : DState)
    (h : After env sp es log st) : log = (dialplanSays env (.none sp) es).1 := by
  have h1 := congrArg Res.log h
  have h2 := (dialplan_says es (DpInv.init sp) (Agrees.init sp) (congrArg Res.val h)).1
  rw [← h2]
  exact h1.symm

/-- C94: and exactly the lines which the specification keeps are steps of their contexts, in
that order. -/
theorem C94_steps (env : DEnv) (sp : Option Str) (es : List Elem) (log : List Msg) (st : DState)
    (h : After env sp es log st) (name : Str) :
    (∀ c, st.dp.get name = some c → c.steps = (dialplanSays env (.none sp) es).2.steps name) ∧
    (st.dp.get name = none → (dialplanSays env (.none sp) es).2.steps name = []) := by
  have h2 := (dialplan_says es (DpInv.init sp) (Agrees.init sp) (congrArg Res.val h)).2.steps name
  rw [h2]
  unfold stepsOf
  constructor
  · intro c hc; rw [hc]; rfl
  · intro hc; rw [hc]; rfl

/-- C94: what is said about a jump is what is wrong with its destination. -/
theorem C94_jump (env : DEnv) (sp : Option Str) (es : List Elem) (log : List Msg) (st : DState)
    (h : After env sp es log st) (depth : Nat) (d : Dest) (ms : List Msg)
    (hw : walkDest st.dp depth d = ⟨ms, .ok ()⟩) : JumpSays st.dp d ms := by
  by_cases hok : JumpOk st.dp d
  · rw [(C55_exact env sp es log st h depth d ms hw).2 hok]
    exact .ok hok
  have hne : ms ≠ [] := fun e => hok ((C55_exact env sp es log st h depth d ms hw).1 e)
  have hk := (C50_known env sp es log st h)
  have text : ∀ l, prioText d.prio = some l → d.prio = .one (.str l) := by
    intro l hp
    unfold prioText at hp
    split at hp
    · simp at hp; subst hp; assumption
    · cases hp
  have hv := congrArg Res.val hw
  have hl := congrArg Res.log hw
  simp only at hv hl
  unfold walkDest at hv hl
  by_cases hvar : d.context.isVar = true
  · rw [if_pos hvar] at hv hl
    cases hp : prioText d.prio with
    | none => rw [hp] at hl; exact absurd hl.symm hne
    | some l =>
      simp only [hp] at hl
      by_cases hlab : st.dp.hasLabel l = true
      · rw [if_pos hlab] at hl; exact absurd hl.symm hne
      · rw [if_neg hlab] at hl
        subst hl
        exact .noLabel l hvar (text l hp) fun c hc s hs hh => hlab (((hk l).1).2 ⟨c, hc, s, hs, hh⟩)
  · rw [if_neg hvar] at hv hl
    have hvar' : d.context.isVar = false := by simpa using hvar
    cases hctx : d.context with
    | str name =>
      rw [hctx] at hv hl
      simp only at hv hl
      cases hg : st.dp.get name with
      | none =>
        rw [hg] at hl
        simp only [Res.emit_log] at hl
        subst hl
        refine .noContext hvar' fun c hc e => ?_
        rw [hctx] at e
        cases e
        unfold Dialplan.get at hg
        simpa using List.find?_eq_none.1 hg c hc
      | some c =>
        rw [hg] at hv hl
        have hcm := get_mem hg
        simp only at hv hl
        by_cases hxv : d.exten.isVar = true
        · rw [if_pos hxv] at hl
          cases hp : prioText d.prio with
          | none => rw [hp] at hl; exact absurd hl.symm hne
          | some l =>
            simp only [hp] at hl
            by_cases hlab : c.hasLabel l = true
            · rw [if_pos hlab] at hl; exact absurd hl.symm hne
            · rw [if_neg hlab] at hl
              subst hl
              exact .noLabelThere c l hcm.1 (by rw [hctx, hcm.2]) hxv (text l hp)
                fun s hs hh => hlab (((hk l).2 c hcm.1).2 ⟨s, hs, hh⟩)
        · rw [if_neg hxv] at hv hl
          cases hx : d.exten with
          | str x =>
            rw [hx] at hv hl
            simp only at hv hl
            cases hm : matchPattern st.dp depth c.name x d.prio with
            | error e => rw [hm] at hv; simp [Res.lift, Res.bind] at hv
            | ok r =>
              obtain ⟨hs1, hs2⟩ := C53_exact env sp es log st h depth c.name x d.prio r hm
              cases r with
              | some s =>
                rw [hm] at hl
                simp only [Res.lift, Res.bind, Res.pure_log, List.append_nil] at hl
                exact absurd hl.symm hne
              | none =>
                rw [hm] at hl
                simp only [Res.lift, Res.bind, Res.emit_log, List.nil_append] at hl
                subst hl
                exact .noStep c x hcm.1 (by rw [hctx, hcm.2]) hx (hs2 rfl)
          | _ => rw [hx] at hv; simp [Res.raise] at hv
    | _ =>
      rw [hctx] at hl
      simp only [Res.emit_log] at hl
      subst hl
      exact .noContext hvar' fun c hc e => by rw [hctx] at e; cases e

/-- C94: a check that ends says what the lines of the files are told, put together with what the
dialplan is told, then what is missing, then what is wrong with the jumps in order. -/
theorem C94_check (fs : FS) (env : DEnv) (sp : Option Str) (n : Nat) (path : Str) (content : Bytes) (log : List Msg)
    (st : DState) (h : checkDialplan fs env sp n path content = ⟨log, .ok (some st)⟩) :
    ∃ es lines both parts,
      pipeRun fs collect n ⟨[openFrame path content], [], [], []⟩ = ⟨lines, .ok (some es)⟩ ∧
      Merges lines (dialplanSays env (.none sp) es).1 both ∧
      Zips (JumpSays st.dp) st.dp.dests parts ∧
      After env sp es (dialplanSays env (.none sp) es).1 st ∧
      log = both ++ endSays (dialplanSays env (.none sp) es).2 ++ parts.flatten := by
  have hv := congrArg Res.val h
  have hl := congrArg Res.log h
  simp only at hv hl
  unfold checkDialplan at hv hl
  obtain ⟨r, h1, h2, h3⟩ := Res.bind_ok hv
  rw [h3] at hl
  cases r with
  | none => simp at h2
  | some s =>
    simp only at h2 hl
    obtain ⟨_, _, h4, h5⟩ := Res.bind_ok h2
    obtain ⟨_, h6, h7, h8⟩ := Res.bind_ok h4
    simp only [Res.pure_val, Except.ok.injEq, Option.some.injEq] at h7
    subst h7
    rw [h5, h8] at hl
    obtain ⟨es, lines, e1, e2, e3⟩ := pipeRun_merges fs (dialplanStep env) n _ s h1
    obtain ⟨d1, d2⟩ := dialplan_says es (DpInv.init sp) (Agrees.init sp) e1
    have hafter : After env sp es (dialplanSays env (.none sp) es).1 s := by
      unfold After
      rw [← d1, ← e1]
    have walk : ∀ (ds : List Dest), (walkDests s.dp env.depth ds).val = .ok () →
        ∃ parts, (walkDests s.dp env.depth ds).log = parts.flatten ∧ Zips (JumpSays s.dp) ds parts := by
      intro ds
      induction ds with
      | nil => intro _; exact ⟨[], rfl, .nil⟩
      | cons d ds ih =>
        intro hw
        simp only [walkDests] at hw ⊢
        obtain ⟨_, w1, w2, w3⟩ := Res.bind_ok hw
        obtain ⟨parts, p1, p2⟩ := ih w2
        refine ⟨(walkDest s.dp env.depth d).log :: parts, ?_, .cons ?_ p2⟩
        · rw [w3, p1]; rfl
        · exact C94_jump env sp es _ s hafter env.depth d _ (by rw [← w1])
    obtain ⟨parts, p1, p2⟩ := walk s.dp.dests h6
    rw [d1] at e3
    refine ⟨es, lines, _, parts, e2 [], e3, p2, hafter, ?_⟩
    rw [← hl, end_says d2, p1]
    simp

/-! ### Examples -/

/-- A dialplan that is wrong in many ways. -/
def poor : List Elem := [
  demoExten 1 (c! "s,1,NoOp()"),
  demoHead 2 (c! "a"), demoSame 3 (c! "n,NoOp()"), demoExten 4 (c! "_nx,n,NoOp()"), demoExten 5 (c! "_NX,3(top),NoOp()"),
  demoExten 6 (c! "s,3,NoOp()"), demoSame 7 (c! "n(top),Goto(nowhere,s,1)"),
  demoHead 8 (c! "globals"), demoHead 9 (c! "general"), demoHead 10 (c! "globals"),
  demoHead 11 (c! "a"), demoSame 12 (c! "n,Goto(b,s,7)"), demoExten 13 (c! "s,3,NoOp()"), demoExten 14 (c! "s,9(top),NoOp()"),
  demoExten 15 (c! "s,x,NoOp()"), demoExten 16 (c! "s,0,NoOp()"), demoExten 17 (c! "s,hint,SIP/a"),
  .var ⟨c! "switch", c! "Realtime", false, false, demoW 18⟩, .var ⟨c! "extn", c! "s,1,NoOp()", true, false, demoW 19⟩,
  demoHead 20 (c! "b"), demoExten 21 (c! "t,1,NoOp()")]

example : (dialplanSays demoEnv (.none none) poor).1.map (fun m => (m.kind, m.at_.lineno, m.previous.map (·.lineno))) = [
    (.E_CONF_CTX_MISSING, 1, none), (.E_DP_PAT_MISSING, 3, none), (.H_PAT_NON_CANONICAL, 4, none),
    (.E_DP_PRIO_MISSING, 4, none), (.W_DP_PRIO_BADORDER, 5, none), (.W_DP_PRIO_BADORDER, 6, none),
    (.H_DP_GLOBALS_MISPLACED, 8, none), (.H_DP_GENERAL_MISPLACED, 9, none), (.E_DP_GLOBALS_DUPE, 10, some 8),
    (.W_DP_PRIO_BADORDER, 12, none), (.W_DP_PRIO_BADORDER, 13, none), (.E_DP_PRIO_DUPE, 13, some 6),
    (.W_DP_PRIO_BADORDER, 14, none), (.E_DP_LABEL_DUPE, 14, some 7), (.E_DP_PRIO_INVALID, 15, none),
    (.E_DP_PRIO_INVALID, 16, none), (.I_NOTIMPL_HINT, 17, none), (.H_CONF_NO_ARROW, 18, none),
    (.I_NOTIMPL_SWITCH, 18, none), (.E_CONF_KEY_INVALID, 19, none)] := by decide +kernel

-- the hypothesis is met: the lines are read to the end
example : ∃ log st, After demoEnv none poor log st ∧
    (st.dp.contexts.map fun c => (c.name, c.steps.map fun t => (t.raw, t.prio, t.label))) =
      [(c! "a", [(c! "_NX", 3, some (c! "top")), (c! "s", 3, none), (c! "s", 4, some (c! "top")), (c! "s", 5, none),
        (c! "s", 9, some [])]), (c! "b", [(c! "t", 1, none)])] ∧
    ((walkDests st.dp 9 st.dp.dests).log.map fun m => (m.kind, m.at_.lineno)) =
      [(.E_DP_GOTO_NOCONTEXT, 7), (.W_DP_GOTO_CONTEXT_NOEXTEN, 12)] := by
  have h : (feed (dialplanStep demoEnv) (.init none) poor).val.toOption.isSome = true := by decide +kernel
  cases hx : (feed (dialplanStep demoEnv) (.init none) poor).val with
  | error e => rw [hx] at h; simp [Except.toOption] at h
  | ok st =>
    refine ⟨(feed (dialplanStep demoEnv) (.init none) poor).log, st, by unfold After; rw [← hx], ?_⟩
    have hs : st = ((feed (dialplanStep demoEnv) (.init none) poor).val.toOption).getD (.init none) := by
      rw [hx]; rfl
    rw [hs]
    decide +kernel

-- a whole file
example : (checkText (c! "[a]\nexten => _XX,1(x),Goto(y)\n same => n,Goto(b,1,1)\nexten => s,5,NoOp()")).log.map
      (fun m => (m.kind, m.at_.lineno)) =
    [(.W_DP_PRIO_BADORDER, 4), (.W_FILE_UNIX_NOLF, 4), (.H_DP_GENERAL_MISPLACED, 0), (.H_DP_GLOBALS_MISPLACED, 0),
      (.W_DP_GOTO_CONTEXT_NOEXTEN, 2), (.E_DP_GOTO_NOCONTEXT, 3)] ∧
    (checkText (c! "[a]\nexten => _XX,1(x),Goto(y)\n same => n,Goto(b,1,1)\nexten => s,5,NoOp()")).val.toOption.isSome := by
  decide +kernel

end ALint.Props
