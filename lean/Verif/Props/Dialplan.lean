import Verif.Proofs.DialplanMore

/-!
# C48–C51, C56: steps, priorities, labels, contexts
-/

namespace ALint.Props
open ALint ALint.Spec

/-! ## Examples -/

/-- A small set of applications. -/
def demoEnv : DEnv where
  lower := fun s => s.map Char.toLower
  funcs := fun _ => none
  apps := fun s =>
    if s = c! "noop" then some ⟨c! "NoOp", c! "<builtin>", .plain⟩
    else if s = c! "goto" then some ⟨c! "Goto", c! "<builtin>", .goto⟩
    else if s = c! "unknown" then some ⟨c! "Unknown", c! "unknown", .plain⟩
    else none
  depth := 9

def demoW (n : Nat) : Where := ⟨c! "extensions.conf", n, []⟩
def demoHead (n : Nat) (name : Str) : Elem := .ctx ⟨name, [], false, demoW n⟩
def demoExten (n : Nat) (value : Str) : Elem := .var ⟨c! "exten", value, true, false, demoW n⟩
def demoSame (n : Nat) (value : Str) : Elem := .var ⟨c! "same", value, true, false, demoW n⟩
def demoInclude (n : Nat) (value : Str) : Elem := .var ⟨c! "include", value, true, false, demoW n⟩

/-- Two contexts, one of them opened again, with a duplicate and a label. -/
def demo : List Elem := [demoHead 1 (c! "general"), demoHead 2 (c! "globals"),
  demoHead 3 (c! "a"), demoExten 4 (c! "_X-X,1(top),NoOp()"), demoSame 5 (c! "n,Goto(top)"),
  demoHead 6 (c! "b"), demoInclude 7 (c! "a"), demoExten 8 (c! "s,1,NoOp()"),
  demoHead 9 (c! "a"), demoExten 10 (c! "_XX,2,NoOp()"), demoExten 11 (c! "_XX,3(top),NoOp()")]

def demoLog : List Msg := (feed (dialplanStep demoEnv) (.init none) demo).log
def demoState : DState := ((feed (dialplanStep demoEnv) (.init none) demo).val.toOption).getD (.init none)

theorem demo_after : After demoEnv none demo demoLog demoState := by
  have h : (feed (dialplanStep demoEnv) (.init none) demo).val.toOption.isSome = true := by decide
  unfold After demoLog demoState
  cases hx : (feed (dialplanStep demoEnv) (.init none) demo).val with
  | error e => rw [hx] at h; simp [Except.toOption] at h
  | ok s =>
    simp only [Except.toOption, Option.getD_some]
    rw [← hx]

theorem after_inv {env : DEnv} {sp : Option Str} {es : List Elem} {log : List Msg} {st : DState}
    (h : After env sp es log st) : DpInv st ∧ MoreInv st ∧ Rel es log st := by
  have hv := congrArg Res.val h
  have hl := congrArg Res.log h
  refine ⟨read_inv hv, feed_more (DpInv.init sp) (MoreInv.init sp) hv, ?_⟩
  have := rel_read hv
  rw [hl] at this
  exact this

/-- What a check has at the end is what it read, and its report contains the messages of
the reading. -/
theorem check_after {fs : FS} {env : DEnv} {sp : Option Str} {n : Nat} {path : Str} {content : Bytes}
    {st : DState} {log : List Msg} (h : checkDialplan fs env sp n path content = ⟨log, .ok (some st)⟩) :
    ∃ es l, After env sp es l st ∧ List.Sublist l log ∧
      (pipeRun fs collect n ⟨[openFrame path content], [], [], []⟩).val = .ok (some es) := by
  obtain ⟨es, h1, h2, h3⟩ := check_read (congrArg Res.val h)
  refine ⟨es, (feed (dialplanStep env) (.init sp) es).log, ?_, ?_, h2⟩
  · unfold After
    rw [← h1]
  · rw [h] at h3; exact h3

/-! ## C48 -/

/-- C48: no two steps of a context have the same priority and the same extension. -/
theorem C48_unique (env : DEnv) (sp : Option Str) (es : List Elem) (log : List Msg) (st : DState)
    (h : After env sp es log st) (c : DCtx) (hc : c ∈ st.dp.contexts) :
    c.steps.Pairwise fun s t => ¬ (SameExten s t ∧ s.prio = t.prio) :=
  ((after_inv h).1.ctxs c hc).unique

/-- C48 for the command: whatever is in the file. -/
theorem C48_unique_check (fs : FS) (env : DEnv) (sp : Option Str) (n : Nat) (path : Str) (content : Bytes)
    (st : DState) (log : List Msg) (h : checkDialplan fs env sp n path content = ⟨log, .ok (some st)⟩)
    (c : DCtx) (hc : c ∈ st.dp.contexts) :
    c.steps.Pairwise fun s t => ¬ (SameExten s t ∧ s.prio = t.prio) := by
  obtain ⟨es, l, h1, _⟩ := check_after h
  exact C48_unique env sp es l st h1 c hc

/-- C48: whatever is read later, the steps of a context stay as they are. -/
theorem C48_kept (env : DEnv) (sp : Option Str) (es more : List Elem) (log log' : List Msg) (st st' : DState)
    (h : After env sp es log st) (h' : After env sp (es ++ more) log' st') (c : DCtx)
    (hc : c ∈ st.dp.contexts) : ∃ c' ∈ st'.dp.contexts, c'.name = c.name ∧ c.steps <+: c'.steps := by
  obtain ⟨hi, _, hr⟩ := after_inv h
  obtain ⟨hi', _, hr'⟩ := after_inv h'
  have hfeed : (feed (dialplanStep env) st more).val = .ok st' := by
    have hx := congrArg Res.val h'
    rw [feed_append, Res.bind_of_ok (congrArg Res.val h)] at hx
    exact hx
  have hk := feed_kept hi hfeed c.name
  have hn : c.name ∈ st'.dp.contexts.map (·.name) := by
    have : c.name ∈ st.dp.contexts.map (·.name) := List.mem_map.2 ⟨c, hc, rfl⟩
    rw [hr.names, List.mem_eraseDups] at this
    rw [hr'.names, List.mem_eraseDups, headers_append, List.filter_append]
    exact List.mem_append_left _ this
  obtain ⟨c', hc', hn'⟩ := List.mem_map.1 hn
  refine ⟨c', hc', hn', ?_⟩
  have g1 := get_of_mem hi.names hc
  have g2 := get_of_mem hi'.names hc'
  rw [hn'] at g2
  unfold stepsOf at hk
  rw [g1, g2] at hk
  simpa using hk

theorem addsNothing {st : DState} {dp' : Dialplan} {n : Str} {c : DCtx} {a : Added}
    (hc : st.dp.get n = some c) (hn : a.ctx.name = c.name) (hs : a.ctx.steps = c.steps)
    (hdp : dp' = st.dp.withAdded a) : AddsNothing st.dp dp' := by
  obtain ⟨_, g2, g3⟩ := stepsOf_added hc hn
  intro m
  rw [hdp]
  by_cases hm : m = n
  · subst hm; rw [g2, hc]; simp [hs]
  · rw [g3 m hm]

theorem adds {st : DState} {dp' : Dialplan} {n : Str} {c : DCtx} {a : Added} {s : Step}
    (hc : st.dp.get n = some c) (hn : a.ctx.name = c.name) (hs : a.ctx.steps = c.steps ++ [s])
    (hdp : dp' = st.dp.withAdded a) : Adds st.dp dp' n s := by
  obtain ⟨_, g2, _⟩ := stepsOf_added hc hn
  exact ⟨c, a.ctx, hc, by rw [hdp]; exact g2, hs⟩

/-- The context the line is in. -/
theorem after_cur {env : DEnv} {sp : Option Str} {es : List Elem} {log : List Msg} {st : DState}
    (h : After env sp es log st) {n : Str} (hl : lastHeader none es = some n) (hs : special n = false) :
    st.cur = .ctx n ∧ ∃ c, st.dp.get n = some c := by
  obtain ⟨hi, _, hr⟩ := after_inv h
  have hs' := hs
  simp only [special, Bool.or_eq_false_iff, decide_eq_false_iff_not] at hs'
  have : st.cur = .ctx n := by
    rw [hr.cur, curOf, hl]
    simp [hs'.1, hs'.2]
  exact ⟨this, hi.cur n this⟩

/-- C48: a line with an explicit priority that the same extension already has in this
context is reported, naming the place of the earlier one, and dropped. -/
theorem C48_dupe (env : DEnv) (sp : Option Str) (es : List Elem) (log log' : List Msg) (st st' : DState)
    (h : After env sp es log st) (name : Str) (hl : lastHeader none es = some name)
    (hs : special name = false) (c : DCtx) (hc : st.dp.get name = some c)
    (v : VarE) (p : Parts) (ht : StepText v p) (h' : Then env st (.var v) log' st')
    (pat : Pattern.Values) (hp : patternFor c.steps p.exten = some pat) (k : Nat) (hk : p.prio = some k)
    (t : Step) (htm : t ∈ c.steps) (hte : Pattern.canonical t.pat = Pattern.canonical pat) (htp : t.prio = k) :
    AddsNothing st.dp st'.dp ∧
    ∃ m ∈ log', m.kind = .E_DP_PRIO_DUPE ∧ m.at_ = v.at_ ∧ m.previous = some t.at_ := by
  obtain ⟨hi, _, _⟩ := after_inv h
  obtain ⟨hcur, _⟩ := after_cur h hl hs
  have hci := hi.ctxs c (get_mem hc).1
  obtain ⟨raw, e, a, pre, as, ho, he1, _, _, _, he5, _, hdp, hn, hlog, _⟩ := text_outcome hi hcur hc ht hp h'
  have hk1 : 1 ≤ k := htp ▸ hci.positive t htm
  have uniq : ∀ n, PrioCase st.dp.lastPrio e n → n = k := by
    intro n hpc
    cases hpc with
    | next m h0 _ _ => rw [he1, hk] at h0; simp at h0
    | num _ h0 _ => rw [he1, hk] at h0; simpa using h0.symm
  cases ho with
  | refused ms hb hs' hl' =>
    cases hb with
    | next h0 _ => rw [he1, hk] at h0; simp at h0
    | zero h0 => rw [he1, hk] at h0; simp at h0; omega
  | dupe ms n t' hpc _ hm he hn' hs' hl' =>
    have := uniq n hpc
    subst this
    refine ⟨addsNothing hc hn hs' hdp, ⟨.E_DP_PRIO_DUPE, e.at_, [(c! "prio", natV n)], some t'.at_⟩,
      by rw [hlog]; simp, rfl, he5, ?_⟩
    have h1 := (hci.prios _ _ _).2 ⟨t, htm, hte, htp, rfl⟩
    have h2 := (hci.prios _ _ _).2 ⟨t', hm, he, hn', rfl⟩
    rw [h1] at h2
    simpa using h2.symm
  | stored ms lms n label' hpc _ hno _ hs' hl' =>
    have := uniq n hpc
    subst this
    exact absurd htp (hno t htm hte)

/-- C48: otherwise it is stored, at the end of the context, with the parts of the line. -/
theorem C48_stored (env : DEnv) (sp : Option Str) (es : List Elem) (log log' : List Msg) (st st' : DState)
    (h : After env sp es log st) (name : Str) (hl : lastHeader none es = some name)
    (hs : special name = false) (c : DCtx) (hc : st.dp.get name = some c)
    (v : VarE) (p : Parts) (ht : StepText v p) (h' : Then env st (.var v) log' st')
    (pat : Pattern.Values) (hp : patternFor c.steps p.exten = some pat) (k : Nat) (hk : p.prio = some k) (hk1 : 1 ≤ k)
    (hno : ∀ t ∈ c.steps, Pattern.canonical t.pat = Pattern.canonical pat → t.prio ≠ k) :
    ∃ s, Adds st.dp st'.dp name s ∧ s.pat = pat ∧ (∀ r, p.exten = some r → s.raw = r) ∧
      s.prio = k ∧ s.app = p.app ∧ s.at_ = v.at_ ∧ drops log' = [] := by
  obtain ⟨hi, _, _⟩ := after_inv h
  obtain ⟨hcur, _⟩ := after_cur h hl hs
  obtain ⟨raw, e, a, pre, as, ho, he1, _, he3, _, he5, hraw, hdp, hn, hlog, hpre⟩ := text_outcome hi hcur hc ht hp h'
  have uniq : ∀ n, PrioCase st.dp.lastPrio e n → n = k := by
    intro n hpc
    cases hpc with
    | next m h0 _ _ => rw [he1, hk] at h0; simp at h0
    | num _ h0 _ => rw [he1, hk] at h0; simpa using h0.symm
  cases ho with
  | refused ms hb hs' hl' =>
    cases hb with
    | next h0 _ => rw [he1, hk] at h0; simp at h0
    | zero h0 => rw [he1, hk] at h0; simp at h0; omega
  | dupe ms n t' hpc _ hm he hn' hs' hl' =>
    have := uniq n hpc
    subst this
    exact absurd hn' (hno t' hm he)
  | stored ms lms n label' hpc hord hno' hlab hs' hl' =>
    have := uniq n hpc
    subst this
    refine ⟨_, adds hc hn hs' hdp, rfl, hraw, rfl, he3, he5, ?_⟩
    rw [hlog, drops_append, drops_append, orderMsgs_drops hord, labelOutcome_drops hlab,
      drops_nil fun m hm => (hpre m hm).2]
    rfl

/-- C48: every step line either adds one step, without a message saying that it is dropped, or
adds nothing and is reported by exactly one such message, at the place of the line; a
message about a duplicate names a step of the context. -/
theorem C48_line (env : DEnv) (sp : Option Str) (es : List Elem) (log log' : List Msg) (st st' : DState)
    (h : After env sp es log st) (name : Str) (hl : lastHeader none es = some name)
    (hs : special name = false) (v : VarE) (hv : stepLine v = true) (h' : Then env st (.var v) log' st') :
    (∃ s, Adds st.dp st'.dp name s ∧ s.at_ = v.at_ ∧ drops log' = []) ∨
    (AddsNothing st.dp st'.dp ∧ ∃ m, drops log' = [m] ∧ m.at_ = v.at_ ∧
      (m.kind = .E_DP_PRIO_DUPE →
        ∃ c t, st.dp.get name = some c ∧ t ∈ c.steps ∧ m.previous = some t.at_ ∧ 
          m.args = [(c! "prio", natV t.prio)])) := by
  obtain ⟨hi, _, _⟩ := after_inv h
  obtain ⟨hcur, _⟩ := after_cur h hl hs
  have hx : (onVarset env st v).val = .ok st' := congrArg Res.val h'
  obtain ⟨c, hc, hlc⟩ := onVarset_cases hi hcur hx
  have hlog : (onVarset env st v).log = log' := congrArg Res.log h'
  rw [hlog] at hlc
  obtain ⟨hf, c', hc', _, _, he1, _⟩ := line_effect hc hlc
  have nothing : c'.steps = c.steps → AddsNothing st.dp st'.dp := by
    intro e m
    by_cases hm : m = name
    · subst hm; rw [hc, hc']; simp [e]
    · rw [hf.other m hm]
  rcases he1 hv with ⟨s, h1, h2, _, h4⟩ | ⟨h1, m, h4, h5⟩
  · exact .inl ⟨s, ⟨c, c', hc, hc', h1⟩, h2, h4⟩
  · refine .inr ⟨nothing h1, m, h4, h5, fun hk => ⟨c, ?_⟩⟩
    -- only `add` has such a message
    have hm : m ∈ drops log' := by rw [h4]; simp
    have hm' : m ∈ log' := (List.mem_filter.1 hm).1
    cases hlc with
    | incl hk' => rw [arrowMsgs_mem hm'] at hk; cases hk
    | nothing sp' us _ hfc =>
      exfalso
      generalize hxx : (sp', us, DVar.nothing) = xx at hfc
      cases hfc with
      | incl _ => cases hxx
      | other ms' _ ho => rcases (ho m hm').2 with h | h | h | h <;> rw [h] at hk <;> cases hk
      | line r ms' _ hr =>
        subst hxx
        rcases List.mem_append.1 hm' with hm' | hm'
        · rw [arrowMsgs_mem hm'] at hk; cases hk
        · cases hr with
          | hint => simp at hm'; rw [hm'] at hk; cases hk
          | badPrio => simp at hm'; rw [hm'] at hk; cases hk
    | ext sp' us e a ms cs as _ hr hcs ha =>
      rcases List.mem_append.1 hm' with hm' | hm'
      · exfalso
        rcases List.mem_append.1 hm' with hm' | hm'
        · rcases List.mem_append.1 hm' with hm' | hm'
          · rw [arrowMsgs_mem hm'] at hk; cases hk
          · have := appKind_drop ((read_ext_log hr).1 m hm').2
            rw [hk] at this; cases this
        · rw [hcs] at hm'
          rw [(canonCheck_log e m hm').2] at hk; cases hk
      · have hci := hi.ctxs c (get_mem hc).1
        cases hrp : resolvePat c e with
        | none =>
          exfalso
          cases ha with
          | noPat _ => simp at hm'; rw [hm'] at hk; cases hk
          | noPrio raw pat ms hp _ => rw [hp] at hrp; simp at hrp
          | dupe raw pat ms n prev hp => rw [hp] at hrp; simp at hrp
          | stored raw pat ms n label' ls ds pc lms hp => rw [hp] at hrp; simp at hrp
        | some rp =>
          obtain ⟨raw, pat⟩ := rp
          have order : ∀ ms, OrderMsgs e.at_ ms → m ∉ ms := by
            rintro ms (rfl | ⟨x, rfl, hx, _⟩) hin
            · simp at hin
            · simp at hin; subst hin; rw [hx] at hk; cases hk
          cases outcome_of hci ha hrp with
          | refused ms hb =>
            exfalso
            cases hb <;> simp at hm' <;> rw [hm'] at hk <;> cases hk
          | dupe ms n t _ ho hmt _ hn =>
            rcases List.mem_append.1 hm' with hm' | hm'
            · exact absurd hm' (order ms ho)
            · simp at hm'
              subst hm'
              exact ⟨t, hc, hmt, rfl, by rw [hn]⟩
          | stored ms lms n label' _ ho _ hlab =>
            exfalso
            rcases List.mem_append.1 hm' with hm' | hm'
            · exact order ms ho hm'
            · cases hlab with
              | kept => simp at hm'
              | dupe l t => simp at hm'; rw [hm'] at hk; cases hk

/-- C48, counted over a whole file: every step line under the header of a context is a step of
the dialplan or reported as dropped, by one message. -/
theorem C48_count (env : DEnv) (sp : Option Str) (es : List Elem) (log : List Msg) (st : DState)
    (h : After env sp es log st) :
    stepCount st.dp + (drops log).length = (stepLines es).length := (after_inv h).2.2.count

-- two steps of `_XX` with different spellings; the line of priority 2 is a duplicate
example : stepCount demoState.dp = 4 ∧ (drops demoLog).map (fun m => (m.kind, m.at_.lineno, m.previous.map (·.lineno))) =
    [(.E_DP_PRIO_DUPE, 10, some 5)] ∧ (stepLines demo).length = 5 := by decide

/-! ## C49 -/

/-- C49: priorities are at least 1. -/
theorem C49_positive (env : DEnv) (sp : Option Str) (es : List Elem) (log : List Msg) (st : DState)
    (h : After env sp es log st) (c : DCtx) (hc : c ∈ st.dp.contexts) (s : Step) (hs : s ∈ c.steps) :
    1 ≤ s.prio := ((after_inv h).1.ctxs c hc).positive s hs

/-- The priority that a line got: it was stored with it, or reported as a duplicate of a
step of that priority. -/
def Got (dp dp' : Dialplan) (name : Str) (log : List Msg) (v : VarE) (n : Nat) : Prop :=
  (∃ s, Adds dp dp' name s ∧ s.at_ = v.at_ ∧ s.prio = n) ∨
  (AddsNothing dp dp' ∧ ∃ m ∈ log, m.kind = .E_DP_PRIO_DUPE ∧ m.at_ = v.at_ ∧ m.args = [(c! "prio", natV n)])

theorem outcome_got {env : DEnv} {st st' : DState} {v : VarE} {n : Str} {p : Parts} {log : List Msg}
    {c : DCtx} {pat : Pattern.Values} (hi : DpInv st) (hcur : st.cur = .ctx n) (hc : st.dp.get n = some c)
    (ht : StepText v p) (hp : patternFor c.steps p.exten = some pat) (h : Then env st (.var v) log st') :
    (∃ k, 1 ≤ k ∧ Got st.dp st'.dp n log v k ∧ st'.dp.lastPrio = some k ∧
      (p.prio = some k ∨ (p.prio = none ∧ ∃ m, st.dp.lastPrio = some m ∧ k = m + 1))) ∨
    (AddsNothing st.dp st'.dp ∧ p.prio = none ∧ st.dp.lastPrio.getD 0 = 0 ∧
      ∃ m ∈ log, m.kind = .E_DP_PRIO_MISSING ∧ m.at_ = v.at_) ∨
    (AddsNothing st.dp st'.dp ∧ p.prio = some 0 ∧ ∃ m ∈ log, m.kind = .E_DP_PRIO_INVALID ∧ m.at_ = v.at_) := by
  obtain ⟨raw, e, a, pre, as, ho, he1, _, _, _, he5, _, hdp, hn, hlog, _⟩ := text_outcome hi hcur hc ht hp h
  have prio : ∀ k, PrioCase st.dp.lastPrio e k →
      (p.prio = some k ∨ (p.prio = none ∧ ∃ m, st.dp.lastPrio = some m ∧ k = m + 1)) := by
    intro k hpc
    cases hpc with
    | next m h0 h1 _ => exact .inr ⟨by rw [← he1, h0], m, h1, rfl⟩
    | num _ h0 _ => exact .inl (by rw [← he1, h0])
  have hlast : st'.dp.lastPrio = a.last := by rw [hdp]; rfl
  cases ho with
  | refused ms hb hs' hl' =>
    cases hb with
    | next h0 h1 =>
      exact .inr (.inl ⟨addsNothing hc hn hs' hdp, by rw [← he1, h0], h1,
        mkMsg .E_DP_PRIO_MISSING e.at_ [(c! "pat", strV raw)], by rw [hlog]; simp, rfl, he5⟩)
    | zero h0 =>
      exact .inr (.inr ⟨addsNothing hc hn hs' hdp, by rw [← he1, h0],
        mkMsg .E_DP_PRIO_INVALID e.at_ [(c! "prio", natV 0)], by rw [hlog]; simp, rfl, he5⟩)
  | dupe ms k t' hpc _ hm he hn' hs' hl' =>
    refine .inl ⟨k, prio_pos hpc, .inr ⟨addsNothing hc hn hs' hdp, ⟨.E_DP_PRIO_DUPE, e.at_, [(c! "prio", natV k)], some t'.at_⟩,
      by rw [hlog]; simp, rfl, he5, rfl⟩, hlast.trans hl', prio k hpc⟩
  | stored ms lms k label' hpc _ hno _ hs' hl' =>
    exact .inl ⟨k, prio_pos hpc, .inl ⟨_, adds hc hn hs' hdp, he5, rfl⟩, hlast.trans hl', prio k hpc⟩

/-- C49: a line with the number `k` gets the priority `k`; zero is reported and dropped. -/
theorem C49_number (env : DEnv) (sp : Option Str) (es : List Elem) (log log' : List Msg) (st st' : DState)
    (h : After env sp es log st) (name : Str) (hl : lastHeader none es = some name)
    (hs : special name = false) (c : DCtx) (hc : st.dp.get name = some c)
    (v : VarE) (p : Parts) (ht : StepText v p) (h' : Then env st (.var v) log' st')
    (pat : Pattern.Values) (hp : patternFor c.steps p.exten = some pat) (k : Nat) (hk : p.prio = some k) :
    (1 ≤ k → Got st.dp st'.dp name log' v k) ∧
    (k = 0 → AddsNothing st.dp st'.dp ∧ ∃ m ∈ log', m.kind = .E_DP_PRIO_INVALID ∧ m.at_ = v.at_) := by
  obtain ⟨hi, _, _⟩ := after_inv h
  obtain ⟨hcur, _⟩ := after_cur h hl hs
  have := outcome_got hi hcur hc ht hp h'
  rw [hk] at this
  constructor
  · intro h1
    rcases this with ⟨j, _, hg, _, hj⟩ | ⟨_, h0, _⟩ | ⟨_, h0, _⟩
    · simp at hj; subst hj; exact hg
    · simp at h0
    · simp at h0; omega
  · rintro rfl
    rcases this with ⟨j, h1, _, _, hj⟩ | ⟨_, h0, _⟩ | ⟨h2, _, h3⟩
    · simp at hj; omega
    · simp at h0
    · exact ⟨h2, h3⟩

theorem stepCount_zero {st : DState} (hi : DpInv st) : stepCount st.dp = 0 ↔ ∀ n, stepsOf st.dp n = [] := by
  unfold stepCount
  have key : ∀ l : List DCtx, (l.map fun c => c.steps.length).sum = 0 ↔ ∀ c ∈ l, c.steps = [] := by
    intro l
    induction l with
    | nil => simp
    | cons c cs ih => simp [ih]
  rw [key]
  constructor
  · intro h n
    unfold stepsOf
    cases hg : st.dp.get n with
    | none => rfl
    | some c => simp [h c (get_mem hg).1]
  · intro h c hc
    have := h c.name
    unfold stepsOf at this
    rw [get_of_mem hi.names hc] at this
    simpa using this

/-- C49: `n` before anything has been defined is reported and the line dropped. -/
theorem C49_first_next (env : DEnv) (sp : Option Str) (es : List Elem) (log log' : List Msg) (st st' : DState)
    (h : After env sp es log st) (name : Str) (hl : lastHeader none es = some name)
    (hs : special name = false) (v : VarE) (p : Parts) (ht : StepText v p) (h' : Then env st (.var v) log' st')
    (raw : Str) (hx : p.exten = some raw) (hp : p.prio = none) (hfirst : stepCount st.dp = 0) :
    AddsNothing st.dp st'.dp ∧ ∃ m ∈ log', m.kind = .E_DP_PRIO_MISSING ∧ m.at_ = v.at_ := by
  obtain ⟨hi, hm, _⟩ := after_inv h
  obtain ⟨hcur, c, hc⟩ := after_cur h hl hs
  obtain ⟨c', pat, _, _, _, _, _, hpat, _⟩ := text_add hi hcur ht h'
  have hpf : ∃ pat, patternFor c.steps p.exten = some pat := by
    rw [hx] at hpat ⊢
    simp only [readPattern] at hpat
    cases hpp : Pattern.parse raw with
    | error e => rw [hpp] at hpat; simp at hpat
    | ok vv => exact ⟨vv, by simp [patternFor, hpp, Except.toOption]⟩
  obtain ⟨pat, hpf⟩ := hpf
  have h0 : st.dp.lastPrio = none := by
    rcases hm.last with ⟨h1, _⟩ | ⟨_, _, _, n, hn⟩
    · exact h1
    · exact absurd ((stepCount_zero hi).1 hfirst n) hn
  rcases outcome_got hi hcur hc ht hpf h' with ⟨j, _, _, _, hj⟩ | ⟨h1, _, _, h2⟩ | ⟨_, h1, _⟩
  · rw [hp, h0] at hj; simp at hj
  · exact ⟨h1, h2⟩
  · rw [hp] at h1; simp at h1

/-- C49: `same` in a context without steps is reported and the line dropped. -/
theorem C49_first_same (env : DEnv) (sp : Option Str) (es : List Elem) (log log' : List Msg) (st st' : DState)
    (h : After env sp es log st) (name : Str) (hl : lastHeader none es = some name)
    (hs : special name = false) (c : DCtx) (hc : st.dp.get name = some c)
    (v : VarE) (p : Parts) (ht : StepText v p) (h' : Then env st (.var v) log' st')
    (hx : p.exten = none) (hfirst : c.steps = []) :
    AddsNothing st.dp st'.dp ∧ ∃ m ∈ log', m.kind = .E_DP_PAT_MISSING ∧ m.at_ = v.at_ := by
  obtain ⟨hi, hm, _⟩ := after_inv h
  obtain ⟨hcur, _⟩ := after_cur h hl hs
  obtain ⟨c', pat, jumps, a, pre, as, hc', hpat, ha, hdp, _, hlog, _⟩ := text_add hi hcur ht h'
  rw [hc] at hc'
  simp only [Option.some.injEq] at hc'
  subst hc'
  rw [hx] at hpat
  simp only [readPattern, Except.ok.injEq] at hpat
  subst hpat
  have hnone : resolvePat c ⟨none, p.prio, p.label, p.app, jumps, v.comment, v.at_⟩ = none := by
    simp [resolvePat, hfirst]
  cases ha with
  | noPat _ =>
    exact ⟨addsNothing hc rfl rfl hdp, mkMsg .E_DP_PAT_MISSING v.at_ [], by rw [hlog]; simp, rfl, rfl⟩
  | noPrio raw pat ms hp _ => rw [hp] at hnone; simp at hnone
  | dupe raw pat ms n prev hp => rw [hp] at hnone; simp at hnone
  | stored raw pat ms n label' ls ds pc lms hp => rw [hp] at hnone; simp at hnone

theorem feed_quiet {env : DEnv} {st st' : DState} {es : List Elem} (hi : DpInv st)
    (hno : ∀ v, Elem.var v ∈ es → stepLine v = false) (h : (feed (dialplanStep env) st es).val = .ok st') :
    st'.dp.lastPrio = st.dp.lastPrio := by
  induction es generalizing st with
  | nil =>
    simp only [feed, Res.pure_val, Except.ok.injEq] at h
    rw [h]
  | cons e es ih =>
    obtain ⟨s, h1, h2, _⟩ := feed_cons_ok h
    rw [ih (step_inv hi h1) (fun v hv => hno v (by simp [hv])) h2]
    rcases step_cases hi h1 with hq | ⟨v, _, _, _, _, _, _, _, _, rfl, _, hsl, _⟩
    · exact hq.last
    · rw [hno v (by simp)] at hsl; simp at hsl

/-- C49: `n` gets one more than the step line before, whatever headers, includes and other
lines are between them. -/
theorem C49_next (env : DEnv) (sp : Option Str) (es mid : List Elem) (l1 l2 l3 l4 : List Msg)
    (s1 s2 s3 s4 : DState) (v1 v2 : VarE) (p1 p2 : Parts)
    -- the line before, in the context `name1`
    (h1 : After env sp es l1 s1) (name1 : Str) (hl1 : lastHeader none es = some name1) (hs1 : special name1 = false)
    (c1 : DCtx) (hc1 : s1.dp.get name1 = some c1) (pat1 : Pattern.Values)
    (hp1 : patternFor c1.steps p1.exten = some pat1)
    (ht1 : StepText v1 p1) (h2 : Then env s1 (.var v1) l2 s2)
    (hok : p1.prio ≠ some 0 ∧ (p1.prio = none → stepCount s1.dp ≠ 0))
    -- no step line in between
    (hmid : ∀ v, Elem.var v ∈ mid → stepLine v = false)
    -- the line with `n`, in the context `name2`
    (h3 : After env sp (es ++ .var v1 :: mid) l3 s3) (name2 : Str)
    (hl2 : lastHeader none (es ++ .var v1 :: mid) = some name2) (hs2 : special name2 = false)
    (c2 : DCtx) (hc2 : s3.dp.get name2 = some c2) (pat2 : Pattern.Values)
    (hp2 : patternFor c2.steps p2.exten = some pat2)
    (ht2 : StepText v2 p2) (hn : p2.prio = none) (h4 : Then env s3 (.var v2) l4 s4) :
    ∃ k, Got s1.dp s2.dp name1 l2 v1 k ∧ (∀ j, p1.prio = some j → k = j) ∧
      Got s3.dp s4.dp name2 l4 v2 (k + 1) := by
  obtain ⟨hi, hm, _⟩ := after_inv h1
  obtain ⟨hcur, _⟩ := after_cur h1 hl1 hs1
  obtain ⟨hi3, hm3, _⟩ := after_inv h3
  obtain ⟨hcur3, _⟩ := after_cur h3 hl2 hs2
  have hi2 : DpInv s2 := step_inv hi (congrArg Res.val h2)
  have hfeed : (feed (dialplanStep env) s2 mid).val = .ok s3 := by
    have hx := congrArg Res.val h3
    rw [feed_append, Res.bind_of_ok (congrArg Res.val h1)] at hx
    obtain ⟨s, g1, g2, _⟩ := feed_cons_ok hx
    have := congrArg Res.val h2
    simp only at this
    rw [this] at g1
    simp only [Except.ok.injEq] at g1
    rw [g1]; exact g2
  have hlast := feed_quiet hi2 hmid hfeed
  rcases outcome_got hi hcur hc1 ht1 hp1 h2 with ⟨k, hk1, hg, hk, hj⟩ | ⟨_, h0, hz, _⟩ | ⟨_, h0, _⟩
  · refine ⟨k, hg, ?_, ?_⟩
    · intro j hpj
      rcases hj with hj | ⟨hj, _⟩
      · rw [hpj] at hj; simpa using hj.symm
      · rw [hpj] at hj; simp at hj
    · rw [hk] at hlast
      rcases outcome_got hi3 hcur3 hc2 ht2 hp2 h4 with ⟨j, _, hg2, _, hj2⟩ | ⟨_, _, hz, _⟩ | ⟨_, h0, _⟩
      · rcases hj2 with hj2 | ⟨_, m, hm', rfl⟩
        · rw [hn] at hj2; simp at hj2
        · rw [hlast] at hm'
          simp only [Option.some.injEq] at hm'
          subst hm'
          exact hg2
      · rw [hlast] at hz; simp at hz; omega
      · rw [hn] at h0; simp at h0
  · exfalso
    apply hok.2 h0
    rw [stepCount_zero hi]
    rcases hm.last with ⟨_, h⟩ | ⟨m, h1, h, _⟩
    · exact h
    · rw [h] at hz; simp at hz; omega
  · exact absurd h0 hok.1

example : (demoState.dp.contexts.map fun c => (c.name, c.steps.map fun s => (s.raw, s.prio))) =
    [(c! "a", [(c! "_X-X", 1), (c! "_X-X", 2), (c! "_XX", 3)]), (c! "b", [(c! "s", 1)])] := by decide

example : StepText ⟨c! "same", c! "n(x),NoOp(1,2)", true, false, demoW 5⟩
    ⟨none, none, some (c! "x"), c! "NoOp(1,2)"⟩ :=
  .mk (c! "n") rfl (by simp) .next (by simp) (.inl rfl)

/-! ## C50 -/

/-- C50: no two steps of an extension have the same label. -/
theorem C50_unique (env : DEnv) (sp : Option Str) (es : List Elem) (log : List Msg) (st : DState)
    (h : After env sp es log st) (c : DCtx) (hc : c ∈ st.dp.contexts) :
    c.steps.Pairwise fun s t => SameExten s t → ∀ l, ¬ (Labelled s l ∧ Labelled t l) := by
  refine ((after_inv h).1.ctxs c hc).uniqueLabel.imp ?_
  intro s t hst he l hl
  exact hst ⟨he, l, realLabel_iff.2 hl.1, realLabel_iff.2 hl.2⟩

/-- C50: a stored line keeps its label unless an earlier step of the extension has it; then
this is reported, naming the earlier one, and the step has no label. -/
theorem C50_label (env : DEnv) (sp : Option Str) (es : List Elem) (log log' : List Msg) (st st' : DState)
    (h : After env sp es log st) (name : Str) (hl : lastHeader none es = some name)
    (hs : special name = false) (c : DCtx) (hc : st.dp.get name = some c)
    (v : VarE) (p : Parts) (ht : StepText v p) (h' : Then env st (.var v) log' st')
    (pat : Pattern.Values) (hp : patternFor c.steps p.exten = some pat) (s : Step) (hadd : Adds st.dp st'.dp name s)
    (l : Str) (hpl : p.label = some l) (hne : l ≠ []) :
    (∀ t ∈ c.steps, SameExten t s → Labelled t l →
      (∀ k, ¬ Labelled s k) ∧
      ∃ m ∈ log', m.kind = .E_DP_LABEL_DUPE ∧ m.at_ = v.at_ ∧ m.previous = some t.at_) ∧
    ((∀ t ∈ c.steps, SameExten t s → ¬ Labelled t l) →
      Labelled s l ∧ ∀ m ∈ log', m.kind ≠ .E_DP_LABEL_DUPE) := by
  obtain ⟨hi, _, _⟩ := after_inv h
  obtain ⟨hcur, _⟩ := after_cur h hl hs
  have hci := hi.ctxs c (get_mem hc).1
  obtain ⟨raw, e, a, pre, as, ho, he1, he2, he3, he4, he5, hraw, hdp, hn, hlog, hpre⟩ := text_outcome hi hcur hc ht hp h'
  obtain ⟨_, g2, _⟩ := stepsOf_added hc hn
  obtain ⟨d, d', hd, hd', hds⟩ := hadd
  rw [hc] at hd
  rw [hdp, g2] at hd'
  simp only [Option.some.injEq] at hd hd'
  subst hd
  subst hd'
  cases ho with
  | refused ms hb hs' hl' => rw [hs'] at hds; simp at hds
  | dupe ms n t' hpc _ hm he hn' hs' hl' => rw [hs'] at hds; simp at hds
  | stored ms lms n label' hpc hord hno hlab hs' hl' =>
    rw [hs'] at hds
    simp at hds
    subst hds
    rw [he2, hpl] at hlab
    have hcong : ∀ {q : Option Str}, q = some l → LabelOutcome c.steps pat q e.at_ label' lms →
        ((∃ t ∈ c.steps, Pattern.canonical t.pat = Pattern.canonical pat ∧ Labelled t l ∧ label' = some [] ∧
          lms = [⟨.E_DP_LABEL_DUPE, e.at_, [(c! "label", strV l)], some t.at_⟩]) ∨
         ((∀ t ∈ c.steps, Pattern.canonical t.pat = Pattern.canonical pat → ¬ Labelled t l) ∧ label' = some l ∧ lms = [])) := by
      intro q hq hlo
      cases hlo with
      | kept h => exact .inr ⟨h l hq hne, hq, rfl⟩
      | dupe l' t hl hm he ht =>
        rw [hq] at hl
        simp only [Option.some.injEq] at hl
        subst hl
        exact .inl ⟨t, hm, he, ht, rfl, rfl⟩
    constructor
    · intro t htm hts htl
      rcases hcong rfl hlab with ⟨t', h1, h2, h3, rfl, rfl⟩ | ⟨h1, _⟩
      · refine ⟨fun k hk => ?_, ⟨.E_DP_LABEL_DUPE, e.at_, [(c! "label", strV l)], some t'.at_⟩, by rw [hlog]; simp,
          rfl, he5, ?_⟩
        · obtain ⟨hk1, hk2⟩ := hk
          simp at hk2
          exact hk1 hk2
        · have g1 := (hci.labels _ _ _).2 ⟨t, htm, hts, realLabel_iff.2 htl, rfl⟩
          have g2 := (hci.labels _ _ _).2 ⟨t', h1, h2, realLabel_iff.2 h3, rfl⟩
          rw [g1] at g2
          simpa using g2.symm
      · exact absurd htl (h1 t htm hts)
    · intro hfree
      rcases hcong rfl hlab with ⟨t', h1, h2, h3, _, _⟩ | ⟨_, rfl, rfl⟩
      · exact absurd h3 (hfree t' h1 h2)
      · refine ⟨⟨hne, rfl⟩, fun m hm hk => ?_⟩
        rw [hlog] at hm
        rcases List.mem_append.1 hm with hm | hm
        · have := (hpre m hm).1
          rw [hk] at this; cases this
        · simp at hm
          rcases hord with rfl | ⟨x, rfl, hx, _⟩
          · simp at hm
          · simp at hm; subst hm; rw [hx] at hk; cases hk

/-- C50: without a label (or with an empty one) the step has none. -/
theorem C50_no_label (env : DEnv) (sp : Option Str) (es : List Elem) (log log' : List Msg) (st st' : DState)
    (h : After env sp es log st) (name : Str) (hl : lastHeader none es = some name)
    (hs : special name = false) (c : DCtx) (hc : st.dp.get name = some c)
    (v : VarE) (p : Parts) (ht : StepText v p) (h' : Then env st (.var v) log' st')
    (pat : Pattern.Values) (hp : patternFor c.steps p.exten = some pat) (s : Step) (hadd : Adds st.dp st'.dp name s)
    (hpl : p.label = none ∨ p.label = some []) (k : Str) : ¬ Labelled s k := by
  obtain ⟨hi, _, _⟩ := after_inv h
  obtain ⟨hcur, _⟩ := after_cur h hl hs
  obtain ⟨raw, e, a, pre, as, ho, he1, he2, he3, he4, he5, hraw, hdp, hn, hlog, hpre⟩ := text_outcome hi hcur hc ht hp h'
  obtain ⟨_, g2, _⟩ := stepsOf_added hc hn
  obtain ⟨d, d', hd, hd', hds⟩ := hadd
  rw [hc] at hd
  rw [hdp, g2] at hd'
  simp only [Option.some.injEq] at hd hd'
  subst hd
  subst hd'
  rintro ⟨hk1, hk2⟩
  cases ho with
  | refused ms hb hs' hl' => rw [hs'] at hds; simp at hds
  | dupe ms n t' hpc _ hm he hn' hs' hl' => rw [hs'] at hds; simp at hds
  | stored ms lms n label' hpc hord hno hlab hs' hl' =>
    rw [hs'] at hds
    simp at hds
    subst hds
    simp only at hk2
    cases hlab with
    | kept _ =>
      rw [he2] at hk2
      rcases hpl with h | h <;> rw [h] at hk2 <;> simp at hk2
      exact hk1 hk2
    | dupe => simp at hk2; exact hk1 hk2

/-- C50: a label is known to the dialplan iff some step carries it, and to a context iff
some step of the context does. -/
theorem C50_known (env : DEnv) (sp : Option Str) (es : List Elem) (log : List Msg) (st : DState)
    (h : After env sp es log st) (l : Str) :
    (st.dp.hasLabel l = true ↔ ∃ c ∈ st.dp.contexts, ∃ s ∈ c.steps, Labelled s l) ∧
    ∀ c ∈ st.dp.contexts, (c.hasLabel l = true ↔ ∃ s ∈ c.steps, Labelled s l) := by
  obtain ⟨hi, _, _⟩ := after_inv h
  constructor
  · unfold Dialplan.hasLabel
    rw [List.contains_iff_mem, hi.labels]
    constructor
    · rintro ⟨c, hc, s, hs, hl⟩; exact ⟨c, hc, s, hs, realLabel_iff.1 hl⟩
    · rintro ⟨c, hc, s, hs, hl⟩; exact ⟨c, hc, s, hs, realLabel_iff.2 hl⟩
  · intro c hc
    rw [hasLabel_iff (hi.ctxs c hc)]
    constructor
    · rintro ⟨s, hs, hl⟩; exact ⟨s, hs, realLabel_iff.1 hl⟩
    · rintro ⟨s, hs, hl⟩; exact ⟨s, hs, realLabel_iff.2 hl⟩

-- line 11 repeats the label of line 4, of another spelling of the same extension
example : demoLog.any (fun m => decide (m.kind = .E_DP_LABEL_DUPE ∧ m.at_.lineno = 11 ∧
      m.previous = some (demoW 4))) = true ∧
    demoState.dp.hasLabel (c! "top") = true ∧ demoState.dp.hasLabel (c! "bottom") = false := by decide

/-! ## C51 -/

/-- C51: one context per name, in the order of the first headers. -/
theorem C51_names (env : DEnv) (sp : Option Str) (es : List Elem) (log : List Msg) (st : DState)
    (h : After env sp es log st) :
    st.dp.contexts.map (·.name) = ((headers es).filter fun n => !special n).eraseDups ∧
    (st.dp.contexts.map (·.name)).Nodup :=
  ⟨(after_inv h).2.2.names, (after_inv h).1.names⟩

/-- C51: the steps of a context are from the lines under headers of its name, in order (which
of them is C48), and its includes are exactly those lines. -/
theorem C51_lines (env : DEnv) (sp : Option Str) (es : List Elem) (log : List Msg) (st : DState)
    (h : After env sp es log st) (c : DCtx) (hc : c ∈ st.dp.contexts) :
    List.Sublist (c.steps.map (·.at_)) (((linesOf c.name es).filter stepLine).map (·.at_)) ∧
    c.includes = ((linesOf c.name es).filter fun v => v.key = c! "include").map fun v => (v.value, v.at_) :=
  ⟨(after_inv h).2.2.steps c hc, (after_inv h).2.2.includes c hc⟩

/-- C51: `general` and `globals` are kept apart, with their assignments.  Of several
`[globals]` only the first counts; a second `[general]` is not survived (C57). -/
theorem C51_special (env : DEnv) (sp : Option Str) (es : List Elem) (log : List Msg) (st : DState)
    (h : After env sp es log st) :
    (∀ c ∈ st.dp.contexts, c.name ≠ c! "general" ∧ c.name ≠ c! "globals") ∧
    st.dp.general.map (·.2) = (if c! "general" ∈ headers es then some (linesOf (c! "general") es) else none) ∧
    st.dp.globals.map (·.2) = firstBlock (c! "globals") es := by
  obtain ⟨hi, _, hr⟩ := after_inv h
  refine ⟨fun c hc => ?_, hr.general, hr.globals⟩
  have : c.name ∈ st.dp.contexts.map (·.name) := List.mem_map.2 ⟨c, hc, rfl⟩
  rw [hr.names, List.mem_eraseDups] at this
  have := (List.mem_filter.1 this).2
  simpa [special] using this

/-- C51 for the command. -/
theorem C51_check (fs : FS) (env : DEnv) (sp : Option Str) (n : Nat) (path : Str) (content : Bytes)
    (st : DState) (log : List Msg) (h : checkDialplan fs env sp n path content = ⟨log, .ok (some st)⟩) :
    ∃ es, (pipeRun fs collect n ⟨[openFrame path content], [], [], []⟩).val = .ok (some es) ∧
      st.dp.contexts.map (·.name) = ((headers es).filter fun n => !special n).eraseDups ∧
      (∀ c ∈ st.dp.contexts, List.Sublist (c.steps.map (·.at_)) (((linesOf c.name es).filter stepLine).map (·.at_))) ∧
      ∃ d, List.Sublist d log ∧ stepCount st.dp + (drops d).length = (stepLines es).length := by
  obtain ⟨es, l, h1, h2, h3⟩ := check_after h
  exact ⟨es, h3, (C51_names env sp es l st h1).1, fun c hc => (C51_lines env sp es l st h1 c hc).1,
    l, h2, C48_count env sp es l st h1⟩

example : demoState.dp.contexts.map (·.name) = [c! "a", c! "b"] ∧
    headers demo = [c! "general", c! "globals", c! "a", c! "b", c! "a"] := by decide

/-! ## C56 -/

/-- C56: a line written from an extension without comma, a priority, an optional label and
an application is read back as these parts (if extension and application are accepted), and
nothing is reported but for the application. -/
theorem C56_roundtrip (env : DEnv) (sp : Option Str) (v : VarE) (p : Parts) (ht : StepText v p)
    (harrow : v.arrow = true) (jumps : List Jump) (sp' : Option Str)
    (hrun : (runApp env.toAEnv env.depth sp v.at_ (strV p.app)).val = .ok (sp', jumps))
    (hpat : ∀ raw, p.exten = some raw → ∃ x, Pattern.parse raw = .ok x) :
    ∃ e us, fromVarset env sp v = ⟨evMsgs (runApp env.toAEnv env.depth sp v.at_ (strV p.app)).ev,
        .ok (sp', us, .ext e)⟩ ∧
      e.pat.map (·.1) = p.exten ∧ (∀ raw, p.exten = some raw → ∃ x, Pattern.parse raw = .ok x ∧ e.pat = some (raw, x)) ∧
      e.prio = p.prio ∧ e.label = p.label ∧ e.app = p.app ∧ e.jumps = jumps ∧
      e.comment = v.comment ∧ e.at_ = v.at_ := by
  have hk : v.key = c! "exten" ∨ v.key = c! "same" := by
    obtain ⟨_, hkey, _⟩ := ht
    cases he : p.exten with
    | none => rw [he] at hkey; exact .inr hkey
    | some r => rw [he] at hkey; exact .inl hkey
  have hrun' : (runApp env.toAEnv env.depth sp v.at_ (strV p.app)).toRes =
      ⟨evMsgs (runApp env.toAEnv env.depth sp v.at_ (strV p.app)).ev,
        .ok ((sp', jumps), evUses (runApp env.toAEnv env.depth sp v.at_ (strV p.app)).ev)⟩ := by
    unfold Tr.toRes; rw [hrun]; rfl
  cases hx : p.exten with
  | none =>
    refine ⟨⟨none, p.prio, p.label, p.app, jumps, v.comment, v.at_⟩,
      evUses (runApp env.toAEnv env.depth sp v.at_ (strV p.app)).ev, ?_, rfl, by simp, rfl, rfl, rfl, rfl, rfl, rfl⟩
    simp only [fromVarset, if_pos hk, expectArrow, harrow, if_true, readExten_text env sp ht, hx, readPattern,
      hrun', Res.bind, Res.pure, Res.lift]
    simp
  | some raw =>
    obtain ⟨x, hxp⟩ := hpat raw hx
    refine ⟨⟨some (raw, x), p.prio, p.label, p.app, jumps, v.comment, v.at_⟩,
      evUses (runApp env.toAEnv env.depth sp v.at_ (strV p.app)).ev, ?_, rfl, ?_, rfl, rfl, rfl, rfl, rfl, rfl⟩
    · simp only [fromVarset, if_pos hk, expectArrow, harrow, if_true, readExten_text env sp ht, hx, readPattern,
        hrun', hxp, Res.bind, Res.pure, Res.lift]
      simp
    · rintro r hr
      simp only [Option.some.injEq] at hr
      subst hr
      exact ⟨x, hxp, rfl⟩

example : ∃ e us, fromVarset demoEnv none ⟨c! "exten", c! "_X.,12(top),NoOp(a,b)", true, false, demoW 3⟩ =
    ⟨[], .ok (none, us, .ext e)⟩ ∧ e.prio = some 12 ∧ e.label = some (c! "top") ∧ e.app = c! "NoOp(a,b)" ∧
    e.pat.map (·.1) = some (c! "_X.") := by
  refine ⟨_, _, rfl, ?_⟩
  decide

end ALint.Props
