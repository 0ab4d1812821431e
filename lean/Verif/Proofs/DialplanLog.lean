import Verif.Proofs.DialplanMore
import Verif.Spec.DialplanLog

/-!
# What is said about a dialplan
-/

namespace ALint
open ALint.Spec
open Pattern (Values)

/-! ## The text of a line -/

theorem cut_some {c : Char} {s a b : Str} (h : splitOnce c s = some (a, b)) : cut c s = (a, some b) := by
  obtain ⟨rfl, hn⟩ := splitOnce_some h
  unfold cut
  have h1 : ∀ x ∈ a, decide (x ≠ c) = true := fun x hx => by
    simp only [decide_eq_true_eq]
    rintro rfl
    exact hn hx
  rw [List.takeWhile_append_of_pos h1, List.dropWhile_append_of_pos h1]
  simp

theorem cut_none {c : Char} {s : Str} (h : splitOnce c s = none) : cut c s = (s, none) := by
  have hn := splitOnce_none_iff.1 h
  unfold cut
  have h1 : ∀ x ∈ s, decide (x ≠ c) = true := fun x hx => by
    simp only [decide_eq_true_eq]
    rintro rfl
    exact hn hx
  have := List.takeWhile_append_of_pos (l₂ := []) h1
  simp only [List.append_nil, List.takeWhile_nil] at this
  rw [if_neg hn, this]

theorem splitApp_cut (r : Str) : splitApp r = ((cut ',' r).1, (cut ',' r).2.getD []) := by
  unfold splitApp
  cases h : splitOnce ',' r with
  | none => simp [cut_none h]
  | some p => obtain ⟨a, b⟩ := p; simp [cut_some h]

theorem splitLabel_cut (r : Str) : splitLabel r = cut '(' r := by
  unfold splitLabel
  cases h : splitOnce '(' r with
  | none => simp [cut_none h]
  | some p => obtain ⟨a, b⟩ := p; simp [cut_some h]

theorem reading_split {v : VarE} {p : Option Str} {r : Str} (h : splitExten v = .ok (p, r)) :
    (readingOf v).exten = p ∧ (readingOf v).prio = (splitLabel (splitApp r).1).1 ∧
    (readingOf v).app = (splitApp r).2 ∧ (readingOf v).label = (splitLabel (splitApp r).1).2.map List.dropLast := by
  unfold splitExten at h
  rw [splitLabel_cut, splitApp_cut]
  unfold readingOf
  by_cases hk : v.key = c! "exten"
  · rw [if_pos hk] at h
    dsimp only
    rw [if_pos hk]
    cases hs : splitOnce ',' v.value with
    | none => simp [hs] at h
    | some q =>
      obtain ⟨a, b⟩ := q
      simp only [hs, Except.ok.injEq, Prod.mk.injEq] at h
      obtain ⟨rfl, rfl⟩ := h
      simp only [cut_some hs, Option.getD_some, and_self, and_true]
      cases a <;> rfl
  · rw [if_neg hk] at h
    dsimp only
    rw [if_neg hk]
    simp only [Except.ok.injEq, Prod.mk.injEq] at h
    obtain ⟨rfl, rfl⟩ := h
    simp

/-- What reading an `exten` or `same` line comes to. -/
inductive ReadSays (env : DEnv) (sp : Option Str) (v : VarE) : Option Str × List Ev × DVar → List Msg → Prop
  | hint (h : (readingOf v).prio = c! "hint") : ReadSays env sp v (sp, [], .nothing) [mkMsg .I_NOTIMPL_HINT v.at_ []]
  | bad (h1 : (readingOf v).prio ≠ c! "hint") (h2 : (readingOf v).prio ≠ c! "n") (h3 : isDigitS (readingOf v).prio = false) :
      ReadSays env sp v (sp, [], .nothing) [mkMsg .E_DP_PRIO_INVALID v.at_ [(c! "prio", strV (readingOf v).prio)]]
  | ext (sp' : Option Str) (jumps : List Jump) (pat : Option (Str × Values)) (h1 : (readingOf v).prio ≠ c! "hint")
      (h2 : ¬ ((readingOf v).prio ≠ c! "n" ∧ isDigitS (readingOf v).prio = false))
      (hpat : readPattern (readingOf v).exten = .ok pat)
      (hrun : (runApp env.toAEnv env.depth sp v.at_ (strV (readingOf v).app)).val = .ok (sp', jumps)) :
      ReadSays env sp v (sp', evUses (runApp env.toAEnv env.depth sp v.at_ (strV (readingOf v).app)).ev,
        .ext ⟨pat, prioOf (readingOf v).prio, (readingOf v).label, (readingOf v).app, jumps, v.comment, v.at_⟩)
        (evMsgs (runApp env.toAEnv env.depth sp v.at_ (strV (readingOf v).app)).ev)

theorem readPrio_says {w : Where} {s : Str} {r : Option (Option Nat)} (h : (readPrio w s).val = .ok r) :
    (s = c! "hint" ∧ r = none ∧ (readPrio w s).log = [mkMsg .I_NOTIMPL_HINT w []]) ∨
    (s ≠ c! "hint" ∧ s ≠ c! "n" ∧ isDigitS s = false ∧ r = none ∧
      (readPrio w s).log = [mkMsg .E_DP_PRIO_INVALID w [(c! "prio", strV s)]]) ∨
    (s ≠ c! "hint" ∧ ¬ (s ≠ c! "n" ∧ isDigitS s = false) ∧ r = some (prioOf s) ∧ (readPrio w s).log = []) := by
  unfold readPrio at h ⊢
  by_cases h1 : s = c! "n"
  · subst h1
    simp only [if_true, Res.pure_val, Except.ok.injEq] at h ⊢
    exact .inr (.inr ⟨by decide, by simp, h.symm, rfl⟩)
  · simp only [h1, if_false] at h ⊢
    by_cases h2 : isDigitS s = true
    · simp only [h2, if_true] at h ⊢
      have hh : s ≠ c! "hint" := by rintro rfl; revert h2; decide
      cases hd : decNat 0 s with
      | none => simp [hd] at h
      | some n =>
        simp only [hd, Res.pure_val, Except.ok.injEq] at h ⊢
        exact .inr (.inr ⟨hh, by simp, by rw [← h, prioOf, if_neg h1, hd], rfl⟩)
    · have h2' : isDigitS s = false := by simpa using h2
      simp only [h2', Bool.false_eq_true, if_false] at h ⊢
      by_cases h3 : s = c! "hint"
      · rw [if_pos h3] at h ⊢
        obtain ⟨_, _, h4, h5⟩ := Res.bind_ok h
        simp only [Res.pure_val, Except.ok.injEq] at h4
        exact .inl ⟨h3, h4.symm, h5⟩
      · rw [if_neg h3] at h ⊢
        obtain ⟨_, _, h4, h5⟩ := Res.bind_ok h
        simp only [Res.pure_val, Except.ok.injEq] at h4
        exact .inr (.inl ⟨h3, h1, trivial, h4.symm, h5⟩)

theorem readLabel_says {w : Where} {l : Option Str} {r : Option (Option Str)} (h : (readLabel w l).val = .ok r) :
    r = some (l.map List.dropLast) ∧ (readLabel w l).log = [] := by
  obtain ⟨l', rfl, h2⟩ := readLabel_ok h
  rw [h2]
  refine ⟨?_, rfl⟩
  unfold readLabel at h2
  cases l with
  | none =>
    have := congrArg Res.val h2
    simp only [Res.pure_val, Except.ok.injEq, Option.some.injEq] at this
    simp [← this]
  | some l =>
    simp only at h2
    split at h2
    · have := congrArg Res.val h2
      simp only [Res.pure_val, Except.ok.injEq, Option.some.injEq] at this
      simp [← this]
    · have := congrArg Res.log h2
      simp [Res.bind, Res.emit, mkMsg, Msg.render, MK.template, renderAll, renderPiece, List.lookup, Except.map, Res.pure] at this

theorem readExten_says {env : DEnv} {sp : Option Str} {v : VarE} {r : Option Str × List Ev × DVar}
    (h : (readExten env sp v).val = .ok r) : ReadSays env sp v r (readExten env sp v).log := by
  unfold readExten at h ⊢
  obtain ⟨⟨p, rest⟩, h1, h2, h3⟩ := Res.bind_ok h
  simp only [Res.lift_val] at h1
  rw [h3]
  simp only [Res.lift_log, List.nil_append] at h2 ⊢
  obtain ⟨e1, e2, e3, e4⟩ := reading_split h1
  rw [← e2] at h2 ⊢
  rw [← e3] at h2 ⊢
  obtain ⟨pr, h4, h5, h6⟩ := Res.bind_ok h2
  rw [h6]
  rcases readPrio_says h4 with ⟨hh, rfl, hl⟩ | ⟨hh, hn, hd, rfl, hl⟩ | ⟨hh, hd, rfl, hl⟩
  · simp only [Res.pure_val, Except.ok.injEq] at h5
    rw [hl, ← h5]
    exact .hint hh
  · simp only [Res.pure_val, Except.ok.injEq] at h5
    rw [hl, ← h5]
    exact .bad hh hn hd
  · rw [hl]
    simp only [List.nil_append] at h5 ⊢
    obtain ⟨lb, h7, h8, h9⟩ := Res.bind_ok h5
    obtain ⟨rfl, hll⟩ := readLabel_says h7
    rw [h9, hll]
    simp only [List.nil_append] at h8 ⊢
    obtain ⟨pat, h10, h11, h12⟩ := Res.bind_ok h8
    simp only [Res.lift_val] at h10
    obtain ⟨run, h13, h14, h15⟩ := Res.bind_ok h11
    simp only [Res.pure_val, Except.ok.injEq] at h14
    rw [h12, h15, ← h14]
    simp only [Res.pure_log, Res.lift_log, List.nil_append, List.append_nil]
    cases hr : (runApp env.toAEnv env.depth sp v.at_ (strV (readingOf v).app)).val with
    | error e => simp [Tr.toRes, hr, Except.map] at h13
    | ok q =>
      simp only [Tr.toRes, hr, Except.map, Except.ok.injEq] at h13
      subst h13
      obtain ⟨sp', js⟩ := q
      rw [← e4]
      exact .ext sp' js pat hh hd (by rw [e1]; exact h10) hr

/-! ## Agreement -/

/-- What came before is what the aggregator has. -/
structure Agrees (s : Sofar) (st : DState) : Prop where
  spelling : s.spelling = st.sp
  general : s.general = st.dp.general.map (·.1.at_)
  globals : s.globals = st.dp.globals.map (·.1.at_)
  first : s.first = st.dp.contexts.head?.map fun c => (c.name, c.at_)
  steps : ∀ n, s.steps n = stepsOf st.dp n
  last : st.dp.lastPrio = s.lines.getLast?.map (·.step.prio)
  positive : ∀ l ∈ s.lines, l.step.prio ≠ 0
  header : s.header = match st.cur with
    | .none => none
    | .general => some (c! "general")
    | .globals | .detached => some (c! "globals")
    | .ctx n => some n
  plain : ∀ n, st.cur = .ctx n → special n = false
  begun : ∀ n c, st.cur = .ctx n → st.dp.get n = some c → (s.begun = false ↔ c.lastPrio.getD 0 = 0)

theorem Agrees.init (sp : Option Str) : Agrees (.none sp) (.init sp) where
  spelling := rfl
  general := rfl
  globals := rfl
  first := rfl
  steps _ := rfl
  last := rfl
  positive := by simp [Sofar.none]
  header := rfl
  plain := by simp [DState.init]
  begun := by simp [DState.init]

theorem Agrees.get {s : Sofar} {st : DState} (h : Agrees s st) {n : Str} {c : DCtx} (hc : st.dp.get n = some c) :
    s.steps n = c.steps := by rw [h.steps, stepsOf, hc]; rfl

/-- What is said about the number a line gets or does not get. -/
def numberMsgs (s : Sofar) (n : Str) (w : Where) (raw : Str) (pat : Values) (prio : Option Nat) : Option Nat → List Msg
  | none => [unnumbered w raw prio]
  | some _ => if Disorder s n pat prio then
    [mkMsg .W_DP_PRIO_BADORDER w [(c! "pat", strV raw), (c! "prio", prioShown prio)]] else []

theorem number_says {s : Sofar} {st : DState} (h : Agrees s st) {n : Str} {c : DCtx} (hcur : st.cur = .ctx n)
    (hc : st.dp.get n = some c) {raw : Str} {pat : Values} {e : ExtLine} {r : Option Nat} {ms : List Msg}
    (hr : resolvePrio st.dp.lastPrio { c with sorted := none } raw pat e = ⟨ms, .ok r⟩) :
    r = numberFor s e.prio ∧ ms = numberMsgs s n e.at_ raw pat e.prio r := by
  have hst := h.get hc
  unfold resolvePrio at hr
  cases hp : e.prio with
  | none =>
    simp only [hp] at hr
    have hb := h.begun n c hcur hc
    rw [h.last] at hr
    cases hl : s.lines.getLast? with
    | none =>
      simp only [hl, Option.map_none, Option.getD_none, if_true] at hr
      cases hr
      simp [numberFor, hl]
      rfl
    | some l =>
      have hpos := h.positive l (List.mem_of_getLast? hl)
      simp only [hl, Option.map_some, Option.getD_some, hpos, if_false] at hr
      have hv := congrArg Res.val hr
      obtain ⟨bad, h1, h2, h3⟩ := Res.bind_ok hv
      obtain ⟨_, h4, h5, h6⟩ := Res.bind_ok h2
      simp only [Res.pure_val, Except.ok.injEq] at h5
      have hlog := congrArg Res.log hr
      simp only at hlog
      rw [← hlog, h3, h6]
      simp only [Res.lift_log, Res.pure_log, List.append_nil, List.nil_append]
      refine ⟨by simp [← h5, numberFor, hl], ?_⟩
      subst h5
      simp only [Res.lift_val] at h1
      unfold numberMsgs
      have hbad : bad = true ↔ Disorder s n pat none := by
        unfold outOfOrder at h1
        unfold Disorder
        rw [hb, hst]
        by_cases hz : c.lastPrio.getD 0 = 0
        · simp only [hz, if_true, Except.ok.injEq] at h1
          simp [← h1, hz]
        · simp only [hz, if_false] at h1
          simp only [hz, false_or]
          cases hg : c.steps.getLast? with
          | none => simp [hg] at h1
          | some t =>
            simp only [hg, Except.ok.injEq] at h1
            simp [← h1]
      by_cases hd : Disorder s n pat none
      · rw [if_pos hd, hbad.2 hd]; rfl
      · rw [if_neg hd]
        have : bad = false := by simpa using fun x => hd (hbad.1 x)
        rw [this]; rfl
  | some k =>
    simp only [hp] at hr
    by_cases hk : k < 1
    · rw [if_pos hk] at hr
      have : k = 0 := by omega
      subst this
      cases hr
      simp [numberFor]
      rfl
    · rw [if_neg hk] at hr
      have hk0 : k ≠ 0 := by omega
      by_cases h1 : k ≠ 1
      · rw [if_pos h1] at hr
        have hlast : lastOf c.steps pat = ((s.steps n).filter (·.pat = pat)).getLast? := by rw [hst]; rfl
        simp only [hlast] at hr
        cases hg : ((s.steps n).filter (·.pat = pat)).getLast? with
        | none =>
          simp only [hg] at hr
          cases hr
          refine ⟨by simp [numberFor, hk0], ?_⟩
          have : Disorder s n pat (some k) := ⟨h1, by rw [hg]; simp⟩
          simp only [numberMsgs, this, if_true]
          rfl
        | some t =>
          simp only [hg] at hr
          have hd : Disorder s n pat (some k) ↔ (t.prio + 1 ≠ k ∧ t.prio ≠ k) := by
            unfold Disorder
            rw [hg]
            simp only [Option.some.injEq, forall_eq']
            exact ⟨fun x => ⟨x.2.2, x.2.1⟩, fun x => ⟨h1, x.2, x.1⟩⟩
          by_cases hx : t.prio + 1 ≠ k ∧ t.prio ≠ k
          · rw [if_pos hx] at hr
            cases hr
            simp only [numberMsgs, hd.2 hx, if_true]
            exact ⟨by simp [numberFor, hk0], rfl⟩
          · rw [if_neg hx] at hr
            cases hr
            simp only [numberMsgs, show ¬ Disorder s n pat (some k) from fun y => hx (hd.1 y), if_false]
            exact ⟨by simp [numberFor, hk0], trivial⟩
      · rw [if_neg h1] at hr
        have h1' : k = 1 := by omega
        subst h1'
        cases hr
        have : ¬ Disorder s n pat (some 1) := fun x => x.1 rfl
        simp only [numberMsgs, this, if_false]
        exact ⟨by simp [numberFor], trivial⟩

/-! ## Adding -/

theorem Agrees.other {s : Sofar} {st : DState} (h : Agrees s st) (sp : Option Str) (us : List Ev) :
    Agrees { s with spelling := sp } ⟨st.dp, st.cur, sp, us⟩ :=
  ⟨rfl, h.general, h.globals, h.first, h.steps, h.last, h.positive, h.header, h.plain, h.begun⟩

theorem putCtx_first {dp : Dialplan} {n : Str} {c d : DCtx} (hc : dp.get n = some c) (hn : d.name = n)
    (f : DCtx → Str × Where) (hf : f d = f c) : (putCtx d dp.contexts).head?.map f = dp.contexts.head?.map f := by
  unfold Dialplan.get at hc
  cases hx : dp.contexts with
  | nil => rfl
  | cons x xs =>
    unfold putCtx
    split
    · rename_i he
      rw [hx, List.find?_cons_of_pos (by simp [he, hn])] at hc
      cases hc
      simp [hf]
    · rfl

/-- The context is replaced by one with the same steps and as far as before. -/
theorem Agrees.put {s : Sofar} {st : DState} (h : Agrees s st) {n : Str} {c d : DCtx} (hc : st.dp.get n = some c)
    (hn : d.name = n) (ha : d.at_ = c.at_) (hs : d.steps = c.steps) (hl : d.lastPrio = c.lastPrio) (us : List Ev) :
    Agrees s ⟨{ st.dp with contexts := putCtx d st.dp.contexts }, st.cur, st.sp, us⟩ := by
  obtain ⟨g1, g2⟩ := get_put hc hn
  refine ⟨h.spelling, h.general, h.globals, ?_, fun m => ?_, h.last, h.positive, h.header, h.plain, fun m e hcur he => ?_⟩
  · rw [h.first]; exact (putCtx_first hc hn _ (by rw [hn, (get_mem hc).2, ha])).symm
  · rw [h.steps]
    unfold stepsOf
    by_cases hm : m = n
    · subst hm; rw [hc, g1]; simp [hs]
    · rw [g2 m hm]
  · by_cases hm : m = n
    · subst hm
      simp only [g1, Option.some.injEq] at he
      subst he
      rw [hl]
      exact h.begun m c hcur hc
    · rw [g2 m hm] at he
      exact h.begun m e hcur he

/-- A line got a number. -/
theorem Agrees.added {s : Sofar} {st : DState} (h : Agrees s st) {n : Str} {c : DCtx} (hcur : st.cur = .ctx n)
    (hc : st.dp.get n = some c) {a : Added} (hn : a.ctx.name = n) (ha : a.ctx.at_ = c.at_) (x : Numbered) (hx : x.context = n)
    (hp : x.step.prio ≠ 0) (hl : a.last = some x.step.prio) (hcl : a.ctx.lastPrio = some x.step.prio)
    (hs : a.ctx.steps = c.steps ++ if x.kept then [x.step] else []) (us : List Ev) :
    Agrees (s.number x) ⟨st.dp.withAdded a, st.cur, st.sp, us⟩ := by
  obtain ⟨g1, g2⟩ := get_put hc hn
  have g : ∀ m, (st.dp.withAdded a).get m = ({ st.dp with contexts := putCtx a.ctx st.dp.contexts } : Dialplan).get m :=
    fun m => rfl
  refine ⟨h.spelling, h.general, h.globals, ?_, fun m => ?_, ?_, ?_, h.header, h.plain, fun m e hcur' he => ?_⟩
  · change s.first = _
    rw [h.first]
    exact (putCtx_first hc hn _ (by rw [hn, (get_mem hc).2, ha])).symm
  · have : (s.number x).steps m = s.steps m ++ if x.kept && x.context = m then [x.step] else [] := by
      simp only [Sofar.steps, Sofar.number, List.filter_append, List.map_append]
      congr 1
      rw [List.filter_cons]
      split <;> rfl
    rw [this, h.steps]
    unfold stepsOf
    simp only [g]
    by_cases hm : m = n
    · subst hm
      rw [hc, g1]
      simp only [Option.map_some, Option.getD_some, hs, hx, decide_true, Bool.and_true]
    · rw [g2 m hm]
      have : ¬ x.context = m := fun e => hm (by rw [← e, hx])
      simp [this]
  · simp [Sofar.number, Dialplan.withAdded, hl]
  · intro l hmem
    simp only [Sofar.number, List.mem_append, List.mem_singleton] at hmem
    rcases hmem with hmem | rfl
    · exact h.positive l hmem
    · exact hp
  · simp only [hcur, Cur.ctx.injEq] at hcur'
    subst hcur'
    simp only [g, g1, Option.some.injEq] at he
    subst he
    simp [Sofar.number, hcl, hp]

theorem find_prio {c : DCtx} (hi : CtxInv c) (key : Str) (k : Nat) (p : Step → Bool)
    (hp : ∀ t, p t = true ↔ Pattern.canonical t.pat = key ∧ t.prio = k) :
    (c.steps.find? p).map (·.at_) = cachedPrio c key k := by
  cases hf : c.steps.find? p with
  | none =>
    cases hcp : cachedPrio c key k with
    | none => rfl
    | some w =>
      obtain ⟨t, ht, h1, h2, _⟩ := (hi.prios _ _ _).1 hcp
      exact absurd ((hp t).2 ⟨h1, h2⟩) (by simpa using List.find?_eq_none.1 hf t ht)
  | some t =>
    have h1 := (hp t).1 (List.find?_some hf)
    exact ((hi.prios _ _ _).2 ⟨t, List.mem_of_find?_eq_some hf, h1.1, h1.2, rfl⟩).symm

theorem find_label {c : DCtx} (hi : CtxInv c) (key l : Str) (p : Step → Bool)
    (hp : ∀ t, p t = true ↔ Pattern.canonical t.pat = key ∧ Labelled t l) :
    (c.steps.find? p).map (·.at_) = cachedLabel c key l := by
  cases hf : c.steps.find? p with
  | none =>
    cases hcp : cachedLabel c key l with
    | none => rfl
    | some w =>
      obtain ⟨t, ht, h1, h2, _⟩ := (hi.labels _ _ _).1 hcp
      exact absurd ((hp t).2 ⟨h1, realLabel_iff.1 h2⟩) (by simpa using List.find?_eq_none.1 hf t ht)
  | some t =>
    have h1 := (hp t).1 (List.find?_some hf)
    exact ((hi.labels _ _ _).2 ⟨t, List.mem_of_find?_eq_some hf, h1.1, realLabel_iff.2 h1.2, rfl⟩).symm

/-- What is said when a line is handed to the context. -/
def addSays (s : Sofar) (n : Str) (e : ExtLine) : Option (Str × Values) → List Msg × Sofar
  | none => ([mkMsg .E_DP_PAT_MISSING e.at_ []], s)
  | some (raw, pat) => stepSays s n raw pat e.prio e.label e.app e.comment e.at_

/-- The destinations of a line handed to the context. -/
inductive AddDests (s : Sofar) : Sofar → Str → ExtLine → Option (Str × Values) → List Dest → Prop
  | none {s' : Sofar} {n : Str} {e : ExtLine} {p : Option (Str × Values)} : s' = s → AddDests s s' n e p []
  | no {s' : Sofar} {n : Str} {e : ExtLine} {p : Option (Str × Values)} (l : Numbered) : s' = s.number l → l.kept = false →
      AddDests s s' n e p []
  | kept {s' : Sofar} {n : Str} {e : ExtLine} {ds : List Dest} (l : Numbered) (raw : Str) (pat : Values) : s' = s.number l →
      l.kept = true → completeDests n (Pattern.exampleOf pat) e.at_ e.jumps = .ok ds → AddDests s s' n e (some (raw, pat)) ds

theorem add_says' {s : Sofar} {st : DState} (h : Agrees s st) {n : Str} {c : DCtx} (hcur : st.cur = .ctx n)
    (hc : st.dp.get n = some c) (hi : CtxInv c) {e : ExtLine} {a : Added} {as : List Msg}
    (ha : AddCase st.dp.lastPrio c e a as) (us : List Ev) :
    as = (addSays s n e (resolvePat c e)).1 ∧
    Agrees (addSays s n e (resolvePat c e)).2 ⟨st.dp.withAdded a, st.cur, st.sp, us⟩ ∧
    AddDests s (addSays s n e (resolvePat c e)).2 n e (resolvePat c e) a.dests := by
  have hname := (get_mem hc).2
  have hst := h.get hc
  have same : Agrees s ⟨st.dp.withAdded ⟨{ c with sorted := none }, st.dp.lastPrio, [], []⟩, st.cur, st.sp, us⟩ := by
    have := h.put hc (d := { c with sorted := none }) hname rfl rfl rfl us
    simpa [Dialplan.withAdded] using this
  cases ha with
  | noPat hp =>
    rw [hp]
    exact ⟨rfl, same, .none rfl⟩
  | noPrio raw pat ms hp hr =>
    obtain ⟨h1, rfl⟩ := number_says h hcur hc hr
    rw [hp]
    simp only [addSays, stepSays, ← h1]
    exact ⟨rfl, same, .none rfl⟩
  | dupe raw pat ms k prev hp hr hd =>
    obtain ⟨h1, rfl⟩ := number_says h hcur hc hr
    have hk : k ≠ 0 := by
      have := resolvePrio_some (congrArg Res.val hr)
      cases this with
      | next m _ _ hm => omega
      | num _ _ hn => omega
    rw [hp]
    simp only [addSays, stepSays, ← h1]
    have hf := find_prio hi (Pattern.canonical pat) k
      (fun t => decide (SameExten t ⟨raw, pat, k, e.label, e.app, e.comment, e.at_⟩ ∧ t.prio = k)) (fun t => decide_eq_true_iff)
    rw [hd, ← hst] at hf
    cases hx : (s.steps n).find? fun t => decide (SameExten t ⟨raw, pat, k, e.label, e.app, e.comment, e.at_⟩ ∧ t.prio = k) with
    | none => rw [hx] at hf; simp at hf
    | some t =>
      rw [hx] at hf
      simp only [Option.map_some, Option.some.injEq] at hf
      subst hf
      exact ⟨rfl, h.added hcur hc hname rfl ⟨n, _, false⟩ rfl hk rfl rfl (by simp) us, .no _ rfl rfl⟩
  | stored raw pat ms k label' ls ds pc lms hp hr hd hpc hlc hl hj =>
    obtain ⟨h1, rfl⟩ := number_says h hcur hc hr
    have hk : k ≠ 0 := by
      have := resolvePrio_some (congrArg Res.val hr)
      cases this with
      | next m _ _ hm => omega
      | num _ _ hn => omega
    rw [hp]
    simp only [addSays, stepSays, ← h1]
    have hf := find_prio hi (Pattern.canonical pat) k
      (fun t => decide (SameExten t ⟨raw, pat, k, e.label, e.app, e.comment, e.at_⟩ ∧ t.prio = k)) (fun t => decide_eq_true_iff)
    rw [hd, ← hst, Option.map_eq_none_iff] at hf
    rw [hf]
    have hg := find_label hi (Pattern.canonical pat) (e.label.getD [])
      (fun t => decide (SameExten t ⟨raw, pat, k, e.label, e.app, e.comment, e.at_⟩ ∧ Labelled t (e.label.getD [])))
      (fun t => decide_eq_true_iff)
    rw [← hst] at hg
    cases hl with
    | plain hr' =>
      have : (s.steps n).find? (fun t => decide (SameExten t ⟨raw, pat, k, e.label, e.app, e.comment, e.at_⟩ ∧
          Labelled t (e.label.getD []))) = none := by
        rw [List.find?_eq_none]
        intro t _
        have he : e.label.getD [] = [] := by
          cases hlab : e.label with
          | none => rfl
          | some l => cases l with
            | nil => rfl
            | cons x y => rw [hlab] at hr'; simp [realLabel] at hr'
        simp [he, Labelled]
      rw [this]
      exact ⟨by simp [numberMsgs], h.added hcur hc hname rfl ⟨n, _, true⟩ rfl hk rfl rfl (by simp) us, .kept _ _ _ rfl rfl (hname ▸ hj)⟩
    | new l hr' hcl =>
      have he : e.label = some l := (realLabel_iff.1 hr').2
      rw [he] at hg ⊢
      simp only [Option.getD_some] at hg ⊢
      rw [hcl, Option.map_eq_none_iff] at hg
      rw [hg]
      exact ⟨by simp [numberMsgs], h.added hcur hc hname rfl ⟨n, _, true⟩ rfl hk rfl rfl (by simp) us, .kept _ _ _ rfl rfl (hname ▸ hj)⟩
    | dupe l prev hr' hcl =>
      have he : e.label = some l := (realLabel_iff.1 hr').2
      rw [he] at hg ⊢
      simp only [Option.getD_some] at hg ⊢
      rw [hcl] at hg
      cases hx : (s.steps n).find? fun t => decide (SameExten t ⟨raw, pat, k, some l, e.app, e.comment, e.at_⟩ ∧ Labelled t l) with
      | none => rw [hx] at hg; simp at hg
      | some t =>
        rw [hx] at hg
        simp only [Option.map_some, Option.some.injEq] at hg
        subst hg
        exact ⟨rfl, h.added hcur hc hname rfl ⟨n, _, true⟩ rfl hk rfl rfl (by simp) us, .kept _ _ _ rfl rfl (hname ▸ hj)⟩

/-! ## Elements -/

theorem pattern_says {raw : Option Str} {pat : Option (Str × Values)} (h : readPattern raw = .ok pat) :
    raw.bind extenOf = pat ∧ (raw = none ↔ pat = none) := by
  unfold readPattern at h
  cases raw with
  | none => simp at h; simp [← h]
  | some raw =>
    simp only at h
    cases hp : Pattern.parse raw with
    | error e => simp [hp] at h
    | ok v =>
      simp only [hp, Except.ok.injEq] at h
      subst h
      simp [extenOf, hp, Except.toOption]

theorem canon_says (e : ExtLine) : canonCheck e = ⟨canonSays e.at_ e.pat, .ok ()⟩ := by
  unfold canonCheck canonSays
  cases e.pat with
  | none => rfl
  | some p =>
    obtain ⟨raw, v⟩ := p
    simp only
    split <;> rfl

theorem arrow_says (v : VarE) : expectArrow v = ⟨arrowSays v, .ok ()⟩ := by
  unfold expectArrow arrowSays
  split <;> rfl

theorem line_says' {env : DEnv} {s : Sofar} {st st' : DState} (h : Agrees s st) {n : Str} {c : DCtx} (hcur : st.cur = .ctx n)
    (hc : st.dp.get n = some c) (hi : CtxInv c) {v : VarE} (hv : (onVarset env st v).val = .ok st') :
    (onVarset env st v).log = (lineSays env s n v).1 ∧ Agrees (lineSays env s n v).2 st' := by
  have hname := (get_mem hc).2
  unfold onVarset at hv ⊢
  simp only [hcur, hc] at hv ⊢
  obtain ⟨⟨sp', us, dv⟩, h1, h2, h3⟩ := Res.bind_ok hv
  rw [h3]
  obtain ⟨dp, h4, h5, h6⟩ := Res.bind_ok h2
  rw [h6]
  simp only [Res.pure_val, Except.ok.injEq] at h5
  subst h5
  simp only [Res.pure_log, List.append_nil]
  rw [← hcur]
  unfold fromVarset at h1 ⊢
  unfold lineSays
  by_cases hk : v.key = c! "exten" ∨ v.key = c! "same"
  · simp only [hk, if_true] at h1 ⊢
    obtain ⟨_, _, g1, g2⟩ := Res.bind_ok h1
    rw [g2, arrow_says]
    have hr := readExten_says g1
    generalize (readExten env st.sp v).log = lg at hr
    generalize hdv : (sp', us, dv) = x at hr
    cases hr with
    | hint hh =>
      cases hdv
      simp only [onDVar, Res.pure_val, Except.ok.injEq] at h4
      subst h4
      simp only [extenSays, hh, if_true, onDVar, Res.pure_log, List.append_nil, true_and]
      rw [← h.spelling]
      exact h.other _ _
    | bad b1 b2 b3 =>
      cases hdv
      simp only [onDVar, Res.pure_val, Except.ok.injEq] at h4
      subst h4
      simp only [extenSays, b1, b2, b3, if_false, ne_eq, not_false_eq_true, true_and, if_true, onDVar, Res.pure_log,
        List.append_nil]
      rw [← h.spelling]
      exact h.other _ _
    | ext sp2 jumps pat b1 b2 hpat hrun =>
      cases hdv
      simp only [onDVar] at h4 ⊢
      obtain ⟨_, h7, h8, h9⟩ := Res.bind_ok h4
      obtain ⟨a, h10, h11, h12⟩ := Res.bind_ok h8
      simp only [Res.pure_val, Except.ok.injEq] at h11
      subst h11
      rw [h9, h12]
      have ha := addExt_cases h10
      generalize (addExt _ _ _).log = as at ha
      obtain ⟨p1, p2⟩ := pattern_says hpat
      have hA := h.other sp' (st.uses ++ evUses (runApp env.toAEnv env.depth st.sp v.at_ (strV (readingOf v).app)).ev)
      obtain ⟨q1, q2, _⟩ := add_says' hA hcur hc hi ha
        (st.uses ++ evUses (runApp env.toAEnv env.depth st.sp v.at_ (strV (readingOf v).app)).ev)
      have hs1 : spellingAfter s (appRun env s v).val = { s with spelling := sp' } := by
        simp only [appRun, h.spelling, hrun, spellingAfter]
      have hx : extenFor { s with spelling := sp' } n (readingOf v).exten =
          resolvePat c ⟨pat, prioOf (readingOf v).prio, (readingOf v).label, (readingOf v).app, jumps, v.comment, v.at_⟩ := by
        unfold resolvePat extenFor
        cases hex : (readingOf v).exten with
        | none =>
          rw [hex] at p2
          simp only [p2.1 rfl]
          rw [show Sofar.steps { s with spelling := sp' } n = s.steps n from rfl, h.get hc]
        | some raw =>
          rw [hex] at p1 p2
          simp only [Option.bind_some] at p1 ⊢
          rw [p1]
          cases pat with
          | none => simp at p2
          | some p => rfl
      simp only [extenSays, b1, if_false, b2, hs1, p1, canon_says, hx]
      rw [show (appRun env s v).ev = (runApp env.toAEnv env.depth st.sp v.at_ (strV (readingOf v).app)).ev by
        rw [appRun, h.spelling]]
      generalize resolvePat c ⟨pat, prioOf (readingOf v).prio, (readingOf v).label, (readingOf v).app, jumps,
        v.comment, v.at_⟩ = rp at q1 q2
      cases rp with
      | none =>
        subst q1
        exact ⟨by simp [addSays], q2⟩
      | some p =>
        obtain ⟨raw, pt⟩ := p
        subst q1
        exact ⟨by simp [addSays], q2⟩
  · simp only [hk, if_false] at h1 ⊢
    by_cases h2' : v.key = c! "include"
    · simp only [h2', if_true] at h1 ⊢
      rw [arrow_says, Res.bind_of_ok rfl] at h1 ⊢
      simp only [Res.pure_val, Except.ok.injEq, Prod.mk.injEq] at h1
      obtain ⟨rfl, rfl, rfl⟩ := h1
      simp only [onDVar, Res.pure_val, Except.ok.injEq] at h4
      subst h4
      simp only [onDVar, Res.pure_log, List.append_nil, true_and]
      exact h.put hc (d := { c with includes := c.includes ++ [(v.value, v.at_)] }) hname rfl rfl rfl _
    · simp only [h2', if_false] at h1 ⊢
      have fin : sp' = st.sp → dv = .nothing → (onDVar st.dp c dv).log = [] ∧ Agrees s ⟨dp, st.cur, sp', st.uses ++ us⟩ := by
        rintro rfl rfl
        simp only [onDVar, Res.pure_val, Except.ok.injEq] at h4
        subst h4
        refine ⟨rfl, ?_⟩
        rw [← h.spelling]
        exact h.other _ _
      by_cases h3' : v.key = c! "switch"
      · rw [if_pos h3'] at h1 ⊢
        rw [if_pos h3']
        rw [arrow_says, Res.bind_of_ok rfl, Res.bind_of_ok rfl] at h1 ⊢
        simp only [Res.pure_val, Except.ok.injEq, Prod.mk.injEq] at h1
        obtain ⟨e1, _, e3⟩ := h1
        obtain ⟨f1, f2⟩ := fin e1.symm e3.symm
        rw [f1]
        exact ⟨by simp, f2⟩
      · rw [if_neg h3'] at h1 ⊢
        rw [if_neg h3']
        by_cases h4' : v.key = c! "ignorepat"
        · rw [if_pos h4'] at h1 ⊢
          rw [if_pos h4']
          rw [arrow_says, Res.bind_of_ok rfl, Res.bind_of_ok rfl] at h1 ⊢
          simp only [Res.pure_val, Except.ok.injEq, Prod.mk.injEq] at h1
          obtain ⟨e1, _, e3⟩ := h1
          obtain ⟨f1, f2⟩ := fin e1.symm e3.symm
          rw [f1]
          exact ⟨by simp, f2⟩
        · rw [if_neg h4'] at h1 ⊢
          rw [if_neg h4']
          rw [Res.bind_of_ok rfl] at h1 ⊢
          simp only [Res.pure_val, Except.ok.injEq, Prod.mk.injEq] at h1
          obtain ⟨e1, _, e3⟩ := h1
          obtain ⟨f1, f2⟩ := fin e1.symm e3.symm
          rw [f1]
          exact ⟨by simp, f2⟩

theorem stepsOf_snoc {dp : Dialplan} {c : CtxE} (m : Str) :
    stepsOf { dp with contexts := dp.contexts ++ [⟨c.name, c.at_, [], [], none, [], none⟩] } m = stepsOf dp m := by
  unfold stepsOf Dialplan.get
  rw [List.find?_append]
  cases hf : dp.contexts.find? (·.name = m) with
  | some d => rfl
  | none =>
    by_cases hm : c.name = m <;> simp [hm]

theorem head_first {dp : Dialplan} {c : CtxE} (hg : dp.get c.name = none) :
    firstWith c (dp.contexts.head?.map fun c => (c.name, c.at_)) =
      (dp.contexts ++ [(⟨c.name, c.at_, [], [], none, [], none⟩ : DCtx)]).head?.map fun c => (c.name, c.at_) := by
  unfold Dialplan.get at hg
  cases hx : dp.contexts with
  | nil => rfl
  | cons x xs =>
    have : x.name ≠ c.name := by
      rw [hx] at hg
      simpa using List.find?_eq_none.1 hg x (by simp)
    simp [firstWith, this.symm]

theorem head_again {dp : Dialplan} {c : CtxE} {d d' : DCtx} (hg : dp.get c.name = some d) (hn : d'.name = c.name)
    (ha : d'.at_ = c.at_) :
    firstWith c (dp.contexts.head?.map fun c => (c.name, c.at_)) =
      (putCtx d' dp.contexts).head?.map fun c => (c.name, c.at_) := by
  cases hx : dp.contexts with
  | nil => simp [Dialplan.get, hx] at hg
  | cons x xs =>
    unfold putCtx
    by_cases h : x.name = c.name
    · simp [firstWith, h, hn, ha]
    · have : ¬ c.name = x.name := fun e => h e.symm
      simp [firstWith, hn, h, this]

theorem header_says {s : Sofar} {st st' : DState} (h : Agrees s st) {c : CtxE} (hv : (onContext st c).val = .ok st') :
    (onContext st c).log = (headerSays s c).1 ∧ Agrees (headerSays s c).2 st' := by
  have hc := onContext_cases hv
  have hfirst : s.first.isSome = !st.dp.contexts.isEmpty := by
    rw [h.first]; cases st.dp.contexts <;> rfl
  unfold headerSays
  generalize hlog : (onContext st c).log = lg at hc
  cases hc with
  | general ms hn hg hm =>
    rw [if_pos hn]
    refine ⟨?_, h.spelling, rfl, h.globals, h.first, h.steps, h.last, h.positive, ?_, ?_, ?_⟩
    · rw [← hlog, h.globals, hfirst]
      simp only [onContext, hn, if_true, addGeneral, hg, Option.isSome_map]
      split <;> rfl
    · simp [hn]
    · simp
    · simp
  | globals ms hn hg hm =>
    have : c.name ≠ c! "general" := by rw [hn]; decide
    rw [if_neg this, if_pos hn, h.globals, hg]
    refine ⟨?_, h.spelling, h.general, rfl, h.first, h.steps, h.last, h.positive, ?_, ?_, ?_⟩
    · rw [← hlog, h.general, hfirst]
      unfold onContext
      rw [if_neg this, if_pos hn]
      simp only [addGlobals, hg, Option.isNone_map, Option.map_none]
      split <;> rfl
    · simp [hn]
    · simp
    · simp
  | detached g hn hg =>
    have : c.name ≠ c! "general" := by rw [hn]; decide
    rw [if_neg this, if_pos hn, h.globals, hg]
    refine ⟨rfl, h.spelling, h.general, by simp [hg], h.first, h.steps, h.last,
      h.positive, ?_, ?_, ?_⟩
    · simp [hn]
    · simp
    · simp
  | fresh ms hn hg hm =>
    have h1 : c.name ≠ c! "general" := by rintro e; simp [special, e] at hn
    have h2 : c.name ≠ c! "globals" := by rintro e; simp [special, e] at hn
    rw [if_neg h1, if_neg h2]
    refine ⟨?_, h.spelling, h.general, h.globals, ?_, ?_, h.last, h.positive, rfl, ?_, ?_⟩
    · rw [← hlog]
      simp only [onContext, h1, h2, if_false, onDialplanContext, hg]
      split <;> rfl
    · rw [← head_first hg, ← h.first]
    · intro m
      rw [stepsOf_snoc, ← h.steps]
      rfl
    · intro n e; cases e; exact hn
    · intro n d e hd
      cases e
      have : ({ st.dp with contexts := st.dp.contexts ++ [⟨c.name, c.at_, [], [], none, [], none⟩] } : Dialplan).get c.name =
          some ⟨c.name, c.at_, [], [], none, [], none⟩ := by
        unfold Dialplan.get at hg ⊢
        rw [List.find?_append, hg]
        simp
      rw [this] at hd
      cases hd
      simp
  | again ms d hn hg hc' hm =>
    have h1 : c.name ≠ c! "general" := by rintro e; simp [special, e] at hn
    have h2 : c.name ≠ c! "globals" := by rintro e; simp [special, e] at hn
    rw [if_neg h1, if_neg h2]
    have hname := (get_mem hg).2
    obtain ⟨g1, g2⟩ := get_put hg (d := { d with lastPrio := none, sorted := none, at_ := c.at_ }) hname
    refine ⟨?_, h.spelling, h.general, h.globals, ?_, ?_, h.last, h.positive, rfl, ?_, ?_⟩
    · rw [← hlog] 
      have h3 := hv
      simp only [onContext, h1, h2, if_false] at h3 ⊢
      obtain ⟨_, _, h4, h5⟩ := Res.bind_ok h3
      obtain ⟨_, _, _, h6⟩ := Res.bind_ok h4
      rw [h5, h6]
      simp only [Res.lift_log, Res.pure_log, List.append_nil]
      split <;> rfl
    · rw [h.first]
      exact head_again hg hname rfl
    · intro m
      refine (h.steps m).trans ?_
      unfold stepsOf
      by_cases hm : m = c.name
      · subst hm; rw [hg, g1]; rfl
      · rw [g2 m hm]
    · intro n e; cases e; exact hn
    · intro n e' e hd
      cases e
      rw [g1] at hd
      cases hd
      simp

theorem elem_says {env : DEnv} {s : Sofar} {st st' : DState} {e : Elem} (hi : DpInv st) (h : Agrees s st)
    (hv : (dialplanStep env st e).val = .ok st') :
    (dialplanStep env st e).log = (elemSays env s e).1 ∧ Agrees (elemSays env s e).2 st' := by
  cases e with
  | empty b w =>
    simp only [dialplanStep, Res.pure_val, Except.ok.injEq] at hv
    subst hv
    exact ⟨rfl, h⟩
  | ctx c => exact header_says h hv
  | var v =>
    simp only [dialplanStep] at hv ⊢
    have hh := h.header
    cases hcur : st.cur with
    | ctx n =>
      rw [hcur] at hh
      simp only at hh
      simp only [elemSays, hh, h.plain n hcur, Bool.false_eq_true, if_false]
      obtain ⟨c, hc⟩ := hi.cur n hcur
      exact line_says' h hcur hc (hi.ctxs c (get_mem hc).1) hv
    | none =>
      rw [hcur] at hh
      simp only at hh
      simp only [elemSays, hh]
      simp only [onVarset, hcur] at hv ⊢
      obtain ⟨_, _, h2, h3⟩ := Res.bind_ok hv
      simp only [Res.pure_val, Except.ok.injEq] at h2
      subst h2
      exact ⟨rfl, h⟩
    | general =>
      rw [hcur] at hh
      simp only at hh
      simp only [elemSays, hh, special]
      simp only [onVarset, hcur, Res.pure_val, Except.ok.injEq] at hv ⊢
      subst hv
      refine ⟨rfl, h.spelling, ?_, h.globals, h.first, h.steps, h.last, h.positive, ?_, ?_, ?_⟩
      · refine h.general.trans ?_; cases st.dp.general <;> rfl
      · simp [hh]
      · simp
      · simp
    | globals =>
      rw [hcur] at hh
      simp only at hh
      simp only [elemSays, hh, special]
      simp only [onVarset, hcur, Res.pure_val, Except.ok.injEq] at hv ⊢
      subst hv
      refine ⟨rfl, h.spelling, h.general, ?_, h.first, h.steps, h.last, h.positive, ?_, ?_, ?_⟩
      · refine h.globals.trans ?_; cases st.dp.globals <;> rfl
      · simp [hh]
      · simp
      · simp
    | detached =>
      rw [hcur] at hh
      simp only at hh
      simp only [elemSays, hh, special]
      simp only [onVarset, hcur, Res.pure_val, Except.ok.injEq] at hv ⊢
      subst hv
      exact ⟨rfl, h⟩

theorem dialplan_says {env : DEnv} : ∀ (es : List Elem) {s : Sofar} {st st' : DState}, DpInv st → Agrees s st →
    (feed (dialplanStep env) st es).val = .ok st' →
    (feed (dialplanStep env) st es).log = (dialplanSays env s es).1 ∧ Agrees (dialplanSays env s es).2 st' := by
  intro es
  induction es with
  | nil =>
    intro s st st' hi h hv
    simp only [feed, Res.pure_val, Except.ok.injEq] at hv
    subst hv
    exact ⟨rfl, h⟩
  | cons e es ih =>
    intro s st st' hi h hv
    simp only [feed] at hv ⊢
    obtain ⟨st1, h1, h2, h3⟩ := Res.bind_ok hv
    rw [wrapExc_ok] at h1
    obtain ⟨e1, e2⟩ := elem_says hi h h1
    obtain ⟨e3, e4⟩ := ih (step_inv hi h1) e2 h2
    rw [h3, wrapExc_log, e1, e3]
    exact ⟨rfl, e4⟩

theorem end_says {s : Sofar} {st : DState} (h : Agrees s st) : onComplete st.dp = ⟨endSays s, .ok ()⟩ := by
  unfold onComplete endSays
  rw [h.first, h.general, h.globals]
  cases st.dp.contexts with
  | nil => rfl
  | cons c cs =>
    simp only [List.head?_cons, Option.map_some, Option.isNone_map]
    cases st.dp.general <;> cases st.dp.globals <;> rfl

/-! ## The file -/

theorem Merges.appendLeft {α : Type} : ∀ (x : List α) {a b c : List α}, Merges a b c → Merges (x ++ a) b (x ++ c)
  | [], _, _, _, h => h
  | y :: ys, _, _, _, h => .left y (Merges.appendLeft ys h)

theorem Merges.appendRight {α : Type} : ∀ (x : List α) {a b c : List α}, Merges a b c → Merges a (x ++ b) (x ++ c)
  | [], _, _, _, h => h
  | y :: ys, _, _, _, h => .right y (Merges.appendRight ys h)

/-- The messages of reading are those about the lines and those of the aggregator. -/
theorem pipeRun_merges {σ : Type} (fs : FS) (agg : σ → Elem → Res σ) : ∀ (n : Nat) (st : PState σ)
    (s : σ), (pipeRun fs agg n st).val = .ok (some s) →
    ∃ es ms, (feed agg st.agg es).val = .ok s ∧
      (∀ l, pipeRun fs collect n (st.with_ l) = ⟨ms, .ok (some (l ++ es))⟩) ∧
      Merges ms (feed agg st.agg es).log (pipeRun fs agg n st).log := by
  intro n
  induction n with
  | zero => intro st s h; simp [pipeRun] at h
  | succ n ih =>
    intro st s h
    rw [pipeRun] at h ⊢
    cases hp : pipeStep fs agg st with
    | none =>
      simp only [hp] at h ⊢
      have hc : ∀ l : List Elem, pipeStep fs collect (st.with_ l) = none := by
        intro l
        unfold pipeStep at hp ⊢
        simp only [PState.with_]
        cases hn : nextLine st.frames with
        | none => rfl
        | some p => simp [hn] at hp
      obtain ⟨a, h1, h2, h3⟩ := Res.bind_ok h
      simp only [Res.pure_val, Except.ok.injEq, Option.some.injEq] at h2
      subst h2
      unfold pipeEnd at h1
      obtain ⟨u, h4, h5, h6⟩ := Res.bind_ok h1
      obtain ⟨u', h7, h8, h9⟩ := Res.bind_ok h5
      refine ⟨(vswEnd st.vsw).1, (Res.emitAll (ffEnd st.ff)).log ++ (Res.emitAll (vswEnd st.vsw).2).log, h8,
        fun l => ?_, ?_⟩
      · rw [pipeRun]
        simp only [hc]
        have : pipeEnd collect (st.with_ l) = ⟨(Res.emitAll (ffEnd st.ff)).log ++
            (Res.emitAll (vswEnd st.vsw).2).log, .ok (l ++ (vswEnd st.vsw).1)⟩ := by
          unfold pipeEnd
          simp only [PState.with_]
          rw [Res.bind_of_ok h4]
          simp only [Res.bind_of_ok h7, feed_collect]
          simp [Res.pure]
        rw [this, Res.bind_of_ok rfl]
        simp [Res.pure]
      · rw [h3, show (pipeEnd agg st).log = _ from h6, h9]
        simp only [Res.pure_log, List.append_nil]
        have := Merges.appendLeft ((Res.emitAll (ffEnd st.ff)).log ++ (Res.emitAll (vswEnd st.vsw).2).log)
          (Merges.appendRight (feed agg st.agg (vswEnd st.vsw).1).log .nil)
        simpa using this
    | some r =>
      simp only [hp] at h ⊢
      obtain ⟨st', h1, h2, h3⟩ := Res.bind_ok h
      obtain ⟨es1, e1, e2⟩ := pipeStep_collect fs agg st st' r hp h1
      obtain ⟨es2, ms, e3, e4, e5⟩ := ih st' s h2
      obtain ⟨r0, q1, q2, q3⟩ := e2 []
      refine ⟨es1 ++ es2, r0.log ++ ms, ?_, fun l => ?_, ?_⟩
      · rw [feed_append, Res.bind_of_ok e1]; exact e3
      · rw [pipeRun]
        obtain ⟨r', p1, p2, p3⟩ := e2 l
        simp only [p1]
        rw [Res.bind_of_ok p2, e4]
        have : r'.log = r0.log := by
          rw [q3] at p3
          exact (List.append_cancel_right p3).symm
        simp [this]
      · rw [feed_append, Res.bind_of_ok e1, h3, q3]
        simp only [List.append_assoc]
        exact Merges.appendLeft _ (Merges.appendRight _ e5)

end ALint
