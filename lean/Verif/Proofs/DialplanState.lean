import Verif.Proofs.Dialplan
import Verif.Proofs.AppKinds

/-!
# The state of the dialplan aggregator
-/

namespace ALint
open Pattern (Values)

/-! ## Replacing a context -/

theorem putCtx_names (c : DCtx) (ds : List DCtx) : (putCtx c ds).map (·.name) = ds.map (·.name) := by
  induction ds with
  | nil => rfl
  | cons d ds ih =>
    by_cases h : d.name = c.name
    · simp [putCtx, h]
    · simp [putCtx, h, ih]

theorem putCtx_find (c : DCtx) (ds : List DCtx) (n : Str) :
    (putCtx c ds).find? (·.name = n) =
      if n = c.name then (ds.find? (·.name = n)).map fun _ => c else ds.find? (·.name = n) := by
  induction ds with
  | nil => simp [putCtx]
  | cons d ds ih =>
    by_cases h : d.name = c.name
    · simp only [putCtx, h, if_true, List.find?]
      by_cases hn : n = c.name
      · subst hn; simp
      · have hn' : ¬ c.name = n := fun e => hn e.symm
        simp [hn, hn']
    · simp only [putCtx, h, if_false, List.find?]
      by_cases hd : d.name = n
      · subst hd; simp [h]
      · simp [hd, ih]

theorem mem_putCtx {c d : DCtx} {ds : List DCtx} (hn : (ds.map (·.name)).Nodup) (hc : ∃ e ∈ ds, e.name = c.name) :
    d ∈ putCtx c ds ↔ d = c ∨ (d ∈ ds ∧ d.name ≠ c.name) := by
  induction ds with
  | nil => simp at hc
  | cons e ds ih =>
    simp only [List.map_cons, List.nodup_cons] at hn
    by_cases h : e.name = c.name
    · simp only [putCtx, h, if_true, List.mem_cons]
      constructor
      · rintro (rfl | hd)
        · exact .inl rfl
        · refine .inr ⟨.inr hd, fun e' => hn.1 ?_⟩
          rw [h, ← e']
          exact List.mem_map.2 ⟨d, hd, rfl⟩
      · rintro (rfl | ⟨rfl | hd, hne⟩)
        · exact .inl rfl
        · exact absurd h hne
        · exact .inr hd
    · simp only [putCtx, h, if_false, List.mem_cons]
      have hc' : ∃ e ∈ ds, e.name = c.name := by
        obtain ⟨x, hx, hx'⟩ := hc
        rcases List.mem_cons.1 hx with rfl | hx
        · exact absurd hx' h
        · exact ⟨x, hx, hx'⟩
      rw [ih hn.2 hc']
      constructor
      · rintro (rfl | rfl | ⟨hd, hne⟩)
        · exact .inr ⟨.inl rfl, h⟩
        · exact .inl rfl
        · exact .inr ⟨.inr hd, hne⟩
      · rintro (rfl | ⟨rfl | hd, hne⟩)
        · exact .inr (.inl rfl)
        · exact .inl rfl
        · exact .inr (.inr ⟨hd, hne⟩)

theorem get_mem {dp : Dialplan} {n : Str} {c : DCtx} (h : dp.get n = some c) :
    c ∈ dp.contexts ∧ c.name = n := by
  unfold Dialplan.get at h
  exact ⟨List.mem_of_find?_eq_some h, by simpa using List.find?_some h⟩

theorem get_of_mem {dp : Dialplan} (hn : (dp.contexts.map (·.name)).Nodup) {c : DCtx}
    (h : c ∈ dp.contexts) : dp.get c.name = some c := by
  unfold Dialplan.get
  generalize dp.contexts = l at hn h
  induction l with
  | nil => simp at h
  | cons d ds ih =>
    simp only [List.map_cons, List.nodup_cons] at hn
    rcases List.mem_cons.1 h with rfl | h
    · simp
    · have : ¬ d.name = c.name := by
        intro e
        exact hn.1 (by rw [e]; exact List.mem_map.2 ⟨c, h, rfl⟩)
      simp [this, ih hn.2 h]

/-! ## Reading lines -/

/-- What happens to an `exten` or `same` line in `from_varset`: the messages in front are
about the arrow. -/
inductive ReadCase (env : DEnv) (sp : Option Str) (v : VarE) :
    Option Str × List Ev × DVar → List Msg → Prop
  | hint (hp : ∃ p r, splitExten v = .ok (p, r) ∧ (splitLabel (splitApp r).1).1 = c! "hint") :
      ReadCase env sp v (sp, [], .nothing) [mkMsg .I_NOTIMPL_HINT v.at_ []]
  | badPrio (p : Option Str) (r : Str) (hp : splitExten v = .ok (p, r))
      (hd : isDigitS (splitLabel (splitApp r).1).1 = false) :
      ReadCase env sp v (sp, [], .nothing)
        [mkMsg .E_DP_PRIO_INVALID v.at_ [(c! "prio", strV (splitLabel (splitApp r).1).1)]]
  | ext (p : Option Str) (r : Str) (pat : Option (Str × Values)) (prio : Option Nat) (label : Option Str)
      (sp' : Option Str) (jumps : List Jump) (uses : List Ev) (ms : List Msg)
      (hs : splitExten v = .ok (p, r))
      (hp : readPrio v.at_ (splitLabel (splitApp r).1).1 = .pure (some prio))
      (hl : readLabel v.at_ (splitLabel (splitApp r).1).2 = .pure (some label))
      (hpat : readPattern p = .ok pat)
      (hrun : (runApp env.toAEnv env.depth sp v.at_ (strV (splitApp r).2)).toRes = ⟨ms, .ok ((sp', jumps), uses)⟩) :
      ReadCase env sp v (sp', uses, .ext ⟨pat, prio, label, (splitApp r).2, jumps, v.comment, v.at_⟩) ms

theorem readPrio_cases {w : Where} {s : Str} {r : Option (Option Nat)} (h : (readPrio w s).val = .ok r) :
    (∃ p, r = some p ∧ readPrio w s = .pure (some p)) ∨
    (r = none ∧ s = c! "hint" ∧ (readPrio w s).log = [mkMsg .I_NOTIMPL_HINT w []]) ∨
    (r = none ∧ isDigitS s = false ∧ (readPrio w s).log = [mkMsg .E_DP_PRIO_INVALID w [(c! "prio", strV s)]]) := by
  unfold readPrio at h ⊢
  by_cases h1 : s = c! "n"
  · simp only [h1, if_true, Res.pure_val, Except.ok.injEq] at h ⊢
    exact .inl ⟨none, h.symm, rfl⟩
  · simp only [h1, if_false] at h ⊢
    by_cases h2 : isDigitS s = true
    · simp only [h2, if_true] at h ⊢
      cases hd : decNat 0 s with
      | none => simp [hd] at h
      | some n =>
        simp only [hd, Res.pure_val, Except.ok.injEq] at h ⊢
        exact .inl ⟨some n, h.symm, rfl⟩
    · simp only [h2, Bool.false_eq_true, if_false] at h ⊢
      by_cases h3 : s = c! "hint"
      · rw [if_pos h3] at h ⊢
        obtain ⟨_, _, h4, h5⟩ := Res.bind_ok h
        simp only [Res.pure_val, Except.ok.injEq] at h4
        exact .inr (.inl ⟨h4.symm, h3, h5⟩)
      · rw [if_neg h3] at h ⊢
        obtain ⟨_, _, h4, h5⟩ := Res.bind_ok h
        simp only [Res.pure_val, Except.ok.injEq] at h4
        exact .inr (.inr ⟨h4.symm, by simp, h5⟩)

theorem readLabel_ok {w : Where} {l : Option Str} {r : Option (Option Str)} (h : (readLabel w l).val = .ok r) :
    ∃ l', r = some l' ∧ readLabel w l = .pure (some l') := by
  unfold readLabel at h ⊢
  cases l with
  | none => simp only [Res.pure_val, Except.ok.injEq] at h; exact ⟨none, h.symm, rfl⟩
  | some l =>
    simp only at h ⊢
    by_cases h1 : l.getLast? = some ')'
    · simp only [h1, if_true, Res.pure_val, Except.ok.injEq] at h ⊢
      exact ⟨_, h.symm, rfl⟩
    · simp only [h1, if_false] at h
      obtain ⟨_, h2, _⟩ := Res.bind_ok h
      simp [Res.emit, mkMsg, Msg.render, MK.template, renderAll, renderPiece, List.lookup, Except.map] at h2

theorem readExten_cases {env : DEnv} {sp : Option Str} {v : VarE} {r : Option Str × List Ev × DVar}
    (h : (readExten env sp v).val = .ok r) : ReadCase env sp v r (readExten env sp v).log := by
  unfold readExten at h ⊢
  obtain ⟨⟨p, rest⟩, h1, h2, h3⟩ := Res.bind_ok h
  simp only [Res.lift_val] at h1
  rw [h3]
  simp only [Res.lift_log, List.nil_append] at h2 ⊢
  obtain ⟨pr, h4, h5, h6⟩ := Res.bind_ok h2
  rw [h6]
  rcases readPrio_cases h4 with ⟨prio, rfl, hr⟩ | ⟨rfl, hh, hlog⟩ | ⟨rfl, hh, hlog⟩
  · simp only at h5 ⊢
    obtain ⟨lb, h7, h8, h9⟩ := Res.bind_ok h5
    obtain ⟨label, rfl, hl⟩ := readLabel_ok h7
    simp only at h8 h9 ⊢
    rw [h9, hr, hl]
    obtain ⟨pat, h10, h11, h12⟩ := Res.bind_ok h8
    simp only [Res.lift_val] at h10
    obtain ⟨run, h13, h14, h15⟩ := Res.bind_ok h11
    simp only [Res.pure_val, Except.ok.injEq] at h14
    rw [h12, h15, ← h14]
    simp only [Res.pure_log, Res.lift_log, List.nil_append, List.append_nil]
    exact .ext p rest pat prio label run.1.1 run.1.2 run.2 _ h1 hr hl h10 (by rw [← h13])
  · simp only [Res.pure_val, Except.ok.injEq] at h5
    rw [← h5, hlog]
    exact .hint ⟨p, rest, h1, hh⟩
  · simp only [Res.pure_val, Except.ok.injEq] at h5
    rw [← h5, hlog]
    exact .badPrio p rest h1 hh

/-- Messages about the arrow. -/
def arrowMsgs (v : VarE) : List Msg := if v.arrow then [] else [mkMsg .H_CONF_NO_ARROW v.at_ []]

theorem expectArrow_log (v : VarE) : (expectArrow v).log = arrowMsgs v := by
  unfold expectArrow arrowMsgs
  split <;> rfl

theorem expectArrow_val (v : VarE) : (expectArrow v).val = .ok () := by
  unfold expectArrow
  split
  · rfl
  · rfl

/-- The cases of `from_varset`. -/
inductive FromCase (env : DEnv) (sp : Option Str) (v : VarE) :
    Option Str × List Ev × DVar → List Msg → Prop
  | line (r : Option Str × List Ev × DVar) (ms : List Msg) (hk : v.key = c! "exten" ∨ v.key = c! "same")
      (h : ReadCase env sp v r ms) : FromCase env sp v r (arrowMsgs v ++ ms)
  | incl (hk : v.key = c! "include") : FromCase env sp v (sp, [], .include_ v.value v.at_) (arrowMsgs v)
  | other (ms : List Msg) (hk : v.key ≠ c! "exten" ∧ v.key ≠ c! "same" ∧ v.key ≠ c! "include")
      (hm : ∀ m ∈ ms, m.at_ = v.at_ ∧ (m.kind = .H_CONF_NO_ARROW ∨ m.kind = .I_NOTIMPL_SWITCH ∨
        m.kind = .I_NOTIMPL_IGNOREPAT ∨ m.kind = .E_CONF_KEY_INVALID)) :
      FromCase env sp v (sp, [], .nothing) ms

theorem arrowMsgs_mem {v : VarE} {m : Msg} (h : m ∈ arrowMsgs v) : m = mkMsg .H_CONF_NO_ARROW v.at_ [] := by
  unfold arrowMsgs at h
  split at h
  · simp at h
  · simpa using h

theorem fromVarset_cases {env : DEnv} {sp : Option Str} {v : VarE} {r : Option Str × List Ev × DVar}
    (h : (fromVarset env sp v).val = .ok r) : FromCase env sp v r (fromVarset env sp v).log := by
  unfold fromVarset at h ⊢
  by_cases h1 : v.key = c! "exten" ∨ v.key = c! "same"
  · simp only [h1, if_true] at h ⊢
    obtain ⟨_, _, h3, h4⟩ := Res.bind_ok h
    rw [h4, expectArrow_log]
    exact .line r _ h1 (readExten_cases h3)
  · simp only [h1, if_false] at h ⊢
    have h1' : v.key ≠ c! "exten" ∧ v.key ≠ c! "same" := ⟨fun e => h1 (.inl e), fun e => h1 (.inr e)⟩
    by_cases h2 : v.key = c! "include"
    · simp only [h2, if_true] at h ⊢
      obtain ⟨_, _, h3, h4⟩ := Res.bind_ok h
      simp only [Res.pure_val, Except.ok.injEq] at h3
      rw [h4, expectArrow_log, ← h3]
      simpa using FromCase.incl (env := env) (sp := sp) h2
    · simp only [h2, if_false] at h ⊢
      have hk : v.key ≠ c! "exten" ∧ v.key ≠ c! "same" ∧ v.key ≠ c! "include" := ⟨h1'.1, h1'.2, h2⟩
      split at h
      · rename_i h3
        rw [if_pos h3]
        obtain ⟨_, _, h5, h6⟩ := Res.bind_ok h
        obtain ⟨_, _, h8, h9⟩ := Res.bind_ok h5
        simp only [Res.pure_val, Except.ok.injEq] at h8
        rw [h6, h9, expectArrow_log, ← h8]
        refine .other _ hk fun m hm => ?_
        rcases List.mem_append.1 hm with hm | hm
        · rw [arrowMsgs_mem hm]; exact ⟨rfl, .inl rfl⟩
        · simp at hm; rw [hm]; exact ⟨rfl, .inr (.inl rfl)⟩
      · rename_i h3
        rw [if_neg h3]
        split at h
        · rename_i h3
          rw [if_pos h3]
          obtain ⟨_, _, h5, h6⟩ := Res.bind_ok h
          obtain ⟨_, _, h8, h9⟩ := Res.bind_ok h5
          simp only [Res.pure_val, Except.ok.injEq] at h8
          rw [h6, h9, expectArrow_log, ← h8]
          refine .other _ hk fun m hm => ?_
          rcases List.mem_append.1 hm with hm | hm
          · rw [arrowMsgs_mem hm]; exact ⟨rfl, .inl rfl⟩
          · simp at hm; rw [hm]; exact ⟨rfl, .inr (.inr (.inl rfl))⟩
        · rename_i h3
          rw [if_neg h3]
          obtain ⟨_, _, h5, h6⟩ := Res.bind_ok h
          simp only [Res.pure_val, Except.ok.injEq] at h5
          rw [h6, ← h5]
          refine .other _ hk fun m hm => ?_
          simp at hm; rw [hm]; exact ⟨rfl, .inr (.inr (.inr rfl))⟩

/-! ## The invariant of the state -/

structure DpInv (st : DState) : Prop where
  names : (st.dp.contexts.map (·.name)).Nodup
  ctxs : ∀ c ∈ st.dp.contexts, CtxInv c
  labels : ∀ l, l ∈ st.dp.allLabels ↔ ∃ c ∈ st.dp.contexts, ∃ s ∈ c.steps, realLabel s.label = some l
  cur : ∀ n, st.cur = .ctx n → ∃ c, st.dp.get n = some c

theorem DpInv.init (sp : Option Str) : DpInv (.init sp) where
  names := by simp [DState.init, Dialplan.init]
  ctxs := by simp [DState.init, Dialplan.init]
  labels := by simp [DState.init, Dialplan.init]
  cur := by simp [DState.init]

/-- How the name of the context and its includes are affected by adding. -/
theorem addCase_frame {last : Option Nat} {c : DCtx} {e : ExtLine} {a : Added} {ms : List Msg}
    (h : AddCase last c e a ms) : a.ctx.name = c.name ∧ a.ctx.includes = c.includes ∧ a.ctx.at_ = c.at_ := by
  cases h <;> exact ⟨rfl, rfl, rfl⟩

/-- Steps and labels when adding. -/
theorem addCase_steps {last : Option Nat} {c : DCtx} {e : ExtLine} {a : Added} {ms : List Msg}
    (h : AddCase last c e a ms) :
    (a.ctx.steps = c.steps ∧ a.labels = []) ∨
    ∃ s, a.ctx.steps = c.steps ++ [s] ∧ ∀ l, l ∈ a.labels ↔ realLabel s.label = some l := by
  cases h with
  | noPat | noPrio | dupe => exact .inl ⟨rfl, rfl⟩
  | stored raw pat ms n label' ls ds pc lms hp hr hd hpc hlc hl hj =>
    exact .inr ⟨_, rfl, fun l => (labelCase_real hl l).symm⟩

theorem withAdded_inv {st : DState} {c : DCtx} {a : Added} {sp : Option Str} {us : List Ev}
    (hi : DpInv st) (hc : st.dp.get c.name = some c) (hn : a.ctx.name = c.name) (hci : CtxInv a.ctx)
    (hs : (a.ctx.steps = c.steps ∧ a.labels = []) ∨
      ∃ s, a.ctx.steps = c.steps ++ [s] ∧ ∀ l, l ∈ a.labels ↔ realLabel s.label = some l) :
    DpInv ⟨st.dp.withAdded a, st.cur, sp, us⟩ := by
  obtain ⟨hm, _⟩ := get_mem hc
  have hex : ∃ e ∈ st.dp.contexts, e.name = a.ctx.name := ⟨c, hm, hn.symm⟩
  refine ⟨?_, ?_, ?_, ?_⟩
  · show ((putCtx a.ctx st.dp.contexts).map (·.name)).Nodup
    rw [putCtx_names]; exact hi.names
  · intro d hd
    rcases (mem_putCtx hi.names hex).1 hd with rfl | ⟨hd, _⟩
    · exact hci
    · exact hi.ctxs d hd
  · intro l
    show l ∈ st.dp.allLabels ++ a.labels ↔ ∃ d ∈ putCtx a.ctx st.dp.contexts, _
    rw [List.mem_append, hi.labels]
    have hother : ∀ d ∈ st.dp.contexts, d.name = a.ctx.name → d = c := by
      intro d hd he
      have h1 := get_of_mem hi.names hd
      rw [he, hn, hc] at h1
      simpa using h1.symm
    constructor
    · rintro (⟨d, hd, s, hs', hl⟩ | h)
      · by_cases he : d.name = a.ctx.name
        · have := hother d hd he
          subst this
          refine ⟨a.ctx, (mem_putCtx hi.names hex).2 (.inl rfl), s, ?_, hl⟩
          rcases hs with ⟨hs, _⟩ | ⟨t, hs, _⟩
          · rw [hs]; exact hs'
          · rw [hs]; exact List.mem_append_left _ hs'
        · exact ⟨d, (mem_putCtx hi.names hex).2 (.inr ⟨hd, he⟩), s, hs', hl⟩
      · rcases hs with ⟨_, hl⟩ | ⟨t, hs, hl⟩
        · rw [hl] at h; simp at h
        · exact ⟨a.ctx, (mem_putCtx hi.names hex).2 (.inl rfl), t, by rw [hs]; simp, (hl l).1 h⟩
    · rintro ⟨d, hd, s, hs', hl⟩
      rcases (mem_putCtx hi.names hex).1 hd with rfl | ⟨hd, _⟩
      · rcases hs with ⟨hs, _⟩ | ⟨t, hs, hl'⟩
        · rw [hs] at hs'; exact .inl ⟨c, hm, s, hs', hl⟩
        · rw [hs] at hs'
          rcases List.mem_append.1 hs' with hs' | hs'
          · exact .inl ⟨c, hm, s, hs', hl⟩
          · simp at hs'; subst hs'; exact .inr ((hl' l).2 hl)
      · exact .inl ⟨d, hd, s, hs', hl⟩
  · intro n hcur
    obtain ⟨d, hd⟩ := hi.cur n hcur
    show ∃ c, (putCtx a.ctx st.dp.contexts).find? (·.name = n) = some c
    rw [putCtx_find]
    unfold Dialplan.get at hd
    by_cases he : n = a.ctx.name
    · simp [he] at hd ⊢
      exact ⟨_, hd⟩
    · simp only [he, if_false]; exact ⟨d, hd⟩

theorem canonCheck_log (e : ExtLine) : ∀ m ∈ (canonCheck e).log, m.at_ = e.at_ ∧ m.kind = .H_PAT_NON_CANONICAL := by
  unfold canonCheck
  cases e.pat with
  | none => simp
  | some p =>
    obtain ⟨raw, v⟩ := p
    simp only
    split
    · simp
    · intro m hm; simp at hm; rw [hm]; exact ⟨rfl, rfl⟩

/-- What a line in a context does. -/
inductive LineCase (env : DEnv) (st : DState) (v : VarE) (c : DCtx) : DState → List Msg → Prop
  | nothing (sp' : Option Str) (us : List Ev) (ms : List Msg)
      (h : FromCase env st.sp v (sp', us, .nothing) ms) :
      LineCase env st v c ⟨st.dp, st.cur, sp', st.uses ++ us⟩ ms
  | incl (hk : v.key = c! "include") :
      LineCase env st v c
        ⟨{ st.dp with
            contexts := putCtx { c with includes := c.includes ++ [(v.value, v.at_)] } st.dp.contexts },
          st.cur, st.sp, st.uses ++ []⟩
        (arrowMsgs v)
  | ext (sp' : Option Str) (us : List Ev) (e : ExtLine) (a : Added) (ms cs as : List Msg)
      (hk : v.key = c! "exten" ∨ v.key = c! "same")
      (h : ReadCase env st.sp v (sp', us, .ext e) ms)
      (hcs : cs = (canonCheck e).log)
      (ha : AddCase st.dp.lastPrio c e a as) :
      LineCase env st v c ⟨st.dp.withAdded a, st.cur, sp', st.uses ++ us⟩ (arrowMsgs v ++ ms ++ cs ++ as)

theorem onVarset_line {env : DEnv} {st st' : DState} {v : VarE} {n : Str} {c : DCtx} (hc : st.dp.get n = some c)
    (hn : st.cur = .ctx n) (h : (onVarset env st v).val = .ok st') : LineCase env st v c st' (onVarset env st v).log := by
  unfold onVarset at h ⊢
  simp only [hn, hc] at h ⊢
  obtain ⟨⟨sp', us, dv⟩, h1, h2, h3⟩ := Res.bind_ok h
  have hf := fromVarset_cases h1
  rw [h3]
  obtain ⟨dp, h4, h5, h6⟩ := Res.bind_ok h2
  rw [h6]
  simp only [Res.pure_val, Except.ok.injEq] at h5
  subst h5
  simp only [Res.pure_log, List.append_nil]
  rw [← hn]
  cases dv with
  | nothing =>
    simp only [onDVar, Res.pure_val, Except.ok.injEq] at h4
    subst h4
    simp only [onDVar, Res.pure_log, List.append_nil]
    exact .nothing sp' us _ hf
  | include_ name w =>
    simp only [onDVar, Res.pure_val, Except.ok.injEq] at h4
    subst h4
    simp only [onDVar, Res.pure_log, List.append_nil]
    generalize (fromVarset env st.sp v).log = lg at hf
    generalize hdv : (sp', us, DVar.include_ name w) = x at hf
    cases hf with
    | line r ms hk h =>
      subst hdv
      cases h
    | incl hk =>
      cases hdv
      exact .incl hk
    | other ms hk hm => cases hdv
  | ext e =>
    simp only [onDVar] at h4 ⊢
    obtain ⟨_, h7, h8, h9⟩ := Res.bind_ok h4
    obtain ⟨a, h10, h11, h12⟩ := Res.bind_ok h8
    simp only [Res.pure_val, Except.ok.injEq] at h11
    subst h11
    rw [h9, h12]
    have ha := addExt_cases h10
    simp only [Res.pure_log, List.append_nil]
    generalize (fromVarset env st.sp v).log = lg at hf
    generalize hdv : (sp', us, DVar.ext e) = x at hf
    cases hf with
    | line r ms hk h =>
      subst hdv
      rw [← List.append_assoc]
      exact .ext sp' us e a ms _ _ hk h rfl ha
    | incl hk => cases hdv
    | other ms hk hm => cases hdv

theorem onVarset_cases {env : DEnv} {st st' : DState} {v : VarE} {n : Str} (hi : DpInv st)
    (hn : st.cur = .ctx n) (h : (onVarset env st v).val = .ok st') :
    ∃ c, st.dp.get n = some c ∧ LineCase env st v c st' (onVarset env st v).log := by
  obtain ⟨c, hc⟩ := hi.cur n hn
  exact ⟨c, hc, onVarset_line hc hn h⟩

end ALint
