import Verif.Spec.DialplanTells
import Verif.Proofs.DialplanLog
import Verif.Proofs.AppSays
import Verif.Proofs.Completion

/-!
# What is said about a dialplan, applications included
-/

namespace ALint
open ALint.Spec
open Pattern (Values)

theorem addDests_of {s s' : Sofar} {n : Str} {e : ExtLine} {raw : Str} {pat : Values} {ds : List Dest}
    (h : AddDests s s' n e (some (raw, pat)) ds) (hu : ∀ j ∈ e.jumps, Usable j.exten) : DestsOf s s' n (Pattern.exampleOf pat) e.at_ e.jumps ds := by
  have nk : ∀ l : Spec.Numbered, l.kept = false → ¬ KeepsLine s (s.number l) := by
    rintro l hl ⟨m, h1, h2⟩
    simp only [Sofar.number, List.append_cancel_left_eq, List.cons.injEq, and_true] at h1
    subst h1
    rw [hl] at h2
    cases h2
  cases h with
  | none h =>
    subst h
    refine ⟨?_, fun _ => rfl⟩
    rintro ⟨m, h1, _⟩
    have := congrArg List.length h1
    simp at this
  | no l h h' =>
    subst h
    exact ⟨fun hk => absurd hk (nk l h'), fun _ => rfl⟩
  | kept l raw pat h h' hc =>
    subst h
    exact ⟨fun _ => completeDests_zips hu hc, fun hk => absurd ⟨l, rfl, h'⟩ hk⟩

theorem addDests_none {s s' : Sofar} {n : Str} {e : ExtLine} {ds : List Dest} (h : AddDests s s' n e none ds) : ds = [] := by
  cases h <;> rfl

theorem steps_spelling (s : Sofar) (sp : Option Str) (n : Str) : Sofar.steps { s with spelling := sp } n = s.steps n := rfl

theorem keeps_spelling {s s' : Sofar} {sp : Option Str} : KeepsLine { s with spelling := sp } s' ↔ KeepsLine s s' := .rfl

theorem body_tells {env : DEnv} (hd : ArgsDescribed env.toAEnv) {s : Sofar} {st st' : DState} (h : Agrees s st) {n : Str}
    {c : DCtx} (hcur : st.cur = .ctx n) (hc : st.dp.get n = some c) (hi : CtxInv c) {v : VarE}
    (hv : (onVarset env st v).val = .ok st') :
    ∃ s' us ds, BodyTells env.toAEnv s n v (onVarset env st v).log s' us ds ∧ Agrees s' st' ∧
      st'.uses = st.uses ++ us ∧ st'.dp.dests = st.dp.dests ++ ds := by
  have hname := (get_mem hc).2
  unfold onVarset at hv ⊢
  simp only [hcur, hc] at hv ⊢
  obtain ⟨⟨sp', us, dv⟩, h1, h2, h3⟩ := Res.bind_ok hv
  rw [h3]
  obtain ⟨dp, h4, h5, h6⟩ := Res.bind_ok h2
  rw [h6]
  simp only [Res.pure_val, Except.ok.injEq] at h5
  subst h5
  simp only [Res.pure_log, List.append_nil]
  rw [← hcur]
  unfold fromVarset at h1 ⊢
  by_cases hk : v.key = c! "exten" ∨ v.key = c! "same"
  · simp only [hk, if_true] at h1 ⊢
    obtain ⟨_, _, g1, g2⟩ := Res.bind_ok h1
    rw [g2, arrow_says]
    have hr := readExten_says g1
    generalize (readExten env st.sp v).log = lg at hr
    generalize hdv : (sp', us, dv) = x at hr
    cases hr with
    | hint hh =>
      cases hdv
      simp only [onDVar, Res.pure_val, Except.ok.injEq] at h4
      subst h4
      refine ⟨s, [], [], ?_, ?_, rfl, by simp⟩
      · simp only [onDVar, Res.pure_log, List.append_nil]
        exact .step hk (.hint hh)
      · rw [← h.spelling]
        exact h.other _ _
    | bad b1 b2 b3 =>
      cases hdv
      simp only [onDVar, Res.pure_val, Except.ok.injEq] at h4
      subst h4
      refine ⟨s, [], [], ?_, ?_, rfl, by simp⟩
      · simp only [onDVar, Res.pure_log, List.append_nil]
        exact .step hk (.badPrio b1 (fun e => e.elim b2 fun e => by rw [b3] at e; cases e))
      · rw [← h.spelling]
        exact h.other _ _
    | ext sp2 jumps pat b1 b2 hpat hrun =>
      cases hdv
      simp only [onDVar] at h4 ⊢
      obtain ⟨_, h7, h8, h9⟩ := Res.bind_ok h4
      obtain ⟨a, h10, h11, h12⟩ := Res.bind_ok h8
      simp only [Res.pure_val, Except.ok.injEq] at h11
      subst h11
      rw [h9, h12]
      have ha := addExt_cases h10
      generalize (addExt _ _ _).log = as at ha
      obtain ⟨p1, p2⟩ := pattern_says hpat
      have hA := h.other sp' (st.uses ++ evUses (runApp env.toAEnv env.depth st.sp v.at_ (strV (readingOf v).app)).ev)
      obtain ⟨q1, q2, q3⟩ := add_says' hA hcur hc hi ha
        (st.uses ++ evUses (runApp env.toAEnv env.depth st.sp v.at_ (strV (readingOf v).app)).ev)
      have hx : Spec.extenFor ({ s with spelling := sp' } : Sofar) n (readingOf v).exten =
          resolvePat c ⟨pat, prioOf (readingOf v).prio, (readingOf v).label, (readingOf v).app, jumps, v.comment, v.at_⟩ := by
        unfold resolvePat Spec.extenFor
        cases hex : (readingOf v).exten with
        | none =>
          rw [hex] at p2
          simp only [p2.1 rfl]
          rw [show Sofar.steps { s with spelling := sp' } n = s.steps n from rfl, h.get hc]
        | some raw =>
          rw [hex] at p1 p2
          simp only [Option.bind_some] at p1 ⊢
          rw [p1]
          cases pat with
          | none => simp at p2
          | some p => rfl
      have hsay : LineSays env.toAEnv v.at_ s.spelling (.str (readingOf v).app)
          (runApp env.toAEnv env.depth st.sp v.at_ (strV (readingOf v).app)).ev sp' jumps := by
        refine (line_iff hd (normal_str _)).1 ⟨env.depth, ?_⟩
        rw [h.spelling, ← hrun]
        rfl
      simp only [canon_says]
      have hcnt : NextOrNumber (readingOf v).prio := by
        unfold NextOrNumber
        cases hq : isDigitS (readingOf v).prio with
        | true => exact .inr rfl
        | false => 
          by_cases hn : (readingOf v).prio = c! "n"
          · exact .inl hn
          · exact absurd ⟨hn, hq⟩ b2
      generalize hrp : resolvePat c ⟨pat, prioOf (readingOf v).prio, (readingOf v).label, (readingOf v).app, jumps,
        v.comment, v.at_⟩ = rp at q1 q2 q3 hx
      refine ⟨_, evUses (runApp env.toAEnv env.depth st.sp v.at_ (strV (readingOf v).app)).ev, a.dests, ?_, q2, rfl, rfl⟩
      cases rp with
      | none =>
        subst q1
        have hex : (readingOf v).exten = none := by
          cases hex : (readingOf v).exten with
          | none => rfl
          | some raw =>
            rw [hex] at p2
            cases pat with
            | none => simp at p2
            | some p => simp [resolvePat] at hrp
        have hpn := p2.1 hex
        have hst : s.steps n = [] := by
          rw [hex] at hx
          simpa [Spec.extenFor, steps_spelling] using hx
        rw [addDests_none q3]
        have := BodyTells.step hk (ExtenTells.noExten (name := n) hcnt hsay hex hst)
        subst hpn
        simpa [addSays, canonSays] using this
      | some p =>
        obtain ⟨raw, pt⟩ := p
        subst q1
        have hds := addDests_of q3 (line_usable hsay)
        simp only [addSays] at hds ⊢
        generalize hq : stepSays _ _ _ _ _ _ _ _ _ = q at hds ⊢
        obtain ⟨ms, s'⟩ := q
        have := BodyTells.step hk (ExtenTells.step (name := n) hcnt hsay hx hq ⟨hds.kept, hds.not⟩)
        rw [p1] at this
        simpa only [List.append_assoc, Res.pure_log, List.append_nil] using this
  · simp only [hk, if_false] at h1 ⊢
    by_cases h2' : v.key = c! "include"
    · simp only [h2', if_true] at h1 ⊢
      rw [arrow_says, Res.bind_of_ok rfl] at h1 ⊢
      simp only [Res.pure_val, Except.ok.injEq, Prod.mk.injEq] at h1
      obtain ⟨rfl, rfl, rfl⟩ := h1
      simp only [onDVar, Res.pure_val, Except.ok.injEq] at h4
      subst h4
      refine ⟨s, [], [], ?_, h.put hc (d := { c with includes := c.includes ++ [(v.value, v.at_)] }) hname rfl rfl rfl _,
        rfl, by simp⟩
      simp only [onDVar, Res.pure_log, List.append_nil]
      exact .included h2'
    · simp only [h2', if_false] at h1 ⊢
      have fin : sp' = st.sp → us = [] → dv = .nothing → (onDVar st.dp c dv).log = [] ∧
          Agrees s ⟨dp, st.cur, sp', st.uses ++ us⟩ ∧ st.uses ++ us = st.uses ++ [] ∧ dp.dests = st.dp.dests ++ [] := by
        rintro rfl rfl rfl
        simp only [onDVar, Res.pure_val, Except.ok.injEq] at h4
        subst h4
        refine ⟨rfl, ?_, rfl, by simp⟩
        rw [← h.spelling]
        exact h.other _ _
      by_cases h3' : v.key = c! "switch"
      · rw [if_pos h3'] at h1 ⊢
        rw [arrow_says, Res.bind_of_ok rfl, Res.bind_of_ok rfl] at h1 ⊢
        simp only [Res.pure_val, Except.ok.injEq, Prod.mk.injEq] at h1
        obtain ⟨e1, e2, e3⟩ := h1
        obtain ⟨f1, f2, f3, f4⟩ := fin e1.symm e2.symm e3.symm
        refine ⟨s, [], [], ?_, f2, f3, f4⟩
        rw [f1]
        simpa using BodyTells.switch h3'
      · rw [if_neg h3'] at h1 ⊢
        by_cases h4' : v.key = c! "ignorepat"
        · rw [if_pos h4'] at h1 ⊢
          rw [arrow_says, Res.bind_of_ok rfl, Res.bind_of_ok rfl] at h1 ⊢
          simp only [Res.pure_val, Except.ok.injEq, Prod.mk.injEq] at h1
          obtain ⟨e1, e2, e3⟩ := h1
          obtain ⟨f1, f2, f3, f4⟩ := fin e1.symm e2.symm e3.symm
          refine ⟨s, [], [], ?_, f2, f3, f4⟩
          rw [f1]
          simpa using BodyTells.ignorepat h4'
        · rw [if_neg h4'] at h1 ⊢
          rw [Res.bind_of_ok rfl] at h1 ⊢
          simp only [Res.pure_val, Except.ok.injEq, Prod.mk.injEq] at h1
          obtain ⟨e1, e2, e3⟩ := h1
          obtain ⟨f1, f2, f3, f4⟩ := fin e1.symm e2.symm e3.symm
          refine ⟨s, [], [], ?_, f2, f3, f4⟩
          rw [f1]
          rw [not_or] at hk
          simpa using BodyTells.other (by simp [hk, h2', h3', h4'])

/-- Nothing but the steps brings destinations and uses. -/
theorem context_dests {st st' : DState} {c : CtxE} (hv : (onContext st c).val = .ok st') :
    st'.uses = st.uses ∧ st'.dp.dests = st.dp.dests ∧ (c.name = c! "general" → st.dp.general = none) := by
  have hc := onContext_cases hv
  generalize (onContext st c).log = lg at hc
  have h0 : special (c! "general") = true := by decide
  cases hc with
  | general ms hn hg hm => exact ⟨rfl, rfl, fun _ => hg⟩
  | globals ms hn hg hm => exact ⟨rfl, rfl, fun e => by rw [hn] at e; exact absurd e (by decide)⟩
  | detached g hn hg => exact ⟨rfl, rfl, fun e => by rw [hn] at e; exact absurd e (by decide)⟩
  | fresh ms hn hg hm => exact ⟨rfl, rfl, fun e => by rw [e, h0] at hn; cases hn⟩
  | again ms d hn hg hc' hm => exact ⟨rfl, rfl, fun e => by rw [e, h0] at hn; cases hn⟩

theorem elem_tells {env : DEnv} (hd : ArgsDescribed env.toAEnv) {s : Sofar} {st st' : DState} {e : Elem} (hi : DpInv st)
    (h : Agrees s st) (hv : (dialplanStep env st e).val = .ok st') :
    ∃ s' us ds, ElemTells env.toAEnv s e (dialplanStep env st e).log s' us ds ∧ Agrees s' st' ∧
      st'.uses = st.uses ++ us ∧ st'.dp.dests = st.dp.dests ++ ds := by
  cases e with
  | empty b w =>
    simp only [dialplanStep, Res.pure_val, Except.ok.injEq] at hv
    subst hv
    exact ⟨s, [], [], .blank b w, h, by simp, by simp⟩
  | ctx c =>
    obtain ⟨h1, h2⟩ := header_says h hv
    obtain ⟨h3, h4, h5⟩ := context_dests hv
    refine ⟨_, [], [], ?_, h2, by simp [h3], by simp [h4]⟩
    simp only [dialplanStep]
    rw [h1]
    exact .header c fun e => by rw [h.general, h5 e]; rfl
  | var v =>
    simp only [dialplanStep] at hv ⊢
    have hh := h.header
    cases hcur : st.cur with
    | ctx n =>
      rw [hcur] at hh
      obtain ⟨c, hc⟩ := hi.cur n hcur
      obtain ⟨s', us, ds, h1, h2, h3, h4⟩ := body_tells hd h hcur hc (hi.ctxs c (get_mem hc).1) hv
      exact ⟨s', us, ds, .body v n hh (h.plain n hcur) h1, h2, h3, h4⟩
    | none =>
      rw [hcur] at hh
      simp only [onVarset, hcur] at hv ⊢
      obtain ⟨_, _, h2, h3⟩ := Res.bind_ok hv
      simp only [Res.pure_val, Except.ok.injEq] at h2
      subst h2
      exact ⟨s, [], [], .orphan v hh, h, by simp, by simp⟩
    | general =>
      rw [hcur] at hh
      obtain ⟨h1, h2⟩ := elem_says hi h (e := .var v) hv
      simp only [elemSays, hh, show special (c! "general") = true from rfl, if_true] at h1 h2
      simp only [dialplanStep] at h1
      rw [h1]
      refine ⟨s, [], [], .setting v _ hh rfl, h2, ?_⟩
      simp only [onVarset, hcur, Res.pure_val, Except.ok.injEq] at hv
      subst hv
      simp
    | globals =>
      rw [hcur] at hh
      obtain ⟨h1, h2⟩ := elem_says hi h (e := .var v) hv
      simp only [elemSays, hh, show special (c! "globals") = true from rfl, if_true] at h1 h2
      simp only [dialplanStep] at h1
      rw [h1]
      refine ⟨s, [], [], .setting v _ hh rfl, h2, ?_⟩
      simp only [onVarset, hcur, Res.pure_val, Except.ok.injEq] at hv
      subst hv
      simp
    | detached =>
      rw [hcur] at hh
      obtain ⟨h1, h2⟩ := elem_says hi h (e := .var v) hv
      simp only [elemSays, hh, show special (c! "globals") = true from rfl, if_true] at h1 h2
      simp only [dialplanStep] at h1
      rw [h1]
      refine ⟨s, [], [], .setting v _ hh rfl, h2, ?_⟩
      simp only [onVarset, hcur, Res.pure_val, Except.ok.injEq] at hv
      subst hv
      simp

theorem dialplan_tells {env : DEnv} (hd : ArgsDescribed env.toAEnv) : ∀ (es : List Elem) {s : Sofar} {st st' : DState},
    DpInv st → Agrees s st → (feed (dialplanStep env) st es).val = .ok st' →
    ∃ s' us ds, DialplanTells env.toAEnv s es (feed (dialplanStep env) st es).log s' us ds ∧ Agrees s' st' ∧
      st'.uses = st.uses ++ us ∧ st'.dp.dests = st.dp.dests ++ ds := by
  intro es
  induction es with
  | nil =>
    intro s st st' hi h hv
    simp only [feed, Res.pure_val, Except.ok.injEq] at hv
    subst hv
    exact ⟨s, [], [], .nil, h, by simp, by simp⟩
  | cons e es ih =>
    intro s st st' hi h hv
    simp only [feed] at hv ⊢
    obtain ⟨st1, h1, h2, h3⟩ := Res.bind_ok hv
    rw [wrapExc_ok] at h1
    obtain ⟨s1, u1, d1, e1, e2, e3, e4⟩ := elem_tells hd hi h h1
    obtain ⟨s2, u2, d2, f1, f2, f3, f4⟩ := ih (step_inv hi h1) e2 h2
    rw [h3, wrapExc_log]
    exact ⟨s2, _, _, .cons e1 f1, f2, by rw [f3, e3, List.append_assoc], by rw [f4, e4, List.append_assoc]⟩

end ALint
