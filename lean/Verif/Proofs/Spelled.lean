import Verif.Spec.Spelled
import Verif.Props.Splice
import Verif.Proofs.DialplanMore
import Verif.Proofs.DialplanText

/-!
# Ways to write the next step of an extension (proofs)
-/

namespace ALint.Proofs
open ALint Spec Props

/-! ## One line for another -/

theorem replaced_line {fs fs' : FS} {env : DEnv} {sp : Option Str} {n n1 : Nat} {path : Str} {pre line line' post : Bytes}
    (hr : Replaced fs fs' path pre line line' post) (one : physLines line = [line]) (one' : physLines line' = [line']) {e e' : Elem}
    (hx : LineTells fs ⟨path, ((physLines pre).length : Int) + 1, line⟩ [] (.elem e))
    (hx' : LineTells fs' ⟨path, ((physLines pre).length : Int) + 1, line'⟩ [] (.elem e'))
    {log1 : List Msg} {st1 : DState} (h1 : checkDialplan fs env sp n1 path pre = ⟨log1, .ok (some st1)⟩)
    (hstep : dialplanStep env (bareSt st1) (bareE e) = dialplanStep env (bareSt st1) (bareE e'))
    {log : List Msg} {st : DState} (h : checkDialplan fs env sp n path (pre ++ (line ++ post)) = ⟨log, .ok (some st)⟩) :
    ∃ k log' st', (∀ n', k ≤ n' → checkDialplan fs' env sp n' path (pre ++ (line' ++ post)) = ⟨log', .ok (some st')⟩) ∧
      Zips SameMsg (substance log) (substance log') ∧ dialplanText st'.dp = dialplanText st.dp := by
  obtain ⟨t, told, hread, hv, hs⟩ := check_tells h
  obtain ⟨t1, told1, hread1, hv1, -⟩ := check_tells h1
  obtain ⟨-, hagree, hmod⟩ := replaced_agree hr.before hr.others hread
  have hm := lineTells_model hx
  have hm' := lineTells_model hx'
  have ho : opens _ = none := lineModel_file hm
  have ho' : opens _ = none := lineModel_file hm'
  have hexp := hread.expand
  rw [physLines_more _ pre hr.preWhole, physLines_more _ line hr.oldWhole, one, List.singleton_append] at hexp
  obtain ⟨tA, t2, hA, h2, hfl⟩ := expand_parts _ _ hexp
  rw [Nat.zero_add] at h2
  have hA1 := expand_same hA hread1.expand
  subst hA1
  have hpull : pulls fs opens ⟨path, ((physLines pre).length : Int) + 1, line⟩ = none := by simp [pulls, ho]
  have hpull' : pulls fs' opens ⟨path, ((physLines pre).length : Int) + 1, line'⟩ = none := by simp [pulls, ho']
  cases h2 with
  | incl hp _ _ => rw [hpull] at hp; cases hp
  | @line _ _ _ _ tC hp hC =>
    simp only [Items.flatten] at hfl
    have inA : ∀ w ∈ tA.flatten, w ∈ t.flatten := fun w hw => by rw [hfl]; exact List.mem_append_left _ hw
    have inC : ∀ w ∈ tC.flatten, w ∈ t.flatten := fun w hw => by rw [hfl]; simp [hw]
    have hA' := expand_agree hA fun w hw => hagree w (inA w hw)
    have hC' := expand_agree hC fun w hw => hagree w (inC w hw)
    have ht2 := Expand.line hpull' hC'
    rw [← Nat.zero_add (physLines pre).length] at ht2
    obtain ⟨t3, ht3, hf3⟩ := expand_join hA' ht2
    rw [show line' :: physLines post = physLines (line' ++ post) by rw [physLines_more _ line' hr.newWhole, one']; rfl,
      ← physLines_more _ pre hr.preWhole] at ht3
    obtain ⟨ta, txc, rfl, ha1, hxc⟩ := told_split (hread.lines.trans hfl)
    cases txc with
    | nil => cases hxc
    | cons x tc =>
      simp only [List.map_cons, List.cons.injEq] at hxc
      have hxm := hread.models x (List.mem_append_right _ List.mem_cons_self)
      rw [hxc.1, hm] at hxm
      simp only [Option.some.injEq, Prod.mk.injEq] at hxm
      have hta : ta = told1 := told_eq (by rw [ha1, hread1.lines])
        (fun y hy => hread.models y (List.mem_append_left _ hy)) hread1.models
      subst hta
      have hta1 : (tellAll env (.init sp) ta).val = .ok st1 := by
        unfold wholeTell at hv1
        obtain ⟨s, g1, g2, -⟩ := Res.bind_ok hv1
        obtain ⟨_, -, g4, -⟩ := Res.bind_ok g2
        obtain ⟨_, -, g6, -⟩ := Res.bind_ok g4
        simp only [Res.pure_val, Except.ok.injEq] at g6
        rw [g1, g6]
      let x' : Told := ⟨⟨path, ((physLines pre).length : Int) + 1, line'⟩, [], .elem e'⟩
      have hread' : ReadTold fs' path (pre ++ (line' ++ post)) t3 (ta ++ x' :: tc) := by
        refine ⟨ht3, ?_, ?_⟩
        · rw [hf3]
          simp only [List.map_append, List.map_cons, ha1, hxc.2, Items.flatten, Nat.zero_add]
          rfl
        · intro y hy
          rcases List.mem_append.1 hy with hy | hy
          · exact hmod y (List.mem_append_left _ hy)
          · rcases List.mem_cons.1 hy with rfl | hy
            · exact hm'
            · exact hmod y (List.mem_append_right _ (List.mem_cons_of_mem _ hy))
      have hb := tellAll_bare (φ := bareW) env ta (.init sp)
      have hbv : (tellAll env (bareSt (.init sp)) (ta.map (reTold bareW))).val = .ok (bareSt st1) := by
        rw [hb, hta1]; rfl
      have heq : wholeTell env sp ((ta ++ x :: tc).map (reTold bareW)) = wholeTell env sp ((ta ++ x' :: tc).map (reTold bareW)) := by
        unfold wholeTell
        have hi : DState.init sp = bareSt (.init sp) := rfl
        simp only [List.map_append, List.map_cons, tellAll_append]
        rw [hi, Res.bind_of_ok hbv, Res.bind_of_ok hbv]
        have ex : (reTold bareW x).msgs = [] ∧ (reTold bareW x).gives = .elem (bareE e) := by
          unfold reTold
          rw [← hxm.1, ← hxm.2]
          exact ⟨rfl, rfl⟩
        have ex' : (reTold bareW x').msgs = [] ∧ (reTold bareW x').gives = .elem (bareE e') := ⟨rfl, rfl⟩
        simp only [tellAll, ex.1, ex.2, ex'.1, ex'.2, Gives.elem?, Option.toList, feed, hstep]
      have w1 := wholeTell_bare (φ := bareW) (fun _ => rfl) env sp (ta ++ x :: tc)
      have w2 := wholeTell_bare (φ := bareW) (fun _ => rfl) env sp (ta ++ x' :: tc)
      rw [heq] at w1
      have w3 := w1.symm.trans w2
      simp only [Res.mk.injEq] at w3
      rw [hv] at w3
      cases hv' : (wholeTell env sp (ta ++ x' :: tc)).val with
      | error err => rw [hv'] at w3; cases w3.2
      | ok st' =>
        rw [hv'] at w3
        have w4 := w3.2
        simp only [Except.map, Except.ok.injEq] at w4
        obtain ⟨log', hl1, hl2⟩ := check_of_tells hread' hv'
        refine ⟨_, log', st', hl2, zips_of_bare ?_, ?_⟩
        · rw [hs, hl1]
          show List.map (reM bareW) _ = List.map (reM bareW) _
          rw [← substance_map, ← substance_map, w3.1]
        · have : reDp bareW st.dp = reDp bareW st'.dp := congrArg DState.dp w4
          rw [← dialplanText_re bareW st'.dp, ← this, dialplanText_re]

/-! ## The next step -/

/-- What is made of a line for the step behind the last one. -/
def nextAdded (env : DEnv) (st : DState) (c : DCtx) (s : Step) (label : Option Str) (app : Str) (comment : Bool) (w : Where) : Res DState :=
  .bind (runApp env.toAEnv env.depth st.sp w (strV app)).toRes fun r =>
  .bind (storeStep { c with sorted := none } s.raw s.pat (s.prio + 1) ⟨none, none, label, app, r.1.2, comment, w⟩) fun a =>
  .pure ⟨st.dp.withAdded a, st.cur, r.1.1, st.uses ++ r.2⟩

/-- The state behind a line that added the step `s`. -/
structure JustAdded (st : DState) (name : Str) (c : DCtx) (s : Step) : Prop where
  cur : st.cur = .ctx name
  ctx : st.dp.get name = some c
  last : c.steps.getLast? = some s
  prio : c.lastPrio = some s.prio ∧ st.dp.lastPrio = some s.prio
  pos : 1 ≤ s.prio
  parse : Pattern.parse s.raw = .ok s.pat

theorem lastOf_last {ss : List Step} {s : Step} (h : ss.getLast? = some s) : lastOf ss s.pat = some s := by
  obtain ⟨t, rfl⟩ := List.getLast?_eq_some_iff.1 h
  unfold lastOf
  rw [List.filter_append]
  simp

theorem next_spelled (env : DEnv) {st : DState} {name : Str} {c : DCtx} {s : Step} (h : JustAdded st name c s) {v : VarE} {p : Parts}
    (ha : v.arrow = true) (ht : StepText v p) (hn : NextStep s p) :
    dialplanStep env st (.var v) = nextAdded env st c s p.label p.app v.comment v.at_ := by
  have hk : v.key = c! "exten" ∨ v.key = c! "same" := by
    obtain ⟨_, hkey, _⟩ := ht
    cases he : p.exten with
    | none => rw [he] at hkey; exact .inr hkey
    | some r => rw [he] at hkey; exact .inl hkey
  obtain ⟨pat, hpat, hcase⟩ : ∃ pat, readPattern p.exten = .ok pat ∧
      (pat = none ∨ pat = some (s.raw, s.pat) ∧ Pattern.isCanonical s.raw s.pat = true) := by
    rcases hn.exten with e | ⟨e, hc⟩
    · rw [e]; exact ⟨none, rfl, .inl rfl⟩
    · rw [e]
      refine ⟨some (s.raw, s.pat), by simp only [readPattern, h.parse], .inr ⟨rfl, ?_⟩⟩
      unfold Pattern.isCanonical
      rw [hc]
      simp
  have hfrom : fromVarset env st.sp v = .bind (runApp env.toAEnv env.depth st.sp v.at_ (strV p.app)).toRes fun r =>
      .pure (r.1.1, r.2, .ext ⟨pat, p.prio, p.label, p.app, r.1.2, v.comment, v.at_⟩) := by
    unfold fromVarset
    rw [if_pos hk, expectArrow, if_pos ha, readExten_text env st.sp ht, hpat, Res.pure_bind]
    rfl
  have hadd : ∀ jumps, onDVar st.dp c (.ext ⟨pat, p.prio, p.label, p.app, jumps, v.comment, v.at_⟩) =
      .bind (storeStep { c with sorted := none } s.raw s.pat (s.prio + 1) ⟨none, none, p.label, p.app, jumps, v.comment, v.at_⟩) fun a =>
        .pure (st.dp.withAdded a) := by
    intro jumps
    have hcan : canonCheck ⟨pat, p.prio, p.label, p.app, jumps, v.comment, v.at_⟩ = .pure () := by
      rcases hcase with rfl | ⟨rfl, hc⟩
      · rfl
      · simp only [canonCheck, hc, if_true]
    have hres : resolvePat { c with sorted := none } ⟨pat, p.prio, p.label, p.app, jumps, v.comment, v.at_⟩ = some (s.raw, s.pat) := by
      rcases hcase with rfl | ⟨rfl, hc⟩
      · simp only [resolvePat, h.last, Option.map_some]
      · rfl
    have hprio : resolvePrio st.dp.lastPrio { c with sorted := none } s.raw s.pat
        ⟨pat, p.prio, p.label, p.app, jumps, v.comment, v.at_⟩ = .pure (some (s.prio + 1)) := by
      have hpos := h.pos
      rcases hn.prio with e | e
      · have h0 : ¬ (s.prio = 0) := by omega
        simp only [resolvePrio, e, h.prio.2, Option.getD_some, h0, if_false, outOfOrder, h.prio.1, h.last]
        simp [Res.lift, Res.bind, Res.pure]
      · have h1 : ¬ (s.prio + 1 < 1) := by omega
        have h2 : ¬ (s.prio + 1 = 1) := by omega
        simp only [resolvePrio, e, h1, if_false, lastOf_last h.last]
        simp
    simp only [onDVar, hcan, Res.pure_bind, addExt, hres, hprio]
    rfl
  unfold dialplanStep onVarset
  rw [h.cur]
  dsimp only
  rw [h.ctx]
  dsimp only
  rw [hfrom, Res.bind_assoc]
  unfold nextAdded
  congr 1
  funext r
  rw [Res.pure_bind, hadd, Res.bind_assoc]
  congr 1
  funext a
  rw [Res.pure_bind, h.cur]

theorem justAdded_bare {st : DState} {name : Str} {c : DCtx} {s : Step} (h : JustAdded st name c s) :
    JustAdded (bareSt st) name (bareCtx c) (reStep bareW s) where
  cur := h.cur
  ctx := by
    show (reDp bareW st.dp).get name = _
    rw [get_bare, h.ctx]
    rfl
  last := by
    show (c.steps.map (reStep bareW)).getLast? = _
    rw [List.getLast?_map, h.last]
    rfl
  prio := h.prio
  pos := h.pos
  parse := h.parse

theorem tellAll_inv {env : DEnv} : ∀ (told : List Told) {s s' : DState}, DpInv s → MoreInv s → (tellAll env s told).val = .ok s' →
    DpInv s' ∧ MoreInv s'
  | [], s, s', h1, h2, h => by
    simp only [tellAll, Res.pure_val, Except.ok.injEq] at h
    exact h ▸ ⟨h1, h2⟩
  | x :: xs, s, s', h1, h2, h => by
    simp only [tellAll] at h
    obtain ⟨_, -, h3, -⟩ := Res.bind_ok h
    obtain ⟨m, h4, h5, -⟩ := Res.bind_ok h3
    exact tellAll_inv xs (feed_inv DpInv (fun _ _ _ a b => step_inv a b) _ _ _ h1 h4) (feed_more h1 h2 h4) h5

/-- The line above added the step. -/
theorem justAdded_of {env : DEnv} {st st' : DState} {e : Elem} (hi : DpInv st) (hm : MoreInv st)
    (h : (dialplanStep env st e).val = .ok st') {name : Str} {s : Step} (ha : Adds st.dp st'.dp name s) :
    ∃ c, JustAdded st' name c s := by
  obtain ⟨d, d', g1, g2, g3⟩ := ha
  have hm' := step_more hi hm h
  have hst : stepsOf st.dp name = d.steps := by simp [stepsOf, g1]
  have hst' : stepsOf st'.dp name = d'.steps := by simp [stepsOf, g2]
  rcases step_cases' hi h with hq | ⟨v, m, c, sp', us, ex, ms, a, as, rfl, hcur, -, hc, -, hadd, hdp, hcur', -⟩
  · have := hq.steps name
    rw [hst, hst', g3] at this
    simp at this
  · obtain ⟨k1, k2, k3⟩ := stepsOf_added hc (addCase_frame hadd).1
    have hmn : m = name := by
      apply Classical.byContradiction
      intro hne
      have : st'.dp.get name = st.dp.get name := by rw [hdp]; exact k3 name fun e => hne e.symm
      rw [g1, g2] at this
      simp only [Option.some.injEq] at this
      rw [this] at g3
      simp at g3
    subst hmn
    rw [hc] at g1
    simp only [Option.some.injEq] at g1
    subst g1
    have hd' : d' = a.ctx := by
      rw [hdp, k2] at g2
      simpa using g2.symm
    subst hd'
    cases hadd with
    | noPat | noPrio | dupe => simp at g3
    | stored raw pat ms n label' ls ds pc lms hp hr' hd hpc hlc hl hj =>
      simp only [List.append_cancel_left_eq, List.cons.injEq, and_true] at g3
      subst g3
      refine ⟨_, hcur'.trans hcur, g2, by simp, ⟨rfl, by rw [hdp]; rfl⟩, prio_pos (resolvePrio_some (congrArg Res.val hr')), ?_⟩
      exact hm'.text m _ (by rw [hst']; simp)

theorem wholeTell_end {env : DEnv} {sp : Option Str} {told : List Told} {st : DState} (h : (wholeTell env sp told).val = .ok st) :
    (tellAll env (.init sp) told).val = .ok st := by
  unfold wholeTell at h
  obtain ⟨s, g1, g2, -⟩ := Res.bind_ok h
  obtain ⟨_, -, g4, -⟩ := Res.bind_ok g2
  obtain ⟨_, -, g6, -⟩ := Res.bind_ok g4
  simp only [Res.pure_val, Except.ok.injEq] at g6
  rw [g1, g6]

theorem justAdded_above {fs : FS} {env : DEnv} {sp : Option Str} {path : Str} {pre above : Bytes} {s : Step}
    (h : AddedAbove fs env sp path pre above s) :
    ∃ n log st name c, checkDialplan fs env sp n path (pre ++ above) = ⟨log, .ok (some st)⟩ ∧ JustAdded st name c s := by
  obtain ⟨n, n', log, log', st, st', name, h0, h1, hadds⟩ := h.adds
  obtain ⟨ms, e, hx⟩ := h.plain
  obtain ⟨t0, told0, hread0, hv0, -⟩ := check_tells h0
  obtain ⟨t, told, hread, hv, -⟩ := check_tells h1
  have hm := lineTells_model hx
  have ho : opens _ = none := lineModel_file hm
  have hexp := hread.expand
  rw [physLines_more _ pre h.whole.1, h.one] at hexp
  obtain ⟨tA, t2, hA, h2, hfl⟩ := expand_parts _ _ hexp
  rw [Nat.zero_add] at h2
  have hA1 := expand_same hA hread0.expand
  subst hA1
  have hpull : pulls fs opens ⟨path, ((physLines pre).length : Int) + 1, above⟩ = none := by simp [pulls, ho]
  cases h2 with
  | incl hp _ _ => rw [hpull] at hp; cases hp
  | @line _ _ _ _ tC hp hC =>
    cases hC
    simp only [Items.flatten] at hfl
    obtain ⟨ta, txc, rfl, ha1, hxc⟩ := told_split (hread.lines.trans hfl)
    cases txc with
    | nil => cases hxc
    | cons x tc =>
      simp only [List.map_cons, List.cons.injEq, List.map_eq_nil_iff] at hxc
      obtain ⟨hxl, rfl⟩ := hxc
      have hxm := hread.models x (List.mem_append_right _ List.mem_cons_self)
      rw [hxl, hm] at hxm
      simp only [Option.some.injEq, Prod.mk.injEq] at hxm
      have hta : ta = told0 := told_eq (by rw [ha1, hread0.lines])
        (fun y hy => hread.models y (List.mem_append_left _ hy)) hread0.models
      subst hta
      have hs0 := wholeTell_end hv0
      have hs1 := wholeTell_end hv
      rw [tellAll_append] at hs1
      obtain ⟨m, e1, e2, -⟩ := Res.bind_ok hs1
      rw [hs0] at e1
      cases e1
      simp only [tellAll, ← hxm.2, Gives.elem?, Option.toList, feed] at e2
      obtain ⟨_, -, e3, -⟩ := Res.bind_ok e2
      obtain ⟨m, e4, e5, -⟩ := Res.bind_ok e3
      simp only [Res.pure_val, Except.ok.injEq] at e5
      subst e5
      obtain ⟨m', e6, e7, -⟩ := Res.bind_ok e4
      simp only [Res.pure_val, Except.ok.injEq] at e7
      subst e7
      obtain ⟨i1, i2⟩ := tellAll_inv ta (DpInv.init sp) (MoreInv.init sp) hs0
      obtain ⟨c, hc⟩ := justAdded_of i1 i2 (wrapExc_ok.1 e6) hadds
      exact ⟨n', log', m', name, c, h1, hc⟩

theorem stepText_bare {v : VarE} {p : Parts} (h : StepText v p) : StepText (reV bareW v) p := by
  obtain ⟨ps, h1, h2, h3, h4, h5⟩ := h
  exact ⟨ps, h1, h2, h3, h4, h5⟩

theorem nextStep_bare {s : Step} {p : Parts} (h : NextStep s p) : NextStep (reStep bareW s) p := ⟨h.exten, h.prio⟩

end ALint.Proofs
