import Verif.Spec.Disregarded
import Verif.Proofs.Anywhere

/-!
# Lines that are disregarded (proofs)
-/

namespace ALint.Proofs
open ALint Spec Props

theorem disregardedLines_placeless (cur : Cur) : Placeless (DisregardedLines cur) := kinds_placeless (K := Disregarded cur) fun _ => Iff.rfl

theorem tells_place {p : Prop} {m0 : Msg} {ms : List Msg} (h : Spec.Tells p m0 ms) : ∀ m ∈ ms, m.at_ = m0.at_ := by
  intro m hm
  rcases h with ⟨-, rfl⟩ | ⟨-, rfl⟩
  · rw [List.mem_singleton.1 hm]
  · cases hm

theorem readAs_place {fs : FS} {w : Where} {data : Str} {c : Bool} {ms : List Msg} {g : Gives} (h : ReadAs fs w data c ms g) :
    ∀ m ∈ ms, m.at_ = w := by
  have one : ∀ {m0 : Msg}, m0.at_ = w → ∀ m ∈ [m0], m.at_ = w := fun h0 m hm => by rw [List.mem_singleton.1 hm]; exact h0
  have app : ∀ {a b : List Msg}, (∀ m ∈ a, m.at_ = w) → (∀ m ∈ b, m.at_ = w) → ∀ m ∈ a ++ b, m.at_ = w :=
    fun ha hb m hm => (List.mem_append.1 hm).elim (ha m) (hb m)
  cases h with
  | header _ t => exact tells_place t
  | template _ t => exact app (tells_place t) (one rfl)
  | arrow _ _ _ _ t1 t2 => exact app (tells_place t1) (tells_place t2)
  | equals _ _ _ _ t1 t2 => exact app (tells_place t1) (tells_place t2)
  | blank => intro m hm; cases hm
  | exec _ _ _ _ _ t1 t2 t3 => exact app (app (app (tells_place t1) (tells_place t2)) (tells_place t3)) (one rfl)
  | «include» _ _ _ _ _ _ _ _ t1 t2 t3 t4 => exact app (app (app (tells_place t1) (tells_place t2)) (tells_place t3)) (tells_place t4)
  | hash _ _ _ _ _ t => exact app (tells_place t) (one rfl)
  | other => exact one rfl

/-- The messages of a line are about this line. -/
theorem lineTells_place {fs : FS} {w : Where} {ms : List Msg} {g : Gives} (h : LineTells fs w ms g) : ∀ m ∈ ms, m.at_ = w := by
  cases h with
  | mk _ _ _ t1 t2 t3 t4 h5 =>
    intro m hm
    simp only [List.mem_append, or_assoc] at hm
    rcases hm with hm | hm | hm | hm | hm
    · exact tells_place t1 m hm
    · exact tells_place t2 m hm
    · exact tells_place t3 m hm
    · exact tells_place t4 m hm
    · exact readAs_place h5 m hm

/-! ## Lines -/

theorem step_disregarded {env : DEnv} {s : DState} (hi : DpInv s) {v : VarE} (hv : Disregarded s.cur v) :
    ∃ ms, dialplanStep env s (.var v) = ⟨ms, .ok s⟩ ∧ ∀ m ∈ ms, m.at_ = v.at_ := by
  simp only [dialplanStep, onVarset]
  rcases hv with h | h | ⟨⟨a, h⟩, hk⟩
  · rw [h]
    exact ⟨_, rfl, fun m hm => by rw [List.mem_singleton.1 hm]; rfl⟩
  · rw [h]
    exact ⟨_, rfl, fun m hm => by cases hm⟩
  · obtain ⟨c, hc⟩ := hi.cur a h
    rw [h]
    dsimp only
    rw [hc]
    dsimp only
    obtain ⟨ms, h1, h2⟩ : ∃ ms, fromVarset env s.sp v = ⟨ms, .ok (s.sp, [], .nothing)⟩ ∧ ∀ m ∈ ms, m.at_ = v.at_ := by
      have arrow : ∃ ms, expectArrow v = ⟨ms, .ok ()⟩ ∧ ∀ m ∈ ms, m.at_ = v.at_ := by
        unfold expectArrow
        split
        · exact ⟨_, rfl, fun m hm => by cases hm⟩
        · exact ⟨_, rfl, fun m hm => by rw [List.mem_singleton.1 hm]; rfl⟩
      obtain ⟨ms, ha, hm⟩ := arrow
      have more : ∀ m0 : Msg, m0.at_ = v.at_ → ∀ m ∈ ms ++ [m0], m.at_ = v.at_ := fun m0 h0 m h =>
        (List.mem_append.1 h).elim (hm m) fun h => by rw [List.mem_singleton.1 h]; exact h0
      unfold fromVarset
      rw [if_neg (by simp [hk.1, hk.2.1]), if_neg hk.2.2, ha]
      split
      · exact ⟨_, rfl, more _ rfl⟩
      · split
        · exact ⟨_, rfl, more _ rfl⟩
        · exact ⟨_, rfl, fun m hm => by rw [List.mem_singleton.1 hm]; rfl⟩
    refine ⟨ms, ?_, h2⟩
    rw [h1]
    obtain ⟨dp, cur, sp, us⟩ := s
    simp only at h
    subst h
    simp [Res.bind, Res.pure, onDVar]

theorem disregarded_tell {fs : FS} {env : DEnv} {s : DState} (hi : DpInv s) : ∀ {x : List Told}, DisregardedLines s.cur x →
    (∀ z ∈ x, lineModel fs z.line = some (z.msgs, z.gives)) →
    ∃ ms, tellAll env s x = ⟨ms, .ok s⟩ ∧ ∀ m ∈ ms, m.at_ ∈ x.map (·.line)
  | [], _, _ => ⟨[], rfl, fun m hm => by cases hm⟩
  | y :: ys, h, hx => by
    obtain ⟨ms, h1, h2⟩ := disregarded_tell (env := env) hi (fun z hz => h z (List.mem_cons_of_mem _ hz)) fun z hz => hx z (List.mem_cons_of_mem _ hz)
    have hy := lineTells_exists (hx y List.mem_cons_self)
    obtain ⟨ns, h3, h4⟩ : ∃ ns, feed (dialplanStep env) s y.gives.elem?.toList = ⟨ns, .ok s⟩ ∧ ∀ m ∈ ns, m.at_ = y.line := by
      rcases h y List.mem_cons_self with hg | ⟨b, w, hg⟩ | ⟨v, hg, hv⟩
      · rw [hg]; exact ⟨[], rfl, fun m hm => by cases hm⟩
      · rw [hg]; exact ⟨[], rfl, fun m hm => by cases hm⟩
      · obtain ⟨ns, e1, e2⟩ := step_disregarded (env := env) hi hv
        have hat : v.at_ = y.line := lineTells_at hy (e := .var v) (by rw [hg]; rfl)
        refine ⟨ns, ?_, fun m hm => by rw [e2 m hm, hat]⟩
        rw [hg]
        simp only [Gives.elem?, Option.toList, feed, e1]
        simp [wrapExc, Res.bind, Res.pure]
    refine ⟨y.msgs ++ (ns ++ ms), ?_, fun m hm => ?_⟩
    · simp only [tellAll, h3, h1, Res.bind]
    · simp only [List.map_cons, List.mem_cons]
      rcases List.mem_append.1 hm with hm | hm
      · exact .inl (lineTells_place hy m hm)
      · rcases List.mem_append.1 hm with hm | hm
        · exact .inl (h4 m hm)
        · exact .inr (h2 m hm)

/-! ## Parts of a file -/

/-- What a check of two parts of a file is about. -/
theorem tells_end {fs : FS} {env : DEnv} {sp : Option Str} {n1 : Nat} {path : Str} {above X : Bytes} (hw : WholeLines above) {tA tX : Items}
    (hA : Expand fs opens path 0 (physLines above) tA) (hX : Expand fs opens path (0 + (physLines above).length) (physLines X) tX) {log1 : List Msg}
    {st1 : DState} (h : checkDialplan fs env sp n1 path (above ++ X) = ⟨log1, .ok (some st1)⟩) {told : List Told}
    (hl : told.map (·.line) = tA.flatten ++ tX.flatten) (hm : ∀ z ∈ told, lineModel fs z.line = some (z.msgs, z.gives)) :
    (tellAll env (.init sp) told).val = .ok st1 := by
  obtain ⟨t, told1, hread, hv, -⟩ := check_tells h
  have hexp := hread.expand
  rw [physLines_more _ above hw] at hexp
  obtain ⟨u, v1, v2⟩ := expand_join hA hX
  have := expand_same hexp v1
  subst this
  have := told_eq (by rw [hread.lines, hl, v2]) hread.models hm
  subst this
  exact wholeTell_end hv

/-- A part of a file in place of another. -/
theorem part_exchanged {Px Py : List Told → Prop} (hPx : Placeless Px) (hPy : Placeless Py) {fs fs' : FS} {env : DEnv} {sp : Option Str} {n n0 : Nat}
    {path : Str} {above X Y rest : Bytes} (hw : WholeLines above) (hX : TextIs fs path X Px) (hY : TextIs fs' path Y Py)
    (hb : fs path = some (above ++ (X ++ rest))) (ho : ∀ q, q ≠ path → fs' q = fs q)
    {log0 log : List Msg} {st0 st : DState} (h0 : checkDialplan fs env sp n0 path above = ⟨log0, .ok (some st0)⟩)
    (h : checkDialplan fs env sp n path (above ++ (X ++ rest)) = ⟨log, .ok (some st)⟩) {Q : List Msg → List Msg → DState → Prop}
    (core : ∀ (ta x y r : List Told), Px x → Py y → x.map (·.line) = linesFrom path (physLines above).length (physLines X) →
      (∀ z ∈ x, lineModel fs z.line = some (z.msgs, z.gives)) → (∀ z ∈ y, lineModel fs' z.line = some (z.msgs, z.gives)) →
      (tellAll env (.init sp) ta).val = .ok st0 → (wholeTell env sp (ta ++ (x ++ r))).val = .ok st →
      (∀ n1 log1 st1, checkDialplan fs env sp n1 path (above ++ X) = ⟨log1, .ok (some st1)⟩ → (tellAll env (.init sp) (ta ++ x)).val = .ok st1) →
      (∀ n1 log1 st1, checkDialplan fs' env sp n1 path (above ++ Y) = ⟨log1, .ok (some st1)⟩ → (tellAll env (.init sp) (ta ++ y)).val = .ok st1) →
      (∃ n t, Expand fs opens path n (physLines rest) t ∧ r.map (·.line) = t.flatten) → (∀ z ∈ r, lineModel fs z.line = some (z.msgs, z.gives)) →
      ∃ t, (wholeTell env sp (ta ++ (y ++ r))).val = .ok t ∧
        Q (substance (wholeTell env sp (ta ++ (x ++ r))).log) (substance (wholeTell env sp (ta ++ (y ++ r))).log) t) :
    ∃ k log' st' t lg, (∀ n', k ≤ n' → checkDialplan fs' env sp n' path (above ++ (Y ++ rest)) = ⟨log', .ok (some st')⟩) ∧
      Q (substance log) lg t ∧ lg.map (reM textOnly) = (substance log').map (reM textOnly) ∧ reSt textOnly st' = reSt textOnly t ∧
      ∃ n1 log1, checkDialplan fs' env sp n1 path above = ⟨log1, .ok (some st0)⟩ := by
  obtain ⟨t0, ta0, hread0, hv0, -⟩ := check_tells h0
  obtain ⟨t, told, hread, hv, hlog⟩ := check_tells h
  obtain ⟨-, hagree, hmod⟩ := replaced_agree hb ho hread
  have hexp := hread.expand
  rw [physLines_more _ above hw, physLines_more _ X hX.1] at hexp
  obtain ⟨tA, t1, hA, e1, f1⟩ := expand_parts _ _ hexp
  obtain ⟨tX, tR, hX1, hR1, f2⟩ := expand_parts _ _ e1
  have hA0 := expand_same hA hread0.expand
  subst hA0
  have hlines := hread.lines
  rw [f1, f2] at hlines
  obtain ⟨ta, m1, rfl, ea, hlines⟩ := told_split hlines
  obtain ⟨x, r, rfl, ex, er⟩ := told_split hlines
  have hta : ta = ta0 := told_eq (by rw [ea, hread0.lines]) (fun z hz => hread.models z (List.mem_append_left _ hz)) hread0.models
  subst hta
  obtain ⟨x', gx1, gx2, -⟩ := text_laid fs' hPx hX (0 + (physLines above).length)
  obtain ⟨tX', ix1, ix2⟩ := laid_expand (fs'' := fs) gx1
  have := expand_same hX1 ix1
  subst this
  have := told_eq (fs := fs) (a := x) (b := x') (by rw [ex, ix2]) (fun z hz => hread.models z (by simp [hz])) gx1.here
  subst this
  -- the new file
  obtain ⟨y, ny1, ny2, -⟩ := text_laid fs' hPy hY (0 + (physLines above).length)
  obtain ⟨tY, jy1, jy2⟩ := laid_expand (fs'' := fs') ny1
  have hR2 := expand_agree hR1 fun w hw => hagree w (by rw [f1, f2]; simp [hw])
  obtain ⟨tRn, jr1, jr2⟩ := expand_elsewhere (f' := path) (fun _ => rfl) (0 + (physLines above).length + (physLines Y).length) hR2
  obtain ⟨rn, kr1, kr2, kr3⟩ := tolds_elsewhere (fs := fs') textOnly_of (told := r) (fun z hz => hmod z (by simp [hz])) (by rw [er]; exact jr2)
  have hA' := expand_agree hA fun w hw => hagree w (by rw [f1]; simp [hw])
  obtain ⟨u2, v3, v4⟩ := expand_join jy1 jr1
  obtain ⟨u3, v5, v6⟩ := expand_join hA' v3
  rw [← physLines_more _ Y hY.1, ← physLines_more _ above hw] at v5
  have hread' : ReadTold fs' path (above ++ (Y ++ rest)) u3 (ta ++ (y ++ rn)) := by
    refine ⟨v5, ?_, fun z hz => ?_⟩
    · rw [v6, v4]
      simp only [List.map_append, ea, kr1, jy2]
    · simp only [List.mem_append] at hz
      rcases hz with hz | hz | hz
      · exact hmod z (by simp [hz])
      · exact ny1.there z hz
      · exact kr2 z hz
  obtain ⟨t', c1, c2⟩ := core ta x y r gx2 ny2 (by rw [gx1.lines, Nat.zero_add]) gx1.here ny1.there (wholeTell_end hv0) hv
    (fun n1 log1 st1 h1 => tells_end hw hA hX1 h1 (by rw [List.map_append, ea, ex]) fun z hz => by
      rcases List.mem_append.1 hz with hz | hz
      · exact hread.models z (by simp [hz])
      · exact gx1.here z hz)
    (fun n1 log1 st1 h1 => tells_end hw hA' jy1 h1 (by rw [List.map_append, ea, jy2]) fun z hz => by
      rcases List.mem_append.1 hz with hz | hz
      · exact hmod z (by simp [hz])
      · exact ny1.there z hz)
    ⟨_, _, hR1, er⟩ (fun z hz => hread.models z (by simp [hz]))
  have hre : (ta ++ (y ++ rn)).map (reTold textOnly) = (ta ++ (y ++ r)).map (reTold textOnly) := by
    simp only [List.map_append, kr3]
  obtain ⟨st', d1, d2, d3⟩ := wholeTell_re hre c1
  obtain ⟨log', l1, l2⟩ := check_of_tells hread' d1
  obtain ⟨log1, -, a2⟩ := check_of_tells (t := tA) (told := ta) ⟨hA', ea, fun z hz => hmod z (by simp [hz])⟩ hv0
  exact ⟨_, log', st', t', _, l2, hlog ▸ c2, by rw [l1, d3], d2, _, log1, a2 _ (Nat.le_refl _)⟩

/-- A file checked twice. -/
theorem check_twice {fs : FS} {env : DEnv} {sp : Option Str} {n n' : Nat} {path : Str} {content : Bytes} {log log' : List Msg} {st st' : DState}
    (h : checkDialplan fs env sp n path content = ⟨log, .ok (some st)⟩) (h' : checkDialplan fs env sp n' path content = ⟨log', .ok (some st')⟩) :
    substance log = substance log' ∧ st = st' := by
  obtain ⟨t, told, hr, hv, hs⟩ := check_tells h
  obtain ⟨t', told', hr', hv', hs'⟩ := check_tells h'
  have := expand_same hr.expand hr'.expand
  subst this
  have := told_eq (by rw [hr.lines, hr'.lines]) hr.models hr'.models
  subst this
  rw [hv] at hv'
  cases hv'
  exact ⟨by rw [hs, hs'], rfl⟩

theorem whole_around {env : DEnv} {sp : Option Str} {ta x r : List Told} {s0 : DState} (h0 : (tellAll env (.init sp) ta).val = .ok s0)
    {ms : List Msg} (hx : tellAll env s0 x = ⟨ms, .ok s0⟩) : (wholeTell env sp (ta ++ (x ++ r))).val = (wholeTell env sp (ta ++ r)).val ∧
      ∃ l, (wholeTell env sp (ta ++ (x ++ r))).log = (tellAll env (.init sp) ta).log ++ (ms ++ l) ∧
        (wholeTell env sp (ta ++ r)).log = (tellAll env (.init sp) ta).log ++ l := by
  have hx' : (tellAll env s0 x).val = .ok s0 := by rw [hx]
  have e1 : tellAll env (.init sp) (ta ++ (x ++ r)) = ⟨(tellAll env (.init sp) ta).log ++ (ms ++ (tellAll env s0 r).log), (tellAll env s0 r).val⟩ := by
    rw [tellAll_two h0, tellAll_two hx', hx]
  have e2 : tellAll env (.init sp) (ta ++ r) = ⟨(tellAll env (.init sp) ta).log ++ (tellAll env s0 r).log, (tellAll env s0 r).val⟩ := tellAll_two h0 r
  unfold wholeTell
  rw [e1, e2]
  cases hr : (tellAll env s0 r).val with
  | error e =>
    rw [Res.bind_of_error rfl, Res.bind_of_error rfl]
    exact ⟨rfl, _, rfl, rfl⟩
  | ok s1 =>
    rw [Res.bind_of_ok (a := s1) rfl, Res.bind_of_ok (a := s1) rfl]
    exact ⟨rfl, (tellAll env s0 r).log ++ (Res.bind (onComplete s1.dp) fun _ => Res.bind (walkDests s1.dp env.depth s1.dp.dests) fun _ => .pure s1).log,
      by simp only [List.append_assoc], by simp only [List.append_assoc]⟩

theorem nil_text (fs : FS) (path : Str) : TextIs fs path [] (· = []) := ⟨fun h => absurd rfl h, 0, [], rfl, by simp, rfl⟩

theorem lines_taken {fs fs' : FS} {env : DEnv} {sp : Option Str} {n n0 : Nat} {path : Str} {above part rest : Bytes}
    (hp : PartAbsent fs fs' path above part rest) {log0 log : List Msg} {st0 st : DState}
    (h0 : checkDialplan fs env sp n0 path above = ⟨log0, .ok (some st0)⟩) (hd : TextIs fs path part (DisregardedLines st0.cur))
    (h : checkDialplan fs env sp n path (above ++ (part ++ rest)) = ⟨log, .ok (some st)⟩) :
    ∃ k log' st', (∀ n', k ≤ n' → checkDialplan fs' env sp n' path (above ++ rest) = ⟨log', .ok (some st')⟩) ∧
      LinesLess (linesFrom path (physLines above).length (physLines part)) (substance log) (substance log') ∧
      dialplanText st'.dp = dialplanText st.dp := by
  obtain ⟨k, log', st', t, lg, h1, ⟨h2, rfl⟩, h3, h4, -⟩ := part_exchanged (Y := []) (disregardedLines_placeless st0.cur) nil_placeless hp.whole hd
    (nil_text fs' path) hp.present hp.others h0 h
    (Q := fun a b t => (∃ p l q, a = p ++ (l ++ q) ∧ (∀ m ∈ l, m.at_ ∈ linesFrom path (physLines above).length (physLines part)) ∧ b = p ++ q) ∧ st = t) (by
      rintro ta x _ r hx rfl hl hm - ht0 ht - - - -
      obtain ⟨ms, e1, e2⟩ := disregarded_tell (env := env) (tellAll_dpInv _ (DpInv.init sp) ht0) hx hm
      obtain ⟨w1, l, w2, w3⟩ := whole_around (r := r) ht0 e1
      refine ⟨st, by rw [List.nil_append, ← w1]; exact ht, ⟨substance (tellAll env (.init sp) ta).log, substance ms, substance l, ?_, ?_, ?_⟩, rfl⟩
      · rw [w2, substance_append, substance_append]
      · intro m hm
        rw [← hl]
        exact e2 m (List.mem_filter.1 hm).1
      · rw [List.nil_append, w3, substance_append])
  refine ⟨k, log', st', h1, ?_, text_of_re h4⟩
  obtain ⟨p, l, q, e1, e2, e3⟩ := h2
  exact ⟨p, l, q, e1, e2, zips_words (by rw [← e3, h3])⟩

theorem lines_added {fs fs' : FS} {env : DEnv} {sp : Option Str} {n n0 : Nat} {path : Str} {above part rest : Bytes}
    (hp : PartAbsent fs fs' path above part rest) {log0 log' : List Msg} {st0 st' : DState}
    (h0 : checkDialplan fs' env sp n0 path above = ⟨log0, .ok (some st0)⟩) (hd : TextIs fs path part (DisregardedLines st0.cur))
    (h : checkDialplan fs' env sp n path (above ++ rest) = ⟨log', .ok (some st')⟩) :
    ∃ k log st, (∀ n', k ≤ n' → checkDialplan fs env sp n' path (above ++ (part ++ rest)) = ⟨log, .ok (some st)⟩) ∧
      LinesLess (linesFrom path (physLines above).length (physLines part)) (substance log) (substance log') ∧
      dialplanText st.dp = dialplanText st'.dp := by
  obtain ⟨k, log, st, t, lg, h1, -, -, -, n1, log1, hab⟩ := part_exchanged (X := []) nil_placeless (disregardedLines_placeless st0.cur) hp.whole (nil_text fs' path) hd
    (by rw [List.nil_append]; exact hp.absent) (fun q hq => (hp.others q hq).symm) h0 (by rw [List.nil_append]; exact h) (Q := fun _ _ _ => True) (by
      rintro ta _ y r rfl hy - - hm ht0 ht - - - -
      obtain ⟨ms, e1, e2⟩ := disregarded_tell (env := env) (tellAll_dpInv _ (DpInv.init sp) ht0) hy hm
      obtain ⟨w1, -⟩ := whole_around (r := r) ht0 e1
      exact ⟨st', by rw [w1]; exact ht, trivial⟩)
  obtain ⟨k2, log2, st2, g1, g2, g3⟩ := lines_taken hp hab hd (h1 k (Nat.le_refl _))
  obtain ⟨c1, c2⟩ := check_twice h (g1 k2 (Nat.le_refl _))
  exact ⟨k, log, st, h1, c1 ▸ g2, by rw [← g3, c2]⟩

end ALint.Proofs
