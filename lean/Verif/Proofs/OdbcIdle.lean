import Verif.Spec.OdbcIdle
import Verif.Proofs.OdbcSplice
import Verif.Proofs.Disregarded

/-!
# Settings of a func_odbc.conf that are disregarded (proofs)
-/

namespace ALint.Proofs
open ALint Spec Props

theorem odbcDisregarded_placeless (fns : List OdbcFn) : Placeless (OdbcDisregardedLines fns) :=
  kinds_placeless (K := OdbcDisregarded fns) fun _ => Iff.rfl

theorem step_odbcDisregarded {s : List OdbcFn} {v : VarE} (hv : OdbcDisregarded s.reverse v) :
    ∃ ms, odbcStep s (.var v) = ⟨ms, .ok s⟩ ∧ ∀ m ∈ ms, m.at_ = v.at_ := by
  obtain ⟨ms, ha, hm⟩ : ∃ ms, (if v.arrow then Res.emit (mkMsg .H_CONF_HAS_ARROW v.at_ []) else .pure ()) = ⟨ms, .ok ()⟩ ∧ ∀ m ∈ ms, m.at_ = v.at_ := by
    split
    · exact ⟨_, rfl, fun m hm => by rw [List.mem_singleton.1 hm]; rfl⟩
    · exact ⟨_, rfl, fun m hm => by cases hm⟩
  have more : ∀ m0 : Msg, m0.at_ = v.at_ → ∀ m ∈ ms ++ [m0], m.at_ = v.at_ := fun m0 h0 m h =>
    (List.mem_append.1 h).elim (hm m) fun h => by rw [List.mem_singleton.1 h]; exact h0
  unfold odbcStep odbcVarset
  dsimp only
  rw [ha]
  cases s with
  | nil => exact ⟨_, rfl, more _ rfl⟩
  | cons f rest =>
    obtain ⟨m0, h1, h2⟩ : ∃ m0 : Msg, f.add v = ⟨[m0], .ok f⟩ ∧ m0.at_ = v.at_ := by
      unfold OdbcFn.add checkOrder
      by_cases hk : v.key ∈ odbcSettings
      · rw [show odbcOrder = odbcSettings from rfl, indexOf?_some hk]
        dsimp only
        obtain ⟨old, ho⟩ : ∃ old, f.sets.find? (fun u => u.key == v.key) = some old := by
          rcases hv with h | h | ⟨g, hg, u, hu, he⟩
          · simp at h
          · exact absurd hk h
          · rw [List.getLast?_reverse, List.head?_cons, Option.some.injEq] at hg
            subst hg
            cases hf : f.sets.find? (fun u => u.key == v.key) with
            | some old => exact ⟨old, rfl⟩
            | none => exact absurd (List.find?_eq_none.1 hf u hu) (by simp [he])
        rw [ho]
        exact ⟨_, rfl, rfl⟩
      · rw [show odbcOrder = odbcSettings from rfl, indexOf?_none.2 hk]
        exact ⟨_, rfl, rfl⟩
    refine ⟨ms ++ [m0], ?_, more m0 h2⟩
    dsimp only
    rw [h1]
    rfl

theorem odbcDisregarded_tell {fs : FS} {s : List OdbcFn} : ∀ {x : List Told}, OdbcDisregardedLines s.reverse x →
    (∀ z ∈ x, lineModel fs z.line = some (z.msgs, z.gives)) →
    ∃ ms, tellBy odbcStep s x = ⟨ms, .ok s⟩ ∧ ∀ m ∈ ms, m.at_ ∈ x.map (·.line)
  | [], _, _ => ⟨[], rfl, fun m hm => by cases hm⟩
  | y :: ys, h, hx => by
    obtain ⟨ms, h1, h2⟩ := odbcDisregarded_tell (fun z hz => h z (List.mem_cons_of_mem _ hz)) fun z hz => hx z (List.mem_cons_of_mem _ hz)
    have hy := lineTells_exists (hx y List.mem_cons_self)
    obtain ⟨ns, h3, h4⟩ : ∃ ns, feed odbcStep s y.gives.elem?.toList = ⟨ns, .ok s⟩ ∧ ∀ m ∈ ns, m.at_ = y.line := by
      rcases h y List.mem_cons_self with hg | ⟨b, w, hg⟩ | ⟨v, hg, hv⟩
      · rw [hg]; exact ⟨[], rfl, fun m hm => by cases hm⟩
      · rw [hg]; exact ⟨[], rfl, fun m hm => by cases hm⟩
      · obtain ⟨ns, e1, e2⟩ := step_odbcDisregarded hv
        have hat : v.at_ = y.line := lineTells_at hy (e := .var v) (by rw [hg]; rfl)
        refine ⟨ns, ?_, fun m hm => by rw [e2 m hm, hat]⟩
        rw [hg]
        simp only [Gives.elem?, Option.toList, feed, e1]
        simp [wrapExc, Res.bind, Res.pure]
    refine ⟨y.msgs ++ (ns ++ ms), ?_, fun m hm => ?_⟩
    · simp only [tellBy, h3, h1, Res.bind]
    · simp only [List.map_cons, List.mem_cons]
      rcases List.mem_append.1 hm with hm | hm
      · exact .inl (lineTells_place hy m hm)
      · rcases List.mem_append.1 hm with hm | hm
        · exact .inl (h4 m hm)
        · exact .inr (h2 m hm)

theorem loadTell_begin {env : FEnv} {told : List Told} {st : FEnv × List OdbcFn} (h : (loadTell env told).val = .ok st) :
    (tellBy odbcStep [] told).val = .ok st.2.reverse := by
  obtain ⟨s, h1, h2, -⟩ := Res.bind_ok (show (Res.bind (tellBy odbcStep [] told) fun fns => Res.bind (finalizeAll env fns.reverse) fun env =>
    .pure (env, fns.reverse)).val = .ok st from h)
  obtain ⟨env', h3, h4, -⟩ := Res.bind_ok h2
  simp only [Res.pure_val, Except.ok.injEq] at h4
  subst h4
  rw [h1, List.reverse_reverse]

/-- A part of a func_odbc.conf in place of another. -/
theorem odbc_exchanged {Px Py : List Told → Prop} (hPx : Placeless Px) (hPy : Placeless Py) {fs fs' : FS} {env : FEnv} {n n0 : Nat}
    {path : Str} {above X Y rest : Bytes} (hw : WholeLines above) (hX : TextIs fs path X Px) (hY : TextIs fs' path Y Py)
    (hb : fs path = some (above ++ (X ++ rest))) (ho : ∀ q, q ≠ path → fs' q = fs q)
    {log0 log : List Msg} {st0 st : FEnv × List OdbcFn} (h0 : loadOdbc fs env n0 path above = ⟨log0, .ok (some st0)⟩)
    (h : loadOdbc fs env n path (above ++ (X ++ rest)) = ⟨log, .ok (some st)⟩) {Q : List Msg → List Msg → FEnv × List OdbcFn → Prop}
    (core : ∀ (ta x y r : List Told), Px x → Py y → x.map (·.line) = linesFrom path (physLines above).length (physLines X) →
      (∀ z ∈ x, lineModel fs z.line = some (z.msgs, z.gives)) → (∀ z ∈ y, lineModel fs' z.line = some (z.msgs, z.gives)) →
      (tellBy odbcStep [] ta).val = .ok st0.2.reverse → (loadTell env (ta ++ (x ++ r))).val = .ok st →
      ∃ t, (loadTell env (ta ++ (y ++ r))).val = .ok t ∧
        Q (substance (loadTell env (ta ++ (x ++ r))).log) (substance (loadTell env (ta ++ (y ++ r))).log) t) :
    ∃ k log' st' t lg, (∀ n', k ≤ n' → loadOdbc fs' env n' path (above ++ (Y ++ rest)) = ⟨log', .ok (some st')⟩) ∧
      Q (substance log) lg t ∧ lg.map (reM textOnly) = (substance log').map (reM textOnly) ∧ loadedText st' = loadedText t ∧
      ∃ n1 log1, loadOdbc fs' env n1 path above = ⟨log1, .ok (some st0)⟩ := by
  obtain ⟨t0, ta0, hread0, hv0, -⟩ := load_tellsAll h0
  obtain ⟨t, told, hread, hv, hlog⟩ := load_tellsAll h
  obtain ⟨-, hagree, hmod⟩ := replaced_agree hb ho hread
  have hexp := hread.expand
  rw [physLines_more _ above hw, physLines_more _ X hX.1] at hexp
  obtain ⟨tA, t1, hA, e1, f1⟩ := expand_parts _ _ hexp
  obtain ⟨tX, tR, hX1, hR1, f2⟩ := expand_parts _ _ e1
  have hA0 := expand_same hA hread0.expand
  subst hA0
  have hlines := hread.lines
  rw [f1, f2] at hlines
  obtain ⟨ta, m1, rfl, ea, hlines⟩ := told_split hlines
  obtain ⟨x, r, rfl, ex, er⟩ := told_split hlines
  have hta : ta = ta0 := told_eq (by rw [ea, hread0.lines]) (fun z hz => hread.models z (List.mem_append_left _ hz)) hread0.models
  subst hta
  obtain ⟨x', gx1, gx2, -⟩ := text_laid fs' hPx hX (0 + (physLines above).length)
  obtain ⟨tX', ix1, ix2⟩ := laid_expand (fs'' := fs) gx1
  have := expand_same hX1 ix1
  subst this
  have := told_eq (fs := fs) (a := x) (b := x') (by rw [ex, ix2]) (fun z hz => hread.models z (by simp [hz])) gx1.here
  subst this
  obtain ⟨y, ny1, ny2, -⟩ := text_laid fs' hPy hY (0 + (physLines above).length)
  obtain ⟨tY, jy1, jy2⟩ := laid_expand (fs'' := fs') ny1
  have hR2 := expand_agree hR1 fun w hw => hagree w (by rw [f1, f2]; simp [hw])
  obtain ⟨tRn, jr1, jr2⟩ := expand_elsewhere (f' := path) (fun _ => rfl) (0 + (physLines above).length + (physLines Y).length) hR2
  obtain ⟨rn, kr1, kr2, kr3⟩ := tolds_elsewhere (fs := fs') textOnly_of (told := r) (fun z hz => hmod z (by simp [hz])) (by rw [er]; exact jr2)
  have hA' := expand_agree hA fun w hw => hagree w (by rw [f1]; simp [hw])
  obtain ⟨u2, v3, v4⟩ := expand_join jy1 jr1
  obtain ⟨u3, v5, v6⟩ := expand_join hA' v3
  rw [← physLines_more _ Y hY.1, ← physLines_more _ above hw] at v5
  have hread' : ReadTold fs' path (above ++ (Y ++ rest)) u3 (ta ++ (y ++ rn)) := by
    refine ⟨v5, ?_, fun z hz => ?_⟩
    · rw [v6, v4]
      simp only [List.map_append, ea, kr1, jy2]
    · simp only [List.mem_append] at hz
      rcases hz with hz | hz | hz
      · exact hmod z (by simp [hz])
      · exact ny1.there z hz
      · exact kr2 z hz
  obtain ⟨t', c1, c2⟩ := core ta x y r gx2 ny2 (by rw [gx1.lines, Nat.zero_add]) gx1.here ny1.there (loadTell_begin hv0) hv
  have hre : (ta ++ (y ++ rn)).map (reTold textOnly) = (ta ++ (y ++ r)).map (reTold textOnly) := by
    simp only [List.map_append, kr3]
  obtain ⟨st', d1, d2, d3⟩ := loadTell_same hre c1
  obtain ⟨log', l1, l2⟩ := load_of_tellsAll hread' d1
  obtain ⟨log1, -, a2⟩ := load_of_tellsAll (t := tA) (told := ta) ⟨hA', ea, fun z hz => hmod z (by simp [hz])⟩ hv0
  exact ⟨_, log', st', t', _, l2, hlog ▸ c2, by rw [l1, d3], d2, _, log1, a2 _ (Nat.le_refl _)⟩

/-- A file read twice. -/
theorem load_twice {fs : FS} {env : FEnv} {n n' : Nat} {path : Str} {content : Bytes} {log log' : List Msg} {st st' : FEnv × List OdbcFn}
    (h : loadOdbc fs env n path content = ⟨log, .ok (some st)⟩) (h' : loadOdbc fs env n' path content = ⟨log', .ok (some st')⟩) :
    substance log = substance log' ∧ st = st' := by
  obtain ⟨t, told, hr, hv, hs⟩ := load_tellsAll h
  obtain ⟨t', told', hr', hv', hs'⟩ := load_tellsAll h'
  have := expand_same hr.expand hr'.expand
  subst this
  have := told_eq (by rw [hr.lines, hr'.lines]) hr.models hr'.models
  subst this
  rw [hv] at hv'
  cases hv'
  exact ⟨by rw [hs, hs'], rfl⟩

theorem tellBy_two {σ : Type} {agg : σ → Elem → Res σ} {s s1 : σ} {a : List Told} (h1 : (tellBy agg s a).val = .ok s1) (b : List Told) :
    tellBy agg s (a ++ b) = ⟨(tellBy agg s a).log ++ (tellBy agg s1 b).log, (tellBy agg s1 b).val⟩ := by
  rw [tellBy_append, Res.bind_of_ok h1]

theorem load_around {env : FEnv} {ta x r : List Told} {s0 : List OdbcFn} (h0 : (tellBy odbcStep [] ta).val = .ok s0)
    {ms : List Msg} (hx : tellBy odbcStep s0 x = ⟨ms, .ok s0⟩) : (loadTell env (ta ++ (x ++ r))).val = (loadTell env (ta ++ r)).val ∧
      ∃ l, (loadTell env (ta ++ (x ++ r))).log = (tellBy odbcStep [] ta).log ++ (ms ++ l) ∧
        (loadTell env (ta ++ r)).log = (tellBy odbcStep [] ta).log ++ l := by
  have hx' : (tellBy odbcStep s0 x).val = .ok s0 := by rw [hx]
  have e1 : tellBy odbcStep [] (ta ++ (x ++ r)) =
      ⟨(tellBy odbcStep [] ta).log ++ (ms ++ (tellBy odbcStep s0 r).log), (tellBy odbcStep s0 r).val⟩ := by
    rw [tellBy_two h0, tellBy_two hx', hx]
  have e2 : tellBy odbcStep [] (ta ++ r) = ⟨(tellBy odbcStep [] ta).log ++ (tellBy odbcStep s0 r).log, (tellBy odbcStep s0 r).val⟩ := tellBy_two h0 r
  unfold loadTell
  rw [e1, e2]
  cases hr : (tellBy odbcStep s0 r).val with
  | error e =>
    rw [Res.bind_of_error rfl, Res.bind_of_error rfl]
    exact ⟨rfl, _, rfl, rfl⟩
  | ok s1 =>
    rw [Res.bind_of_ok (a := s1) rfl, Res.bind_of_ok (a := s1) rfl]
    exact ⟨rfl, (tellBy odbcStep s0 r).log ++ (Res.bind (finalizeAll env s1.reverse) fun env => .pure (env, s1.reverse)).log,
      by simp only [List.append_assoc], by simp only [List.append_assoc]⟩

theorem odbc_taken {fs fs' : FS} {env : FEnv} {n n0 : Nat} {path : Str} {above part rest : Bytes}
    (hp : PartAbsent fs fs' path above part rest) {log0 log : List Msg} {st0 st : FEnv × List OdbcFn}
    (h0 : loadOdbc fs env n0 path above = ⟨log0, .ok (some st0)⟩) (hd : TextIs fs path part (OdbcDisregardedLines st0.2))
    (h : loadOdbc fs env n path (above ++ (part ++ rest)) = ⟨log, .ok (some st)⟩) :
    ∃ k log' st', (∀ n', k ≤ n' → loadOdbc fs' env n' path (above ++ rest) = ⟨log', .ok (some st')⟩) ∧
      LinesLess (linesFrom path (physLines above).length (physLines part)) (substance log) (substance log') ∧
      loadedText st' = loadedText st := by
  obtain ⟨k, log', st', t, lg, h1, ⟨h2, rfl⟩, h3, h4, -⟩ := odbc_exchanged (Y := []) (odbcDisregarded_placeless st0.2) nil_placeless hp.whole hd
    (nil_text fs' path) hp.present hp.others h0 h
    (Q := fun a b t => (∃ p l q, a = p ++ (l ++ q) ∧ (∀ m ∈ l, m.at_ ∈ linesFrom path (physLines above).length (physLines part)) ∧ b = p ++ q) ∧ st = t) (by
      rintro ta x _ r hx rfl hl hm - ht0 ht
      rw [← List.reverse_reverse st0.2] at hx
      obtain ⟨ms, e1, e2⟩ := odbcDisregarded_tell hx hm
      obtain ⟨w1, l, w2, w3⟩ := load_around (env := env) (r := r) ht0 e1
      refine ⟨st, by rw [List.nil_append, ← w1]; exact ht, ⟨substance (tellBy odbcStep [] ta).log, substance ms, substance l, ?_, ?_, ?_⟩, rfl⟩
      · rw [w2, substance_append, substance_append]
      · intro m hm
        rw [← hl]
        exact e2 m (List.mem_filter.1 hm).1
      · rw [List.nil_append, w3, substance_append])
  refine ⟨k, log', st', h1, ?_, h4⟩
  obtain ⟨p, l, q, e1, e2, e3⟩ := h2
  exact ⟨p, l, q, e1, e2, zips_words (by rw [← e3, h3])⟩

theorem odbc_added {fs fs' : FS} {env : FEnv} {n n0 : Nat} {path : Str} {above part rest : Bytes}
    (hp : PartAbsent fs fs' path above part rest) {log0 log' : List Msg} {st0 st' : FEnv × List OdbcFn}
    (h0 : loadOdbc fs' env n0 path above = ⟨log0, .ok (some st0)⟩) (hd : TextIs fs path part (OdbcDisregardedLines st0.2))
    (h : loadOdbc fs' env n path (above ++ rest) = ⟨log', .ok (some st')⟩) :
    ∃ k log st, (∀ n', k ≤ n' → loadOdbc fs env n' path (above ++ (part ++ rest)) = ⟨log, .ok (some st)⟩) ∧
      LinesLess (linesFrom path (physLines above).length (physLines part)) (substance log) (substance log') ∧
      loadedText st = loadedText st' := by
  obtain ⟨k, log, st, t, lg, h1, -, -, -, n1, log1, hab⟩ := odbc_exchanged (X := []) nil_placeless (odbcDisregarded_placeless st0.2) hp.whole (nil_text fs' path) hd
    (by rw [List.nil_append]; exact hp.absent) (fun q hq => (hp.others q hq).symm) h0 (by rw [List.nil_append]; exact h) (Q := fun _ _ _ => True) (by
      rintro ta _ y r rfl hy - - hm ht0 ht
      rw [← List.reverse_reverse st0.2] at hy
      obtain ⟨ms, e1, e2⟩ := odbcDisregarded_tell hy hm
      obtain ⟨w1, -⟩ := load_around (env := env) (r := r) ht0 e1
      exact ⟨st', by rw [w1]; exact ht, trivial⟩)
  obtain ⟨k2, log2, st2, g1, g2, g3⟩ := odbc_taken hp hab hd (h1 k (Nat.le_refl _))
  obtain ⟨c1, c2⟩ := load_twice h (g1 k2 (Nat.le_refl _))
  exact ⟨k, log, st, h1, c1 ▸ g2, by rw [← g3, c2]⟩

end ALint.Proofs
