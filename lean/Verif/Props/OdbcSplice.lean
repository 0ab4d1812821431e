import Verif.Proofs.OdbcSplice
import Verif.Props.OdbcParts

/-!
# C129: including files and comments in a func_odbc.conf
-/

namespace ALint.Props
open ALint Spec Proofs

/-- C129: blank lines and comments put into a func_odbc.conf change nothing but the line numbers below them (and what is said about
blank lines and terminators). -/
theorem C129_inserted (fs fs' : FS) (env : FEnv) (n : Nat) (path : Str) (pre new post : Bytes)
    (hr : Replaced fs fs' path pre [] new post) (hi : Idle fs' path (physLines pre).length new)
    (log : List Msg) (st : FEnv × List OdbcFn) (h : loadOdbc fs env n path (pre ++ ([] ++ post)) = ⟨log, .ok (some st)⟩) :
    ∃ k log' st', (∀ n', k ≤ n' → loadOdbc fs' env n' path (pre ++ (new ++ post)) = ⟨log', .ok (some st')⟩) ∧
      substance log' = (substance log).map (loweredMsg path (physLines pre).length (physLines new).length) ∧
      loadedText st' = loadedText st := by
  obtain ⟨t, told, hread, hv, hs⟩ := load_tellsAll h
  obtain ⟨hown, hagree, hmod⟩ := replaced_agree hr.before hr.others hread
  have hexp := hread.expand
  rw [physLines_more _ pre hr.preWhole, List.nil_append] at hexp
  obtain ⟨tA, tC, hA, hC, hfl⟩ := expand_parts _ _ hexp
  have inA : ∀ w ∈ tA.flatten, w ∈ t.flatten := fun w hw => by rw [hfl]; exact List.mem_append_left _ hw
  have inC : ∀ w ∈ tC.flatten, w ∈ t.flatten := fun w hw => by rw [hfl]; exact List.mem_append_right _ hw
  have hA' := expand_agree hA fun w hw => hagree w (inA w hw)
  have hC' := expand_agree hC fun w hw => hagree w (inC w hw)
  rw [Nat.zero_add] at hC'
  obtain ⟨tC', hC'', hCfl⟩ := expand_lowered (k := (physLines pre).length) (d := (physLines new).length) (Nat.le_refl _) hC'
    fun w hw => hown w (inC w hw)
  obtain ⟨tB, hB, hBin⟩ := expand_plain (fs := fs') (inc := opens) (f := path) (ls := physLines new) (n := (physLines pre).length)
    fun k l hl => by
      obtain ⟨c, hc⟩ := hi k l hl
      exact lineModel_file (lineTells_model hc)
  obtain ⟨t1, ht1, hf1⟩ := expand_join hB hC''
  rw [← Nat.zero_add (physLines pre).length] at ht1
  obtain ⟨t2, ht2, hf2⟩ := expand_join hA' ht1
  rw [← physLines_more _ new hr.newWhole, ← physLines_more _ pre hr.preWhole] at ht2
  obtain ⟨tb, hb1, hb2⟩ := tolds_exist (P := fun x => lineModel fs' x.line = some (x.msgs, x.gives) ∧ Mute x) (ws := tB.flatten)
    fun w hw => by
      obtain ⟨k, l, hl, rfl⟩ := hBin w hw
      obtain ⟨c, hc⟩ := hi k l hl
      exact ⟨⟨_, [], .elem (.empty c _)⟩, rfl, lineTells_model hc, rfl, fun e he => by cases he; rfl⟩
  obtain ⟨ta, tc, rfl, ha1, hc1⟩ := told_split (hread.lines.trans hfl)
  let ψ := lowered path (physLines pre).length (physLines new).length
  have hread' : ReadTold fs' path (pre ++ (new ++ post)) t2 (ta.map (reTold ψ) ++ (tb ++ tc.map (reTold ψ))) := by
    refine ⟨ht2, ?_, ?_⟩
    · have e : ∀ l : List Told, (l.map (reTold ψ)).map (·.line) = (l.map (·.line)).map ψ := by
        intro l; simp only [List.map_map]; rfl
      rw [hf2, hf1, hCfl, List.map_append, List.map_append, hb1, e, e, ha1, hc1, lowered_above hA' fun w hw => hown w (inA w hw)]
    · intro x hx
      rcases List.mem_append.1 hx with hx | hx
      · obtain ⟨y, hy, rfl⟩ := List.mem_map.1 hx
        exact lineModel_lowered (hmod y (List.mem_append_left _ hy))
      · rcases List.mem_append.1 hx with hx | hx
        · exact (hb2 x hx).1
        · obtain ⟨y, hy, rfl⟩ := List.mem_map.1 hx
          exact lineModel_lowered (hmod y (List.mem_append_right _ hy))
  have hbare := loadTell_bare (φ := ψ) env (ta ++ tc)
  unfold Bares at hbare
  rw [List.map_append, ← loadTell_skip (b := tb) fun x hx => (hb2 x hx).2] at hbare
  have hv' : (loadTell env (ta.map (reTold ψ) ++ (tb ++ tc.map (reTold ψ)))).val = .ok (reLoaded ψ st) := by
    rw [hbare, hv]; rfl
  obtain ⟨log', hl1, hl2⟩ := load_of_tellsAll hread' hv'
  refine ⟨_, log', reLoaded ψ st, hl2, ?_, loadedText_re ψ st⟩
  rw [hl1, hbare, hs]
  exact substance_map ψ _

theorem odbc_removed_ok (fs fs' : FS) (env : FEnv) (n : Nat) (path : Str) (pre new post : Bytes)
    (hr : Replaced fs fs' path pre [] new post) (hi : Idle fs' path (physLines pre).length new)
    (log : List Msg) (st : FEnv × List OdbcFn) (h : loadOdbc fs' env n path (pre ++ (new ++ post)) = ⟨log, .ok (some st)⟩) :
    ∃ k log' st', ∀ n', k ≤ n' → loadOdbc fs env n' path (pre ++ ([] ++ post)) = ⟨log', .ok (some st')⟩ := by
  obtain ⟨t, told, hread, hv, -⟩ := load_tellsAll h
  obtain ⟨-, hagree, hmod⟩ := replaced_agree (fs' := fs) hr.after (fun q hq => (hr.others q hq).symm) hread
  have hexp := hread.expand
  rw [physLines_more _ pre hr.preWhole, physLines_more _ new hr.newWhole] at hexp
  obtain ⟨tA, t1, hA, h1, hfl⟩ := expand_parts _ _ hexp
  obtain ⟨tB, tC, hB, hC, hfl1⟩ := expand_parts _ _ h1
  have inA : ∀ w ∈ tA.flatten, w ∈ t.flatten := fun w hw => by rw [hfl]; exact List.mem_append_left _ hw
  have inC : ∀ w ∈ tC.flatten, w ∈ t.flatten := fun w hw => by
    rw [hfl, hfl1]; exact List.mem_append_right _ (List.mem_append_right _ hw)
  have hA' := expand_agree hA fun w hw => hagree w (inA w hw)
  have hC' := expand_agree hC fun w hw => hagree w (inC w hw)
  obtain ⟨tC', hC'', hCz⟩ := expand_elsewhere (f' := path) (fun _ => rfl) (0 + (physLines pre).length) hC'
  obtain ⟨t2, ht2, hf2⟩ := expand_join hA' hC''
  rw [← physLines_more _ pre hr.preWhole] at ht2
  obtain ⟨tB', hB', hBin⟩ := expand_plain (fs := fs') (inc := opens) (f := path) (ls := physLines new) (n := (physLines pre).length)
    fun k l hl => by
      obtain ⟨c, hc⟩ := hi k l hl
      exact lineModel_file (lineTells_model hc)
  rw [Nat.zero_add] at hB
  have := expand_same hB hB'
  subst this
  rw [hfl1] at hfl
  obtain ⟨ta, tbc, rfl, ha1, hbc⟩ := told_split (hread.lines.trans hfl)
  obtain ⟨tb, tc, rfl, hb1, hc1⟩ := told_split hbc
  have hmute : ∀ x ∈ tb, Mute x := by
    intro x hx
    have hw : x.line ∈ tB.flatten := by rw [← hb1]; exact List.mem_map.2 ⟨x, hx, rfl⟩
    obtain ⟨k, l, hl, hw⟩ := hBin _ hw
    obtain ⟨c, hc⟩ := hi k l hl
    have hx' := hread.models x (List.mem_append_right _ (List.mem_append_left _ hx))
    rw [hw, lineTells_model hc] at hx'
    simp only [Option.some.injEq, Prod.mk.injEq] at hx'
    refine ⟨hx'.1.symm, fun e he => ?_⟩
    rw [← hx'.2] at he
    cases he
    rfl
  rw [loadTell_skip hmute] at hv
  have hz : Zips Elsewhere ((ta ++ tc).map (·.line)) t2.flatten := by
    rw [List.map_append, ha1, hc1, hf2]
    exact zips_join (zips_self (fun _ => ⟨rfl, fun _ => rfl⟩) _) hCz
  obtain ⟨told', e1, e2, e3⟩ := tolds_elsewhere (fs := fs) (φ := textOnly) textOnly_of (told := ta ++ tc) (fun x hx => hmod x (by
    rcases List.mem_append.1 hx with hx | hx
    · exact List.mem_append_left _ hx
    · exact List.mem_append_right _ (List.mem_append_right _ hx))) hz
  obtain ⟨st', hv', -⟩ := loadTell_same e3 hv
  obtain ⟨log', -, hl2⟩ := load_of_tellsAll (content := pre ++ ([] ++ post)) ⟨ht2, e1, e2⟩ hv'
  exact ⟨_, log', st', hl2⟩

/-- C129: the same, when such lines are taken away. -/
theorem C129_removed (fs fs' : FS) (env : FEnv) (n : Nat) (path : Str) (pre new post : Bytes)
    (hr : Replaced fs fs' path pre [] new post) (hi : Idle fs' path (physLines pre).length new)
    (log : List Msg) (st : FEnv × List OdbcFn) (h : loadOdbc fs' env n path (pre ++ (new ++ post)) = ⟨log, .ok (some st)⟩) :
    ∃ k log' st', (∀ n', k ≤ n' → loadOdbc fs env n' path (pre ++ ([] ++ post)) = ⟨log', .ok (some st')⟩) ∧
      substance log = (substance log').map (loweredMsg path (physLines pre).length (physLines new).length) ∧
      loadedText st' = loadedText st := by
  obtain ⟨k, log', st', hk⟩ := odbc_removed_ok fs fs' env n path pre new post hr hi log st h
  obtain ⟨k2, log2, st2, hk2, hl2, hd2⟩ := C129_inserted fs fs' env k path pre new post hr hi log' st' (hk k (Nat.le_refl _))
  obtain ⟨t, told, hread, hv, hs⟩ := load_tellsAll h
  obtain ⟨log3, hs3, hk3⟩ := load_of_tellsAll hread hv
  have e := (hk2 (max k2 (t.flatten.length + 1)) (Nat.le_max_left ..)).symm.trans (hk3 _ (Nat.le_max_right ..))
  simp only [Res.mk.injEq, Except.ok.injEq, Option.some.injEq] at e
  obtain ⟨rfl, rfl⟩ := e
  exact ⟨k, log', st', hk, by rw [hs, ← hs3, hl2], hd2.symm⟩

/-- C129: including a file is like writing its lines in place. -/
theorem C129_inlined (fs fs' : FS) (env : FEnv) (n : Nat) (path q : Str) (pre line inner post : Bytes)
    (hr : Inlined fs fs' path q pre line inner post)
    (log : List Msg) (st : FEnv × List OdbcFn) (h : loadOdbc fs env n path (pre ++ (line ++ post)) = ⟨log, .ok (some st)⟩) :
    ∃ k log' st', (∀ n', k ≤ n' → loadOdbc fs' env n' path (pre ++ (inner ++ post)) = ⟨log', .ok (some st')⟩) ∧
      Zips SameWords (substance log) (substance log') ∧ loadedText st' = loadedText st := by
  obtain ⟨t, told, hread, hv, hs⟩ := load_tellsAll h
  obtain ⟨-, hagree, hmod⟩ := replaced_agree hr.before hr.others hread
  have hasks := lineTells_model hr.asks
  have hopens : opens _ = some q := lineModel_file hasks
  have hexp := hread.expand
  rw [physLines_more _ pre hr.preWhole, physLines_more _ line hr.oldWhole, hr.one, List.singleton_append] at hexp
  obtain ⟨tA, t1, hA, h1, hfl⟩ := expand_parts _ _ hexp
  rw [Nat.zero_add] at h1
  have hpull : pulls fs opens ⟨path, ((physLines pre).length : Int) + 1, line⟩ = some (q, inner) := by
    simp [pulls, hopens, hr.there]
  cases h1 with
  | line hp _ => rw [hpull] at hp; cases hp
  | @incl _ _ _ _ p c tB tC hp hB hC =>
    rw [hpull] at hp
    cases hp
    simp only [Items.flatten] at hfl
    have inA : ∀ w ∈ tA.flatten, w ∈ t.flatten := fun w hw => by rw [hfl]; exact List.mem_append_left _ hw
    have inB : ∀ w ∈ tB.flatten, w ∈ t.flatten := fun w hw => by rw [hfl]; simp [hw]
    have inC : ∀ w ∈ tC.flatten, w ∈ t.flatten := fun w hw => by rw [hfl]; simp [hw]
    have hA' := expand_agree hA fun w hw => hagree w (inA w hw)
    have hB' := expand_agree hB fun w hw => hagree w (inB w hw)
    have hC' := expand_agree hC fun w hw => hagree w (inC w hw)
    obtain ⟨tB', hB'', hBz⟩ := expand_elsewhere (f' := path) (fun name => (sameDir_of hr.dir name).symm) (0 + (physLines pre).length) hB'
    obtain ⟨tC', hC'', hCz⟩ := expand_elsewhere (f' := path) (fun _ => rfl)
      (0 + (physLines pre).length + (physLines inner).length) hC'
    obtain ⟨t2, ht2, hf2⟩ := expand_join hB'' hC''
    obtain ⟨t3, ht3, hf3⟩ := expand_join hA' ht2
    rw [← physLines_more _ inner hr.newWhole, ← physLines_more _ pre hr.preWhole] at ht3
    obtain ⟨ta, txbc, rfl, ha1, hxbc⟩ := told_split (hread.lines.trans hfl)
    cases txbc with
    | nil => cases hxbc
    | cons x tbc =>
      simp only [List.map_cons, List.cons.injEq] at hxbc
      have hx := hread.models x (List.mem_append_right _ List.mem_cons_self)
      rw [hxbc.1, hasks] at hx
      simp only [Option.some.injEq, Prod.mk.injEq] at hx
      have hmute : ∀ y ∈ [x], Mute y := by
        intro y hy
        rw [List.mem_singleton.1 hy]
        refine ⟨hx.1.symm, fun e he => ?_⟩
        rw [← hx.2] at he
        cases he
      rw [show ta ++ x :: tbc = ta ++ ([x] ++ tbc) from rfl, loadTell_skip hmute] at hv hs
      have hz : Zips Elsewhere ((ta ++ tbc).map (·.line)) t3.flatten := by
        rw [List.map_append, ha1, hxbc.2, hf3, hf2]
        exact zips_join (zips_self (fun _ => ⟨rfl, fun _ => rfl⟩) _) (zips_join hBz hCz)
      obtain ⟨told', e1, e2, e3⟩ := tolds_elsewhere (fs := fs') (φ := textOnly) textOnly_of (told := ta ++ tbc) (fun y hy => hmod y (by
        rcases List.mem_append.1 hy with hy | hy
        · exact List.mem_append_left _ hy
        · exact List.mem_append_right _ (List.mem_cons_of_mem _ hy))) hz
      obtain ⟨st', hv', hd, hw⟩ := loadTell_same e3 hv
      obtain ⟨log', hl1, hl2⟩ := load_of_tellsAll (content := pre ++ (inner ++ post)) ⟨ht3, e1, e2⟩ hv'
      exact ⟨_, log', st', hl2, by rw [hs, hl1]; exact zips_words hw, hd⟩

/-- C129: and lines can be moved to a file of their own. -/
theorem C129_outlined (fs fs' : FS) (env : FEnv) (n : Nat) (path q : Str) (pre line inner post : Bytes)
    (hr : Inlined fs fs' path q pre line inner post)
    (log : List Msg) (st : FEnv × List OdbcFn) (h : loadOdbc fs' env n path (pre ++ (inner ++ post)) = ⟨log, .ok (some st)⟩) :
    ∃ k log' st', (∀ n', k ≤ n' → loadOdbc fs env n' path (pre ++ (line ++ post)) = ⟨log', .ok (some st')⟩) ∧
      Zips SameWords (substance log) (substance log') ∧ loadedText st' = loadedText st := by
  obtain ⟨t, told, hread, hv, hs⟩ := load_tellsAll h
  obtain ⟨-, hagree, hmod⟩ := replaced_agree (fs' := fs) hr.after (fun q hq => (hr.others q hq).symm) hread
  have hasks := lineTells_model hr.asks
  have hopens : opens _ = some q := lineModel_file hasks
  have hpull : pulls fs opens ⟨path, ((physLines pre).length : Int) + 1, line⟩ = some (q, inner) := by
    simp [pulls, hopens, hr.there]
  have hexp := hread.expand
  rw [physLines_more _ pre hr.preWhole, physLines_more _ inner hr.newWhole] at hexp
  obtain ⟨tA, t1, hA, h1, hfl⟩ := expand_parts _ _ hexp
  obtain ⟨tB, tC, hB, hC, hfl1⟩ := expand_parts _ _ h1
  rw [hfl1] at hfl
  have inA : ∀ w ∈ tA.flatten, w ∈ t.flatten := fun w hw => by rw [hfl]; exact List.mem_append_left _ hw
  have inB : ∀ w ∈ tB.flatten, w ∈ t.flatten := fun w hw => by rw [hfl]; simp [hw]
  have inC : ∀ w ∈ tC.flatten, w ∈ t.flatten := fun w hw => by rw [hfl]; simp [hw]
  have hA' := expand_agree hA fun w hw => hagree w (inA w hw)
  have hB' := expand_agree hB fun w hw => hagree w (inB w hw)
  have hC' := expand_agree hC fun w hw => hagree w (inC w hw)
  obtain ⟨tB', hB'', hBz⟩ := expand_elsewhere (f' := q) (sameDir_of hr.dir) 0 hB'
  obtain ⟨tC', hC'', hCz⟩ := expand_elsewhere (f' := path) (fun _ => rfl) ((physLines pre).length + 1) hC'
  have ht2 := Expand.incl hpull hB'' hC''
  rw [← Nat.zero_add (physLines pre).length] at ht2
  obtain ⟨t3, ht3, hf3⟩ := expand_join hA' ht2
  rw [show line :: physLines post = physLines (line ++ post) by rw [physLines_more _ line hr.oldWhole, hr.one]; rfl,
    ← physLines_more _ pre hr.preWhole] at ht3
  obtain ⟨ta, tbc, rfl, ha1, hbc⟩ := told_split (hread.lines.trans hfl)
  have hz : Zips Elsewhere (ta.map (·.line)) tA.flatten := by rw [ha1]; exact zips_self (fun _ => ⟨rfl, fun _ => rfl⟩) _
  have hz' : Zips Elsewhere (tbc.map (·.line)) (tB'.flatten ++ tC'.flatten) := by rw [hbc]; exact zips_join hBz hCz
  obtain ⟨ta', a1, a2, a3⟩ := tolds_elsewhere (fs := fs) (φ := textOnly) textOnly_of (told := ta)
    (fun y hy => hmod y (List.mem_append_left _ hy)) hz
  obtain ⟨tbc', b1, b2, b3⟩ := tolds_elsewhere (fs := fs) (φ := textOnly) textOnly_of (told := tbc)
    (fun y hy => hmod y (List.mem_append_right _ hy)) hz'
  obtain ⟨st', hv', hd, hw⟩ := loadTell_same (a := ta ++ tbc) (b := ta' ++ tbc') (by rw [List.map_append, List.map_append, a3, b3]) hv
  have hmute : ∀ y ∈ [(⟨⟨path, ((physLines pre).length : Int) + 1, line⟩, [], .file q⟩ : Told)], Mute y := by
    intro y hy
    rw [List.mem_singleton.1 hy]
    exact ⟨rfl, fun e he => by cases he⟩
  rw [← loadTell_skip (a := ta') (c := tbc') hmute] at hv' hw
  have hread' : ReadTold fs path (pre ++ (line ++ post)) t3
      (ta' ++ ([⟨⟨path, ((physLines pre).length : Int) + 1, line⟩, [], .file q⟩] ++ tbc')) := by
    refine ⟨ht3, ?_, ?_⟩
    · rw [hf3]
      simp only [List.map_append, a1, b1, Items.flatten, List.map_cons, List.map_nil, Nat.zero_add]
      rfl
    · intro x hx
      rcases List.mem_append.1 hx with hx | hx
      · exact a2 x hx
      · rcases List.mem_append.1 hx with hx | hx
        · rw [List.mem_singleton.1 hx]; exact hasks
        · exact b2 x hx
  obtain ⟨log', hl1, hl2⟩ := load_of_tellsAll hread' hv'
  exact ⟨_, log', st', hl2, by rw [hs, hl1]; exact zips_words hw, hd⟩

/-! ## The exit status -/

/-- Where the one file is read, the other is, what is said of them is related by `R`, and the same functions are known. -/
def LoadsSo (R : List Msg → List Msg → Prop) (fs fs' : FS) (env : FEnv) (n : Nat) (path : Str) (c c' : Bytes) : Prop :=
  ∀ log st, loadOdbc fs env n path c = ⟨log, .ok (some st)⟩ →
    ∃ k log' st', (∀ n', k ≤ n' → loadOdbc fs' env n' path c' = ⟨log', .ok (some st')⟩) ∧ st'.1 = st.1 ∧ R (substance log) (substance log')

def KindsOf (l l' : List Msg) : Prop := ∀ m ∈ l', ∃ m' ∈ l, m'.kind = m.kind

/-- What the four edits have in common: the same kinds of messages are given. -/
def LoadsAlike (fs fs' : FS) (env : FEnv) (n : Nat) (path : Str) (c c' : Bytes) : Prop :=
  LoadsSo (fun l l' => KindsOf l l' ∧ KindsOf l' l) fs fs' env n path c c'

theorem odbc_status {sh : Shell} (hm : sh.muted = false) {fs : FS} {env : DEnv} {n : Nat} {path : Str} {c : Bytes} (hc : fs path = some c)
    {s : Nat} (h : (odbcCheck sh fs env n path).fin = .exit s) : ∃ log r, loadOdbc fs env.toFEnv n path c = ⟨log, .ok (some r)⟩ ∧ (s = 0 ∨ s = 1) := by
  have hv : ∃ log r, loadOdbc fs env.toFEnv n path c = ⟨log, .ok (some r)⟩ := by
    unfold odbcCheck program at h
    dsimp only [opening] at h
    rw [hc] at h
    dsimp only [finished] at h
    split at h
    · cases h
    · cases h
    · rename_i a ha
      obtain ⟨o, h1, h2, h3⟩ := Res.bind_ok ha
      cases o with
      | none => cases h2
      | some r => exact ⟨(loadOdbc fs env.toFEnv n path c).log, r, by rw [← h1]⟩
  obtain ⟨log, st, hl⟩ := hv
  obtain ⟨s0, e1, e2, -⟩ := odbc_exit (sh := sh) hm hc hl
  rw [h, CmdEnd.exit.injEq] at e1
  exact ⟨log, st, hl, e1 ▸ e2⟩

theorem odbcChecks_so {R : List Msg → List Msg → Prop} {sh : Shell} (hm : sh.muted = false) (hi : IgnoresSpacing sh.ignore) {fs fs' : FS} {env : DEnv} {n : Nat} {path : Str}
    {c c' : Bytes} (hc : fs path = some c) (hc' : fs' path = some c') (hx : LoadsSo R fs fs' env.toFEnv n path c c') {s : Nat}
    (h : (odbcCheck sh fs env n path).fin = .exit s) :
    ∃ k s' l l', (∀ n', k ≤ n' → (odbcCheck sh fs' env n' path).fin = .exit s') ∧ (s' = 0 ∨ s' = 1) ∧ R l l' ∧
      (KindsOf l l' → s = 0 → s' = 0) ∧ (KindsOf l' l → s' = 0 → s = 0) := by
  obtain ⟨log, st, hl, -⟩ := odbc_status hm hc h
  obtain ⟨k, log', st', h1, -, hR⟩ := hx log st hl
  obtain ⟨s0, e1, e2, e3⟩ := odbc_exit (sh := sh) hm hc hl
  rw [h, CmdEnd.exit.injEq] at e1
  subst e1
  obtain ⟨s', f1, f2, f3⟩ := odbc_exit (sh := sh) hm hc' (h1 k (Nat.le_refl _))
  refine ⟨k, s', _, _, fun n' hn => ?_, f2, hR, fun k1 h0 => f3.2 (ignored_of hi k1 (e3.1 h0)), fun k2 h0 => e3.2 (ignored_of hi k2 (f3.1 h0))⟩
  obtain ⟨s2, g1, g2, g3⟩ := odbc_exit (sh := sh) hm hc' (h1 n' hn)
  have : s2 = 0 ↔ s' = 0 := g3.trans f3.symm
  rw [g1]
  congr 1
  omega

theorem odbcChecks_alike {sh : Shell} (hm : sh.muted = false) (hi : IgnoresSpacing sh.ignore) {fs fs' : FS} {env : DEnv} {n : Nat} {path : Str}
    {c c' : Bytes} (hc : fs path = some c) (hc' : fs' path = some c') (hx : LoadsAlike fs fs' env.toFEnv n path c c') {s : Nat}
    (h : (odbcCheck sh fs env n path).fin = .exit s) : ∃ k, ∀ n', k ≤ n' → (odbcCheck sh fs' env n' path).fin = .exit s := by
  obtain ⟨k, s', l, l', h1, h2, ⟨h3, h4⟩, h5, h6⟩ := odbcChecks_so hm hi hc hc' hx h
  obtain ⟨-, -, -, h7⟩ := odbc_status hm hc h
  have a := h5 h3
  have b := h6 h4
  have : s' = s := by omega
  exact ⟨k, this ▸ h1⟩

theorem odbcAt_file {fs : FS} {arg : Option Str} {path o : Str} (h : OdbcAt arg path o) {c : Bytes} (hc : fs o = some c) :
    odbcFile fs arg path = some o := by
  cases h with
  | named h hne =>
    subst h
    unfold odbcFile
    cases o with
    | nil => exact absurd rfl hne
    | cons x xs => rfl
  | beside h hp =>
    subst h
    unfold odbcFile
    dsimp only
    rw [← pathFrom_eq hp, hc]
    rfl

def AllIgnored (ignore : Str) (l : List Msg) : Prop := ∀ m ∈ l, Ignores ignore m.kind.name

theorem ignored_all {ignore : Str} (hi : IgnoresSpacing ignore) {log : List Msg} (h : AllIgnored ignore (substance log)) : AllIgnored ignore log := by
  intro m hm
  cases hk : spacingKind m.kind with
  | true => exact hi _ hk
  | false => exact h m (List.mem_filter.2 ⟨hm, by simp [hk]⟩)

theorem kinds_ignored {ignore : Str} {l l' : List Msg} (h : KindsOf l l') (hl : AllIgnored ignore l) : AllIgnored ignore l' := by
  intro m hm
  obtain ⟨m', h1, h2⟩ := h m hm
  exact h2 ▸ hl m' h1

/-- One dialplan-check from another, if what is said about the definitions of functions is ignored in both or in none. -/
theorem dialplanChecks_by {R : List Msg → List Msg → Prop} {sh : Shell} (hm : sh.muted = false) (hi : IgnoresSpacing sh.ignore) {fs fs' : FS} {env : DEnv} {n : Nat}
    {arg : Option Str} {path o : Str} (hat : OdbcAt arg path o) (hap : ¬ Touches fs path o) (ho : ∀ q, q ≠ o → fs' q = fs q)
    {c c' : Bytes} (hc : fs o = some c) (hc' : fs' o = some c') (hx : LoadsSo R fs fs' env.toFEnv n o c c') {s : Nat}
    (h : (dialplanCheck sh fs env n arg path).fin = .exit s) :
    ∃ k s' l l', (∀ n', k ≤ n' → (dialplanCheck sh fs' env n' arg path).fin = .exit s') ∧ (s = 0 ∨ s = 1) ∧ (s' = 0 ∨ s' = 1) ∧ R l l' ∧
      ((AllIgnored sh.ignore l → AllIgnored sh.ignore l') → s = 0 → s' = 0) ∧
      ((AllIgnored sh.ignore l' → AllIgnored sh.ignore l) → s' = 0 → s = 0) := by
  obtain ⟨env', first, content, st, h1, h2, h3, -⟩ := C85_messages sh fs env n arg path s h
  have hr := readOdbc_of h1
  have hne : path ≠ o := fun e => hap (.inl e.symm)
  have hp' : fs' path = some content := by rw [ho path hne, h2]
  obtain ⟨log, h3'⟩ : ∃ log, checkDialplan fs { env with toFEnv := env' } none n path content = ⟨log, .ok (some st)⟩ := ⟨_, by rw [← h3]⟩
  obtain ⟨t, told, hread, hv, hs⟩ := check_tells h3'
  obtain ⟨log1, hs1, hk1⟩ := check_of_tells hread hv
  have hsame : ∀ n', checkDialplan fs' { env with toFEnv := env' } none n' path content =
      checkDialplan fs { env with toFEnv := env' } none n' path content := fun n' =>
    C110_dialplan fs fs' _ none n' path content fun q hq => ho q fun e => hap (.inr ⟨content, h2, e ▸ hq⟩)
  obtain ⟨lo, ro, hlo, hro, hfirst⟩ : ∃ lo ro, loadOdbc fs env.toFEnv n o c = ⟨lo, .ok (some ro)⟩ ∧ ro.1 = env' ∧ lo = first := by
    unfold readOdbc at hr
    rw [odbcAt_file hat hc] at hr
    simp only [opening, hc, finished] at hr
    have hv := congrArg Res.val hr
    have hl := congrArg Res.log hr
    simp only at hv hl
    obtain ⟨r, g1, g2, g3⟩ := Res.bind_ok hv
    rw [g3] at hl
    cases r with
    | none => cases g2
    | some r =>
      simp only [Res.pure_val, Except.ok.injEq] at g2
      refine ⟨(loadOdbc fs env.toFEnv n o c).log, r, by rw [← g1], congrArg (fun e : DEnv => e.toFEnv) g2, ?_⟩
      rw [← hl]
      simp
  subst hro hfirst
  obtain ⟨k, lo', ro', g1, g2, hR⟩ := hx lo ro hlo
  have hread' : ∀ n', k ≤ n' → readOdbc fs' env n' arg path = ⟨lo', .ok (.ok { env with toFEnv := ro.1 })⟩ := by
    intro n' hn
    unfold readOdbc
    rw [odbcAt_file hat hc']
    simp only [opening, hc', finished, Res.bind, g1 n' hn, Res.pure, List.append_nil, g2]
  obtain ⟨s0, e1, e2, e3⟩ := check_exit hm (sh := sh) hr h2 h3'
  rw [h, CmdEnd.exit.injEq] at e1
  subst e1
  have kinds : ∀ l : List Msg, (∀ m ∈ l, ∃ m' ∈ l, m'.kind = m.kind) := fun l m hm => ⟨m, hm, rfl⟩
  have same : substance log1 = substance log := by rw [hs1, hs]
  have exits : ∀ n', max k (t.flatten.length + 1) ≤ n' → _ := fun n' hn =>
    check_exit hm (sh := sh) (hread' n' (Nat.le_trans (Nat.le_max_left ..) hn)) hp'
      ((hsame n').trans (hk1 n' (Nat.le_trans (Nat.le_max_right ..) hn)))
  obtain ⟨s', f1, f2, f3⟩ := exits _ (Nat.le_refl _)
  refine ⟨max k (t.flatten.length + 1), s', _, _, fun n' hn => ?_, e2, f2, hR, fun k1 h0 => f3.2 fun m hm => ?_, fun k2 h0 => e3.2 fun m hm => ?_⟩
  · obtain ⟨s2, d1, d2, d3⟩ := exits n' hn
    have : s2 = 0 ↔ s' = 0 := d3.trans f3.symm
    rw [d1]
    congr 1
    omega
  · have := e3.1 h0
    rcases List.mem_append.1 hm with hm | hm
    · exact ignored_all hi (k1 fun m hm => this m (List.mem_append_left _ (List.mem_filter.1 hm).1)) m hm
    · exact ignored_of hi (by rw [same]; exact kinds _) (fun m hm => this m (List.mem_append_right _ hm)) m hm
  · have := f3.1 h0
    rcases List.mem_append.1 hm with hm | hm
    · exact ignored_all hi (k2 fun m hm => this m (List.mem_append_left _ (List.mem_filter.1 hm).1)) m hm
    · exact ignored_of hi (by rw [same]; exact kinds _) (fun m hm => this m (List.mem_append_right _ hm)) m hm

theorem dialplanChecks_so {R : List Msg → List Msg → Prop} {sh : Shell} (hm : sh.muted = false) (hi : IgnoresSpacing sh.ignore) {fs fs' : FS} {env : DEnv} {n : Nat}
    {arg : Option Str} {path o : Str} (hat : OdbcAt arg path o) (hap : ¬ Touches fs path o) (ho : ∀ q, q ≠ o → fs' q = fs q)
    {c c' : Bytes} (hc : fs o = some c) (hc' : fs' o = some c') (hx : LoadsSo R fs fs' env.toFEnv n o c c') {s : Nat}
    (h : (dialplanCheck sh fs env n arg path).fin = .exit s) :
    ∃ k s' l l', (∀ n', k ≤ n' → (dialplanCheck sh fs' env n' arg path).fin = .exit s') ∧ (s = 0 ∨ s = 1) ∧ (s' = 0 ∨ s' = 1) ∧ R l l' ∧
      (KindsOf l l' → s = 0 → s' = 0) ∧ (KindsOf l' l → s' = 0 → s = 0) := by
  obtain ⟨k, s', l, l', h1, h2, h3, h4, h5, h6⟩ := dialplanChecks_by hm hi hat hap ho hc hc' hx h
  exact ⟨k, s', l, l', h1, h2, h3, h4, fun k1 => h5 (kinds_ignored k1), fun k2 => h6 (kinds_ignored k2)⟩

theorem dialplanChecks_alike {sh : Shell} (hm : sh.muted = false) (hi : IgnoresSpacing sh.ignore) {fs fs' : FS} {env : DEnv} {n : Nat}
    {arg : Option Str} {path o : Str} (hat : OdbcAt arg path o) (hap : ¬ Touches fs path o) (ho : ∀ q, q ≠ o → fs' q = fs q)
    {c c' : Bytes} (hc : fs o = some c) (hc' : fs' o = some c') (hx : LoadsAlike fs fs' env.toFEnv n o c c') {s : Nat}
    (h : (dialplanCheck sh fs env n arg path).fin = .exit s) :
    ∃ k, ∀ n', k ≤ n' → (dialplanCheck sh fs' env n' arg path).fin = .exit s := by
  obtain ⟨k, s', l, l', h1, h7, h2, ⟨h3, h4⟩, h5, h6⟩ := dialplanChecks_so hm hi hat hap ho hc hc' hx h
  have a := h5 h3
  have b := h6 h4
  have : s' = s := by omega
  exact ⟨k, this ▸ h1⟩

theorem inlined_alike {fs fs' : FS} {path q : Str} {pre line inner post : Bytes} (hr : Inlined fs fs' path q pre line inner post) (env : FEnv)
    (n : Nat) : LoadsAlike fs fs' env n path (pre ++ (line ++ post)) (pre ++ (inner ++ post)) := fun log st h => by
  obtain ⟨k, log', st', h1, h2, h3⟩ := C129_inlined fs fs' env n path q pre line inner post hr log st h
  exact ⟨k, log', st', h1, (Prod.mk.inj h3).1, zips_kinds h2⟩

theorem outlined_alike {fs fs' : FS} {path q : Str} {pre line inner post : Bytes} (hr : Inlined fs fs' path q pre line inner post) (env : FEnv)
    (n : Nat) : LoadsAlike fs' fs env n path (pre ++ (inner ++ post)) (pre ++ (line ++ post)) := fun log st h => by
  obtain ⟨k, log', st', h1, h2, h3⟩ := C129_outlined fs fs' env n path q pre line inner post hr log st h
  exact ⟨k, log', st', h1, (Prod.mk.inj h3).1, zips_kinds h2⟩

theorem inserted_alike {fs fs' : FS} {path : Str} {pre new post : Bytes} (hr : Replaced fs fs' path pre [] new post)
    (hd : Idle fs' path (physLines pre).length new) (env : FEnv) (n : Nat) :
    LoadsAlike fs fs' env n path (pre ++ ([] ++ post)) (pre ++ (new ++ post)) := fun log st h => by
  obtain ⟨k, log', st', h1, h2, h3⟩ := C129_inserted fs fs' env n path pre new post hr hd log st h
  exact ⟨k, log', st', h1, (Prod.mk.inj h3).1, lowered_kinds h2⟩

theorem removed_alike {fs fs' : FS} {path : Str} {pre new post : Bytes} (hr : Replaced fs fs' path pre [] new post)
    (hd : Idle fs' path (physLines pre).length new) (env : FEnv) (n : Nat) :
    LoadsAlike fs' fs env n path (pre ++ (new ++ post)) (pre ++ ([] ++ post)) := fun log st h => by
  obtain ⟨k, log', st', h1, h2, h3⟩ := C129_removed fs fs' env n path pre new post hr hd log st h
  obtain ⟨a, b⟩ := lowered_kinds h2
  exact ⟨k, log', st', h1, (Prod.mk.inj h3).1, b, a⟩

/-- An edit of the file `path`: a file is written in place of the line that includes it, lines are moved to a file of their own, blank
lines and comments are put in or taken away. -/
inductive Relaid (fs fs' : FS) (path : Str) : Prop
  | inlined {q : Str} {pre line inner post : Bytes} : Inlined fs fs' path q pre line inner post → Relaid fs fs' path
  | outlined {q : Str} {pre line inner post : Bytes} : Inlined fs' fs path q pre line inner post → Relaid fs fs' path
  | inserted {pre new post : Bytes} : Replaced fs fs' path pre [] new post → Idle fs' path (physLines pre).length new → Relaid fs fs' path
  | removed {pre new post : Bytes} : Replaced fs' fs path pre [] new post → Idle fs path (physLines pre).length new → Relaid fs fs' path

theorem relaid_alike {fs fs' : FS} {path : Str} (h : Relaid fs fs' path) : ∃ c c', fs path = some c ∧ fs' path = some c' ∧
    (∀ q, q ≠ path → fs' q = fs q) ∧ ∀ env n, LoadsAlike fs fs' env n path c c' := by
  cases h with
  | inlined h => exact ⟨_, _, h.before, h.after, h.others, inlined_alike h⟩
  | outlined h => exact ⟨_, _, h.after, h.before, fun q hq => (h.others q hq).symm, outlined_alike h⟩
  | inserted h hd => exact ⟨_, _, h.before, h.after, h.others, inserted_alike h hd⟩
  | removed h hd => exact ⟨_, _, h.after, h.before, fun q hq => (h.others q hq).symm, removed_alike h hd⟩

/-- C129: such edits do not change the exit status of `func_odbc-check`, if messages about terminators and blank lines are ignored. -/
theorem C129_status (sh : Shell) (hm : sh.muted = false) (hi : IgnoresSpacing sh.ignore) (fs fs' : FS) (env : DEnv) (n : Nat) (path : Str)
    (hr : Relaid fs fs' path) (s : Nat) (h : (odbcCheck sh fs env n path).fin = .exit s) :
    ∃ k, ∀ n', k ≤ n' → (odbcCheck sh fs' env n' path).fin = .exit s := by
  obtain ⟨c, c', h1, h2, -, h4⟩ := relaid_alike hr
  exact odbcChecks_alike hm hi h1 h2 (h4 _ _) h

/-- C129: nor that of `dialplan-check`, if the file has the definitions of functions for the dialplan, and is not part of it. -/
theorem C129_dialplan (sh : Shell) (hm : sh.muted = false) (hi : IgnoresSpacing sh.ignore) (fs fs' : FS) (env : DEnv) (n : Nat)
    (arg : Option Str) (path o : Str) (hat : OdbcAt arg path o) (hap : ¬ Touches fs path o) (hr : Relaid fs fs' o) (s : Nat)
    (h : (dialplanCheck sh fs env n arg path).fin = .exit s) :
    ∃ k, ∀ n', k ≤ n' → (dialplanCheck sh fs' env n' arg path).fin = .exit s := by
  obtain ⟨c, c', h1, h2, h3, h4⟩ := relaid_alike hr
  exact dialplanChecks_alike hm hi hat hap h3 h1 h2 (h4 _ _) h

/-- C128: nor does the order of the functions change it, if no two functions have the same name but for capital and small letters. -/
theorem C128_dialplan (sh : Shell) (hm : sh.muted = false) (hi : IgnoresSpacing sh.ignore) (fs fs' : FS) (env : DEnv) (n : Nat)
    (arg : Option Str) (path o : Str) (hat : OdbcAt arg path o) (hap : ¬ Touches fs path o) (pre : Bytes) (parts parts' : List Bytes)
    (hr : PartsMoved fs fs' o pre parts parts')
    (hd : ∀ r, (loadOdbc fs env.toFEnv n o (pre ++ parts.flatten)).val = .ok (some r) → (r.2.map fun f => env.lower f.funcName).Nodup)
    (s : Nat) (h : (dialplanCheck sh fs env n arg path).fin = .exit s) :
    ∃ k, ∀ n', k ≤ n' → (dialplanCheck sh fs' env n' arg path).fin = .exit s := by
  refine dialplanChecks_alike hm hi hat hap hr.others hr.before hr.after (fun log st hl => ?_) h
  obtain ⟨k, log', fns', h1, h2⟩ := C128_distinct fs fs' env.toFEnv st.1 n o pre parts parts' hr log st.2 hl (hd st (congrArg Res.val hl))
  exact ⟨k, log', _, h1, rfl, order_kinds h2⟩

/-! ## Examples -/

def odPre : Str := c! "[A]\n"
def odInner : Str := c! "foo=1\nreadsql=SELECT 1\n"
def odPost : Str := c! "foo=2\n[B]\ndsn=c\n"
def odPlan : Str := c! "[default]\nexten => 1,1,NoOp(${ODBC_A(1)})\n"
def odFiles (mid : Str) : FS := fun p =>
  if p = c! "f.conf" then some (asciiBytes odPre ++ (asciiBytes mid ++ asciiBytes odPost))
  else if p = c! "inner.conf" then some (asciiBytes odInner)
  else if p = c! "e.conf" then some (asciiBytes odPlan)
  else none

theorem example_od_inlined : Inlined (odFiles (c! "#include \"inner.conf\"\n")) (odFiles odInner) (c! "f.conf") (c! "inner.conf")
    (asciiBytes odPre) (asciiBytes (c! "#include \"inner.conf\"\n")) (asciiBytes odInner) (asciiBytes odPost) where
  before := by decide +kernel
  after := by decide +kernel
  preWhole := by unfold WholeLines; decide +kernel
  oldWhole := by unfold WholeLines; decide +kernel
  newWhole := by unfold WholeLines; decide +kernel
  others := by intro q hq; simp [odFiles, hq]
  one := by decide +kernel
  asks := by
    have h : lineModel (odFiles (c! "#include \"inner.conf\"\n")) ⟨c! "f.conf", ((physLines (asciiBytes odPre)).length : Int) + 1,
      asciiBytes (c! "#include \"inner.conf\"\n")⟩ = some ([], .file (c! "inner.conf")) := by rfl
    exact lineTells_exists h
  there := by decide +kernel
  dir := by
    have key : ∀ f : Str, '/' ∉ f → ∀ name p, PathFrom f name p ↔ p = name := by
      intro f hf name p
      constructor
      · intro h
        cases h with
        | absolute => rfl
        | here => rfl
        | root sl base _ e hs hall =>
          cases sl with
          | nil => exact absurd rfl hs
          | cons x sl => exact absurd (by rw [e, ← hall x List.mem_cons_self]; simp) hf
        | beside dir sl base _ e _ _ hs hall =>
          cases sl with
          | nil => exact absurd rfl hs
          | cons x sl => exact absurd (by rw [e, ← hall x List.mem_cons_self]; simp) hf
      · rintro rfl
        exact .here hf
    intro name p
    rw [key _ (by decide), key _ (by decide)]

/-- The lines of an included file, in the middle of a section. -/
example : Relaid (odFiles (c! "#include \"inner.conf\"\n")) (odFiles odInner) (c! "f.conf") ∧
    (loadOdbc (odFiles (c! "#include \"inner.conf\"\n")) odbcEnv 99 (c! "f.conf")
        (asciiBytes odPre ++ (asciiBytes (c! "#include \"inner.conf\"\n") ++ asciiBytes odPost))).log.map (fun m => (m.kind, m.at_.filename, m.at_.lineno)) =
      [(.E_CONF_KEY_INVALID, c! "inner.conf", 1), (.E_CONF_KEY_INVALID, c! "f.conf", 3), (.E_ODBC_NOSQL, c! "f.conf", 4)] ∧
    (loadOdbc (odFiles odInner) odbcEnv 99 (c! "f.conf")
        (asciiBytes odPre ++ (asciiBytes odInner ++ asciiBytes odPost))).log.map (fun m => (m.kind, m.at_.filename, m.at_.lineno)) =
      [(.E_CONF_KEY_INVALID, c! "f.conf", 2), (.E_CONF_KEY_INVALID, c! "f.conf", 4), (.H_WSV_CTX_BETWEEN, c! "f.conf", 5), (.E_ODBC_NOSQL, c! "f.conf", 5)] :=
  ⟨.inlined example_od_inlined, by decide +kernel, by decide +kernel⟩

/-- Blank lines in a section. -/
example : Relaid (odFiles []) (odFiles (c! "\n")) (c! "f.conf") := by
  refine .inserted (pre := asciiBytes odPre) (new := asciiBytes (c! "\n")) (post := asciiBytes odPost) ⟨by decide +kernel, by decide +kernel,
    by unfold WholeLines; decide +kernel, fun h => absurd rfl h, by unfold WholeLines; decide +kernel, by intro q hq; simp [odFiles, hq]⟩ ?_
  exact idle_blank _ _ _

def asksNone (o : Option (List Msg × Gives)) : Bool :=
  match o with
  | some (_, .file _) => false
  | _ => true

theorem read_alone {fs : FS} {path : Str} {c : Bytes} (h : ∀ (n : Nat) l, (physLines c)[n]? = some l →
      asksNone (lineModel fs ⟨path, n + 1, l⟩) = true) {f : Str} {b : Bytes} (hr : FileRead fs path c f b) : f = path ∧ b = c := by
  induction hr with
  | given => exact ⟨rfl, rfl⟩
  | @included w ms bytes bytes' n name _ hn hl ht _ ih =>
    obtain ⟨e1, rfl⟩ := ih
    have := h n w.line hl
    rw [← e1, ← hn, lineTells_model ht] at this
    cases this

theorem example_od_apart (mid : Str) : ¬ Touches (odFiles mid) (c! "e.conf") (c! "f.conf") := by
  have key : ∀ (n : Nat) l, (physLines (asciiBytes odPlan))[n]? = some l →
      asksNone (lineModel (odFiles mid) ⟨c! "e.conf", n + 1, l⟩) = true := by
    intro n l hl
    have e : physLines (asciiBytes odPlan) = [asciiBytes (c! "[default]\n"), asciiBytes (c! "exten => 1,1,NoOp(${ODBC_A(1)})\n")] := by decide +kernel
    rw [e] at hl
    match n, hl with
    | 0, hl => cases hl; rfl
    | 1, hl => cases hl; rfl
  rintro (h | ⟨c, hc, w, ms, ⟨b, hb, n, hn, hl⟩, ht⟩)
  · exact absurd h (by decide)
  · have e : c = asciiBytes odPlan := by simpa [odFiles] using hc.symm
    subst e
    obtain ⟨e1, rfl⟩ := read_alone key hb
    have := key n w.line hl
    rw [← e1, ← hn, lineTells_model ht] at this
    cases this

def odShell : Shell := statusShell (c! "H_WSV_,W_WSV_,W_FILE_DOS_,W_FILE_UNIX_,E_CONF_,E_ODBC_,H_DP_")
def odEnv : DEnv := { demoEnv with toFEnv := odbcEnv }

/-- A dialplan that uses a function, which is defined before and after. -/
example : OdbcAt (some (c! "f.conf")) (c! "e.conf") (c! "f.conf") ∧
    ¬ Touches (odFiles (c! "#include \"inner.conf\"\n")) (c! "e.conf") (c! "f.conf") ∧ odShell.muted = false ∧ IgnoresSpacing odShell.ignore ∧
    (dialplanCheck odShell (odFiles (c! "#include \"inner.conf\"\n")) odEnv 99 (some (c! "f.conf")) (c! "e.conf")).fin = .exit 0 ∧
    (dialplanCheck odShell (odFiles odInner) odEnv 99 (some (c! "f.conf")) (c! "e.conf")).fin = .exit 0 ∧
    (dialplanCheck odShell (odFiles odInner) odEnv 99 none (c! "e.conf")).fin = .exit 1 :=
  ⟨.named _ rfl (by decide), example_od_apart _, rfl, ignores_words (by intro k hk; cases k <;> first | rfl | cases hk),
    by decide +kernel, by decide +kernel, by decide +kernel⟩

end ALint.Props
