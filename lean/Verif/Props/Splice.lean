import Verif.Proofs.Splice
import Verif.Props.Append
import Verif.Props.WebForever
import Verif.Props.Wording

/-!
# C117, C118: including a file is like writing its lines in place; blank lines and comments only move others
-/

namespace ALint.Props
open ALint Spec Proofs

/-! ## Whole checks, line by line -/

theorem pipeRun_of_tells {fs : FS} {env : DEnv} : ∀ (n : Nat) (st : PState DState) (told : List Told) (out : DState),
    readFuel fs opens n st.frames = (told.map (·.line), true) → (∀ x ∈ told, lineModel fs x.line = some (x.msgs, x.gives)) →
    (tellAll env st.agg told).val = .ok out → (pipeRun fs (dialplanStep env) n st).val = .ok (some out)
  | 0, st, told, out, h, _, _ => by simp [readFuel] at h
  | n + 1, st, told, out, h, hm, hv => by
    rw [readFuel_succ] at h
    rw [pipeRun]
    cases hn : nextLine st.frames with
    | none =>
      simp only [hn, Prod.mk.injEq, and_true] at h
      have : told = [] := by cases told with
        | nil => rfl
        | cons x xs => cases h
      subst this
      have hp : pipeStep fs (dialplanStep env) st = none := by simp [pipeStep, hn]
      simp only [hp]
      have h1 := emitAll_fine (fine_ffEnd (pipeIn_true st).ff)
      have h2 := emitAll_fine (fine_vswEnd (pipeIn_true st).vsw).1
      have hb : feed (dialplanStep env) st.agg (vswEnd st.vsw).1 = .pure st.agg := by
        rw [feed_filter, show (vswEnd st.vsw).1.filter notBlank = [] from vswEndFrom_blank true st.vsw]
        rfl
      unfold pipeEnd
      rw [Res.bind_assoc, Res.bind_of_ok h1]
      dsimp only
      rw [Res.bind_assoc, Res.bind_of_ok h2]
      dsimp only
      rw [hb]
      simp only [tellAll, Res.pure_val, Except.ok.injEq] at hv
      subst hv
      rfl
    | some p =>
      obtain ⟨w, rest⟩ := p
      simp only [hn, Prod.mk.injEq] at h
      obtain ⟨e1, e2⟩ := h
      cases told with
      | nil => cases e1
      | cons x xs =>
        simp only [List.map_cons, List.cons.injEq] at e1
        obtain ⟨rfl, e1⟩ := e1
        have hx := hm x List.mem_cons_self
        obtain ⟨rs, hl⟩ := lineStep_of_model hx st.ff rest
        simp only [tellAll] at hv
        obtain ⟨_, _, hv, -⟩ := Res.bind_ok hv
        obtain ⟨ag, hv1, hv2, -⟩ := Res.bind_ok hv
        have hrv : ∃ r st', pipeStep fs (dialplanStep env) st = some r ∧ r.val = .ok st' ∧ st'.agg = ag := by
          unfold pipeStep
          simp only [hn, hl]
          obtain ⟨l1, l2⟩ := fine_lineStep (pipeIn_true st).ff (w := x.line) trivial fs rest
          rw [Res.bind_of_ok (emitAll_fine l1)]
          cases hg : x.gives.elem? with
          | none =>
            rw [hg] at hv1
            simp only [Option.toList, feed, Res.pure_val, Except.ok.injEq] at hv1
            exact ⟨_, _, rfl, rfl, hv1⟩
          | some e =>
            rw [hg] at hv1
            have hfe : feed (dialplanStep env) st.agg (vswStep st.vsw e).2.1 = feed (dialplanStep env) st.agg [e] := by
              rw [feed_filter, vswStep_blank, ← feed_filter]
            dsimp only
            rw [Res.bind_of_ok (emitAll_fine (fine_vswStep (pipeIn_true st).vsw (e := e) trivial).1), hfe, Res.bind_of_ok (x := feed (dialplanStep env) st.agg [e]) hv1]
            exact ⟨_, _, rfl, rfl, rfl⟩
        obtain ⟨r, st', hp, hr, ha⟩ := hrv
        simp only [hp]
        rw [Res.bind_of_ok hr]
        refine pipeRun_of_tells n st' xs out ?_ (fun y hy => hm y (List.mem_cons_of_mem _ hy)) (by rw [ha]; exact hv2)
        rw [pipeStep_frames fs _ st st' x.line rest r hn hp hr]
        exact Prod.ext e1 e2

/-- All that is said in a check, but for terminators and blank lines. -/
def wholeTell (env : DEnv) (sp : Option Str) (told : List Told) : Res DState :=
  Res.bind (tellAll env (.init sp) told) fun st => Res.bind (onComplete st.dp) fun _ =>
    Res.bind (walkDests st.dp env.depth st.dp.dests) fun _ => .pure st

theorem wholeTell_bare {φ : Where → Where} (hφ : ∀ w : Where, φ ⟨w.filename, 0, []⟩ = ⟨(φ w).filename, 0, []⟩) (env : DEnv)
    (sp : Option Str) (told : List Told) :
    Bares φ (reSt φ) (wholeTell env sp told) (wholeTell env sp (told.map (reTold φ))) :=
  .bind (tellAll_bare env told (.init sp)) fun st => .bind (onComplete_bare hφ st.dp) fun _ =>
    .bind (walkDests_bare st.dp env.depth st.dp.dests) fun _ => .pure rfl

/-- The lines of a whole reading, with what is said about them. -/
structure ReadTold (fs : FS) (path : Str) (content : Bytes) (t : Items) (told : List Told) : Prop where
  expand : Expand fs opens path 0 (physLines content) t
  lines : told.map (·.line) = t.flatten
  models : ∀ x ∈ told, lineModel fs x.line = some (x.msgs, x.gives)

theorem told_eq {fs : FS} : ∀ {a b : List Told}, a.map (·.line) = b.map (·.line) →
    (∀ x ∈ a, lineModel fs x.line = some (x.msgs, x.gives)) → (∀ x ∈ b, lineModel fs x.line = some (x.msgs, x.gives)) → a = b
  | [], [], _, _, _ => rfl
  | [], _ :: _, h, _, _ => by cases h
  | _ :: _, [], h, _, _ => by cases h
  | ⟨l, m, g⟩ :: a, ⟨l', m', g'⟩ :: b, h, ha, hb => by
    simp only [List.map_cons, List.cons.injEq] at h
    have h1 := ha _ List.mem_cons_self
    have h2 := hb _ List.mem_cons_self
    obtain ⟨rfl, h⟩ := h
    simp only at h1 h2
    rw [h1] at h2
    simp only [Option.some.injEq, Prod.mk.injEq] at h2
    obtain ⟨rfl, rfl⟩ := h2
    rw [told_eq h (fun x hx => ha x (List.mem_cons_of_mem _ hx)) fun x hx => hb x (List.mem_cons_of_mem _ hx)]

theorem check_tells {fs : FS} {env : DEnv} {sp : Option Str} {n : Nat} {path : Str} {content : Bytes} {log : List Msg} {st : DState}
    (h : checkDialplan fs env sp n path content = ⟨log, .ok (some st)⟩) :
    ∃ t told, ReadTold fs path content t told ∧ (wholeTell env sp told).val = .ok st ∧
      substance log = substance (wholeTell env sp told).log := by
  have hv := congrArg Res.val h
  have hl := congrArg Res.log h
  simp only at hv hl
  unfold checkDialplan at hv hl
  obtain ⟨r, h1, h2, h3⟩ := Res.bind_ok hv
  rw [h3] at hl
  cases r with
  | none => simp at h2
  | some s =>
    obtain ⟨told, t1, t2, t3, t4⟩ := pipeRun_tells fs n _ s h1
    obtain ⟨t, ht, hfl⟩ := C02_pipeline fs _ _ path content n _ h1
    refine ⟨t, told, ⟨ht, t1.trans hfl, t2⟩, ?_⟩
    dsimp only at h2 hl t3 t4
    obtain ⟨_, h4, h5, h6⟩ := Res.bind_ok h2
    obtain ⟨_, h7, h8, h9⟩ := Res.bind_ok h5
    simp only [Res.pure_val, Except.ok.injEq, Option.some.injEq] at h8
    subst h8
    have e : wholeTell env sp told = ⟨(tellAll env (.init sp) told).log ++ ((onComplete s.dp).log ++
        (walkDests s.dp env.depth s.dp.dests).log), .ok s⟩ := by
      unfold wholeTell
      rw [Res.bind_of_ok t4, Res.bind_of_ok h4, Res.bind_of_ok h7]
      simp
    rw [e, ← hl, h6, h9]
    refine ⟨rfl, ?_⟩
    simp only [substance_append, t3]
    simp [substance]

theorem check_of_tells {fs : FS} {env : DEnv} {sp : Option Str} {path : Str} {content : Bytes} {t : Items} {told : List Told}
    (hr : ReadTold fs path content t told) {st : DState} (hv : (wholeTell env sp told).val = .ok st) :
    ∃ log, substance log = substance (wholeTell env sp told).log ∧
      ∀ n, t.flatten.length + 1 ≤ n → checkDialplan fs env sp n path content = ⟨log, .ok (some st)⟩ := by
  have key : ∀ n, t.flatten.length + 1 ≤ n → ∃ log, checkDialplan fs env sp n path content = ⟨log, .ok (some st)⟩ ∧
      (pipeRun fs (dialplanStep env) n ⟨[openFrame path content], [], [], .init sp⟩).val = .ok (some st) := by
    intro n hn
    unfold wholeTell at hv
    obtain ⟨s, h1, h2, -⟩ := Res.bind_ok hv
    obtain ⟨_, h3, h4, -⟩ := Res.bind_ok h2
    obtain ⟨_, h5, h6, -⟩ := Res.bind_ok h4
    simp only [Res.pure_val, Except.ok.injEq] at h6
    subst h6
    have e := C02_expansion fs opens path content t hr.expand
    have m1 := readFuel_mono fs opens _ n [openFrame path content] (by rw [e]) hn
    rw [e, ← hr.lines] at m1
    have hp := pipeRun_of_tells n ⟨[openFrame path content], [], [], .init sp⟩ told s m1 hr.models h1
    unfold checkDialplan
    rw [Res.bind_of_ok hp]
    dsimp only
    rw [Res.bind_of_ok h3, Res.bind_of_ok h5]
    exact ⟨_, rfl, hp⟩
  obtain ⟨log, h1, hp⟩ := key _ (Nat.le_refl _)
  refine ⟨log, ?_, fun n hn => ?_⟩
  · obtain ⟨t', told', hr', -, hs⟩ := check_tells h1
    rw [hs, told_eq (a := told') (b := told) (by rw [hr'.lines, hr.lines, expand_same hr'.expand hr.expand]) hr'.models hr.models]
  · obtain ⟨k, rfl⟩ := Nat.exists_eq_add_of_le hn
    rw [← h1]
    unfold checkDialplan
    rw [pipeRun_fuel _ _ _ hp k]

theorem substance_map (φ : Where → Where) (l : List Msg) : substance (l.map (reM φ)) = (substance l).map (reM φ) := by
  unfold substance
  rw [List.filter_map]
  rfl

theorem dialplanText_re (φ : Where → Where) (dp : Dialplan) : dialplanText (reDp φ dp) = dialplanText dp := by
  unfold dialplanText reDp
  simp only [List.map_map]
  congr 1
  funext c
  simp only [Function.comp, reCtx, List.map_map]
  rfl

/-! ## The lines of an edited file -/

theorem expand_join {fs : FS} {inc : Where → Option Str} {f : Str} {ls' : List Bytes} {t2 : Items} : ∀ {ls : List Bytes} {n : Nat}
    {t1 : Items}, Expand fs inc f n ls t1 → Expand fs inc f (n + ls.length) ls' t2 →
    ∃ t, Expand fs inc f n (ls ++ ls') t ∧ t.flatten = t1.flatten ++ t2.flatten
  | [], n, t1, h1, h2 => by
    cases h1
    exact ⟨t2, h2, rfl⟩
  | l :: ls, n, t1, h1, h2 => by
    rw [List.length_cons, show n + (ls.length + 1) = n + 1 + ls.length by omega] at h2
    cases h1 with
    | line hp h3 =>
      obtain ⟨t, h4, h5⟩ := expand_join h3 h2
      exact ⟨_, .line hp h4, by simp [Items.flatten, h5]⟩
    | incl hp h0 h3 =>
      obtain ⟨t, h4, h5⟩ := expand_join h3 h2
      exact ⟨_, .incl hp h0 h4, by simp [Items.flatten, h5]⟩

theorem expand_plain {fs : FS} {inc : Where → Option Str} {f : Str} : ∀ {ls : List Bytes} {n : Nat},
    (∀ k l, ls[k]? = some l → inc ⟨f, ((n + k : Nat) : Int) + 1, l⟩ = none) →
    ∃ t, Expand fs inc f n ls t ∧ ∀ w ∈ t.flatten, ∃ k l, ls[k]? = some l ∧ w = ⟨f, ((n + k : Nat) : Int) + 1, l⟩
  | [], n, _ => ⟨.nil, .nil, by intro w hw; cases hw⟩
  | l :: ls, n, h => by
    obtain ⟨t, h1, h2⟩ := expand_plain (ls := ls) (n := n + 1) fun k l hl => by
      have := h (k + 1) l (by simpa using hl)
      rw [show n + 1 + k = n + (k + 1) by omega]
      exact this
    have h0 := h 0 l rfl
    refine ⟨_, .line (by unfold pulls; rw [show ((n : Int) + 1) = ((n + 0 : Nat) : Int) + 1 by omega, h0]) h1, ?_⟩
    intro w hw
    rcases List.mem_cons.1 hw with rfl | hw
    · exact ⟨0, l, rfl, rfl⟩
    · obtain ⟨k, l', h3, rfl⟩ := h2 w hw
      exact ⟨k + 1, l', by simpa using h3, by rw [show n + 1 + k = n + (k + 1) by omega]⟩

theorem tolds_exist {P : Told → Prop} : ∀ {ws : List Where}, (∀ w ∈ ws, ∃ x, x.line = w ∧ P x) →
    ∃ told : List Told, told.map (·.line) = ws ∧ ∀ x ∈ told, P x
  | [], _ => ⟨[], rfl, by simp⟩
  | w :: ws, h => by
    obtain ⟨x, h1, h2⟩ := h w List.mem_cons_self
    obtain ⟨xs, h3, h4⟩ := tolds_exist fun w hw => h w (List.mem_cons_of_mem _ hw)
    refine ⟨x :: xs, by simp [h1, h3], fun y hy => ?_⟩
    rcases List.mem_cons.1 hy with rfl | hy
    · exact h2
    · exact h4 y hy

theorem tolds_elsewhere {fs : FS} {φ : Where → Where} (hφ : ∀ w w' : Where, w'.line = w.line → φ w' = φ w) :
    ∀ {told : List Told} {ws : List Where}, (∀ x ∈ told, lineModel fs x.line = some (x.msgs, x.gives)) →
    Zips Elsewhere (told.map (·.line)) ws →
    ∃ told' : List Told, told'.map (·.line) = ws ∧ (∀ x ∈ told', lineModel fs x.line = some (x.msgs, x.gives)) ∧
      told'.map (reTold φ) = told.map (reTold φ)
  | [], _, _, h => by cases h; exact ⟨[], rfl, by simp, rfl⟩
  | x :: xs, _, hm, h => by
    cases h with
    | @cons _ w' _ ws he h =>
      obtain ⟨xs', h1, h2, h3⟩ := tolds_elsewhere hφ (fun y hy => hm y (List.mem_cons_of_mem _ hy)) h
      have hx := hm x List.mem_cons_self
      have hx' := lineModel_at fs he.1 he.2
      rw [hx] at hx'
      have hnew : lineModel fs w' = some (x.msgs.map (reM fun _ => w'), reG (fun _ => w') x.gives) := hx'
      refine ⟨⟨w', x.msgs.map (reM fun _ => w'), reG (fun _ => w') x.gives⟩ :: xs', by simp [h1], ?_, ?_⟩
      · intro y hy
        rcases List.mem_cons.1 hy with rfl | hy
        · exact hnew
        · exact h2 y hy
      · rw [List.map_cons, List.map_cons, h3]
        congr 1
        exact told_at (x' := ⟨w', _, _⟩) hx hnew he.1 he.2 (hφ _ _ he.1)

theorem told_split {told : List Told} {a b : List Where} (h : told.map (·.line) = a ++ b) :
    ∃ ta tb, told = ta ++ tb ∧ ta.map (·.line) = a ∧ tb.map (·.line) = b := by
  obtain ⟨ta, tb, h1, h2, h3⟩ := List.map_eq_append_iff.1 h
  exact ⟨ta, tb, h1, h2, h3⟩

/-- Only the text of the line. -/
def textOnly (w : Where) : Where := ⟨[], 0, w.line⟩

theorem textOnly_of (w w' : Where) (h : w'.line = w.line) : textOnly w' = textOnly w := by unfold textOnly; rw [h]

theorem zips_words : ∀ {a b : List Msg}, a.map (reM textOnly) = b.map (reM textOnly) → Zips SameWords a b
  | [], [], _ => .nil
  | [], _ :: _, h => by cases h
  | _ :: _, [], h => by cases h
  | m :: a, m' :: b, h => by
    simp only [List.map_cons, List.cons.injEq] at h
    obtain ⟨h1, h2⟩ := h
    refine .cons ?_ (zips_words h2)
    obtain ⟨k, w, as, p⟩ := m
    obtain ⟨k', w', as', p'⟩ := m'
    simp only [reM, textOnly, Msg.mk.injEq, Where.mk.injEq, true_and] at h1
    obtain ⟨rfl, e1, rfl, e2⟩ := h1
    refine ⟨rfl, rfl, e1.symm, ?_⟩
    cases p <;> cases p' <;> simp_all [textOnly]

/-- Two lists of lines that say the same. -/
theorem wholeTell_same {env : DEnv} {sp : Option Str} {a b : List Told} (h : b.map (reTold textOnly) = a.map (reTold textOnly))
    {st : DState} (hv : (wholeTell env sp a).val = .ok st) :
    ∃ st', (wholeTell env sp b).val = .ok st' ∧ dialplanText st'.dp = dialplanText st.dp ∧
      (substance (wholeTell env sp a).log).map (reM textOnly) = (substance (wholeTell env sp b).log).map (reM textOnly) := by
  have h1 := wholeTell_bare (φ := textOnly) (fun _ => rfl) env sp a
  have h2 := wholeTell_bare (φ := textOnly) (fun _ => rfl) env sp b
  rw [h] at h2
  have h3 := h1.symm.trans h2
  simp only [Res.mk.injEq] at h3
  obtain ⟨h4, h5⟩ := h3
  rw [hv] at h5
  cases hb : (wholeTell env sp b).val with
  | error e => rw [hb] at h5; cases h5
  | ok st' =>
    rw [hb] at h5
    simp only [Except.map, Except.ok.injEq] at h5
    refine ⟨st', rfl, ?_, ?_⟩
    · have : reDp textOnly st.dp = reDp textOnly st'.dp := congrArg DState.dp h5
      rw [← dialplanText_re textOnly st'.dp, ← this, dialplanText_re]
    · rw [← substance_map, ← substance_map, h4]

theorem wholeTell_skip {env : DEnv} {sp : Option Str} {a b c : List Told} (h : ∀ x ∈ b, Mute x) :
    wholeTell env sp (a ++ (b ++ c)) = wholeTell env sp (a ++ c) := by
  unfold wholeTell
  rw [tellAll_skip h]

/-- What other files hold is the same. -/
theorem replaced_agree {fs fs' : FS} {path : Str} {content : Bytes} (hb : fs path = some content)
    (ho : ∀ q, q ≠ path → fs' q = fs q) {t : Items} {told : List Told} (hr : ReadTold fs path content t told) :
    (∀ w ∈ t.flatten, opens w ≠ some path) ∧ (∀ w ∈ t.flatten, ∀ q, opens w = some q → fs' q = fs q) ∧
    ∀ x ∈ told, lineModel fs' x.line = some (x.msgs, x.gives) := by
  have h1 : ∀ w ∈ t.flatten, opens w ≠ some path := fun w hw => expand_not_self hb hr.expand hw
  have h2 : ∀ w ∈ t.flatten, ∀ q, opens w = some q → fs' q = fs q := fun w hw q hq => ho q fun e => h1 w hw (e ▸ hq)
  refine ⟨h1, h2, fun x hx => ?_⟩
  have hw : x.line ∈ t.flatten := by rw [← hr.lines]; exact List.mem_map.2 ⟨x, hx, rfl⟩
  rw [lineModel_asks (fs := fs) fun ms q hq => h2 _ hw q (lineModel_file hq)]
  exact hr.models x hx

/-! ## C118 -/

theorem lineModel_lowered {fs : FS} {path : Str} {k d : Nat} {x : Told} (h : lineModel fs x.line = some (x.msgs, x.gives)) :
    lineModel fs (lowered path k d x.line) =
      some ((reTold (lowered path k d) x).msgs, (reTold (lowered path k d) x).gives) := by
  have hl : (lowered path k d x.line).line = x.line.line := by unfold lowered; split <;> rfl
  have hd : SameDir x.line (lowered path k d x.line) := by
    intro name
    have : (lowered path k d x.line).filename = x.line.filename := by unfold lowered; split <;> rfl
    rw [this]
  have h1 := lineModel_at fs hl hd
  have h2 := lineModel_at fs (w := x.line) rfl (fun _ => rfl)
  rw [h] at h1 h2
  simp only [Option.map_some, Option.some.injEq, Prod.mk.injEq] at h2
  rw [h1]
  simp only [reTold, Option.map_some, Option.some.injEq, Prod.mk.injEq]
  constructor
  · conv => rhs; rw [h2.1]
    simp only [List.map_map]
    congr 1
    funext m
    simp only [Function.comp, reM_reM]
    rfl
  · conv => rhs; rw [h2.2]
    rw [reG_reG]
    rfl

theorem lowered_above {fs : FS} {path : Str} {d : Nat} {ls : List Bytes} {t : Items} (h : Expand fs opens path 0 ls t)
    (hi : ∀ w ∈ t.flatten, opens w ≠ some path) : t.flatten.map (lowered path ls.length d) = t.flatten := by
  conv => rhs; rw [← List.map_id t.flatten]
  refine List.map_congr_left fun w hw => ?_
  unfold lowered
  rw [if_neg]
  · rfl
  · rintro ⟨hf, hk⟩
    obtain ⟨-, -, h3⟩ := expand_own h hi w hw hf
    omega

/-- C118: blank lines and comments put into the file that is checked change nothing but the numbers of the lines below them,
apart from what is said about line terminators and about the number of blank lines. -/
theorem C118_inserted (fs fs' : FS) (env : DEnv) (sp : Option Str) (n : Nat) (path : Str) (pre new post : Bytes)
    (hr : Replaced fs fs' path pre [] new post) (hi : Idle fs' path (physLines pre).length new)
    (log : List Msg) (st : DState) (h : checkDialplan fs env sp n path (pre ++ ([] ++ post)) = ⟨log, .ok (some st)⟩) :
    ∃ k log' st', (∀ n', k ≤ n' → checkDialplan fs' env sp n' path (pre ++ (new ++ post)) = ⟨log', .ok (some st')⟩) ∧
      substance log' = (substance log).map (loweredMsg path (physLines pre).length (physLines new).length) ∧
      dialplanText st'.dp = dialplanText st.dp := by
  obtain ⟨t, told, hread, hv, hs⟩ := check_tells h
  obtain ⟨hown, hagree, hmod⟩ := replaced_agree hr.before hr.others hread
  have hexp := hread.expand
  rw [physLines_more _ pre hr.preWhole, List.nil_append] at hexp
  obtain ⟨tA, tC, hA, hC, hfl⟩ := expand_parts _ _ hexp
  have inA : ∀ w ∈ tA.flatten, w ∈ t.flatten := fun w hw => by rw [hfl]; exact List.mem_append_left _ hw
  have inC : ∀ w ∈ tC.flatten, w ∈ t.flatten := fun w hw => by rw [hfl]; exact List.mem_append_right _ hw
  have hA' := expand_agree hA fun w hw => hagree w (inA w hw)
  have hC' := expand_agree hC fun w hw => hagree w (inC w hw)
  rw [Nat.zero_add] at hC'
  obtain ⟨tC', hC'', hCfl⟩ := expand_lowered (k := (physLines pre).length) (d := (physLines new).length) (Nat.le_refl _) hC'
    fun w hw => hown w (inC w hw)
  obtain ⟨tB, hB, hBin⟩ := expand_plain (fs := fs') (inc := opens) (f := path) (ls := physLines new) (n := (physLines pre).length)
    fun k l hl => by
      obtain ⟨c, hc⟩ := hi k l hl
      exact lineModel_file (lineTells_model hc)
  obtain ⟨t1, ht1, hf1⟩ := expand_join hB hC''
  rw [← Nat.zero_add (physLines pre).length] at ht1
  obtain ⟨t2, ht2, hf2⟩ := expand_join hA' ht1
  rw [← physLines_more _ new hr.newWhole, ← physLines_more _ pre hr.preWhole] at ht2
  obtain ⟨tb, hb1, hb2⟩ := tolds_exist (P := fun x => lineModel fs' x.line = some (x.msgs, x.gives) ∧ Mute x) (ws := tB.flatten)
    fun w hw => by
      obtain ⟨k, l, hl, rfl⟩ := hBin w hw
      obtain ⟨c, hc⟩ := hi k l hl
      exact ⟨⟨_, [], .elem (.empty c _)⟩, rfl, lineTells_model hc, rfl, fun e he => by cases he; rfl⟩
  obtain ⟨ta, tc, rfl, ha1, hc1⟩ := told_split (hread.lines.trans hfl)
  let ψ := lowered path (physLines pre).length (physLines new).length
  have hread' : ReadTold fs' path (pre ++ (new ++ post)) t2 (ta.map (reTold ψ) ++ (tb ++ tc.map (reTold ψ))) := by
    refine ⟨ht2, ?_, ?_⟩
    · have e : ∀ l : List Told, (l.map (reTold ψ)).map (·.line) = (l.map (·.line)).map ψ := by
        intro l; simp only [List.map_map]; rfl
      rw [hf2, hf1, hCfl, List.map_append, List.map_append, hb1, e, e, ha1, hc1, lowered_above hA' fun w hw => hown w (inA w hw)]
    · intro x hx
      rcases List.mem_append.1 hx with hx | hx
      · obtain ⟨y, hy, rfl⟩ := List.mem_map.1 hx
        exact lineModel_lowered (hmod y (List.mem_append_left _ hy))
      · rcases List.mem_append.1 hx with hx | hx
        · exact (hb2 x hx).1
        · obtain ⟨y, hy, rfl⟩ := List.mem_map.1 hx
          exact lineModel_lowered (hmod y (List.mem_append_right _ hy))
  have hψ : ∀ w : Where, ψ ⟨w.filename, 0, []⟩ = ⟨(ψ w).filename, 0, []⟩ := by
    intro w
    have : (ψ w).filename = w.filename := by show (lowered _ _ _ _).filename = _; unfold lowered; split <;> rfl
    rw [this]
    show lowered _ _ _ _ = _
    unfold lowered
    rw [if_neg]
    rintro ⟨-, hk⟩
    simp only at hk
    omega
  have hbare := wholeTell_bare hψ env sp (ta ++ tc)
  unfold Bares at hbare
  rw [List.map_append, ← wholeTell_skip (b := tb) fun x hx => (hb2 x hx).2] at hbare
  have hv' : (wholeTell env sp (ta.map (reTold ψ) ++ (tb ++ tc.map (reTold ψ)))).val = .ok (reSt ψ st) := by
    rw [hbare, hv]; rfl
  obtain ⟨log', hl1, hl2⟩ := check_of_tells hread' hv'
  refine ⟨_, log', reSt ψ st, hl2, ?_, dialplanText_re ψ st.dp⟩
  rw [hl1, hbare, hs]
  exact substance_map ψ _

theorem removed_ok (fs fs' : FS) (env : DEnv) (sp : Option Str) (n : Nat) (path : Str) (pre new post : Bytes)
    (hr : Replaced fs fs' path pre [] new post) (hi : Idle fs' path (physLines pre).length new)
    (log : List Msg) (st : DState) (h : checkDialplan fs' env sp n path (pre ++ (new ++ post)) = ⟨log, .ok (some st)⟩) :
    ∃ k log' st', ∀ n', k ≤ n' → checkDialplan fs env sp n' path (pre ++ ([] ++ post)) = ⟨log', .ok (some st')⟩ := by
  obtain ⟨t, told, hread, hv, -⟩ := check_tells h
  obtain ⟨-, hagree, hmod⟩ := replaced_agree (fs' := fs) hr.after (fun q hq => (hr.others q hq).symm) hread
  have hexp := hread.expand
  rw [physLines_more _ pre hr.preWhole, physLines_more _ new hr.newWhole] at hexp
  obtain ⟨tA, t1, hA, h1, hfl⟩ := expand_parts _ _ hexp
  obtain ⟨tB, tC, hB, hC, hfl1⟩ := expand_parts _ _ h1
  have inA : ∀ w ∈ tA.flatten, w ∈ t.flatten := fun w hw => by rw [hfl]; exact List.mem_append_left _ hw
  have inC : ∀ w ∈ tC.flatten, w ∈ t.flatten := fun w hw => by
    rw [hfl, hfl1]; exact List.mem_append_right _ (List.mem_append_right _ hw)
  have hA' := expand_agree hA fun w hw => hagree w (inA w hw)
  have hC' := expand_agree hC fun w hw => hagree w (inC w hw)
  obtain ⟨tC', hC'', hCz⟩ := expand_elsewhere (f' := path) (fun _ => rfl) (0 + (physLines pre).length) hC'
  obtain ⟨t2, ht2, hf2⟩ := expand_join hA' hC''
  rw [← physLines_more _ pre hr.preWhole] at ht2
  obtain ⟨tB', hB', hBin⟩ := expand_plain (fs := fs') (inc := opens) (f := path) (ls := physLines new) (n := (physLines pre).length)
    fun k l hl => by
      obtain ⟨c, hc⟩ := hi k l hl
      exact lineModel_file (lineTells_model hc)
  rw [Nat.zero_add] at hB
  have := expand_same hB hB'
  subst this
  rw [hfl1] at hfl
  obtain ⟨ta, tbc, rfl, ha1, hbc⟩ := told_split (hread.lines.trans hfl)
  obtain ⟨tb, tc, rfl, hb1, hc1⟩ := told_split hbc
  have hmute : ∀ x ∈ tb, Mute x := by
    intro x hx
    have hw : x.line ∈ tB.flatten := by rw [← hb1]; exact List.mem_map.2 ⟨x, hx, rfl⟩
    obtain ⟨k, l, hl, hw⟩ := hBin _ hw
    obtain ⟨c, hc⟩ := hi k l hl
    have hx' := hread.models x (List.mem_append_right _ (List.mem_append_left _ hx))
    rw [hw, lineTells_model hc] at hx'
    simp only [Option.some.injEq, Prod.mk.injEq] at hx'
    refine ⟨hx'.1.symm, fun e he => ?_⟩
    rw [← hx'.2] at he
    cases he
    rfl
  rw [wholeTell_skip hmute] at hv
  have hz : Zips Elsewhere ((ta ++ tc).map (·.line)) t2.flatten := by
    rw [List.map_append, ha1, hc1, hf2]
    exact zips_join (zips_self (fun _ => ⟨rfl, fun _ => rfl⟩) _) hCz
  obtain ⟨told', e1, e2, e3⟩ := tolds_elsewhere (fs := fs) (φ := textOnly) textOnly_of (told := ta ++ tc) (fun x hx => hmod x (by
    rcases List.mem_append.1 hx with hx | hx
    · exact List.mem_append_left _ hx
    · exact List.mem_append_right _ (List.mem_append_right _ hx))) hz
  obtain ⟨st', hv', -⟩ := wholeTell_same e3 hv
  obtain ⟨log', -, hl2⟩ := check_of_tells (content := pre ++ ([] ++ post)) ⟨ht2, e1, e2⟩ hv'
  exact ⟨_, log', st', hl2⟩

/-- C118: the same, when such lines are taken away. -/
theorem C118_removed (fs fs' : FS) (env : DEnv) (sp : Option Str) (n : Nat) (path : Str) (pre new post : Bytes)
    (hr : Replaced fs fs' path pre [] new post) (hi : Idle fs' path (physLines pre).length new)
    (log : List Msg) (st : DState) (h : checkDialplan fs' env sp n path (pre ++ (new ++ post)) = ⟨log, .ok (some st)⟩) :
    ∃ k log' st', (∀ n', k ≤ n' → checkDialplan fs env sp n' path (pre ++ ([] ++ post)) = ⟨log', .ok (some st')⟩) ∧
      substance log = (substance log').map (loweredMsg path (physLines pre).length (physLines new).length) ∧
      dialplanText st'.dp = dialplanText st.dp := by
  obtain ⟨k, log', st', hk⟩ := removed_ok fs fs' env sp n path pre new post hr hi log st h
  obtain ⟨k2, log2, st2, hk2, hl2, hd2⟩ := C118_inserted fs fs' env sp k path pre new post hr hi log' st' (hk k (Nat.le_refl _))
  obtain ⟨t, told, hread, hv, hs⟩ := check_tells h
  obtain ⟨log3, hs3, hk3⟩ := check_of_tells hread hv
  have e := (hk2 (max k2 (t.flatten.length + 1)) (Nat.le_max_left ..)).symm.trans (hk3 _ (Nat.le_max_right ..))
  simp only [Res.mk.injEq, Except.ok.injEq, Option.some.injEq] at e
  obtain ⟨rfl, rfl⟩ := e
  exact ⟨k, log', st', hk, by rw [hs, ← hs3, hl2], hd2.symm⟩

/-! ### Lines with nothing but a comment -/

/-- A line with nothing on it. -/
theorem idle_blank (fs : FS) (path : Str) (n : Nat) : Idle fs path n (utf8 (c! "\n")) := by
  intro k l hl
  have e : physLines (utf8 (c! "\n")) = [utf8 (c! "\n")] := by decide +kernel
  rw [e] at hl
  have hk : l = utf8 (c! "\n") := by
    have := List.mem_of_getElem? hl
    simpa using this
  subst hk
  refine ⟨false, ?_⟩
  have h : lineModel fs ⟨path, (n + k : Nat) + 1, utf8 (c! "\n")⟩ =
      some ([], .elem (.empty false ⟨path, (n + k : Nat) + 1, utf8 (c! "\n")⟩)) := by
    rfl
  exact lineTells_exists h

/-- A line with nothing but a comment. -/
theorem idle_comment (fs : FS) (path : Str) (n : Nat) (c : Str) (h3 : ∀ x ∈ c, 0x20 ≤ x.toNat) (h4 : ¬ EndsBlank c) :
    Idle fs path n (utf8 (';' :: c ++ ['\n'])) := by
  have hno : ∀ {P : Prop} {m : Msg}, ¬ P → Spec.Tells P m [] := fun h => .inr ⟨h, rfl⟩
  have hc : '\n' ∉ ';' :: c := by
    intro h
    rcases List.mem_cons.1 h with h | h
    · cases h
    · exact absurd (h3 _ h) (by decide)
  have e : physLines (utf8 (';' :: c ++ ['\n'])) = [utf8 (';' :: c ++ ['\n'])] := by
    rw [utf8_append]
    exact physLines_append (rest := []) _ (lf_not_mem hc)
  obtain ⟨⟨x, y, hxy, k1⟩, k2, k3, k4, k5⟩ := comment_parts (a := []) (by simp [AllEscaped]) (by simp) h3 h4
  obtain ⟨rfl, rfl⟩ : x = [] ∧ y = [] := by
    have := hxy.1
    simpa [unescape] using this.symm
  rw [List.nil_append] at k1 k2 k3 k4 k5
  intro k l hl
  rw [e] at hl
  have hk : l = utf8 (';' :: c ++ ['\n']) := by
    have := List.mem_of_getElem? hl
    simpa using this
  subst hk
  refine ⟨true, ?_⟩
  have ht : Terminator ['\n'] := .inr (.inl rfl)
  have := LineTells.mk (fs := fs) (w := ⟨path, (n + k : Nat) + 1, utf8 (';' :: c ++ ['\n'])⟩) (bad := false) (.utf8 _ rfl)
    (unterminated_of ht k5) k1 (hno (by simp)) (hno (by
      rw [terminator_control ht, k4]
      rintro ⟨x, hx, -⟩
      cases hx)) (hno k2) (hno (by
      rw [k3]
      rintro ⟨u, x, hu, -⟩
      simp at hu)) (.blank (by simp [Spaces]))
  simpa using this

/-- Such lines, one below the other. -/
theorem idle_more {fs : FS} {path : Str} {n : Nat} {a b : Bytes} (hw : WholeLines a) (ha : Idle fs path n a)
    (hb : Idle fs path (n + (physLines a).length) b) : Idle fs path n (a ++ b) := by
  intro k l hl
  rw [physLines_more _ a hw] at hl
  by_cases hk : k < (physLines a).length
  · rw [List.getElem?_append_left hk] at hl
    exact ha k l hl
  · rw [List.getElem?_append_right (by omega)] at hl
    have := hb _ l hl
    rwa [Nat.add_assoc, Nat.add_sub_cancel' (by omega)] at this

/-! ## C117 -/

theorem sameDir_of {f f' : Str} (h : ∀ name p, PathFrom f name p ↔ PathFrom f' name p) (name : Str) :
    pathJoin (dirname f') name = pathJoin (dirname f) name := by
  obtain ⟨p, hp⟩ := pathFrom_exists f name
  rw [← pathFrom_eq hp, ← pathFrom_eq ((h name p).1 hp)]

/-- C117: a file can be written in place of the line that includes it, without a change in what is said and in the dialplan
that is read, apart from line numbers, line terminators and the number of blank lines. -/
theorem C117_inlined (fs fs' : FS) (env : DEnv) (sp : Option Str) (n : Nat) (path q : Str) (pre line inner post : Bytes)
    (hr : Inlined fs fs' path q pre line inner post)
    (log : List Msg) (st : DState) (h : checkDialplan fs env sp n path (pre ++ (line ++ post)) = ⟨log, .ok (some st)⟩) :
    ∃ k log' st', (∀ n', k ≤ n' → checkDialplan fs' env sp n' path (pre ++ (inner ++ post)) = ⟨log', .ok (some st')⟩) ∧
      Zips SameWords (substance log) (substance log') ∧ dialplanText st'.dp = dialplanText st.dp := by
  obtain ⟨t, told, hread, hv, hs⟩ := check_tells h
  obtain ⟨-, hagree, hmod⟩ := replaced_agree hr.before hr.others hread
  have hasks := lineTells_model hr.asks
  have hopens : opens _ = some q := lineModel_file hasks
  have hexp := hread.expand
  rw [physLines_more _ pre hr.preWhole, physLines_more _ line hr.oldWhole, hr.one, List.singleton_append] at hexp
  obtain ⟨tA, t1, hA, h1, hfl⟩ := expand_parts _ _ hexp
  rw [Nat.zero_add] at h1
  have hpull : pulls fs opens ⟨path, ((physLines pre).length : Int) + 1, line⟩ = some (q, inner) := by
    simp [pulls, hopens, hr.there]
  cases h1 with
  | line hp _ => rw [hpull] at hp; cases hp
  | @incl _ _ _ _ p c tB tC hp hB hC =>
    rw [hpull] at hp
    cases hp
    simp only [Items.flatten] at hfl
    have inA : ∀ w ∈ tA.flatten, w ∈ t.flatten := fun w hw => by rw [hfl]; exact List.mem_append_left _ hw
    have inB : ∀ w ∈ tB.flatten, w ∈ t.flatten := fun w hw => by rw [hfl]; simp [hw]
    have inC : ∀ w ∈ tC.flatten, w ∈ t.flatten := fun w hw => by rw [hfl]; simp [hw]
    have hA' := expand_agree hA fun w hw => hagree w (inA w hw)
    have hB' := expand_agree hB fun w hw => hagree w (inB w hw)
    have hC' := expand_agree hC fun w hw => hagree w (inC w hw)
    obtain ⟨tB', hB'', hBz⟩ := expand_elsewhere (f' := path) (fun name => (sameDir_of hr.dir name).symm) (0 + (physLines pre).length) hB'
    obtain ⟨tC', hC'', hCz⟩ := expand_elsewhere (f' := path) (fun _ => rfl)
      (0 + (physLines pre).length + (physLines inner).length) hC'
    obtain ⟨t2, ht2, hf2⟩ := expand_join hB'' hC''
    obtain ⟨t3, ht3, hf3⟩ := expand_join hA' ht2
    rw [← physLines_more _ inner hr.newWhole, ← physLines_more _ pre hr.preWhole] at ht3
    obtain ⟨ta, txbc, rfl, ha1, hxbc⟩ := told_split (hread.lines.trans hfl)
    cases txbc with
    | nil => cases hxbc
    | cons x tbc =>
      simp only [List.map_cons, List.cons.injEq] at hxbc
      have hx := hread.models x (List.mem_append_right _ List.mem_cons_self)
      rw [hxbc.1, hasks] at hx
      simp only [Option.some.injEq, Prod.mk.injEq] at hx
      have hmute : ∀ y ∈ [x], Mute y := by
        intro y hy
        rw [List.mem_singleton.1 hy]
        refine ⟨hx.1.symm, fun e he => ?_⟩
        rw [← hx.2] at he
        cases he
      rw [show ta ++ x :: tbc = ta ++ ([x] ++ tbc) from rfl, wholeTell_skip hmute] at hv hs
      have hz : Zips Elsewhere ((ta ++ tbc).map (·.line)) t3.flatten := by
        rw [List.map_append, ha1, hxbc.2, hf3, hf2]
        exact zips_join (zips_self (fun _ => ⟨rfl, fun _ => rfl⟩) _) (zips_join hBz hCz)
      obtain ⟨told', e1, e2, e3⟩ := tolds_elsewhere (fs := fs') (φ := textOnly) textOnly_of (told := ta ++ tbc) (fun y hy => hmod y (by
        rcases List.mem_append.1 hy with hy | hy
        · exact List.mem_append_left _ hy
        · exact List.mem_append_right _ (List.mem_cons_of_mem _ hy))) hz
      obtain ⟨st', hv', hd, hw⟩ := wholeTell_same e3 hv
      obtain ⟨log', hl1, hl2⟩ := check_of_tells (content := pre ++ (inner ++ post)) ⟨ht3, e1, e2⟩ hv'
      exact ⟨_, log', st', hl2, by rw [hs, hl1]; exact zips_words hw, hd⟩

/-- C117: and lines can be moved to a file of their own. -/
theorem C117_outlined (fs fs' : FS) (env : DEnv) (sp : Option Str) (n : Nat) (path q : Str) (pre line inner post : Bytes)
    (hr : Inlined fs fs' path q pre line inner post)
    (log : List Msg) (st : DState) (h : checkDialplan fs' env sp n path (pre ++ (inner ++ post)) = ⟨log, .ok (some st)⟩) :
    ∃ k log' st', (∀ n', k ≤ n' → checkDialplan fs env sp n' path (pre ++ (line ++ post)) = ⟨log', .ok (some st')⟩) ∧
      Zips SameWords (substance log) (substance log') ∧ dialplanText st'.dp = dialplanText st.dp := by
  obtain ⟨t, told, hread, hv, hs⟩ := check_tells h
  obtain ⟨-, hagree, hmod⟩ := replaced_agree (fs' := fs) hr.after (fun q hq => (hr.others q hq).symm) hread
  have hasks := lineTells_model hr.asks
  have hopens : opens _ = some q := lineModel_file hasks
  have hpull : pulls fs opens ⟨path, ((physLines pre).length : Int) + 1, line⟩ = some (q, inner) := by
    simp [pulls, hopens, hr.there]
  have hexp := hread.expand
  rw [physLines_more _ pre hr.preWhole, physLines_more _ inner hr.newWhole] at hexp
  obtain ⟨tA, t1, hA, h1, hfl⟩ := expand_parts _ _ hexp
  obtain ⟨tB, tC, hB, hC, hfl1⟩ := expand_parts _ _ h1
  rw [hfl1] at hfl
  have inA : ∀ w ∈ tA.flatten, w ∈ t.flatten := fun w hw => by rw [hfl]; exact List.mem_append_left _ hw
  have inB : ∀ w ∈ tB.flatten, w ∈ t.flatten := fun w hw => by rw [hfl]; simp [hw]
  have inC : ∀ w ∈ tC.flatten, w ∈ t.flatten := fun w hw => by rw [hfl]; simp [hw]
  have hA' := expand_agree hA fun w hw => hagree w (inA w hw)
  have hB' := expand_agree hB fun w hw => hagree w (inB w hw)
  have hC' := expand_agree hC fun w hw => hagree w (inC w hw)
  obtain ⟨tB', hB'', hBz⟩ := expand_elsewhere (f' := q) (sameDir_of hr.dir) 0 hB'
  obtain ⟨tC', hC'', hCz⟩ := expand_elsewhere (f' := path) (fun _ => rfl) ((physLines pre).length + 1) hC'
  have ht2 := Expand.incl hpull hB'' hC''
  rw [← Nat.zero_add (physLines pre).length] at ht2
  obtain ⟨t3, ht3, hf3⟩ := expand_join hA' ht2
  rw [show line :: physLines post = physLines (line ++ post) by rw [physLines_more _ line hr.oldWhole, hr.one]; rfl,
    ← physLines_more _ pre hr.preWhole] at ht3
  obtain ⟨ta, tbc, rfl, ha1, hbc⟩ := told_split (hread.lines.trans hfl)
  have hz : Zips Elsewhere (ta.map (·.line)) tA.flatten := by rw [ha1]; exact zips_self (fun _ => ⟨rfl, fun _ => rfl⟩) _
  have hz' : Zips Elsewhere (tbc.map (·.line)) (tB'.flatten ++ tC'.flatten) := by rw [hbc]; exact zips_join hBz hCz
  obtain ⟨ta', a1, a2, a3⟩ := tolds_elsewhere (fs := fs) (φ := textOnly) textOnly_of (told := ta)
    (fun y hy => hmod y (List.mem_append_left _ hy)) hz
  obtain ⟨tbc', b1, b2, b3⟩ := tolds_elsewhere (fs := fs) (φ := textOnly) textOnly_of (told := tbc)
    (fun y hy => hmod y (List.mem_append_right _ hy)) hz'
  obtain ⟨st', hv', hd, hw⟩ := wholeTell_same (a := ta ++ tbc) (b := ta' ++ tbc') (by rw [List.map_append, List.map_append, a3, b3]) hv
  have hmute : ∀ y ∈ [(⟨⟨path, ((physLines pre).length : Int) + 1, line⟩, [], .file q⟩ : Told)], Mute y := by
    intro y hy
    rw [List.mem_singleton.1 hy]
    exact ⟨rfl, fun e he => by cases he⟩
  rw [← wholeTell_skip (a := ta') (c := tbc') hmute] at hv' hw
  have hread' : ReadTold fs path (pre ++ (line ++ post)) t3
      (ta' ++ ([⟨⟨path, ((physLines pre).length : Int) + 1, line⟩, [], .file q⟩] ++ tbc')) := by
    refine ⟨ht3, ?_, ?_⟩
    · rw [hf3]
      simp only [List.map_append, a1, b1, Items.flatten, List.map_cons, List.map_nil, Nat.zero_add]
      rfl
    · intro x hx
      rcases List.mem_append.1 hx with hx | hx
      · exact a2 x hx
      · rcases List.mem_append.1 hx with hx | hx
        · rw [List.mem_singleton.1 hx]; exact hasks
        · exact b2 x hx
  obtain ⟨log', hl1, hl2⟩ := check_of_tells hread' hv'
  exact ⟨_, log', st', hl2, by rw [hs, hl1]; exact zips_words hw, hd⟩

/-! ## Examples -/

def splicePre : Str := c! "[general]\n\n[globals]\n\n[a]\n"
def spliceInner : Str := c! "exten => s,1,Foo()\n same => n,Goto(9)\n"
def splicePost : Str := c! "\nexten => t,1,Goto(8)\n same => n,NoOp()\n"
def spliceFiles (mid : Str) : FS := fun p =>
  if p = c! "e.conf" then some (asciiBytes splicePre ++ (asciiBytes mid ++ asciiBytes splicePost))
  else if p = c! "inner.conf" then some (asciiBytes spliceInner)
  else none

/-- Two files with lines put in. -/
theorem example_replaced : Replaced (spliceFiles []) (spliceFiles (c! "; one\n\n;two\n")) (c! "e.conf") (asciiBytes splicePre) []
    (asciiBytes (c! "; one\n\n;two\n")) (asciiBytes splicePost) where
  before := by decide +kernel
  after := by decide +kernel
  preWhole := by unfold WholeLines; decide +kernel
  oldWhole := fun h => absurd rfl h
  newWhole := by unfold WholeLines; decide +kernel
  others := by intro q hq; simp [spliceFiles, hq]

/-- Only comments and blank lines were put in. -/
theorem example_idle : Idle (spliceFiles (c! "; one\n\n;two\n")) (c! "e.conf") (physLines (asciiBytes splicePre)).length
    (asciiBytes (c! "; one\n\n;two\n")) := by
  have e : asciiBytes (c! "; one\n\n;two\n") = utf8 (c! "; one\n") ++ (utf8 (c! "\n") ++ utf8 (c! ";two\n")) := by decide +kernel
  rw [e]
  refine idle_more (by unfold WholeLines; decide +kernel) (idle_comment _ _ _ (c! " one") (by decide) ?_)
    (idle_more (by unfold WholeLines; decide +kernel) (idle_blank _ _ _) (idle_comment _ _ _ (c! "two") (by decide) ?_)) <;>
  · rintro ⟨x, hx, hb⟩
    simp only [List.getLast?_cons_cons, List.getLast?_singleton, Option.some.injEq] at hx
    subst hx
    simp [Blank] at hb

/-- One file included by another. -/
theorem example_inlined : Inlined (spliceFiles (c! "#include \"inner.conf\"\n")) (spliceFiles spliceInner) (c! "e.conf") (c! "inner.conf")
    (asciiBytes splicePre) (asciiBytes (c! "#include \"inner.conf\"\n")) (asciiBytes spliceInner) (asciiBytes splicePost) where
  before := by decide +kernel
  after := by decide +kernel
  preWhole := by unfold WholeLines; decide +kernel
  oldWhole := by unfold WholeLines; decide +kernel
  newWhole := by unfold WholeLines; decide +kernel
  others := by intro q hq; simp [spliceFiles, hq]
  one := by decide +kernel
  asks := by
    have h : lineModel (spliceFiles (c! "#include \"inner.conf\"\n")) ⟨c! "e.conf", ((physLines (asciiBytes splicePre)).length : Int) + 1,
      asciiBytes (c! "#include \"inner.conf\"\n")⟩ = some ([], .file (c! "inner.conf")) := by rfl
    exact lineTells_exists h
  there := by decide +kernel
  dir := by
    have key : ∀ f : Str, '/' ∉ f → ∀ name p, PathFrom f name p ↔ p = name := by
      intro f hf name p
      constructor
      · intro h
        cases h with
        | absolute => rfl
        | here => rfl
        | root sl base _ e hs hall =>
          cases sl with
          | nil => exact absurd rfl hs
          | cons x sl => exact absurd (by rw [e, ← hall x List.mem_cons_self]; simp) hf
        | beside dir sl base _ e _ _ hs hall =>
          cases sl with
          | nil => exact absurd rfl hs
          | cons x sl => exact absurd (by rw [e, ← hall x List.mem_cons_self]; simp) hf
      · rintro rfl
        exact .here hf
    intro name p
    rw [key _ (by decide), key _ (by decide)]

def spliceSays (mid : Str) : Option (List (MK × Str × Int)) :=
  let r := checkDialplan (spliceFiles mid) demoEnv none 99 (c! "e.conf") (asciiBytes splicePre ++ (asciiBytes mid ++ asciiBytes splicePost))
  if r.val.toOption.join.isSome then some (r.log.map fun m => (m.kind, m.at_.filename, m.at_.lineno)) else none

-- without and with the lines put in, and without and with the file in place
example : spliceSays [] = some [(.W_DP_GOTO_CONTEXT_NOEXTEN, c! "e.conf", 7)] ∧
    spliceSays (c! "; one\n\n;two\n") = some [(.W_DP_GOTO_CONTEXT_NOEXTEN, c! "e.conf", 10)] ∧
    spliceSays (c! "#include \"inner.conf\"\n") =
      some [(.E_APP_MISSING, c! "inner.conf", 1), (.W_DP_GOTO_CONTEXT_NOEXTEN, c! "inner.conf", 2), (.W_DP_GOTO_CONTEXT_NOEXTEN, c! "e.conf", 8)] ∧
    spliceSays spliceInner =
      some [(.E_APP_MISSING, c! "e.conf", 6), (.W_DP_GOTO_CONTEXT_NOEXTEN, c! "e.conf", 7), (.W_DP_GOTO_CONTEXT_NOEXTEN, c! "e.conf", 9)] := by
  refine ⟨?_, ?_, ?_, ?_⟩ <;> decide +kernel

end ALint.Props
