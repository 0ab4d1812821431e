import Verif.Spec.Append
import Verif.Proofs.Locality
import Verif.Proofs.Jumps
import Verif.Proofs.Issued

/-!
# Writing more at the end of a file (proofs)
-/

namespace ALint.Proofs
open ALint Spec

/-! ## The lines -/

theorem physLines_more (extra : Bytes) : ∀ content : Bytes, (content ≠ [] → content.getLast? = some 10) →
    physLines (content ++ extra) = physLines content ++ physLines extra
  | [], _ => rfl
  | [b], h => by
    have : b = 10 := by simpa using h
    subst this
    simp [physLines]
  | b :: b' :: bs, h => by
    have ih := physLines_more extra (b' :: bs) fun _ => by simpa using h (by simp)
    have hne : physLines (b' :: bs) ≠ [] := by
      intro e
      have := physLines_flatten (b' :: bs)
      rw [e] at this
      cases this
    rw [List.cons_append, physLines, physLines, ih]
    by_cases hb : b = 10
    · simp [hb]
    · simp only [hb, if_false]
      obtain ⟨l, ls, hl⟩ := List.exists_cons_of_ne_nil hne
      rw [hl]
      rfl

/-! ## The reading goes on instead of ending -/

/-- More lines in the outermost file. -/
def lengthen (ls : List Bytes) : List Frame → List Frame
  | [] => []
  | [f] => [⟨f.name, f.idx, f.rest ++ ls⟩]
  | f :: g :: fs => f :: lengthen ls (g :: fs)

theorem lengthen_cons {ls : List Bytes} (f : Frame) {fs : List Frame} (h : fs ≠ []) :
    lengthen ls (f :: fs) = f :: lengthen ls fs := by
  cases fs with
  | nil => exact absurd rfl h
  | cons g fs => rfl

theorem nextLine_longer {ls : List Bytes} : ∀ {fr fr' : List Frame} {w : Where}, nextLine fr = some (w, fr') →
    nextLine (lengthen ls fr) = some (w, lengthen ls fr') ∧ fr' ≠ []
  | [], fr', w, h => by cases h
  | [⟨name, idx, rest⟩], fr', w, h => by
    cases rest with
    | nil => cases h
    | cons l ls =>
      simp only [nextLine, Option.some.injEq, Prod.mk.injEq] at h
      obtain ⟨rfl, rfl⟩ := h
      exact ⟨rfl, by simp⟩
  | ⟨name, idx, rest⟩ :: g :: fs, fr', w, h => by
    cases rest with
    | nil =>
      obtain ⟨h1, h2⟩ := nextLine_longer (ls := ls) (fr := g :: fs) h
      exact ⟨h1, h2⟩
    | cons l ls =>
      simp only [nextLine, Option.some.injEq, Prod.mk.injEq] at h
      obtain ⟨rfl, rfl⟩ := h
      exact ⟨rfl, by simp⟩

theorem runPP_longer {fs : FS} {w : Where} {ls : List Bytes} {fr : List Frame} (hfr : fr ≠ []) (p : PP) :
    runPP fs w (lengthen ls fr) p = ((runPP fs w fr p).1, (runPP fs w fr p).2.map (lengthen ls)) ∧
    ∀ fr', (runPP fs w fr p).2 = .ok fr' → fr' ≠ [] := by
  cases p with
  | nothing => exact ⟨rfl, fun fr' h => by cases h; exact hfr⟩
  | open_ path must name =>
    by_cases h0 : (path.any fun c => decide (c.toNat = 0)) = true
    · simp [runPP, h0, Except.map]
    · simp only [runPP, h0, Bool.false_eq_true, if_false]
      cases fs path with
      | none => exact ⟨rfl, fun fr' h => by cases h; exact hfr⟩
      | some c =>
        refine ⟨?_, fun fr' h => by cases h; simp⟩
        simp only [Except.map, lengthen_cons _ hfr]

/-- More lines, in the state of the reader and of the whole. -/
def RState.longer (ls : List Bytes) (r : RState) : RState := ⟨lengthen ls r.frames, r.ff⟩

theorem lineStep_longer {fs : FS} {ff : List FInfo} {w : Where} {ls : List Bytes} {fr : List Frame} (hfr : fr ≠ []) :
    lineStep fs ff (lengthen ls fr) w =
      ((lineStep fs ff fr w).1, (lineStep fs ff fr w).2.map fun q => (RState.longer ls q.1, q.2)) ∧
    ∀ r oe, (lineStep fs ff fr w).2 = .ok (r, oe) → r.frames ≠ [] := by
  unfold lineStep
  cases hf : (fileStage ff w).2 with
  | error e => simp [hf, Except.map]
  | ok x =>
    obtain ⟨ff', data, comment⟩ := x
    simp only [hf]
    cases hp : (parserStage w data comment).2 with
    | elem e => simp only; exact ⟨rfl, fun r oe h => by cases h; exact hfr⟩
    | pp p =>
      obtain ⟨h1, h2⟩ := runPP_longer (fs := fs) (w := w) (ls := ls) hfr p
      simp only [h1]
      cases hr : (runPP fs w fr p).2 with
      | error e => simp [Except.map]
      | ok fr' => simp only [Except.map]; exact ⟨rfl, fun r oe h => by cases h; exact h2 _ hr⟩

variable {σ : Type}

def PState.longer (ls : List Bytes) (st : PState σ) : PState σ := ⟨lengthen ls st.frames, st.ff, st.vsw, st.agg⟩

theorem pipeStep_longer {fs : FS} {agg : σ → Elem → Res σ} {ls : List Bytes} {st : PState σ} {r : Res (PState σ)}
    {st' : PState σ} (h : pipeStep fs agg st = some r) (hv : r.val = .ok st') :
    pipeStep fs agg (PState.longer ls st) = some ⟨r.log, .ok (PState.longer ls st')⟩ := by
  unfold pipeStep at h ⊢
  cases hn : nextLine st.frames with
  | none => rw [hn] at h; cases h
  | some p =>
    obtain ⟨w, fr⟩ := p
    obtain ⟨h1, h2⟩ := nextLine_longer (ls := ls) hn
    obtain ⟨h3, -⟩ := lineStep_longer (fs := fs) (ff := st.ff) (w := w) (ls := ls) h2
    rw [hn] at h
    simp only [Option.some.injEq] at h
    simp only [PState.longer, h1, h3, Option.some.injEq]
    cases hl : (lineStep fs st.ff fr w).2 with
    | error e =>
      rw [hl] at h
      rw [← h] at hv
      obtain ⟨_, _, h5, _⟩ := Res.bind_ok hv
      cases h5
    | ok x =>
      obtain ⟨q, oe⟩ := x
      rw [hl] at h
      cases oe with
      | none =>
        rw [← h] at hv ⊢
        obtain ⟨_, h4, h5, h6⟩ := Res.bind_ok hv
        simp only [Res.pure_val, Except.ok.injEq] at h5
        rw [← h5, h6, Res.bind_of_ok h4]
        rfl
      | some e =>
        rw [← h] at hv ⊢
        obtain ⟨_, h4, h5, h6⟩ := Res.bind_ok hv
        dsimp only at h5 h6
        obtain ⟨_, h7, h8, h9⟩ := Res.bind_ok h5
        obtain ⟨_, h10, h11, h12⟩ := Res.bind_ok h8
        simp only [Res.pure_val, Except.ok.injEq] at h11
        rw [← h11, h6, h9, h12, Res.bind_of_ok h4]
        simp only [Except.map]
        rw [Res.bind_of_ok h7, Res.bind_of_ok h10]
        rfl

theorem pipeRun_fuel {fs : FS} {agg : σ → Elem → Res σ} : ∀ (n : Nat) (st : PState σ) (a : σ),
    (pipeRun fs agg n st).val = .ok (some a) → ∀ k, pipeRun fs agg (n + k) st = pipeRun fs agg n st
  | 0, st, a, h, k => by cases h
  | n + 1, st, a, h, k => by
    rw [Nat.add_right_comm, pipeRun, pipeRun] at *
    cases hp : pipeStep fs agg st with
    | none => rfl
    | some r =>
      rw [hp] at h
      dsimp only at h ⊢
      obtain ⟨st', h1, h2, -⟩ := Res.bind_ok h
      rw [Res.bind_of_ok h1, Res.bind_of_ok h1, pipeRun_fuel n st' a h2 k]

/-- Where the shorter reading ends, the longer one goes on. -/
theorem pipeRun_longer {fs : FS} {agg : σ → Elem → Res σ} {ls : List Bytes} : ∀ (n : Nat) (st : PState σ) (a : σ),
    (pipeRun fs agg n st).val = .ok (some a) →
    ∃ steps k st1, (pipeRun fs agg n st).log = steps ++ (pipeEnd agg st1).log ∧ (pipeEnd agg st1).val = .ok a ∧
      ∀ m, pipeRun fs agg (k + m) (PState.longer ls st) =
        ⟨steps ++ (pipeRun fs agg m (PState.longer ls st1)).log, (pipeRun fs agg m (PState.longer ls st1)).val⟩
  | 0, st, a, h => by cases h
  | n + 1, st, a, h => by
    rw [pipeRun] at h ⊢
    cases hp : pipeStep fs agg st with
    | none =>
      rw [hp] at h
      dsimp only at h ⊢
      obtain ⟨a', h1, h2, h3⟩ := Res.bind_ok h
      simp only [Res.pure_val, Except.ok.injEq, Option.some.injEq] at h2
      subst h2
      exact ⟨[], 0, st, by rw [h3]; simp, h1, fun m => by rw [Nat.zero_add]; rfl⟩
    | some r =>
      rw [hp] at h
      dsimp only at h ⊢
      obtain ⟨st', h1, h2, h3⟩ := Res.bind_ok h
      obtain ⟨steps, k, st1, e1, e2, e3⟩ := pipeRun_longer (ls := ls) n st' a h2
      refine ⟨r.log ++ steps, k + 1, st1, by rw [h3, e1, List.append_assoc], e2, fun m => ?_⟩
      rw [Nat.add_right_comm, pipeRun, pipeStep_longer hp h1]
      dsimp only
      rw [Res.bind_of_ok rfl, e3]
      simp

/-! ## What is said at the end -/

theorem late_ffEnd (st : List FInfo) : ∀ m ∈ ffEnd st, SaidLast m := by
  unfold ffEnd
  induction st with
  | nil => intro m hm; cases hm
  | cons i is ih =>
    intro m hm
    simp only [popFileinfo, reduceCtorEq, if_false] at hm
    rcases List.mem_append.1 hm with hm | hm
    · unfold ffPopMsgs at hm
      split at hm
      · simp only [List.mem_singleton] at hm; subst hm; exact .inl rfl
      · split at hm
        · simp only [List.mem_singleton] at hm; subst hm; exact .inr (.inl rfl)
        · cases hm
    · exact ih m hm

theorem longGroups_kind {k : MK} {n : Nat} {gs : List (Bool × List Where)} : ∀ m ∈ longGroups k n gs, m.kind = k := by
  intro m hm
  unfold longGroups at hm
  obtain ⟨g, hg, hm⟩ := List.mem_flatMap.1 hm
  split at hm
  · split at hm
    · simp only [List.mem_singleton] at hm; subst hm; rfl
    · cases hm
  · cases hm

theorem late_eof (s : Vsw) (r : Bool) : ∀ m ∈ (s.eof r).2, SaidLast m := by
  intro m hm
  have key : ∀ gs, m ∈ longGroups .H_WSV_CTX_BETWEEN 2 gs → SaidLast m := fun gs h => .inr (.inr (.inr (.inl (longGroups_kind m h))))
  unfold Vsw.eof at hm
  dsimp only at hm
  split at hm
  · cases hm
  · split at hm
    · exact key _ hm
    · split at hm
      · rcases List.mem_append.1 hm with hm | hm
        · exact key _ hm
        · split at hm
          · simp only [List.mem_singleton] at hm; subst hm; exact .inr (.inr (.inl rfl))
          · cases hm
      · exact key _ hm

theorem late_vswEnd (st : List Vsw) (b : Bool) : ∀ m ∈ (vswEndFrom b st).2, SaidLast m := by
  induction st generalizing b with
  | nil => intro m hm; cases hm
  | cons s ss ih =>
    intro m hm
    rcases List.mem_append.1 hm with hm | hm
    · exact late_eof s b m hm
    · exact ih false m hm

theorem late_pipeEnd {env : DEnv} (st : PState DState) {a : DState} (h : (pipeEnd (dialplanStep env) st).val = .ok a) :
    ∀ m ∈ (pipeEnd (dialplanStep env) st).log, SaidLast m := by
  unfold pipeEnd at h ⊢
  obtain ⟨_, h1, h2, h3⟩ := Res.bind_ok h
  dsimp only at h2
  obtain ⟨_, h4, h5, h6⟩ := Res.bind_ok h2
  rw [h3, h6]
  have hb : (feed (dialplanStep env) st.agg (vswEnd st.vsw).1).log = [] := by
    rw [feed_filter, show (vswEnd st.vsw).1.filter notBlank = [] from vswEndFrom_blank true st.vsw]
    rfl
  rw [hb]
  intro m hm
  simp only [List.append_nil] at hm
  rcases List.mem_append.1 hm with hm | hm
  · exact LogAll.emitAll (P := SaidLast) (late_ffEnd _) m hm
  · exact LogAll.emitAll (P := SaidLast) (late_vswEnd _ _) m hm

theorem late_complete (dp : Dialplan) : LogAll SaidLast (onComplete dp) := by
  unfold onComplete
  split
  · exact .pure _
  · exact .bind (.ite (.emit (.inr (.inr (.inr (.inr (.inl rfl)))))) (.pure _)) fun _ =>
      .ite (.emit (.inr (.inr (.inr (.inr (.inl rfl)))))) (.pure _)

theorem earlyOnes_append (a b : List Msg) : earlyOnes (a ++ b) = earlyOnes a ++ earlyOnes b := List.filter_append ..

theorem earlyOnes_late {l : List Msg} (h : ∀ m ∈ l, SaidLast m) : earlyOnes l = [] := by
  unfold earlyOnes
  rw [List.filter_eq_nil_iff]
  intro m hm
  simpa using h m hm

/-! ## A file whose reading ends is not included while it is read -/

theorem expand_lines {fs : FS} {inc : Where → Option Str} {f : Str} {n : Nat} {ls : List Bytes} {t : Items}
    (h : Expand fs inc f n ls t) : ∀ (k : Nat) (l : Bytes), ls[k]? = some l → (⟨f, ((n + k : Nat) : Int) + 1, l⟩ : Where) ∈ t.flatten := by
  induction h with
  | nil => intro k l h; simp at h
  | @line f n l0 ls t hp _ ih =>
    intro k l h
    cases k with
    | zero =>
      simp only [List.getElem?_cons_zero, Option.some.injEq] at h
      subst h
      simp [Items.flatten]
    | succ k =>
      have := ih k l (by simpa using h)
      rw [show n + (k + 1) = n + 1 + k by omega]
      exact List.mem_cons_of_mem _ this
  | @incl f n l0 ls p c sub t hp _ _ _ ih =>
    intro k l h
    cases k with
    | zero =>
      simp only [List.getElem?_cons_zero, Option.some.injEq] at h
      subst h
      simp [Items.flatten]
    | succ k =>
      have := ih k l (by simpa using h)
      rw [show n + (k + 1) = n + 1 + k by omega]
      exact List.mem_cons_of_mem _ (List.mem_append_right _ this)

theorem expand_inner {fs : FS} {inc : Where → Option Str} {f : Str} {n : Nat} {ls : List Bytes} {t : Items}
    (h : Expand fs inc f n ls t) {w : Where} (hw : w ∈ t.flatten) {q : Str} {c : Bytes} (hq : pulls fs inc w = some (q, c)) :
    ∃ sub, Expand fs inc q 0 (physLines c) sub ∧ sub.flatten.length < t.flatten.length ∧
      ∀ x ∈ sub.flatten, x ∈ t.flatten := by
  induction h with
  | nil => cases hw
  | line hp _ ih =>
    rcases List.mem_cons.1 hw with rfl | hw
    · rw [hp] at hq; cases hq
    · obtain ⟨sub, h1, h2, h3⟩ := ih hw
      refine ⟨sub, h1, ?_, fun x hx => ?_⟩
      · simp only [Items.flatten, List.length_cons]; omega
      · simp [Items.flatten, h3 x hx]
  | @incl f n l ls p c' sub t hp h1 h2 ih1 ih2 =>
    simp only [Items.flatten, List.mem_cons, List.mem_append] at hw
    rcases hw with rfl | hw | hw
    · rw [hp] at hq
      cases hq
      refine ⟨sub, h1, ?_, fun x hx => ?_⟩
      · simp only [Items.flatten, List.length_cons, List.length_append]; omega
      · simp [Items.flatten, hx]
    · obtain ⟨sub', a1, a2, a3⟩ := ih1 hw
      refine ⟨sub', a1, ?_, fun x hx => ?_⟩
      · simp only [Items.flatten, List.length_cons, List.length_append]; omega
      · simp [Items.flatten, a3 x hx]
    · obtain ⟨sub', a1, a2, a3⟩ := ih2 hw
      refine ⟨sub', a1, ?_, fun x hx => ?_⟩
      · simp only [Items.flatten, List.length_cons, List.length_append]; omega
      · simp [Items.flatten, a3 x hx]

theorem expand_same {fs : FS} {inc : Where → Option Str} {f : Str} {n : Nat} {ls : List Bytes} {t t' : Items}
    (h : Expand fs inc f n ls t) (h' : Expand fs inc f n ls t') : t = t' := by
  induction h generalizing t' with
  | nil => cases h'; rfl
  | line hp _ ih =>
    cases h' with
    | line _ h2 => rw [ih h2]
    | incl hp' _ _ => rw [hp] at hp'; cases hp'
  | incl hp _ _ ih1 ih2 =>
    cases h' with
    | line hp' _ => rw [hp] at hp'; cases hp'
    | incl hp' h1 h2 =>
      rw [hp] at hp'
      cases hp'
      rw [ih1 h1, ih2 h2]

theorem expand_not_self {fs : FS} {inc : Where → Option Str} {path : Str} {content : Bytes} {t : Items}
    (hf : fs path = some content) (h : Expand fs inc path 0 (physLines content) t) {w : Where} (hw : w ∈ t.flatten) :
    inc w ≠ some path := by
  intro e
  have hq : pulls fs inc w = some (path, content) := by simp [pulls, e, hf]
  obtain ⟨sub, h1, h2, -⟩ := expand_inner h hw hq
  rw [expand_same h1 h] at h2
  omega

theorem fileRead_expand {fs : FS} {path : Str} {content : Bytes} {t : Items}
    (h : Expand fs opens path 0 (physLines content) t) {name : Str} {bytes : Bytes} (hr : FileRead fs path content name bytes) :
    ∃ sub, Expand fs opens name 0 (physLines bytes) sub ∧ ∀ x ∈ sub.flatten, x ∈ t.flatten := by
  induction hr with
  | given => exact ⟨t, h, fun x hx => hx⟩
  | @included w ms bytes bytes' n name _ h2 h3 h4 h5 ih =>
    obtain ⟨sub, s1, s2⟩ := ih
    have hw : w ∈ sub.flatten := by
      have := expand_lines s1 n w.line h3
      rw [show ((0 + n : Nat) : Int) + 1 = w.lineno by rw [h2]; omega] at this
      exact this
    have hq : pulls fs opens w = some (name, bytes') := by
      have : opens w = some name := lineModel_file (lineTells_model h4)
      simp [pulls, this, h5]
    obtain ⟨sub', a1, -, a3⟩ := expand_inner s1 hw hq
    exact ⟨sub', a1, fun x hx => s2 x (a3 x hx)⟩

theorem not_named {fs : FS} {path : Str} {content : Bytes} {t : Items} (hf : fs path = some content)
    (h : Expand fs opens path 0 (physLines content) t) : ¬ FileNamed fs path content path := by
  rintro ⟨w, ms, ⟨bytes, h1, n, h2, h3⟩, h4⟩
  obtain ⟨sub, s1, s2⟩ := fileRead_expand h h1
  have hw : w ∈ sub.flatten := by
    have := expand_lines s1 n w.line h3
    rw [show ((0 + n : Nat) : Int) + 1 = w.lineno by rw [h2]; omega] at this
    exact this
  exact expand_not_self hf h (s2 w hw) (lineModel_file (lineTells_model h4))

/-! ## The lines read -/

theorem expand_agree {fs fs' : FS} {inc : Where → Option Str} {f : Str} {n : Nat} {ls : List Bytes} {t : Items}
    (h : Expand fs inc f n ls t) (ha : ∀ w ∈ t.flatten, ∀ q, inc w = some q → fs' q = fs q) : Expand fs' inc f n ls t := by
  have key : ∀ w, (∀ q, inc w = some q → fs' q = fs q) → pulls fs' inc w = pulls fs inc w := by
    intro w hw
    unfold pulls
    cases hi : inc w with
    | none => rfl
    | some q => simp only [hw q hi]
  induction h with
  | nil => exact .nil
  | line hp _ ih =>
    refine .line (by rw [key _ (ha _ (by simp [Items.flatten]))]; exact hp) (ih fun w hw => ha w ?_)
    simp [Items.flatten, hw]
  | incl hp _ _ ih1 ih2 =>
    refine .incl (by rw [key _ (ha _ (by simp [Items.flatten]))]; exact hp) (ih1 fun w hw => ha w ?_) (ih2 fun w hw => ha w ?_)
    · simp [Items.flatten, hw]
    · simp [Items.flatten, hw]

theorem expand_split {fs : FS} {inc : Where → Option Str} {f : Str} (ls' : List Bytes) : ∀ (ls : List Bytes) {n : Nat} {t : Items},
    Expand fs inc f n (ls ++ ls') t → ∃ t1 t2, Expand fs inc f n ls t1 ∧ t.flatten = t1.flatten ++ t2
  | [], n, t, h => ⟨.nil, t.flatten, .nil, rfl⟩
  | l :: ls, n, t, h => by
    cases h with
    | line hp h2 =>
      obtain ⟨t1, t2, h3, h4⟩ := expand_split ls' ls h2
      exact ⟨_, t2, .line hp h3, by simp [Items.flatten, h4]⟩
    | incl hp h1 h2 =>
      obtain ⟨t1, t2, h3, h4⟩ := expand_split ls' ls h2
      exact ⟨_, t2, .incl hp h1 h3, by simp [Items.flatten, h4]⟩

theorem lineModel_asks {fs fs' : FS} {w : Where} (h : ∀ ms q, lineModel fs w = some (ms, .file q) → fs' q = fs q) :
    lineModel fs' w = lineModel fs w := by
  unfold lineModel at h ⊢
  cases he : (encodingStage w).2 with
  | error e => rfl
  | ok text =>
    simp only [he] at h ⊢
    generalize commentStage w (ffStage [] w text).2.2 = c at h ⊢
    unfold readModel at h ⊢
    cases hp : (parserStage w c.2.1 c.2.2).2 with
    | elem e => rfl
    | pp p =>
      cases p with
      | nothing => rfl
      | open_ path must name =>
        simp only [hp] at h ⊢
        by_cases h0 : '\x00' ∈ path
        · simp [h0]
        · simp only [h0, if_false, Option.map_some] at h ⊢
          rw [h _ _ rfl]

/-! ## The dialplan grows -/

theorem step_grows {env : DEnv} {st st' : DState} {el : Elem} (hi : DpInv st) (h : (dialplanStep env st el).val = .ok st') :
    (∀ n, ∀ s ∈ stepsOf st.dp n, s ∈ stepsOf st'.dp n) ∧
    ∃ ds, st'.dp.dests = st.dp.dests ++ ds ∧ ∀ d ∈ ds, d.at_ = el.at_ := by
  rcases step_cases hi h with hq | ⟨v, n, c, sp', us, e, ms, a, as, rfl, hcur, hsl, hc, hrd, ha, hdp⟩
  · exact ⟨fun n s hs => by rw [hq.steps]; exact hs, [], by simp [hq.dests], by simp⟩
  · have key : a.ctx.name = c.name → (∀ s ∈ c.steps, s ∈ a.ctx.steps) → ∀ m, ∀ s ∈ stepsOf st.dp m, s ∈ stepsOf st'.dp m := by
      intro h1 h2 m s hs
      obtain ⟨g1, _, g3⟩ := stepsOf_added hc h1
      rw [hdp]
      by_cases hm : m = n
      · subst hm; rw [g1]; rw [stepsOf_get hc] at hs; exact h2 s hs
      · simp only [stepsOf, g3 m hm]; exact hs
    cases ha with
    | noPat _ => exact ⟨key rfl fun s hs => hs, [], by simp [hdp, Dialplan.withAdded], by simp⟩
    | noPrio raw pat ms hp _ => exact ⟨key rfl fun s hs => hs, [], by simp [hdp, Dialplan.withAdded], by simp⟩
    | dupe raw pat ms k prev hp _ _ => exact ⟨key rfl fun s hs => hs, [], by simp [hdp, Dialplan.withAdded], by simp⟩
    | stored raw pat ms k label' ls ds pc lms hp hrp hd hpc hlc hl hjs =>
      refine ⟨key rfl fun s hs => by simp [hs], ds, by simp [hdp, Dialplan.withAdded], fun d hd => ?_⟩
      have he : e.at_ = v.at_ := (read_ext_log hrd).2.1
      have hz := completedAll_of hjs
      clear hjs key hdp
      generalize e.jumps = js at hz
      induction hz with
      | nil => cases hd
      | cons h _ ih =>
        rcases List.mem_cons.1 hd with rfl | hd
        · rw [h.place, he]; rfl
        · exact ih hd

theorem feed_grows {env : DEnv} : ∀ (es : List Elem) {st st' : DState}, DpInv st → (feed (dialplanStep env) st es).val = .ok st' →
    (∀ n, ∀ s ∈ stepsOf st.dp n, s ∈ stepsOf st'.dp n) ∧
    ∃ ds, st'.dp.dests = st.dp.dests ++ ds ∧ ∀ d ∈ ds, ∃ e ∈ es, d.at_ = e.at_
  | [], st, st', hi, h => by
    simp only [feed, Res.pure_val, Except.ok.injEq] at h
    subst h
    exact ⟨fun _ _ hs => hs, [], by simp, by simp⟩
  | e :: es, st, st', hi, h => by
    obtain ⟨s1, h1, h2, -⟩ := feed_cons_ok h
    obtain ⟨a1, ds, a2, a3⟩ := step_grows hi h1
    have hi' : DpInv s1 := step_inv hi h1
    obtain ⟨b1, ds', b2, b3⟩ := feed_grows es hi' h2
    refine ⟨fun n s hs => b1 n s (a1 n s hs), ds ++ ds', by rw [b2, a2, List.append_assoc], fun d hd => ?_⟩
    rcases List.mem_append.1 hd with hd | hd
    · exact ⟨e, by simp, a3 d hd⟩
    · obtain ⟨x, hx, hd⟩ := b3 d hd
      exact ⟨x, by simp [hx], hd⟩

/-- All that can be found before can be found afterwards. -/
structure Grown (dp dp' : Dialplan) : Prop where
  get : ∀ n c, dp.get n = some c → ∃ c', dp'.get n = some c' ∧ (∀ s ∈ c.steps, s ∈ c'.steps) ∧
    ∀ i ∈ c.includes, i ∈ c'.includes
  mem : ∀ c ∈ dp.contexts, dp.get c.name = some c

theorem grown_feed {env : DEnv} {sp : Option Str} {es more : List Elem} {st st' : DState}
    (h : (feed (dialplanStep env) (.init sp) es).val = .ok st)
    (h' : (feed (dialplanStep env) (.init sp) (es ++ more)).val = .ok st') :
    Grown st.dp st'.dp ∧ ∃ ds, st'.dp.dests = st.dp.dests ++ ds ∧ ∀ d ∈ ds, ∃ e ∈ more, d.at_ = e.at_ := by
  have hi := read_inv h
  have hi' := read_inv h'
  have hr := rel_read h
  have hr' := rel_read h'
  have hf : (feed (dialplanStep env) st more).val = .ok st' := by
    rw [feed_append, Res.bind_of_ok h] at h'
    exact h'
  obtain ⟨g1, g2⟩ := feed_grows more hi hf
  refine ⟨⟨fun n c hc => ?_, fun c hc => get_of_mem hi.names hc⟩, g2⟩
  obtain ⟨hm, hn⟩ := get_mem hc
  have hmem : n ∈ st'.dp.contexts.map (·.name) := by
    have : n ∈ st.dp.contexts.map (·.name) := List.mem_map.2 ⟨c, hm, hn⟩
    rw [hr.names, List.mem_eraseDups, List.mem_filter] at this
    rw [hr'.names, List.mem_eraseDups, List.mem_filter, headers_append]
    exact ⟨List.mem_append_left _ this.1, this.2⟩
  obtain ⟨c', hm', hn'⟩ := List.mem_map.1 hmem
  have hc' : st'.dp.get n = some c' := hn' ▸ get_of_mem hi'.names hm'
  refine ⟨c', hc', fun s hs => ?_, fun i hin => ?_⟩
  · have := g1 n s (by rw [stepsOf_get hc]; exact hs)
    rwa [stepsOf_get hc'] at this
  · rw [hr.includes c hm, hn] at hin
    rw [hr'.includes c' hm', hn']
    unfold linesOf at hin ⊢
    rw [governed_append, List.filter_append, List.map_append, List.filter_append, List.map_append]
    exact List.mem_append_left _ hin

theorem Grown.isSome {dp dp' : Dialplan} (h : Grown dp dp') {n : Str} (hn : (dp.get n).isSome) : (dp'.get n).isSome := by
  obtain ⟨c, hc⟩ := Option.isSome_iff_exists.1 hn
  obtain ⟨c', hc', -⟩ := h.get n c hc
  rw [hc']; rfl

theorem Grown.reaches {dp dp' : Dialplan} (h : Grown dp dp') {a b : Str} (hr : Reaches dp a b) : Reaches dp' a b := by
  induction hr with
  | self => exact .self
  | incl _ hi ih =>
    obtain ⟨c, i, h1, h2, h3, h4⟩ := hi
    obtain ⟨c', g1, g2, g3⟩ := h.get _ c h1
    exact .incl ih ⟨c', i, g1, g3 i h2, h3, h.isSome h4⟩

theorem Grown.jumpOk {dp dp' : Dialplan} (h : Grown dp dp') {d : Dest} (hj : JumpOk dp d) : JumpOk dp' d := by
  cases hj with
  | anyContext hv hl =>
    refine .anyContext hv fun l hp => ?_
    obtain ⟨c, hc, s, hs, hb⟩ := hl l hp
    obtain ⟨c', g1, g2, -⟩ := h.get _ c (h.mem c hc)
    exact ⟨c', (get_mem g1).1, s, g2 s hs, hb⟩
  | anyExten name c hc hg hv hl =>
    obtain ⟨c', g1, g2, -⟩ := h.get _ c hg
    refine .anyExten name c' hc g1 hv fun l hp => ?_
    obtain ⟨s, hs, hb⟩ := hl l hp
    exact ⟨s, g2 s hs, hb⟩
  | step name x c s hc hg hx hs =>
    obtain ⟨c1, g1, -⟩ := h.get _ c hg
    obtain ⟨c2, k1, k2, k3, k4⟩ := hs
    obtain ⟨c3, m1, m2, -⟩ := h.get _ c2 k1
    have e := (get_mem m1).2
    exact .step name x c1 s hc g1 hx ⟨c3, by rw [e]; exact m1, by rw [e]; exact h.reaches k2, m2 s k3, k4⟩

end ALint.Proofs
