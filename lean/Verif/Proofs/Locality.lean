import Verif.Spec.Locality
import Verif.Proofs.LineLog
import Verif.Proofs.Supplies

/-!
# Which files are looked at (proofs)
-/

namespace ALint.Proofs
open ALint Spec

theorem runPP_asks {fs fs' : FS} {w : Where} {frames : List Frame} {p : PP}
    (h : ∀ path must name, p = .open_ path must name → '\x00' ∉ path → fs' path = fs path) :
    runPP fs' w frames p = runPP fs w frames p ∧
    ∀ fr, (runPP fs w frames p).2 = .ok fr → fr = frames ∨
      ∃ path must name content, p = .open_ path must name ∧ '\x00' ∉ path ∧ fs path = some content ∧
        fr = openFrame path content :: frames := by
  cases p with
  | nothing => exact ⟨rfl, fun fr h => .inl (by simpa [runPP] using h.symm)⟩
  | open_ path must name =>
    by_cases h0 : (path.any fun c => decide (c.toNat = 0)) = true
    · simp [runPP, h0]
    · have h1 : '\x00' ∉ path := fun h2 => h0 (List.any_eq_true.2 ⟨_, h2, by decide⟩)
      have e := h _ _ _ rfl h1
      simp only [runPP, h0, Bool.false_eq_true, if_false, e, true_and]
      intro fr hfr
      cases hx : fs path with
      | none => simp only [hx, Except.ok.injEq] at hfr; exact .inl hfr.symm
      | some c =>
        simp only [hx, Except.ok.injEq] at hfr
        exact .inr ⟨_, _, _, c, rfl, h1, hx, hfr.symm⟩

theorem lineStep_asks {fs fs' : FS} {ff : List FInfo} {frames : List Frame} {w : Where}
    (h : ∀ ms q, lineModel fs w = some (ms, .file q) → fs' q = fs q) :
    lineStep fs' ff frames w = lineStep fs ff frames w ∧
    ∀ r oe, (lineStep fs ff frames w).2 = .ok (r, oe) → r.frames = frames ∨
      ∃ ms q content, lineModel fs w = some (ms, .file q) ∧ fs q = some content ∧
        r.frames = openFrame q content :: frames := by
  unfold lineStep fileStage
  unfold lineModel at h ⊢
  cases he : (encodingStage w).2 with
  | error e => simp [he]
  | ok text =>
    simp only [he] at h ⊢
    rw [ffStage_data [] ff w text] at h ⊢
    generalize ffStage ff w text = f at h ⊢
    obtain ⟨ff', fm, body⟩ := f
    simp only at h ⊢
    generalize commentStage w body = c at h ⊢
    obtain ⟨cm, data, comment⟩ := c
    simp only at h ⊢
    unfold readModel at h ⊢
    cases hp : (parserStage w data comment).2 with
    | elem e =>
      refine ⟨rfl, fun r oe hr => .inl ?_⟩
      simp only [Except.ok.injEq, Prod.mk.injEq] at hr
      rw [← hr.1]
    | pp p =>
      simp only [hp] at h ⊢
      obtain ⟨h1, h2⟩ := runPP_asks (fs := fs) (fs' := fs') (w := w) (frames := frames) (p := p) (by
        intro path must name e h0
        subst e
        simp only [if_neg h0, Option.map_some, Option.some.injEq, Prod.mk.injEq, Gives.file.injEq] at h
        exact h _ _ ⟨rfl, rfl⟩)
      rw [h1]
      refine ⟨rfl, fun r oe hr => ?_⟩
      cases hq : (runPP fs w frames p).2 with
      | error e => rw [hq] at hr; simp at hr
      | ok fr =>
        rw [hq] at hr
        simp only [Except.ok.injEq, Prod.mk.injEq] at hr
        rw [← hr.1]
        rcases h2 fr hq with h3 | ⟨path, must, name, content, e, h0, h4, h5⟩
        · exact .inl h3
        · subst e
          simp only [if_neg h0, Option.map_some]
          exact .inr ⟨_, path, content, rfl, h4, h5⟩

theorem lineRead_frame {fs : FS} {path : Str} {content : Bytes} {name : Str} {bytes : Bytes}
    (h : FileRead fs path content name bytes) : FrameIn (LineRead fs path content) (openFrame name bytes) := by
  intro i l hl
  exact ⟨bytes, h, i, by simp [openFrame], hl⟩

theorem pipeRun_asks {σ : Type} {fs fs' : FS} {path : Str} {content : Bytes}
    (h : AgreeOn (FileNamed fs path content) fs fs') (agg : σ → Elem → Res σ) (n : Nat) :
    ∀ st : PState σ, (∀ fr ∈ st.frames, FrameIn (LineRead fs path content) fr) →
      pipeRun fs' agg n st = pipeRun fs agg n st := by
  induction n with
  | zero => intros; rfl
  | succ n ih =>
    intro st hst
    rw [pipeRun, pipeRun]
    unfold pipeStep
    cases hn : nextLine st.frames with
    | none => rfl
    | some p =>
      obtain ⟨w, frames⟩ := p
      obtain ⟨hw, hfr⟩ := nextLine_in hst hn
      obtain ⟨h1, h2⟩ := lineStep_asks (fs := fs) (fs' := fs') (ff := st.ff) (frames := frames) (w := w)
        fun ms q hq => h q ⟨w, ms, hw, lineTells_exists hq⟩
      simp only [h1]
      have hnew : ∀ r oe, (lineStep fs st.ff frames w).2 = .ok (r, oe) →
          ∀ fr ∈ r.frames, FrameIn (LineRead fs path content) fr := by
        intro r oe hr
        rcases h2 r oe hr with e | ⟨ms, q, c, h3, h4, e⟩
        · rw [e]; exact hfr
        · rw [e]
          intro fr hf
          rcases List.mem_cons.1 hf with rfl | hf
          · obtain ⟨bytes, b1, k, b2, b3⟩ := hw
            exact lineRead_frame (.included b1 b2 b3 (lineTells_exists h3) h4)
          · exact hfr fr hf
      clear h1 h2
      generalize hR : (Res.bind _ _ : Res (PState σ)) = R
      have hR2 : ∀ st', R.val = .ok st' → ∀ fr ∈ st'.frames, FrameIn (LineRead fs path content) fr := by
        intro st' e
        rw [← hR] at e
        obtain ⟨_, _, e2, _⟩ := Res.bind_ok e
        cases hl : (lineStep fs st.ff frames w).2 with
        | error x => rw [hl] at e2; simp at e2
        | ok x =>
          obtain ⟨r, oe⟩ := x
          rw [hl] at e2
          have := hnew r oe hl
          cases oe with
          | none =>
            simp only [Res.pure_val, Except.ok.injEq] at e2
            rw [← e2]; exact this
          | some el =>
            dsimp only at e2
            obtain ⟨_, _, e3, _⟩ := Res.bind_ok e2
            obtain ⟨_, _, e4, _⟩ := Res.bind_ok e3
            simp only [Res.pure_val, Except.ok.injEq] at e4
            rw [← e4]; exact this
      unfold Res.bind
      cases hv : R.val with
      | error e => rfl
      | ok st' => dsimp only; rw [ih st' (hR2 st' hv)]

theorem readFile_asks {σ : Type} {fs fs' : FS} {path : Str} {content : Bytes}
    (h : AgreeOn (FileNamed fs path content) fs fs') (agg : σ → Elem → Res σ) (n : Nat) (ff : List FInfo) (vsw : List Vsw)
    (s : σ) : pipeRun fs' agg n ⟨[openFrame path content], ff, vsw, s⟩ = pipeRun fs agg n ⟨[openFrame path content], ff, vsw, s⟩ :=
  pipeRun_asks h agg n _ (by simpa using lineRead_frame .given)

end ALint.Proofs
