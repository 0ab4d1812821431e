import Verif.Proofs.Vg
import Verif.Proofs.Supplies

/-!
# Ordinary files are read the same with and without `vg`
-/

namespace ALint
open Spec

theorem rstripP_mem {p : Char → Bool} {s : Str} {c : Char} (h : c ∈ rstripP p s) : c ∈ s := by
  obtain ⟨post, e, _, _⟩ := rstripP_spec p s
  rw [e]
  exact List.mem_append_left _ h

theorem Spec.Ordinary.rstrip {s : Str} (h : Ordinary s) : Ordinary (rstripP isBlank s) := by
  obtain ⟨post, e, _, _⟩ := rstripP_spec isBlank s
  refine ⟨fun c hc => h.start c ?_, fun k => h.backslash (rstripP_mem k), fun a b hab ha => h.comment a (b ++ post) ?_ ha⟩
  · rw [e]
    obtain ⟨r, hr⟩ : ∃ r, rstripP isBlank s = c :: r := by
      cases hs : rstripP isBlank s with
      | nil => rw [hs] at hc; cases hc
      | cons x r =>
        rw [hs] at hc
        simp only [List.head?_cons, Option.some.injEq] at hc
        exact ⟨r, by rw [hc]⟩
    rw [hr]
    rfl
  · have := e
    rw [hab] at this
    simpa using this

theorem vgCut_none {s : Str} (h : ';' ∉ s) (st : List Char) : vgCut st s = (s, []) := by
  induction s generalizing st with
  | nil => rfl
  | cons c s ih =>
    simp only [List.mem_cons, not_or] at h
    rw [vgCut_cons (fun k => h.1 k.1.symm), ih h.2]

theorem vgSplit_ordinary {s : Str} (h : Ordinary s) (hb : s.getLast?.any isBlank = false) : vgSplit s = commentSplit s := by
  have hc : s.contains '\\' = false := by simpa using h.backslash
  unfold commentSplit
  rw [hc]
  simp only [Bool.false_eq_true, if_false]
  unfold simpleSplit vgSplit
  by_cases h0 : s = []
  · subst h0; rfl
  · rw [if_neg h0]
    by_cases hs : ';' ∈ s
    · obtain ⟨⟨a, b⟩, hsp⟩ := Option.ne_none_iff_exists'.1 fun k => splitOnce_none_iff.1 k hs
      obtain ⟨e, ha⟩ := splitOnce_some hsp
      have hn := h.comment a b e ha
      have cut := vgCut_nests hn [] (';' :: b) (by simp) (by simp) (by simp)
      rw [← e] at cut
      have : vgCut [] (';' :: b) = ([], ';' :: b) := by simp [vgCut]
      rw [this] at cut
      rw [cut, e, splitOnce_append ha]
      simp only [List.append_nil, moveMiddle]
      have hl : (rstripP isBlank a).length ≤ a.length := by
        obtain ⟨post, e, _, _⟩ := rstripP_spec isBlank a
        conv => rhs; rw [e]
        simp
      rw [List.drop_append_of_le_length hl]
      rfl
    · rw [splitOnce_none hs, vgCut_none hs]
      have e : rstripP isBlank s = s := rstrip_id hb
      simp only [moveMiddle, e, List.drop_length, List.append_nil]
      cases s.getLast? <;> simp

theorem rstrip_end (s : Str) : (rstripP isBlank s).getLast?.any isBlank = false := by
  obtain ⟨post, _, _, h⟩ := rstripP_spec isBlank s
  cases hl : (rstripP isBlank s).getLast? with
  | none => rfl
  | some c => simpa using h c hl

theorem commentStage_ordinary {s : Str} (h : Ordinary s) (w : Where) : commentStage w s = (blankMsgs (w, s), contributes s) := by
  have e := vgSplit_ordinary h.rstrip (rstrip_end s)
  have e1 : ∀ x : Str, (match s.getLast? with | some c => isBlank c | none => false) = s.getLast?.any isBlank := by
    intro _; cases s.getLast? <;> rfl
  have e2 : (if s.getLast?.any isBlank = true then rstripP isBlank s else s) = rstripP isBlank s := by
    cases h : s.getLast?.any isBlank with
    | true => rfl
    | false => simp [rstrip_id h]
  unfold commentStage blankMsgs contributes
  rw [e]
  cases hl : s.getLast? with
  | none =>
    rw [hl] at e2
    simp only [Option.any_none, Bool.false_eq_true, if_false] at e2 ⊢
    rw [← e2]
  | some c =>
    rw [hl] at e2
    simp only [Option.any_some] at e2 ⊢
    rw [e2]

/-- The line at that place is ordinary. -/
def OrdAt (w : Where) : Prop := ∀ t s, Decodes w.line t → EolOff t s → Ordinary s

theorem eolOff_withoutEol (t : Str) : EolOff t (withoutEol t) := by
  unfold withoutEol
  split
  · rename_i h
    obtain ⟨s, rfl⟩ := (endsWith_iff _ _).1 h
    left
    simp
  · rename_i h
    split
    · rename_i h'
      obtain ⟨s, rfl⟩ := (endsWith_iff _ _).1 h'
      right; left
      refine ⟨by simp, fun k => h ?_⟩
      simp only [List.length_append, List.length_cons, List.length_nil, Nat.zero_add, Nat.add_sub_cancel, List.take_left'] at k
      obtain ⟨r, rfl⟩ := List.getLast?_eq_some_iff.1 k
      exact (endsWith_iff _ _).2 ⟨r, by simp⟩
    · rename_i h'
      right; right
      refine ⟨rfl, fun k => h' ?_⟩
      obtain ⟨r, rfl⟩ := List.getLast?_eq_some_iff.1 k
      exact (endsWith_iff _ _).2 ⟨r, rfl⟩

theorem decodes_of_ok {w : Where} {t : Str} (h : (encodingStage w).2 = .ok t) : Decodes w.line t := by
  unfold encodingStage at h
  cases hu : utf8Decode w.line with
  | some s => simp only [hu, Except.ok.injEq] at h; exact .inl (by rw [hu, h])
  | none =>
    simp only [hu] at h
    cases hc : cp1252Decode w.line with
    | some s => simp only [hc, Except.ok.injEq] at h; exact .inr ⟨hu, by rw [hc, h]⟩
    | none => simp [hc] at h

theorem fine_deliver_parser (l : Logical) : All (parserStage l.1 l.2.1 l.2.2).1 (Fine Anywhere) := (fine_parser trivial _ _).1

theorem vgRead_text {ff : List FInfo} {w : Where} {r : List FInfo × Str} (h : (vgRead ff w).val = .ok r) :
    ∃ t, Decodes w.line t ∧ EolOff t r.2 := by
  cases he : (encodingStage w).2 with
  | error x =>
    unfold vgRead at h
    have f1 : All (encodingStage w).1 (Fine Anywhere) := fine_encoding trivial
    simp [he, Res.bind, Res.lift, emitAll_eq f1] at h
  | ok t =>
    have hd := decodes_of_ok he
    obtain ⟨e, _⟩ := vgRead_eq ff hd (eolOff_withoutEol t)
    rw [e] at h
    cases h
    exact ⟨t, hd, eolOff_withoutEol t⟩

theorem emitAll_bind {α : Type} {ms : List Msg} (h : All ms (Fine Anywhere)) (f : Unit → Res α) :
    Res.bind (.emitAll ms) f = ⟨ms ++ (f ()).log, (f ()).val⟩ := by
  rw [emitAll_eq h, Res.bind_of_ok rfl]

variable {σ : Type} {fs : FS}

/-- An ordinary line through the usual chain. -/
theorem pipeStep_ordinary (agg : σ → Elem → Res σ) {st : PState σ} {w : Where} {frames : List Frame}
    (hn : nextLine st.frames = some (w, frames)) (ho : OrdAt w) :
    pipeStep fs agg st = some (.bind (vgRead st.ff w) fun r => .bind (.emitAll (blankMsgs (w, r.2))) fun _ =>
      vgDeliver fs agg ⟨frames, r.1, st.vsw, st.agg⟩ (w, contributes r.2)) := by
  unfold pipeStep
  rw [hn]
  simp only [Option.some.injEq]
  have f1 : All (encodingStage w).1 (Fine Anywhere) := fine_encoding trivial
  cases he : (encodingStage w).2 with
  | error x =>
    have : vgRead st.ff w = ⟨(encodingStage w).1, .error x⟩ := by
      unfold vgRead
      simp [he, Res.bind, Res.lift, emitAll_eq f1]
    rw [this]
    unfold lineStep fileStage
    simp [he, emitAll_eq f1, Res.bind, Res.raise]
  | ok t =>
    have hd := decodes_of_ok he
    have hs := ho t _ hd (eolOff_withoutEol t)
    obtain ⟨e, _⟩ := vgRead_eq st.ff hd (eolOff_withoutEol t)
    rw [e]
    have hc := commentStage_ordinary hs w
    have f2 := fine_ctrl (S := Anywhere) (w := w) trivial t
    have f3 := (fine_ff (S := Anywhere) (st := st.ff) (fun _ _ => trivial) (w := w) trivial t).1
    have f4 := fine_blank (w, withoutEol t)
    have f5 := fine_deliver_parser (w, contributes (withoutEol t))
    have f0 := ((f1.append f2).append f3).append f4
    unfold lineStep fileStage vgDeliver
    simp only [he, ffStage_text, hc]
    cases hp : (parserStage w (contributes (withoutEol t)).1 (contributes (withoutEol t)).2).2 with
    | elem el =>
      conv => rhs; rw [Res.bind_of_ok rfl]
      dsimp only
      rw [hp, emitAll_bind (f0.append f5), emitAll_bind f4]
      dsimp only
      rw [emitAll_bind f5]
      simp only [List.append_assoc]
    | pp pp =>
      have f6 := fine_runPP (S := Anywhere) (w := w) trivial fs frames pp
      conv => rhs; rw [Res.bind_of_ok rfl]
      dsimp only
      rw [hp]
      dsimp only
      cases hr : (runPP fs w frames pp).2 with
      | error x =>
        dsimp only
        rw [emitAll_bind ((f0.append f5).append f6), emitAll_bind f4]
        dsimp only
        rw [emitAll_bind f5, emitAll_bind f6, Res.bind_of_error rfl]
        simp [Res.raise, Res.lift]
      | ok fr =>
        dsimp only
        rw [emitAll_bind ((f0.append f5).append f6), emitAll_bind f4]
        dsimp only
        rw [emitAll_bind f5, emitAll_bind f6, Res.bind_of_ok rfl]
        simp [Res.pure, Res.lift]

/-- A line that is no directive leaves the files alone. -/
theorem deliver_shift (agg : σ → Elem → Res σ) (st : PState σ) {l : Logical} (hl : (lstripP isSpace l.2.1).head? ≠ some '#') :
    vgDeliver fs agg st l = .bind (vgDeliver fs agg ⟨[], [], st.vsw, st.agg⟩ l) fun s => .pure ⟨st.frames, st.ff, s.vsw, s.agg⟩ := by
  unfold vgDeliver
  cases hp : (parserStage l.1 l.2.1 l.2.2).2 with
  | elem e => simp only [hp, Res.bind_assoc, Res.pure_bind]
  | pp pp =>
    have : pp = .nothing := by
      unfold parserStage at hp
      cases hr : readLine l.2.1 with
      | some r => simp [hr] at hp
      | none =>
        simp only [hr, hl, if_false] at hp
        simpa using hp.symm
    subst this
    simp only [hp, Res.bind_assoc, runPP]
    congr 1

theorem deliverOpt_shift (agg : σ → Elem → Res σ) {st st1 : PState σ} {prev : Option Logical}
    (hl : ∀ l, prev = some l → (lstripP isSpace l.2.1).head? ≠ some '#') (h : (vgDeliverOpt fs agg st prev).val = .ok st1) :
    st1.frames = st.frames ∧ st1.ff = st.ff ∧ ∀ fr ff, vgDeliverOpt fs agg ⟨fr, ff, st.vsw, st.agg⟩ prev =
      ⟨(vgDeliverOpt fs agg st prev).log, .ok ⟨fr, ff, st1.vsw, st1.agg⟩⟩ := by
  cases prev with
  | none =>
    simp only [vgDeliverOpt, Res.pure_val, Except.ok.injEq] at h
    subst h
    exact ⟨rfl, rfl, fun _ _ => rfl⟩
  | some l =>
    simp only [vgDeliverOpt] at h ⊢
    rw [deliver_shift agg st (hl l rfl)] at h ⊢
    obtain ⟨s, h1, h2, h3⟩ := Res.bind_ok h
    simp only [Res.pure_val, Except.ok.injEq] at h2
    subst h2
    refine ⟨rfl, rfl, fun fr ff => ?_⟩
    rw [deliver_shift agg _ (hl l rfl), h3, Res.bind_of_ok h1]
    rfl

theorem contributes_start {s : Str} (h : Ordinary s) (hh : s.head? ≠ some '#') :
    (lstripP isSpace (contributes s).1).head? ≠ some '#' := by
  cases hc : (contributes s).1 with
  | nil => simp [lstripP]
  | cons c r =>
    have hne : c ≠ '#' := by
      rintro rfl
      exact hh ((contributes_hash s).1 (by rw [hc]; rfl))
    have : c :: r <+: s := by
      rw [← hc]
      have mv : ∀ a c : Str, (moveMiddle a c).2.1 = rstripP isBlank a := fun a c => rfl
      unfold contributes vgSplit
      split
      · exact List.nil_prefix
      · rw [mv]
        refine (rstripP_prefix _ _).trans (List.IsPrefix.trans ?_ (rstripP_prefix isBlank s))
        exact ⟨_, vgCut_append [] _⟩
    obtain ⟨x, rfl⟩ := this
    have hs := h.start c rfl
    simp [lstripP, hs, hne]

theorem deliver_in (agg : σ → Elem → Res σ) {S : Where → Prop} (hfs : ∀ q c, fs q = some c → FrameIn S (openFrame q c))
    {st st' : PState σ} {l : Logical} (hi : ∀ fr ∈ st.frames, FrameIn S fr) (h : (vgDeliver fs agg st l).val = .ok st') :
    ∀ fr ∈ st'.frames, FrameIn S fr := by
  unfold vgDeliver at h
  obtain ⟨_, _, h, _⟩ := Res.bind_ok h
  cases hp : (parserStage l.1 l.2.1 l.2.2).2 with
  | elem e =>
    simp only [hp] at h
    obtain ⟨_, _, h, _⟩ := Res.bind_ok h
    obtain ⟨s, _, h, _⟩ := Res.bind_ok h
    simp only [Res.pure_val, Except.ok.injEq] at h
    subst h
    exact hi
  | pp pp =>
    simp only [hp] at h
    obtain ⟨_, _, h, _⟩ := Res.bind_ok h
    obtain ⟨s, h1, h, _⟩ := Res.bind_ok h
    simp only [Res.pure_val, Except.ok.injEq] at h
    subst h
    exact runPP_in hfs hi h1

theorem ord_notBlank {s : Str} (h : Ordinary s) : startsBlank s = false := by
  cases s with
  | nil => rfl
  | cons c s =>
    have := h.start c rfl
    cases hb : isBlank c with
    | false => exact hb
    | true =>
      simp only [isBlank, Bool.or_eq_true, beq_iff_eq] at hb
      rcases hb with rfl | rfl <;> simp [isSpace] at this

/-- Runs over ordinary lines: one line ahead or not. -/
theorem vgRun_ordinary (agg : σ → Elem → Res σ) (hfs : ∀ q c, fs q = some c → FrameIn OrdAt (openFrame q c)) (s : σ) :
    ∀ (n : Nat) (st st1 : PState σ) (prev : Option Logical), (∀ fr ∈ st.frames, FrameIn OrdAt fr) →
      (∀ l, prev = some l → (lstripP isSpace l.2.1).head? ≠ some '#') → (vgDeliverOpt fs agg st prev).val = .ok st1 →
      (pipeRun fs agg n st1).val = .ok (some s) →
      (vgRun fs agg n st prev).val = .ok (some s) ∧
        (vgRun fs agg n st prev).log.Perm ((vgDeliverOpt fs agg st prev).log ++ (pipeRun fs agg n st1).log) := by
  intro n
  induction n with
  | zero => intro st st1 prev _ _ _ h; simp [pipeRun] at h
  | succ n ih =>
    intro st st1 prev hi hl hd h
    obtain ⟨k1, k2, k3⟩ := deliverOpt_shift agg hl hd
    generalize (vgDeliverOpt fs agg st prev).log = m0 at k3 ⊢
    cases hn : nextLine st.frames with
    | none =>
      have hp : pipeStep fs agg st1 = none := by unfold pipeStep; rw [k1, hn]
      have e := k3 st.frames st.ff
      unfold pipeRun at h ⊢
      unfold vgRun
      rw [hp] at h
      simp only [hp, hn, pipeEnd, k2] at h ⊢
      have f := fine_ffEnd (S := Anywhere) (st := st.ff) fun _ _ => trivial
      rw [Res.bind_assoc] at h ⊢
      rw [show (⟨st.frames, st.ff, st.vsw, st.agg⟩ : PState σ) = st from rfl] at e
      rw [e]
      rw [emitAll_bind f] at h ⊢
      rw [emitAll_bind f, Res.bind_of_ok rfl]
      dsimp only at h ⊢
      rw [Res.bind_assoc] at h ⊢
      refine ⟨h, ?_⟩
      rw [← List.append_assoc, ← List.append_assoc]
      exact List.perm_append_comm.append_right _
    | some p =>
      obtain ⟨w, frames⟩ := p
      obtain ⟨hw, hfr⟩ := nextLine_in hi hn
      have hp := pipeStep_ordinary (fs := fs) agg (st := st1) (by rw [k1]; exact hn) hw
      unfold pipeRun at h ⊢
      rw [hp] at h ⊢
      unfold vgRun
      rw [hn]
      dsimp only at h ⊢
      rw [k2] at h ⊢
      rw [Res.bind_assoc] at h ⊢
      obtain ⟨r, h1, h2, h3⟩ := Res.bind_ok h
      rw [h3, Res.bind_of_ok h1]
      rw [Res.bind_assoc] at h2 ⊢
      have fb := fine_blank (w, r.2)
      rw [emitAll_bind fb] at h2 ⊢
      obtain ⟨t, ht1, ht2⟩ := vgRead_text h1
      have ho := hw t r.2 ht1 ht2
      dsimp only at h2 ⊢
      obtain ⟨st2, h4, h5, h6⟩ := Res.bind_ok h2
      rw [h6]
      unfold vgRound
      rw [ord_notBlank ho, Bool.and_false, if_neg (by simp), k3, vgLine_eq]
      dsimp only
      have perm : ∀ a b c : List Msg, (a ++ (b ++ c)).Perm (b ++ (a ++ c)) := by
        intro a b c
        rw [← List.append_assoc, ← List.append_assoc (as := b)]
        exact List.perm_append_comm.append_right _
      by_cases hh : r.2.head? = some '#'
      · rw [if_pos hh]
        have hin := deliver_in agg hfs (st := ⟨frames, r.1, st1.vsw, st1.agg⟩) hfr h4
        obtain ⟨i1, i2⟩ := ih st2 st2 none hin (by simp) rfl h5
        have e : (Res.bind (⟨m0, .ok ⟨frames, r.1, st1.vsw, st1.agg⟩⟩ : Res (PState σ)) fun st =>
            .bind (.emitAll (blankMsgs (w, r.2))) fun _ =>
            .bind (vgDeliverOpt fs agg st (some (w, contributes r.2))) fun st => .pure (st, none)) =
            ⟨m0 ++ (blankMsgs (w, r.2) ++ (vgDeliver fs agg ⟨frames, r.1, st1.vsw, st1.agg⟩ (w, contributes r.2)).log),
              .ok (st2, (none : Option Logical))⟩ := by
          rw [Res.bind_of_ok rfl, emitAll_bind fb]
          simp only [vgDeliverOpt]
          rw [Res.bind_of_ok h4]
          simp [Res.pure]
        simp only [e]
        rw [Res.bind_of_ok rfl]
        refine ⟨i1, ?_⟩
        simp only [List.append_assoc]
        refine (perm _ _ _).trans ?_
        simp only [vgDeliverOpt, Res.pure, List.nil_append] at i2
        exact (((i2.append_left _).append_left _).append_left _).append_left _
      · rw [if_neg hh]
        obtain ⟨i1, i2⟩ := ih ⟨frames, r.1, st1.vsw, st1.agg⟩ st2 (some (w, contributes r.2)) hfr
          (by rintro l ⟨rfl⟩; exact contributes_start ho hh) h4 h5
        have e : (Res.bind (⟨m0, .ok ⟨frames, r.1, st1.vsw, st1.agg⟩⟩ : Res (PState σ)) fun st =>
            .bind (.emitAll (blankMsgs (w, r.2))) fun _ =>
            .bind (vgDeliverOpt fs agg st none) fun st => .pure (st, some (w, contributes r.2))) =
            ⟨m0 ++ blankMsgs (w, r.2), .ok (⟨frames, r.1, st1.vsw, st1.agg⟩, some (w, contributes r.2))⟩ := by
          rw [Res.bind_of_ok rfl, emitAll_bind fb]
          simp [vgDeliverOpt, Res.pure, Res.bind]
        simp only [e]
        rw [Res.bind_of_ok rfl]
        refine ⟨i1, ?_⟩
        simp only [List.append_assoc]
        refine (perm _ _ _).trans ?_
        exact ((i2.append_left _).append_left _).append_left _

end ALint
