import Verif.Spec.Wording
import Verif.Proofs.Bare
import Verif.Proofs.LineLog
import Verif.Proofs.VgPlain

/-!
# What of a line matters (proofs)
-/

namespace ALint.Proofs
open ALint Spec

/-- What is compared of the messages. -/
def seen (strict : Bool) (ms : List Msg) : List Msg := (ms.filter fun m => strict || !terminatorKind m.kind).map bareM

variable {strict : Bool}

theorem seen_append (a b : List Msg) : seen strict (a ++ b) = seen strict a ++ seen strict b := by simp [seen]

theorem seen_of_bare {a b : List Msg} (h : a.map bareM = b.map bareM) : seen strict a = seen strict b := by
  have : ∀ l : List Msg, seen strict l = (l.map bareM).filter fun m => strict || !terminatorKind m.kind := by
    intro l
    unfold seen
    rw [List.filter_map]
    rfl
  rw [this, this, h]

theorem tells_bare {p q : Prop} {k : MK} {w w' : Where} {a b : List Msg} (hw : bareW w = bareW w') (hpq : p ↔ q)
    (ha : Spec.Tells p (plainMsg k w) a) (hb : Spec.Tells q (plainMsg k w') b) : a.map bareM = b.map bareM := by
  rcases ha with ⟨h1, rfl⟩ | ⟨h1, rfl⟩ <;> rcases hb with ⟨h2, rfl⟩ | ⟨h2, rfl⟩
  · simp [plainMsg, bareM, reM, hw]
  · exact absurd (hpq.1 h1) h2
  · exact absurd (hpq.2 h2) h1
  · rfl

/-! ## File formats -/

/-- Corresponding entries. -/
structure FiRel (strict : Bool) (i i' : FInfo) : Prop where
  name : i'.name = i.name
  rest : strict = true → i'.isDos = i.isDos ∧ i'.hasLf = i.hasLf ∧ bareW i'.last = bareW i.last

def FfRel (strict : Bool) : List FInfo → List FInfo → Prop := Zips (FiRel strict)

theorem popMsgs_rel {i i' : FInfo} (h : FiRel strict i i') : seen strict (ffPopMsgs i) = seen strict (ffPopMsgs i') := by
  cases strict with
  | true =>
    obtain ⟨h1, h2, h3⟩ := h.rest rfl
    unfold ffPopMsgs
    rw [h1, h2]
    split
    · simp [seen, bareM, reM, h3]
    · split
      · simp [seen, bareM, reM, h3]
      · rfl
  | false =>
    have : ∀ i : FInfo, seen false (ffPopMsgs i) = [] := by
      intro i
      unfold ffPopMsgs
      split
      · rfl
      · split <;> rfl
    rw [this, this]

theorem pop_rel (stop : Option Str) {a b : List FInfo} (h : FfRel strict a b) :
    seen strict (popFileinfo stop a).1 = seen strict (popFileinfo stop b).1 ∧
    FfRel strict (popFileinfo stop a).2 (popFileinfo stop b).2 := by
  induction h with
  | nil => exact ⟨rfl, .nil⟩
  | cons hi hs ih =>
    unfold popFileinfo
    rw [hi.name]
    split
    · exact ⟨rfl, .cons hi hs⟩
    · simp only [seen_append, popMsgs_rel hi, ih.1, true_and]
      exact ih.2

theorem any_rel {a b : List FInfo} (h : FfRel strict a b) (n : Str) :
    (a.any fun j => j.name = n) = b.any fun j => j.name = n := by
  induction h with
  | nil => rfl
  | cons hi hs ih => simp only [List.any_cons, hi.name, ih]

/-- Corresponding results of `ffEnter`. -/
structure EnterRel (strict : Bool) (x y : List Msg × Option FInfo × List FInfo) : Prop where
  msgs : seen strict x.1 = seen strict y.1
  top : (x.2.1 = none ∧ y.2.1 = none) ∨ ∃ i i', x.2.1 = some i ∧ y.2.1 = some i' ∧ FiRel strict i i'
  rest : FfRel strict x.2.2 y.2.2

theorem enter_rel {a b : List FInfo} (h : FfRel strict a b) {w w' : Where} (hw : w'.filename = w.filename) :
    EnterRel strict (ffEnter a w) (ffEnter b w') := by
  unfold ffEnter
  rw [hw]
  cases h with
  | nil => exact ⟨rfl, .inl ⟨rfl, rfl⟩, .nil⟩
  | cons hi hs =>
    rename_i i i' is is'
    have hp := pop_rel (some w.filename) (Zips.cons hi hs)
    have ha := any_rel (Zips.cons hi hs) w.filename
    dsimp only
    rw [hi.name, ha]
    split
    · exact ⟨rfl, .inr ⟨i, i', rfl, rfl, hi⟩, hs⟩
    · split
      · obtain ⟨h1, h2⟩ := hp
        revert h1 h2
        generalize popFileinfo (some w.filename) (i :: is) = x
        generalize popFileinfo (some w.filename) (i' :: is') = y
        obtain ⟨m, x⟩ := x
        obtain ⟨m', y⟩ := y
        intro h1 h2
        dsimp only at h1 h2 ⊢
        cases h2 with
        | nil => exact ⟨h1, .inl ⟨rfl, rfl⟩, .nil⟩
        | cons hj hjs => exact ⟨h1, .inr ⟨_, _, rfl, rfl, hj⟩, hjs⟩
      · exact ⟨rfl, .inl ⟨rfl, rfl⟩, .cons hi hs⟩

theorem ffStage_rel {a b : List FInfo} (h : FfRel strict a b) {w w' : Where} (hw : bareW w' = bareW w) {d d' : Str}
    (hd : strict = true → endsWith (c! "\r\n") d' = endsWith (c! "\r\n") d ∧ endsWith (c! "\n") d' = endsWith (c! "\n") d) :
    seen strict (ffStage a w d).2.1 = seen strict (ffStage b w' d').2.1 ∧ FfRel strict (ffStage a w d).1 (ffStage b w' d').1 := by
  have hn : w'.filename = w.filename := by
    have := congrArg Where.filename hw
    exact this
  obtain ⟨h1, h2, h3⟩ := enter_rel h hn
  unfold ffStage
  dsimp only
  refine ⟨?_, .cons ⟨hn, ?_⟩ h3⟩
  · rw [seen_append, seen_append, h1]
    congr 1
    cases strict with
    | true =>
      obtain ⟨e1, e2⟩ := hd rfl
      have : ∀ (p q r : Bool), seen true (if p then if q then [⟨.W_FILE_DOS_BARELF, w, [], none⟩] else []
          else if r then [⟨.W_FILE_UNIX_CRLF, w, [], none⟩] else []) = seen true (if p then
            if q then [⟨.W_FILE_DOS_BARELF, w', [], none⟩] else []
          else if r then [⟨.W_FILE_UNIX_CRLF, w', [], none⟩] else []) := by
        intro p q r
        cases p <;> cases q <;> cases r <;> simp [seen, bareM, reM, hw]
      rcases h2 with ⟨e3, e4⟩ | ⟨i, i', e3, e4, hi⟩
      · simp only [e1, e2, e3, e4]; exact this _ _ _
      · simp only [e1, e2, e3, e4, (hi.rest rfl).1]; exact this _ _ _
    | false =>
      have : ∀ (p q r : Bool) (w : Where), seen false (if p then if q then [⟨.W_FILE_DOS_BARELF, w, [], none⟩] else []
          else if r then [⟨.W_FILE_UNIX_CRLF, w, [], none⟩] else []) = [] := by
        intro p q r w
        cases p <;> cases q <;> cases r <;> rfl
      rw [this, this]
  · intro hs
    obtain ⟨e1, e2⟩ := hd hs
    refine ⟨?_, e2, hw⟩
    rcases h2 with ⟨e3, e4⟩ | ⟨i, i', e3, e4, hi⟩
    · rw [e3, e4]; dsimp only; rw [e1, e2]
    · rw [e3, e4]; exact (hi.rest hs).1

/-! ## A line -/

theorem endsWith_iff (t d : Str) : endsWith t d = true ↔ ∃ s, d = s ++ t := by
  unfold endsWith
  rw [List.isPrefixOf_iff_prefix, List.reverse_prefix]
  constructor
  · rintro ⟨s, e⟩; exact ⟨s, e.symm⟩
  · rintro ⟨s, e⟩; exact ⟨s, e.symm⟩

theorem endsWith_congr {t d d' : Str} (h : (∃ s, d = s ++ t) ↔ ∃ s, d' = s ++ t) : endsWith t d' = endsWith t d := by
  rw [Bool.eq_iff_iff, endsWith_iff, endsWith_iff, h]

/-- What reading a line comes to, for two lines in which the same is written. -/
theorem fileStage_rel {a b : List FInfo} (h : FfRel strict a b) {w w' : Where} (hw : bareW w' = bareW w)
    (hl : SameLine strict w.line w'.line) :
    seen strict (fileStage a w).1 = seen strict (fileStage b w').1 ∧
    ((∃ e, (fileStage a w).2 = .error e ∧ (fileStage b w').2 = .error e) ∨
      ∃ ff ff' data c c', (fileStage a w).2 = .ok (ff, data, c) ∧ (fileStage b w').2 = .ok (ff', data, c') ∧ FfRel strict ff ff' ∧
        c.isEmpty = c'.isEmpty) := by
  have key : ∀ {text text' body body' data comment comment' : Str} {bad : Bool},
      DecodesAs w.line text bad → DecodesAs w'.line text' bad → (HasControl text ↔ HasControl text') →
      (strict = true → (CrLf text ↔ CrLf text') ∧ (Lf text ↔ Lf text')) →
      Unterminated text body → Unterminated text' body' →
      Content body data comment → Content body' data comment' → (comment = [] ↔ comment' = []) →
      (EndsBlank body ↔ EndsBlank body') → (Glued body ↔ Glued body') →
      seen strict (fileStage a w).1 = seen strict (fileStage b w').1 ∧
      ∃ ff ff' data c c', (fileStage a w).2 = .ok (ff, data, c) ∧ (fileStage b w').2 = .ok (ff', data, c') ∧ FfRel strict ff ff' ∧
        c.isEmpty = c'.isEmpty := by
    intro text text' body body' data comment comment' bad h1 h1' hctl hends h2 h2' h3 h3' hcom heb hgl
    obtain ⟨e1, u1⟩ := decodesAs_stage h1
    obtain ⟨e1', u1'⟩ := decodesAs_stage h1'
    obtain ⟨m3, m4, e4, u3, u4⟩ := comment_msgs w body
    obtain ⟨m3', m4', e4', u3', u4'⟩ := comment_msgs w' body'
    have e2 := unterminated_stage h2 a w
    have e2' := unterminated_stage h2' b w'
    have e3 := content_stage h3 w
    have e3' := content_stage h3' w'
    obtain ⟨f1, f2⟩ := ffStage_rel h hw (d := text) (d' := text') fun hs =>
      ⟨endsWith_congr (hends hs).1, endsWith_congr (hends hs).2⟩
    unfold fileStage
    simp only [e1, e1', e2, e2', e3, e3']
    refine ⟨?_, _, _, _, _, _, rfl, rfl, f2, ?_⟩
    · simp only [seen_append, f1, e4, e4']
      rw [seen_of_bare (tells_bare hw.symm Iff.rfl u1 u1'), seen_of_bare (tells_bare hw.symm hctl (ctrl_tells w _) (ctrl_tells w' _)),
        seen_of_bare (tells_bare hw.symm heb u3 u3'), seen_of_bare (tells_bare hw.symm hgl u4 u4')]
    · rw [Bool.eq_iff_iff, List.isEmpty_iff, List.isEmpty_iff, hcom]
  cases hl with
  | mk h1 h1' hctl hends h2 h2' h3 h3' hcom heb hgl =>
    obtain ⟨k1, k2⟩ := key h1 h1' hctl hends h2 h2' h3 h3' hcom heb hgl
    exact ⟨k1, .inr k2⟩
  | same e =>
    cases he : (encodingStage w).2 with
    | ok text =>
      obtain ⟨bad, hd⟩ := decodesAs_exists he
      obtain ⟨body, hb⟩ := unterminated_exists text
      obtain ⟨data, comment, hc⟩ := content_exists body
      obtain ⟨k1, k2⟩ := key hd (e ▸ hd) Iff.rfl (fun _ => ⟨Iff.rfl, Iff.rfl⟩) hb hb hc hc Iff.rfl Iff.rfl Iff.rfl
      exact ⟨k1, .inr k2⟩
    | error x =>
      have hx : (encodingStage w').2 = .error x ∧ (encodingStage w).1.map bareM = (encodingStage w').1.map bareM := by
        revert he
        unfold encodingStage
        rw [← e]
        cases utf8Decode w.line with
        | some s => intro h; cases h
        | none =>
          dsimp only
          intro h
          refine ⟨?_, by simp [bareM, reM, hw]⟩
          rw [← h]
      unfold fileStage
      simp only [he, hx.1]
      exact ⟨seen_of_bare hx.2, .inl ⟨x, rfl, rfl⟩⟩

/-! ## Everything read -/

/-- Corresponding files being read. -/
structure FrRel (strict : Bool) (f f' : Frame) : Prop where
  name : f'.name = f.name
  idx : f'.idx = f.idx
  rest : Zips (SameLine strict) f.rest f'.rest

theorem nextLine_rel {a b : List Frame} (h : Zips (FrRel strict) a b) :
    (nextLine a = none ∧ nextLine b = none) ∨ ∃ w w' fr fr', nextLine a = some (w, fr) ∧ nextLine b = some (w', fr') ∧
      bareW w' = bareW w ∧ SameLine strict w.line w'.line ∧ Zips (FrRel strict) fr fr' := by
  induction h with
  | nil => exact .inl ⟨rfl, rfl⟩
  | cons hf hs ih =>
    rename_i f f' fs fs'
    obtain ⟨name, idx, rest⟩ := f
    obtain ⟨name', idx', rest'⟩ := f'
    obtain ⟨h1, h2, h3⟩ := hf
    dsimp only at h1 h2 h3
    subst h1 h2
    cases h3 with
    | nil => exact ih
    | cons hl hls => exact .inr ⟨_, _, _, _, rfl, rfl, rfl, hl, .cons ⟨rfl, rfl, hls⟩ hs⟩

theorem elem_bare_of {w w' : Where} (hw : bareW w' = bareW w) {data c c' : Str} (hc : c.isEmpty = c'.isEmpty) :
    (parserStage w data c).1.map bareM = (parserStage w' data c').1.map bareM ∧
    ((∃ e e', (parserStage w data c).2 = .elem e ∧ (parserStage w' data c').2 = .elem e' ∧ bareE e' = bareE e) ∨
      ∃ p, (parserStage w data c).2 = .pp p ∧ (parserStage w' data c').2 = .pp p) := by
  obtain ⟨a1, a2, a3⟩ := parserStage_bare w data c c' hc
  obtain ⟨b1, b2, b3⟩ := parserStage_bare w' data c' c' rfl
  rw [hw] at b1 b2 b3
  refine ⟨a1.symm.trans b1, ?_⟩
  cases h : (parserStage w data c).2 with
  | elem e =>
    left
    have h1 := a2 e h
    cases h' : (parserStage w' data c').2 with
    | elem e' =>
      have h2 := b2 e' h'
      rw [h1] at h2
      simp only [LineOut.elem.injEq] at h2
      exact ⟨e, e', rfl, rfl, h2.symm⟩
    | pp p =>
      have h2 := b3 p h'
      rw [h1] at h2
      cases h2
  | pp p =>
    right
    have h1 := a3 p h
    cases h' : (parserStage w' data c').2 with
    | elem e' =>
      have h2 := b2 e' h'
      rw [h1] at h2
      cases h2
    | pp p' =>
      have h2 := b3 p' h'
      rw [h1] at h2
      cases h2
      exact ⟨p, rfl, rfl⟩

variable {fs fs' : FS}

theorem openFrame_rel {q : Str} {c c' : Bytes} (h : Zips (SameLine strict) (physLines c) (physLines c')) :
    FrRel strict (openFrame q c) (openFrame q c') := ⟨rfl, rfl, h⟩

theorem runPP_rel (hf : SameFiles (SameLine strict) fs fs') {w w' : Where} (hw : bareW w' = bareW w) {a b : List Frame}
    (h : Zips (FrRel strict) a b) (p : PP) :
    (runPP fs w a p).1.map bareM = (runPP fs' w' b p).1.map bareM ∧
    ((∃ e, (runPP fs w a p).2 = .error e ∧ (runPP fs' w' b p).2 = .error e) ∨
      ∃ fr fr', (runPP fs w a p).2 = .ok fr ∧ (runPP fs' w' b p).2 = .ok fr' ∧ Zips (FrRel strict) fr fr') := by
  cases p with
  | nothing => exact ⟨rfl, .inr ⟨_, _, rfl, rfl, h⟩⟩
  | open_ path must name =>
    by_cases h0 : (path.any fun c => decide (c.toNat = 0)) = true
    · simp only [runPP, h0, if_true]
      exact ⟨trivial, .inl ⟨_, rfl, rfl⟩⟩
    · simp only [runPP, h0, Bool.false_eq_true, if_false]
      rcases hf path with ⟨e1, e2⟩ | ⟨c, c', e1, e2, hz⟩
      · rw [e1, e2]
        refine ⟨?_, .inr ⟨_, _, rfl, rfl, h⟩⟩
        dsimp only
        split
        · simp [bareM, reM, hw]
        · rfl
      · rw [e1, e2]
        exact ⟨rfl, .inr ⟨_, _, rfl, rfl, .cons (openFrame_rel hz) h⟩⟩

theorem lineStep_rel (hf : SameFiles (SameLine strict) fs fs') {ff ff' : List FInfo} (hff : FfRel strict ff ff') {a b : List Frame}
    (hfr : Zips (FrRel strict) a b) {w w' : Where} (hw : bareW w' = bareW w) (hl : SameLine strict w.line w'.line) :
    seen strict (lineStep fs ff a w).1 = seen strict (lineStep fs' ff' b w').1 ∧
    ((∃ e, (lineStep fs ff a w).2 = .error e ∧ (lineStep fs' ff' b w').2 = .error e) ∨
      ∃ r r' oe oe', (lineStep fs ff a w).2 = .ok (r, oe) ∧ (lineStep fs' ff' b w').2 = .ok (r', oe') ∧
        Zips (FrRel strict) r.frames r'.frames ∧ FfRel strict r.ff r'.ff ∧ oe'.map bareE = oe.map bareE) := by
  obtain ⟨h1, h2⟩ := fileStage_rel hff hw hl
  unfold lineStep
  dsimp only
  rcases h2 with ⟨e, e1, e2⟩ | ⟨g, g', data, c, c', e1, e2, hg, hc⟩
  · rw [e1, e2]
    exact ⟨h1, .inl ⟨e, rfl, rfl⟩⟩
  · rw [e1, e2]
    dsimp only
    obtain ⟨h3, h4⟩ := elem_bare_of hw (data := data) hc
    rcases h4 with ⟨e, e', e3, e4, he⟩ | ⟨p, e3, e4⟩
    · rw [e3, e4]
      dsimp only
      rw [seen_append, seen_append, h1, seen_of_bare h3]
      exact ⟨rfl, .inr ⟨_, _, _, _, rfl, rfl, hfr, hg, by simp [he]⟩⟩
    · rw [e3, e4]
      dsimp only
      obtain ⟨h5, h6⟩ := runPP_rel hf hw hfr p
      rcases h6 with ⟨e, e5, e6⟩ | ⟨fr, fr', e5, e6, hz⟩
      · rw [e5, e6]
        simp only [seen_append, h1, seen_of_bare h3, seen_of_bare h5, true_and]
        exact .inl ⟨e, rfl, rfl⟩
      · rw [e5, e6]
        simp only [seen_append, h1, seen_of_bare h3, seen_of_bare h5, true_and]
        exact .inr ⟨_, _, _, _, rfl, rfl, hz, hg, rfl⟩

/-! ## The pipeline -/

variable {σ : Type} {g : σ → σ}

/-- The same is issued, as far as it is compared, and the outcomes correspond. -/
structure SeenSame {α β : Type} (strict : Bool) (R : α → β → Prop) (x : Res α) (y : Res β) : Prop where
  log : seen strict x.log = seen strict y.log
  val : (∃ e, x.val = .error e ∧ y.val = .error e) ∨ ∃ a b, x.val = .ok a ∧ y.val = .ok b ∧ R a b

namespace SeenSame
variable {α β α' β' : Type} {R : α → β → Prop} {R' : α' → β' → Prop}

theorem pure {a : α} {b : β} (h : R a b) : SeenSame strict R (.pure a) (.pure b) := ⟨rfl, .inr ⟨a, b, rfl, rfl, h⟩⟩
theorem raise (e : Exc) : SeenSame strict R (.raise e) (.raise e) := ⟨rfl, .inl ⟨e, rfl, rfl⟩⟩

theorem bind {x : Res α} {y : Res β} {f : α → Res α'} {k : β → Res β'} (h : SeenSame strict R x y)
    (hf : ∀ a b, R a b → SeenSame strict R' (f a) (k b)) : SeenSame strict R' (.bind x f) (.bind y k) := by
  obtain ⟨h1, h2⟩ := h
  rcases h2 with ⟨e, e1, e2⟩ | ⟨a, b, e1, e2, hr⟩
  · unfold Res.bind
    rw [e1, e2]
    exact ⟨h1, .inl ⟨e, rfl, rfl⟩⟩
  · obtain ⟨h3, h4⟩ := hf a b hr
    unfold Res.bind
    rw [e1, e2]
    exact ⟨by simp only [seen_append, h1, h3], h4⟩

theorem emitAll {a b : List Msg} (ha : All a (Fine Anywhere)) (hb : All b (Fine Anywhere)) (h : seen strict a = seen strict b) :
    SeenSame strict (fun _ _ => True) (.emitAll a) (.emitAll b) := by
  rw [emitAll_eq ha, emitAll_eq hb]
  exact ⟨h, .inr ⟨(), (), rfl, rfl, trivial⟩⟩

theorem of_bares {g : α → α} {x y z : Res α} (hx : Bares bareW g x z) (hy : Bares bareW g y z) :
    SeenSame strict (fun a b => g b = g a) x y := by
  have h := hx.symm.trans hy
  simp only [Res.mk.injEq] at h
  refine ⟨seen_of_bare h.1, ?_⟩
  have h2 := h.2
  cases ex : x.val with
  | error e =>
    rw [ex] at h2
    cases ey : y.val with
    | error e' => rw [ey] at h2; cases h2; exact .inl ⟨_, rfl, rfl⟩
    | ok b => rw [ey] at h2; cases h2
  | ok a =>
    rw [ex] at h2
    cases ey : y.val with
    | error e' => rw [ey] at h2; cases h2
    | ok b =>
      rw [ey] at h2
      simp only [Except.map, Except.ok.injEq] at h2
      exact .inr ⟨_, _, rfl, rfl, h2.symm⟩

end SeenSame

/-- Corresponding states. -/
structure PsRel (strict : Bool) (g : σ → σ) (s s' : PState σ) : Prop where
  frames : Zips (FrRel strict) s.frames s'.frames
  ff : FfRel strict s.ff s'.ff
  vsw : s'.vsw.map bareVsw = s.vsw.map bareVsw
  agg : g s'.agg = g s.agg

theorem feed_rel {agg : σ → Elem → Res σ} (ha : ∀ s e, Bares bareW g (agg s e) (agg (g s) (bareE e))) {s s' : σ} (hs : g s' = g s)
    {es es' : List Elem} (he : es'.map bareE = es.map bareE) :
    SeenSame strict (fun a b => g b = g a) (feed agg s es) (feed agg s' es') := by
  have h1 := feed_bare ha es s
  have h2 := feed_bare ha es' s'
  rw [hs, he] at h2
  exact .of_bares h1 h2

theorem pipeStep_rel (hf : SameFiles (SameLine strict) fs fs') {agg : σ → Elem → Res σ}
    (ha : ∀ s e, Bares bareW g (agg s e) (agg (g s) (bareE e))) {s s' : PState σ} (h : PsRel strict g s s') :
    (pipeStep fs agg s = none ∧ pipeStep fs' agg s' = none) ∨ ∃ x y, pipeStep fs agg s = some x ∧ pipeStep fs' agg s' = some y ∧
      SeenSame strict (PsRel strict g) x y := by
  unfold pipeStep
  rcases nextLine_rel h.frames with ⟨e1, e2⟩ | ⟨w, w', fr, fr', e1, e2, hw, hl, hfr⟩
  · rw [e1, e2]; exact .inl ⟨rfl, rfl⟩
  · rw [e1, e2]
    refine .inr ⟨_, _, rfl, rfl, ?_⟩
    obtain ⟨h1, h2⟩ := lineStep_rel hf h.ff hfr hw hl
    have f1 := (fine_lineStep (S := Anywhere) (ff := s.ff) (fun _ _ => trivial) (w := w) trivial fs fr).1
    have f2 := (fine_lineStep (S := Anywhere) (ff := s'.ff) (fun _ _ => trivial) (w := w') trivial fs' fr').1
    dsimp only
    refine .bind (.emitAll f1 f2 h1) fun _ _ _ => ?_
    rcases h2 with ⟨e, e3, e4⟩ | ⟨r, r', oe, oe', e3, e4, hz, hff, ho⟩
    · rw [e3, e4]; exact .raise e
    · rw [e3, e4]
      cases oe with
      | none =>
        cases oe' with
        | some e' => cases ho
        | none => exact .pure ⟨hz, hff, h.vsw, h.agg⟩
      | some e =>
        cases oe' with
        | none => cases ho
        | some e' =>
          simp only [Option.map_some, Option.some.injEq] at ho
          have v1 := vswStep_bare bareP s.vsw e
          have v2 := vswStep_bare bareP s'.vsw e'
          rw [show reE bareW e' = reE bareW e from ho, show s'.vsw.map (reVsw bareW id) = s.vsw.map (reVsw bareW id) from h.vsw, v1] at v2
          simp only [Prod.mk.injEq] at v2
          obtain ⟨v3, v4, v5⟩ := v2
          have g1 := (fine_vswStep (S := Anywhere) (st := s.vsw) (fun _ _ _ _ => trivial) (e := e) trivial).1
          have g2 := (fine_vswStep (S := Anywhere) (st := s'.vsw) (fun _ _ _ _ => trivial) (e := e') trivial).1
          dsimp only
          refine .bind (.emitAll g1 g2 (seen_of_bare v5)) fun _ _ _ => ?_
          exact .bind (feed_rel ha h.agg v4.symm) fun a b hab => .pure ⟨hz, hff, v3.symm, hab⟩

theorem pipeEnd_rel {agg : σ → Elem → Res σ} (ha : ∀ s e, Bares bareW g (agg s e) (agg (g s) (bareE e))) {s s' : PState σ}
    (h : PsRel strict g s s') : SeenSame strict (fun a b => g b = g a) (pipeEnd agg s) (pipeEnd agg s') := by
  unfold pipeEnd
  have f1 := fine_ffEnd (S := Anywhere) (st := s.ff) (fun _ _ => trivial)
  have f2 := fine_ffEnd (S := Anywhere) (st := s'.ff) (fun _ _ => trivial)
  refine .bind (.emitAll f1 f2 (pop_rel none h.ff).1) fun _ _ _ => ?_
  have v1 := vswEndFrom_bare (φ := bareW) (r := id) s.vsw true
  have v2 := vswEndFrom_bare (φ := bareW) (r := id) s'.vsw true
  rw [show s'.vsw.map (reVsw bareW id) = s.vsw.map (reVsw bareW id) from h.vsw, v1] at v2
  simp only [Prod.mk.injEq] at v2
  have g1 := (fine_vswEnd (S := Anywhere) (st := s.vsw) (fun _ _ _ _ => trivial)).1
  have g2 := (fine_vswEnd (S := Anywhere) (st := s'.vsw) (fun _ _ _ _ => trivial)).1
  dsimp only
  refine .bind (.emitAll g1 g2 (seen_of_bare v2.2)) fun _ _ _ => ?_
  exact feed_rel ha h.agg v2.1.symm

/-- Corresponding outcomes of reading a file. -/
def EndRel (g : σ → σ) (a b : Option σ) : Prop := b.map g = a.map g

theorem pipeRun_rel (hf : SameFiles (SameLine strict) fs fs') {agg : σ → Elem → Res σ}
    (ha : ∀ s e, Bares bareW g (agg s e) (agg (g s) (bareE e))) : ∀ (n : Nat) {s s' : PState σ}, PsRel strict g s s' →
    SeenSame strict (EndRel g) (pipeRun fs agg n s) (pipeRun fs' agg n s')
  | 0, s, s', _ => .pure rfl
  | n + 1, s, s', h => by
    unfold pipeRun
    rcases pipeStep_rel hf ha h with ⟨e1, e2⟩ | ⟨x, y, e1, e2, hx⟩
    · rw [e1, e2]
      exact .bind (pipeEnd_rel ha h) fun a b hab => .pure (by simp [EndRel, hab])
    · rw [e1, e2]
      exact .bind hx fun a b hab => pipeRun_rel hf ha n hab

theorem check_rel (hf : SameFiles (SameLine strict) fs fs') (env : DEnv) (sp : Option Str) (n : Nat) (path : Str)
    {content content' : Bytes} (hc : Zips (SameLine strict) (physLines content) (physLines content')) :
    SeenSame strict (EndRel bareSt) (checkDialplan fs env sp n path content) (checkDialplan fs' env sp n path content') := by
  unfold checkDialplan
  refine .bind (pipeRun_rel hf (dialplanStep_bare env) n
    ⟨.cons (openFrame_rel hc) .nil, .nil, rfl, rfl⟩) fun a b hab => ?_
  cases a with
  | none =>
    cases b with
    | none => exact .pure rfl
    | some b => cases hab
  | some a =>
    cases b with
    | none => cases hab
    | some b =>
      simp only [EndRel, Option.map_some, Option.some.injEq] at hab
      have hdp : reDp bareW b.dp = reDp bareW a.dp := congrArg DState.dp hab
      have hds : b.dp.dests.map (reDest bareW) = a.dp.dests.map (reDest bareW) := congrArg Dialplan.dests hdp
      have h1 := onComplete_bare (φ := bareW) (fun _ => rfl) a.dp
      have h2 := onComplete_bare (φ := bareW) (fun _ => rfl) b.dp
      have h3 := walkDests_bare (φ := bareW) a.dp env.depth a.dp.dests
      have h4 := walkDests_bare (φ := bareW) b.dp env.depth b.dp.dests
      rw [hdp] at h2
      rw [hdp, hds] at h4
      dsimp only
      refine .bind (.of_bares h1 h2) fun _ _ _ => ?_
      exact .bind (.of_bares h3 h4) fun _ _ _ => .pure (by simp [EndRel, hab])

end ALint.Proofs
