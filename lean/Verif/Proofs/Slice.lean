import Verif.Proofs.Call

namespace ALint
open ALint.Spec

/-! ### messages that can always be printed -/

theorem emit_one_ok {m : Msg} (h : ∃ r, m.render = .ok r) : (Tr.emit m).val = .ok () := by
  obtain ⟨r, h⟩ := h
  simp [Tr.emit, h, Except.map]

theorem emit_val_cases (m : Msg) : (Tr.emit m).val = .ok () ∨ ∃ e, (Tr.emit m).val = .error e := by
  cases h : (Tr.emit m).val with
  | ok u => exact .inl rfl
  | error e => exact .inr ⟨e, rfl⟩

theorem start_msg_ok (w : Where) :
    (Tr.emit (mkMsg .E_VAR_SUBSTR_START w [(c! "start", .one .none)])).val = .ok () := by
  simp [Tr.emit, mkMsg, Msg.render, renderAll, renderPiece, V.toStr, MK.template, Except.map]

theorem length_msg_ok (w : Where) (v : V) (s : Str) (h : v.toStr = .ok s) :
    (Tr.emit (mkMsg .E_VAR_SUBSTR_LENGTH w [(c! "length", .one v)])).val = .ok () := by
  simp [Tr.emit, mkMsg, Msg.render, renderAll, renderPiece, h, MK.template, Except.map]

theorem args_msg_ok (w : Where) (v : V) (s : Str) (h : v.toStr = .ok s) :
    (Tr.emit (mkMsg .E_VAR_SUBSTR_ARGS w [(c! "data", .one v)])).val = .ok () := by
  simp [Tr.emit, mkMsg, Msg.render, renderAll, renderPiece, h, MK.template, Except.map]

/-! ### the stages -/

/-- What `sliceStart` does with a text. -/
theorem sliceStart_cases (w : Where) (s l a b : V) (hs : s = .none ∨ isText s = true)
    (h : (sliceStart w s l).val = .ok (a, b)) :
    (s = .none ∧ a = .none ∧ b = l ∧ (sliceStart w s l).ev = []) ∨
    (Means s a ∧ b = l ∧ (sliceStart w s l).ev = []) ∨
    (a = .none ∧ b = .none ∧ (sliceStart w s l).ev ≠ []) := by
  cases s with
  | str t =>
    simp only [sliceStart] at h ⊢
    split at h
    · rename_i hl
      obtain ⟨n, hn, h, hev⟩ := Tr.bind_ok h
      simp [Tr.pure] at h
      obtain ⟨rfl, rfl⟩ := h
      refine .inr (.inl ⟨.inr ⟨t, n, rfl, rfl, hl, hn⟩, rfl, ?_⟩)
      rw [if_pos hl, hev]; simp [Tr.lift, Tr.pure]
    · rename_i hl
      obtain ⟨u, hu, h, hev⟩ := Tr.bind_ok h
      simp [Tr.pure] at h
      obtain ⟨rfl, rfl⟩ := h
      refine .inr (.inr ⟨rfl, rfl, ?_⟩)
      rw [if_neg hl, hev]; simp [Tr.emit]
  | none =>
    simp [sliceStart, Tr.pure] at h ⊢
    exact .inl ⟨h.1.symm, h.2.symm⟩
  | int n => simp [isText] at hs
  | lst items =>
    simp [sliceStart, Tr.pure] at h ⊢
    exact ⟨.inl ⟨rfl, h.1.symm⟩, h.2.symm⟩
  | atom k n s' l' =>
    simp [sliceStart, Tr.pure] at h ⊢
    exact ⟨.inl ⟨rfl, h.1.symm⟩, h.2.symm⟩

theorem startCovers_ok {a : V} {n : Int} {b : Bool} (h : startCovers a n = .ok b) :
    ∃ s, a = .int s ∧ (b = true ↔ s < 0 ∧ -n ≤ s) := by
  unfold startCovers at h
  split at h
  · rename_i s
    refine ⟨s, rfl, ?_⟩
    simp at h
    rw [← h]; simp
  · simp at h

theorem sliceLength_cases (w : Where) (s l a b : V) (hl : l = .none ∨ isText l = true)
    (h : (sliceLength w s l).val = .ok (a, b)) :
    (l = .none ∧ a = s ∧ b = .none ∧ (sliceLength w s l).ev = []) ∨
    (Means l b ∧ a = s ∧ (b.isVar = true ∨ ∃ m n, s = .int m ∧ b = .int n ∧ n ≠ 0 ∧ (m < 0 → m + n < 0)) ∧
      (sliceLength w s l).ev = []) ∨
    (b = .none ∧ (a = s ∨ a = .none) ∧ (sliceLength w s l).ev ≠ []) := by
  cases l with
  | str t =>
    simp only [sliceLength] at h ⊢
    split at h
    · rename_i hli
      rw [if_pos hli]
      obtain ⟨n, hn, h, hev⟩ := Tr.bind_ok h
      rw [hev]
      obtain ⟨bad, hb, h, hev⟩ := Tr.bind_ok h
      rw [hev]
      split at h
      · rename_i hbad
        rw [if_pos hbad]
        obtain ⟨u, hu, h, hev⟩ := Tr.bind_ok h
        rw [hev]
        simp [Tr.pure] at h
        obtain ⟨rfl, rfl⟩ := h
        exact .inr (.inr ⟨rfl, .inl rfl, by simp [Tr.emit]⟩)
      · rename_i hbad
        rw [if_neg hbad]
        simp [Tr.pure] at h
        obtain ⟨rfl, rfl⟩ := h
        refine .inr (.inl ⟨.inr ⟨t, n, rfl, rfl, hli, hn⟩, rfl, .inr ?_, by simp [Tr.lift, Tr.pure]⟩)
        by_cases hz : n = 0
        · simp [Tr.lift, hz] at hb; exact absurd (by first | exact hb | exact hb.symm) hbad
        · simp [Tr.lift, hz] at hb
          obtain ⟨m, hm, hi⟩ := startCovers_ok hb
          refine ⟨m, n, hm, rfl, hz, ?_⟩
          intro hneg
          have : ¬ (m < 0 ∧ -n ≤ m) := fun hh => hbad (hi.2 hh)
          omega
    · rename_i hli
      rw [if_neg hli]
      obtain ⟨u, hu, h, hev⟩ := Tr.bind_ok h
      rw [hev]
      simp [Tr.pure] at h
      obtain ⟨rfl, rfl⟩ := h
      exact .inr (.inr ⟨rfl, .inr rfl, by simp [Tr.emit]⟩)
  | none =>
    simp [sliceLength, Tr.pure] at h ⊢
    exact .inl ⟨h.1.symm, h.2.symm⟩
  | int n => simp [isText] at hl
  | lst items =>
    simp [sliceLength, Tr.pure] at h ⊢
    exact ⟨.inl ⟨rfl, h.2.symm⟩, h.1.symm, .inl (by rw [← h.2]; rfl)⟩
  | atom k n s' l' =>
    simp [sliceLength, Tr.pure] at h ⊢
    exact ⟨.inl ⟨rfl, h.2.symm⟩, h.1.symm, .inl (by rw [← h.2]; rfl)⟩

theorem sliceZero_cases (w : Where) (s l a b : V) (h : (sliceZero w s l).val = .ok (a, b)) :
    (a = s ∧ b = l ∧ (s = .int 0 → l.truthy = true) ∧ (sliceZero w s l).ev = []) ∨
    (s = .int 0 ∧ l.truthy = false ∧ a = .none ∧ b = l ∧ (sliceZero w s l).ev ≠ []) := by
  unfold sliceZero at *
  split at h
  · rename_i hc
    rw [if_pos hc]
    obtain ⟨u, hu, h, hev⟩ := Tr.bind_ok h
    rw [hev]
    simp [Tr.pure] at h
    obtain ⟨rfl, rfl⟩ := h
    simp at hc
    exact .inr ⟨hc.1, hc.2, rfl, rfl, by simp [Tr.emit]⟩
  · rename_i hc
    rw [if_neg hc]
    simp [Tr.pure] at h ⊢
    simp at hc
    exact ⟨h.1.symm, h.2.symm, hc⟩

/-- The parts, as far as used. -/
theorem sliceParts_cases (ps : List V) (hne : ps ≠ []) :
    (∃ v s, ps = [v, s] ∧ sliceParts ps = (v, s, .none, true)) ∨
    (∃ v s l, ps = [v, s, l] ∧ sliceParts ps = (v, s, l, true)) ∨
    (∃ v, ps.head? = some v ∧ sliceParts ps = (v, .none, .none, false) ∧
      ps.length ≠ 2 ∧ ps.length ≠ 3) := by
  match ps, hne with
  | [v], _ => exact .inr (.inr ⟨v, rfl, rfl, by simp, by simp⟩)
  | [v, s], _ => exact .inl ⟨v, s, rfl, rfl⟩
  | [v, s, l], _ => exact .inr (.inl ⟨v, s, l, rfl, rfl⟩)
  | v :: _ :: _ :: _ :: r, _ => exact .inr (.inr ⟨v, rfl, rfl, by simp, by simp⟩)

theorem means_none {v : V} : ¬ Means .none v := by
  rintro (⟨h, _⟩ | ⟨s, n, h, _⟩)
  · simp [V.isVar] at h
  · simp at h

theorem means_ne_none {p v : V} (h : Means p v) : v ≠ .none := by
  rcases h with ⟨h, rfl⟩ | ⟨s, n, rfl, rfl, _⟩
  · rintro rfl; simp [V.isVar] at h
  · simp

theorem means_or {p v : V} (h : Means p v) : (∃ n, v = .int n) ∨ v.isVar = true := by
  rcases h with ⟨h, rfl⟩ | ⟨s, n, rfl, rfl, _⟩
  · exact .inr h
  · exact .inl ⟨n, rfl⟩

/-- The result of splitting: nothing is issued and the parts are legal, or something is
issued and what is left is legal or missing. -/
theorem splitSlice_cases (w : Where) (data : V) (ps : List V) (hps : data.split ':' none = .ok ps)
    (hne : ps ≠ []) (ht : ∀ p ∈ ps, isText p = true) (name start length : V)
    (h : (splitSlice w data).val = .ok (name, start, length)) :
    ps.head? = some name ∧
    ((LegalSlice ps name start length ∧ (splitSlice w data).ev = []) ∨
     ((splitSlice w data).ev ≠ [] ∧ (length = .none ∨ length.truthy = false) ∧
       (start = .none ∨ GoodSlice start length))) := by
  unfold splitSlice at h ⊢
  rw [hps] at h ⊢
  obtain ⟨ps', hps', h, hev⟩ := Tr.bind_ok h
  simp [Tr.lift] at hps'
  subst hps'
  rw [hev]
  clear hev
  dsimp only at h ⊢
  obtain ⟨u, hu, h, hev⟩ := Tr.bind_ok h
  rw [hev]; clear hev
  obtain ⟨⟨s1, l1⟩, h1, h, hev⟩ := Tr.bind_ok h
  rw [hev]; clear hev
  obtain ⟨⟨s2, l2⟩, h2, h, hev⟩ := Tr.bind_ok h
  rw [hev]; clear hev
  obtain ⟨⟨s3, l3⟩, h3, h, hev⟩ := Tr.bind_ok h
  rw [hev]; clear hev
  simp only [Tr.pure, Except.ok.injEq, Prod.mk.injEq] at h
  obtain ⟨rfl, rfl, rfl⟩ := h
  have hz := sliceZero_cases w _ _ _ _ h3
  have base : ∀ (s l : V), (s = .none ∨ isText s = true) → (l = .none ∨ isText l = true) →
      (sliceStart w s l).val = .ok (s1, l1) → (s = .none → l = .none) →
      (∀ (_ : Means s s3) (_ : l = .none ∧ l3 = .none ∨ Means l l3),
        LegalSlice ps (sliceParts ps).1 s3 l3) →
      ∀ e0 : List Ev, (s = .none → e0 ≠ []) → (s ≠ .none → e0 = []) →
      ((LegalSlice ps (sliceParts ps).1 s3 l3 ∧
        e0 ++ ((sliceStart w s l).ev ++ ((sliceLength w s1 l1).ev ++ ((sliceZero w s2 l2).ev ++ []))) = []) ∨
       (e0 ++ ((sliceStart w s l).ev ++ ((sliceLength w s1 l1).ev ++ ((sliceZero w s2 l2).ev ++ []))) ≠ [] ∧
        (l3 = .none ∨ l3.truthy = false) ∧ (s3 = .none ∨ GoodSlice s3 l3))) := by
    intro s l hs hl h1 hsl legal e0 he0 he0'
    rcases sliceStart_cases w s l s1 l1 hs h1 with ⟨c1, rfl, rfl, cev⟩ | ⟨c1, rfl, cev⟩ | ⟨rfl, rfl, cev⟩
    · -- wrong number of parts
      have := hsl c1; subst this
      right
      rcases sliceLength_cases w _ _ _ _ hl h2 with ⟨_, rfl, rfl, _⟩ | ⟨c, _⟩ | ⟨rfl, c, _⟩
      · rcases hz with ⟨rfl, rfl, _⟩ | ⟨c, _⟩
        · exact ⟨by simp [he0 c1], .inl rfl, .inl rfl⟩
        · simp at c
      · exact absurd c means_none
      · rcases c with rfl | rfl <;>
        · rcases hz with ⟨rfl, rfl, _⟩ | ⟨c, _⟩
          · exact ⟨by simp [he0 c1], .inl rfl, .inl rfl⟩
          · simp at c
    · have hs0 : s ≠ .none := by rintro rfl; exact means_none c1
      rcases sliceLength_cases w _ _ _ _ hl h2 with ⟨d1, rfl, rfl, dev⟩ | ⟨d1, rfl, d2, dev⟩ | ⟨rfl, d1, dev⟩
      · rcases hz with ⟨rfl, rfl, z, zev⟩ | ⟨_, _, rfl, rfl, zev⟩
        · left
          exact ⟨legal c1 (.inl ⟨d1, rfl⟩), by rw [he0' hs0, cev, dev, zev]; rfl⟩
        · exact .inr ⟨by simp [zev], .inl rfl, .inl rfl⟩
      · rcases hz with ⟨rfl, rfl, z, zev⟩ | ⟨_, zt, rfl, rfl, zev⟩
        · left
          exact ⟨legal c1 (.inr d1), by rw [he0' hs0, cev, dev, zev]; rfl⟩
        · exact .inr ⟨by simp [zev], .inr zt, .inl rfl⟩
      · right
        rcases d1 with rfl | rfl
        · rcases hz with ⟨rfl, rfl, z, zev⟩ | ⟨_, zt, rfl, rfl, zev⟩
          · refine ⟨by simp [dev], .inl rfl, .inr ⟨means_or c1, .inl rfl, ?_⟩⟩
            intro hh; have := z hh; simp [V.truthy] at this
          · exact ⟨by simp [zev], .inl rfl, .inl rfl⟩
        · rcases hz with ⟨rfl, rfl, z, zev⟩ | ⟨c, _⟩
          · exact ⟨by simp [dev], .inl rfl, .inl rfl⟩
          · simp at c
    · right
      rcases sliceLength_cases w _ _ _ _ (.inl rfl) h2 with ⟨_, rfl, rfl, _⟩ | ⟨c, _⟩ | ⟨rfl, c, _⟩
      · rcases hz with ⟨rfl, rfl, _⟩ | ⟨c, _⟩
        · exact ⟨by simp [cev], .inl rfl, .inl rfl⟩
        · simp at c
      · exact absurd c means_none
      · rcases c with rfl | rfl <;>
        · rcases hz with ⟨rfl, rfl, _⟩ | ⟨c, _⟩
          · exact ⟨by simp [cev], .inl rfl, .inl rfl⟩
          · simp at c
  -- the legality of what is left
  have good : ∀ (s l : V) (hl : l = .none ∨ isText l = true)
      (h1 : (sliceStart w s l).val = .ok (s1, l1)) (hs : s = .none ∨ isText s = true),
      Means s s3 → (l = .none ∧ l3 = .none ∨ Means l l3) → GoodSlice s3 l3 := by
    intro s l hl h1 hs ms ml
    have hs3 : s3 ≠ .none := means_ne_none ms
    rcases sliceStart_cases w s l s1 l1 hs h1 with ⟨c1, rfl, rfl, _⟩ | ⟨c1, rfl, _⟩ | ⟨rfl, rfl, _⟩
    · subst c1; exact absurd ms means_none
    · rcases hz with ⟨rfl, rfl, z, _⟩ | ⟨_, _, rfl, _⟩
      · rcases sliceLength_cases w _ _ _ _ hl h2 with ⟨_, rfl, rfl, _⟩ | ⟨d1, rfl, d2, _⟩ | ⟨rfl, d1, _⟩
        · refine ⟨means_or ms, .inl rfl, ?_⟩
          intro hh; have := z hh; simp [V.truthy] at this
        · refine ⟨means_or ms, ?_, fun _ => means_ne_none d1⟩
          rcases d2 with d2 | d2
          · exact .inr (.inl d2)
          · exact .inr (.inr d2)
        · refine ⟨means_or ms, .inl rfl, ?_⟩
          intro hh
          have := z
          rcases d1 with rfl | rfl
          · have := z hh; simp [V.truthy] at this
          · exact absurd rfl hs3
      · exact absurd rfl hs3
    · rcases sliceLength_cases w _ _ _ _ (.inl rfl) h2 with ⟨_, rfl, rfl, _⟩ | ⟨c, _⟩ | ⟨rfl, c, _⟩
      · rcases hz with ⟨rfl, _⟩ | ⟨c, _⟩
        · exact absurd rfl hs3
        · simp at c
      · exact absurd c means_none
      · rcases c with rfl | rfl <;>
        · rcases hz with ⟨rfl, _⟩ | ⟨c, _⟩
          · exact absurd rfl hs3
          · simp at c
  rcases sliceParts_cases ps hne with ⟨v, s, rfl, hp⟩ | ⟨v, s, l, rfl, hp⟩ | ⟨v, hh, hp, _⟩
  · refine ⟨by rw [hp]; rfl, ?_⟩
    have hs : s = .none ∨ isText s = true := .inr (ht s (by simp))
    have hs0 : s ≠ .none := by rintro rfl; have := ht V.none (by simp); simp [isText] at this
    rw [hp] at h1 ⊢
    have := base s .none hs (.inl rfl) h1 (fun _ => rfl) (by
      intro m1 m2
      refine ⟨good s .none (.inl rfl) h1 hs m1 m2, .inl ⟨s, by rw [hp], m1, ?_⟩⟩
      rcases m2 with ⟨_, m2⟩ | m2
      · exact m2
      · exact absurd m2 means_none) [] (fun e => absurd e hs0) (fun _ => rfl)
    rw [hp] at this
    simpa [Tr.pure, Tr.lift] using this
  · refine ⟨by rw [hp]; rfl, ?_⟩
    have hs : s = .none ∨ isText s = true := .inr (ht s (by simp))
    have hl : l = .none ∨ isText l = true := .inr (ht l (by simp))
    have hs0 : s ≠ .none := by rintro rfl; have := ht V.none (by simp); simp [isText] at this
    have hl0 : l ≠ .none := by rintro rfl; have := ht V.none (by simp); simp [isText] at this
    rw [hp] at h1 ⊢
    have := base s l hs hl h1 (fun e => absurd e hs0) (by
      intro m1 m2
      refine ⟨good s l hl h1 hs m1 m2, .inr ⟨s, l, by rw [hp], m1, ?_⟩⟩
      rcases m2 with ⟨m2, _⟩ | m2
      · exact absurd m2 hl0
      · exact m2) [] (fun e => absurd e hs0) (fun _ => rfl)
    rw [hp] at this
    simpa [Tr.pure, Tr.lift] using this
  · refine ⟨by rw [hp]; exact hh, ?_⟩
    rw [hp] at h1 ⊢
    have := base .none .none (.inl rfl) (.inl rfl) h1 (fun _ => rfl)
      (fun m => absurd m means_none)
      (Tr.emit (mkMsg .E_VAR_SUBSTR_ARGS w [(c! "data", .one data)])).ev
      (fun _ => by simp [Tr.emit]) (fun e => absurd rfl e)
    rw [hp] at this
    simpa [Tr.pure, Tr.lift] using this

/-- Legal parts are accepted silently. -/
theorem splitSlice_legal (w : Where) (data : V) (ps : List V) (hps : data.split ':' none = .ok ps)
    (name start length : V) (h : LegalSlice ps name start length)
    (hv : length.isVar = true → length.truthy = true) :
    splitSlice w data = .pure (name, start, length) := by
  obtain ⟨⟨g1, g2, g3⟩, hp⟩ := h
  have mS : ∀ (s l : V), Means s start → sliceStart w s l = .pure (start, l) := by
    rintro s l (⟨hs, rfl⟩ | ⟨t, n, rfl, rfl, h1, h2⟩)
    · cases start <;> simp [V.isVar] at hs <;> rfl
    · simp only [sliceStart, h1, if_true, h2]; rfl
  have zero : sliceZero w start length = .pure (start, length) := by
    unfold sliceZero
    rw [if_neg]
    simp
    intro h0
    have h1 := g3 h0
    rcases g2 with h | h | ⟨s, n, _, rfl, hn, _⟩
    · exact absurd h h1
    · exact hv h
    · simpa [V.truthy] using hn
  unfold splitSlice
  rw [hps]
  rcases hp with ⟨s, rfl, ms, rfl⟩ | ⟨s, l, rfl, ms, ml⟩
  · show Tr.bind (Tr.pure [name, s]) _ = _
    rw [Tr.pure_bind]
    show Tr.bind (Tr.pure ()) (fun _ => Tr.bind (sliceStart w s .none) _) = _
    rw [Tr.pure_bind, mS s .none ms, Tr.pure_bind]
    show Tr.bind (Tr.pure (start, V.none)) (fun _ => Tr.bind (sliceZero w _ _) _) = _
    rw [Tr.pure_bind]
    show Tr.bind (sliceZero w start .none) _ = _
    rw [zero, Tr.pure_bind]
    rfl
  · have mL : sliceLength w start l = .pure (start, length) := by
      rcases ml with ⟨hl, rfl⟩ | ⟨t, n, rfl, rfl, h1, h2⟩
      · cases length <;> simp [V.isVar] at hl <;> rfl
      · rcases g2 with h | h | ⟨m, n', hs, hn', hn, hm⟩
        · simp at h
        · simp [V.isVar] at h
        · simp at hn'
          subst hn' hs
          simp only [sliceLength, h1, if_true, h2, Tr.lift, Tr.bind, if_neg hn, startCovers]
          have : (decide (m < 0) && decide (-n ≤ m)) = false := by
            simp; omega
          simp [this, Tr.pure]
    show Tr.bind (Tr.pure [name, s, l]) _ = _
    rw [Tr.pure_bind]
    show Tr.bind (Tr.pure ()) (fun _ => Tr.bind (sliceStart w s l) _) = _
    rw [Tr.pure_bind, mS s l ms, Tr.pure_bind]
    show Tr.bind (sliceLength w start l) _ = _
    rw [mL, Tr.pure_bind]
    show Tr.bind (sliceZero w start length) _ = _
    rw [zero, Tr.pure_bind]
    rfl

theorem decNat_some (s : Str) (acc : Nat) (h : ∀ c ∈ s, (decVal? c).isSome = true) :
    ∃ n, decNat acc s = some n := by
  induction s generalizing acc with
  | nil => exact ⟨acc, rfl⟩
  | cons c cs ih =>
    obtain ⟨d, hd⟩ := Option.isSome_iff_exists.1 (h c (by simp))
    simp only [decNat, hd]
    exact ih _ (fun x hx => h x (by simp [hx]))

theorem pyInt_ok (s : Str) (h : looksInt s = true) (hd : ∀ c ∈ s, isDigitOnly c = false) :
    ∃ n, pyInt s = .ok n := by
  have dec : ∀ t : Str, isDigitS t = true → (∀ c ∈ t, isDigitOnly c = false) →
      ∃ n, decNat 0 t = some n := by
    intro t ht hdt
    apply decNat_some
    intro c hc
    simp only [isDigitS, Bool.and_eq_true, List.all_eq_true] at ht
    have := ht.2 c hc
    simp only [isDigitC, Bool.or_eq_true] at this
    rcases this with h | h
    · exact h
    · rw [hdt c hc] at h; simp at h
  unfold looksInt at h
  unfold pyInt
  split at h
  · rename_i t
    obtain ⟨n, hn⟩ := dec t h (fun c hc => hd c (by simp [hc]))
    simp [hn]
  · obtain ⟨n, hn⟩ := dec _ h hd
    simp [hn]

/-- A run that ends normally. -/
def Returns {α : Type} (x : Tr α) : Prop := ∃ a, x.val = .ok a

theorem Returns.bind {α β : Type} {x : Tr α} {f : α → Tr β} (hx : Returns x)
    (hf : ∀ a, x.val = .ok a → Returns (f a)) : Returns (Tr.bind x f) := by
  obtain ⟨a, ha⟩ := hx
  obtain ⟨b, hb⟩ := hf a ha
  exact ⟨b, by rw [(Tr.bind_val_ok ha).1, hb]⟩

theorem Returns.pure {α : Type} (a : α) : Returns (Tr.pure a) := ⟨a, rfl⟩

/-- When splitting a substring expression does not raise. -/
theorem splitSlice_returns (w : Where) (data : V) (ps : List V) (hps : data.split ':' none = .ok ps)
    (hne : ps ≠ []) (ht : ∀ p ∈ ps, isText p = true) (text : Str) (htext : data.toStr = .ok text)
    (hd : ∀ s, V.str s ∈ ps → ∀ c ∈ s, isDigitOnly c = false)
    (hv : ∀ v s l, ps = [v, s, .str l] → s.isVar = true → looksInt l = false) :
    Returns (splitSlice w data) := by
  have start : ∀ s l : V, (∀ t, s = .str t → ∀ c ∈ t, isDigitOnly c = false) →
      Returns (sliceStart w s l) := by
    intro s l hs
    unfold sliceStart
    split
    · split
      · rename_i t hl
        obtain ⟨n, hn⟩ := pyInt_ok t hl (hs t rfl)
        exact .bind ⟨n, hn⟩ fun _ _ => .pure _
      · exact .bind ⟨_, start_msg_ok w⟩ fun _ _ => .pure _
    · exact .pure _
  have len : ∀ s l : V, (∀ t, l = .str t → ∀ c ∈ t, isDigitOnly c = false) →
      (∀ t, l = .str t → looksInt t = true → ∃ n, s = .int n) → Returns (sliceLength w s l) := by
    intro s l hl hs
    unfold sliceLength
    split
    · split
      · rename_i t hi
        obtain ⟨n, hn⟩ := pyInt_ok t hi (hl t rfl)
        refine .bind ⟨n, hn⟩ fun n' _ => .bind ?_ fun b _ => ?_
        · obtain ⟨m, rfl⟩ := hs t rfl hi
          by_cases hz : n' = 0
          · exact ⟨true, by simp [Tr.lift, hz]⟩
          · exact ⟨_, by simp [Tr.lift, hz, startCovers]; rfl⟩
        · split
          · exact .bind ⟨_, length_msg_ok w .none _ rfl⟩ fun _ _ => .pure _
          · exact .pure _
      · exact .bind ⟨_, length_msg_ok w (.str _) _ rfl⟩ fun _ _ => .pure _
    · exact .pure _
  have zero : ∀ s l : V, Returns (sliceZero w s l) := by
    intro s l
    unfold sliceZero
    split
    · exact .bind ⟨_, start_msg_ok w⟩ fun _ _ => .pure _
    · exact .pure _
  unfold splitSlice
  rw [hps]
  refine .bind ⟨ps, rfl⟩ fun ps' hps' => ?_
  simp [Tr.lift] at hps'
  subst hps'
  dsimp only
  refine .bind ?_ fun _ _ => .bind ?_ fun sl hsl => .bind ?_ fun sl' _ => .bind (zero _ _) fun _ _ => .pure _
  · split
    · exact .pure _
    · exact ⟨_, args_msg_ok w data text htext⟩
  · apply start
    intro t h
    rcases sliceParts_cases ps hne with ⟨v, s, rfl, hp⟩ | ⟨v, s, l, rfl, hp⟩ | ⟨v, _, hp, _⟩
    · rw [hp] at h; exact hd t (by simp at h; simp [h])
    · rw [hp] at h; exact hd t (by simp at h; simp [h])
    · rw [hp] at h; simp at h
  · obtain ⟨s1, l1⟩ := sl
    rcases sliceParts_cases ps hne with ⟨v, s, rfl, hp⟩ | ⟨v, s, l, rfl, hp⟩ | ⟨v, _, hp, _⟩
    · rw [hp] at hsl
      dsimp only at hsl
      rcases sliceStart_cases w s .none s1 l1 (.inr (ht s (by simp))) hsl with
        ⟨_, _, rfl, _⟩ | ⟨_, rfl, _⟩ | ⟨_, rfl, _⟩ <;>
      exact len _ _ (by simp) (by simp)
    · rw [hp] at hsl
      dsimp only at hsl
      rcases sliceStart_cases w s l s1 l1 (.inr (ht s (by simp))) hsl with
        ⟨rfl, _⟩ | ⟨hm, rfl, _⟩ | ⟨_, rfl, _⟩
      · have := ht V.none (by simp); simp [isText] at this
      · refine len _ _ (fun t h => hd t (by simp [← h])) ?_
        rintro t rfl hli
        rcases hm with ⟨hvar, rfl⟩ | ⟨_, n, _, rfl, _⟩
        · have := hv v s1 t rfl hvar
          rw [hli] at this; simp at this
        · exact ⟨n, rfl⟩
      · exact len _ _ (by simp) (by simp)
    · rw [hp] at hsl
      dsimp only at hsl
      rcases sliceStart_cases w .none .none s1 l1 (.inl rfl) hsl with
        ⟨_, _, rfl, _⟩ | ⟨hm, _⟩ | ⟨_, rfl, _⟩
      · exact len _ _ (by simp) (by simp)
      · exact absurd hm means_none
      · exact len _ _ (by simp) (by simp)

theorem goodSlice_init {start length : V} (h : GoodSlice start length) :
    sliceInit start length = .ok () := by
  obtain ⟨g1, g2, _⟩ := h
  rcases g2 with rfl | hl | ⟨m, n, rfl, rfl, hn, hm⟩
  · rcases g1 with ⟨n, rfl⟩ | hv
    · rfl
    · cases start <;> simp [V.isVar] at hv <;> rfl
  · cases length <;> simp [V.isVar] at hl <;>
    · rcases g1 with ⟨n, rfl⟩ | hv
      · rfl
      · cases start <;> simp [V.isVar] at hv <;> rfl
  · simp only [sliceInit]
    rw [if_neg hn]
    split
    · rfl
    · split
      · rw [if_pos (by omega)]
      · rfl

end ALint
