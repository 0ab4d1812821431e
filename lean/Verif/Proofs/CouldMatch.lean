import Verif.Proofs.Var

namespace ALint
open ALint.Spec V

theorem anyTail_iff (p : Str → Bool) (s : Str) (h : '\n' ∉ s) :
    matchToks.anyTail p s = true ↔ ∃ w r, s = w ++ r ∧ p r = true := by
  induction s with
  | nil =>
    simp only [matchToks.anyTail]
    constructor
    · intro h; exact ⟨[], [], rfl, h⟩
    · rintro ⟨w, r, h1, h2⟩
      have : r = [] := by simp at h1; exact h1.2
      rwa [this] at h2
  | cons c cs ih =>
    simp at h
    have hc : (c != '\n') = true := by simpa using Ne.symm h.1
    simp only [matchToks.anyTail, hc, Bool.true_and, Bool.or_eq_true, ih h.2]
    constructor
    · rintro (hp | ⟨w, r, rfl, hr⟩)
      · exact ⟨[], c :: cs, rfl, hp⟩
      · exact ⟨c :: w, r, rfl, hr⟩
    · rintro ⟨w, r, h1, hr⟩
      cases w with
      | nil => left; simp at h1; rwa [h1]
      | cons d w => right; simp at h1; exact ⟨w, r, h1.2, hr⟩

theorem anyTail_line (p : Str → Bool) (s : Str) :
    matchToks.anyTail p s = true ↔ ∃ w r, s = w ++ r ∧ '\n' ∉ w ∧ p r = true := by
  induction s with
  | nil =>
    simp only [matchToks.anyTail]
    constructor
    · intro h; exact ⟨[], [], rfl, by simp, h⟩
    · rintro ⟨w, r, h1, _, h2⟩
      have : r = [] := by simp at h1; exact h1.2
      rwa [this] at h2
  | cons c cs ih =>
    simp only [matchToks.anyTail, Bool.or_eq_true, Bool.and_eq_true, bne_iff_ne, ne_eq, ih]
    constructor
    · rintro (hp | ⟨hc, w, r, rfl, hw, hr⟩)
      · exact ⟨[], c :: cs, rfl, by simp, hp⟩
      · exact ⟨c :: w, r, rfl, by simp [hw]; exact fun h => hc h.symm, hr⟩
    · rintro ⟨w, r, h1, hw, hr⟩
      cases w with
      | nil => left; simp at h1; rwa [h1]
      | cons d w =>
        right; simp at h1 hw
        exact ⟨by rw [h1.1]; exact fun h => hw.1 h.symm, w, r, h1.2, hw.2, hr⟩

theorem matchToks_line (toks : List V) (ht : ∀ t ∈ toks, isTok t = true) (s : Str) :
    matchToks toks s = true ↔ FillsLine toks s ∨ ∃ u, s = u ++ ['\n'] ∧ FillsLine toks u := by
  induction toks generalizing s with
  | nil =>
    simp only [matchToks, Bool.or_eq_true, beq_iff_eq]
    constructor
    · rintro (rfl | rfl)
      · exact .inl .nil
      · exact .inr ⟨[], rfl, .nil⟩
    · rintro (h | ⟨u, rfl, h⟩) <;> cases h <;> simp
  | cons t toks ih =>
    have ih' := ih (fun t' ht' => ht t' (by simp [ht']))
    have htt := ht t (by simp)
    cases t with
    | str x =>
      simp only [matchToks, Bool.and_eq_true, List.isPrefixOf_iff_prefix]
      constructor
      · rintro ⟨⟨r, rfl⟩, h2⟩
        simp at h2
        rcases (ih' r).1 h2 with h | ⟨u, rfl, h⟩
        · exact .inl (.text x h)
        · exact .inr ⟨x ++ u, by simp, .text x h⟩
      · rintro (h | ⟨u, rfl, h⟩)
        · cases h with
          | text _ h => exact ⟨List.prefix_append _ _, by simp; exact (ih' _).2 (.inl h)⟩
        · cases h with
          | text _ h =>
            rename_i r
            exact ⟨⟨r ++ ['\n'], by simp⟩, by simp; exact (ih' _).2 (.inr ⟨_, rfl, h⟩)⟩
    | atom k n st l =>
      simp only [matchToks, anyTail_line]
      constructor
      · rintro ⟨w, r, rfl, hw, h⟩
        rcases (ih' r).1 h with h' | ⟨u, hu, h'⟩
        · exact .inl (.var k n st l w hw h')
        · exact .inr ⟨w ++ u, by simp [hu], .var k n st l w hw h'⟩
      · rintro (h | ⟨u, rfl, h⟩)
        · cases h with
          | var _ _ _ _ w hw h => exact ⟨w, _, rfl, hw, (ih' _).2 (.inl h)⟩
        · cases h with
          | var _ _ _ _ w hw h =>
            exact ⟨w, _, by simp, hw, (ih' _).2 (.inr ⟨_, rfl, h⟩)⟩
    | _ => simp [isTok] at htt

theorem matchToks_iff (toks : List V) (ht : ∀ t ∈ toks, isTok t = true) (s : Str) (h : '\n' ∉ s) :
    matchToks toks s = true ↔ Fills toks s := by
  induction toks generalizing s with
  | nil =>
    simp only [matchToks]
    constructor
    · intro hm
      have : s = [] := by
        cases s with
        | nil => rfl
        | cons c cs =>
          exfalso
          simp at hm h
          exact h.1 hm.1.symm
      subst this; exact .nil
    · intro hf; cases hf; rfl
  | cons t toks ih =>
    have ih' := ih (fun t' ht' => ht t' (by simp [ht']))
    have htt := ht t (by simp)
    cases t with
    | str x =>
      simp only [matchToks, Bool.and_eq_true, List.isPrefixOf_iff_prefix]
      constructor
      · rintro ⟨⟨r, rfl⟩, h2⟩
        simp at h h2
        exact .text x ((ih' r h.2).1 h2)
      · intro hf
        cases hf with
        | text _ hf =>
          rename_i r
          simp at h
          refine ⟨⟨r, rfl⟩, ?_⟩
          simp
          exact (ih' r h.2).2 hf
    | atom k n st l =>
      simp only [matchToks]
      rw [anyTail_iff _ _ h]
      constructor
      · rintro ⟨w, r, rfl, hm⟩
        simp at h
        exact .var k n st l w ((ih' r h.2).1 hm)
      · intro hf
        cases hf with
        | var _ _ _ _ w hf =>
          rename_i r
          simp at h
          exact ⟨w, r, rfl, (ih' r h.2).2 hf⟩
    | lst l => simp [isTok] at htt
    | int l => simp [isTok] at htt
    | none => simp [isTok] at htt

theorem fills_subst (σ : V → Str) (toks : List V) (ht : ∀ t ∈ toks, isTok t = true) :
    Fills toks (toks.flatMap fun t => match t with | .str s => s | a => σ a) := by
  induction toks with
  | nil => exact .nil
  | cons t toks ih =>
    have ih' := ih (fun t' ht' => ht t' (by simp [ht']))
    have htt := ht t (by simp)
    rw [List.flatMap_cons]
    cases t with
    | str x => exact .text x ih'
    | atom k n st l => exact .var k n st l _ ih'
    | lst l => simp [isTok] at htt
    | int l => simp [isTok] at htt
    | none => simp [isTok] at htt

/-- If no variable occurs twice, occurrences can be filled by one choice of values. -/
theorem subst_of_fills (toks : List V) (s : Str) (h : Fills toks s)
    (hn : (toks.filter V.isVar).Nodup) :
    ∃ σ : V → Str, (toks.flatMap fun t => match t with | .str s => s | a => σ a) = s := by
  induction h with
  | nil => exact ⟨fun _ => [], rfl⟩
  | text t _ ih =>
    simp [V.isVar] at hn
    obtain ⟨σ, hσ⟩ := ih hn
    exact ⟨σ, by rw [List.flatMap_cons, hσ]⟩
  | @var k n st l w toks s _ ih =>
    rw [List.filter_cons_of_pos (by rfl), List.nodup_cons, List.mem_filter] at hn
    obtain ⟨σ, hσ⟩ := ih hn.2
    refine ⟨fun a => if a = .atom k n st l then w else σ a, ?_⟩
    rw [List.flatMap_cons]
    congr 1
    · exact if_pos rfl
    rw [← hσ]
    have : ∀ (l1 : List V), (∀ t ∈ l1, t ∈ toks) →
        (l1.flatMap fun t => match t with
          | .str s => s
          | a => if a = V.atom k n st l then w else σ a) =
        l1.flatMap fun t => match t with | .str s => s | a => σ a := by
      intro l1 hl1
      induction l1 with
      | nil => rfl
      | cons x xs ihx =>
        rw [List.flatMap_cons, List.flatMap_cons, ihx (fun t ht => hl1 t (by simp [ht]))]
        congr 1
        split
        · rfl
        · rename_i hx
          have hne : ¬ x = V.atom k n st l := by
            rintro rfl
            exact hn.1 ⟨hl1 _ (by simp), rfl⟩
          rw [if_neg hne]
    exact this toks (fun _ h => h)

end ALint
