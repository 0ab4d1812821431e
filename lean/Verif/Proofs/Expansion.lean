import Verif.Proofs.LineLog

/-!
# Where the lines of an expansion are, when every file is read once
-/

namespace ALint
open Spec

/-- The lines of a file with their places; the first has number `n + 1`. -/
def numbered (f : Str) (n : Nat) : List Bytes → List Where
  | [] => []
  | l :: ls => ⟨f, (n : Int) + 1, l⟩ :: numbered f (n + 1) ls

theorem numbered_mem {f : Str} : ∀ {n : Nat} {ls : List Bytes} {w : Where}, w ∈ numbered f n ls →
    ∃ k l, ls[k]? = some l ∧ w = ⟨f, ((n + k : Nat) : Int) + 1, l⟩
  | _, [], _, h => by simp [numbered] at h
  | n, l :: ls, w, h => by
    rcases List.mem_cons.1 h with rfl | h
    · exact ⟨0, l, rfl, rfl⟩
    · obtain ⟨k, l', h1, h2⟩ := numbered_mem h
      exact ⟨k + 1, l', by simpa using h1, by rw [h2, show n + 1 + k = n + (k + 1) by omega]⟩

theorem mem_numbered {f : Str} : ∀ {n : Nat} {ls : List Bytes} {k : Nat} {l : Bytes}, ls[k]? = some l →
    ⟨f, ((n + k : Nat) : Int) + 1, l⟩ ∈ numbered f n ls
  | _, [], _, _, h => by simp at h
  | n, l :: ls, 0, l', h => by
    simp only [List.getElem?_cons_zero, Option.some.injEq] at h
    subst h
    exact List.mem_cons_self ..
  | n, l :: ls, k + 1, l', h => by
    have := mem_numbered (f := f) (n := n + 1) (ls := ls) (k := k) (l := l') (by simpa using h)
    rw [show n + 1 + k = n + (k + 1) by omega] at this
    exact List.mem_cons_of_mem _ this

theorem expand_lineno {fs : FS} {inc : Where → Option Str} {f : Str} {n : Nat} {ls : List Bytes} {t : Items}
    (h : Expand fs inc f n ls t) : ∀ w ∈ t.flatten, 0 < w.lineno := by
  induction h with
  | nil => simp [Items.flatten]
  | line h1 _ ih =>
    intro w hw
    rcases List.mem_cons.1 hw with rfl | hw
    · dsimp only; omega
    · exact ih w hw
  | incl h1 _ _ ih1 ih2 =>
    intro w hw
    rw [Items.flatten] at hw
    rcases List.mem_cons.1 hw with rfl | hw
    · dsimp only; omega
    · rcases List.mem_append.1 hw with hw | hw
      · exact ih1 w hw
      · exact ih2 w hw

/-- In the same file means further down. -/
def Further (a b : Where) : Prop := a.filename = b.filename → a.lineno < b.lineno

theorem numbered_filter (f g : Str) : ∀ (n : Nat) (ls : List Bytes),
    (numbered f n ls).filter (·.filename = g) = if f = g then numbered f n ls else []
  | _, [] => by simp [numbered]
  | n, l :: ls => by
    rw [numbered, List.filter_cons, numbered_filter f g (n + 1) ls]
    by_cases h : f = g <;> simp [h]

/-- When the files read are all different, each gives its lines once and in order. -/
theorem expand_places {fs : FS} {inc : Where → Option Str} {f : Str} {n : Nat} {ls : List Bytes} {t : Items}
    (h : Expand fs inc f n ls t) : (f :: t.files).Nodup →
    (∀ w ∈ t.flatten, w.filename ∈ f :: t.files) ∧
    t.flatten.filter (·.filename = f) = numbered f n ls ∧
    (∀ g ∈ t.files, ∃ c, fs g = some c ∧ t.flatten.filter (·.filename = g) = numbered g 0 (physLines c)) ∧
    List.Pairwise Further t.flatten := by
  have lower : ∀ {f : Str} {n : Nat} {l : Bytes} {rest : List Where} {ls : List Bytes},
      rest.filter (·.filename = f) = numbered f (n + 1) ls → ∀ w ∈ rest, Further ⟨f, (n : Int) + 1, l⟩ w := by
    intro f n l rest ls h w hw he
    have : w ∈ numbered f (n + 1) ls := by
      rw [← h]; exact List.mem_filter.2 ⟨hw, by simpa using he.symm⟩
    obtain ⟨k, l', _, rfl⟩ := numbered_mem this
    dsimp only
    omega
  induction h with
  | nil => intro _; exact ⟨by simp [Items.flatten], rfl, by simp [Items.files], .nil⟩
  | @line f n l ls t h1 _ ih =>
    intro hd
    rw [Items.files] at hd
    obtain ⟨i1, i2, i3, i4⟩ := ih hd
    have hne : ∀ g ∈ t.files, f ≠ g := fun g hg e => (List.nodup_cons.1 hd).1 (e ▸ hg)
    refine ⟨?_, ?_, ?_, ?_⟩
    · intro w hw
      rcases List.mem_cons.1 hw with rfl | hw
      · exact List.mem_cons_self ..
      · exact i1 w hw
    · rw [Items.flatten, List.filter_cons, i2]; simp [numbered]
    · intro g hg
      obtain ⟨c, c1, c2⟩ := i3 g hg
      refine ⟨c, c1, ?_⟩
      rw [Items.flatten, List.filter_cons, c2, if_neg]
      simpa using hne g hg
    · exact List.pairwise_cons.2 ⟨lower i2, i4⟩
  | @incl f n l ls p c sub t h1 _ _ ih1 ih2 =>
    intro hd
    rw [Items.files] at hd
    have hd' := hd
    rw [List.nodup_cons, List.nodup_cons, List.nodup_append] at hd
    obtain ⟨d1, d2, d3, d4, d5⟩ := hd
    simp only [List.mem_cons, List.mem_append, not_or] at d1 d2
    obtain ⟨j1, j2, j3, j4⟩ := ih1 (List.nodup_cons.2 ⟨d2.1, d3⟩)
    obtain ⟨i1, i2, i3, i4⟩ := ih2 (List.nodup_cons.2 ⟨d1.2.2, d4⟩)
    have hpc : fs p = some c := by
      unfold pulls at h1
      cases hi : inc ⟨f, (n : Int) + 1, l⟩ with
      | none => rw [hi] at h1; simp at h1
      | some q =>
        rw [hi] at h1
        simp only [Option.map_eq_some_iff, Prod.mk.injEq] at h1
        obtain ⟨c', h2, rfl, rfl⟩ := h1
        exact h2
    -- no line of the included tree is of the file, or of a file of the rest
    have noneOf : ∀ (x : List Where) (g : Str), (∀ w ∈ x, w.filename ≠ g) → x.filter (·.filename = g) = [] := by
      intro x g hx
      rw [List.filter_eq_nil_iff]
      intro w hw
      simpa using hx w hw
    have subNot : ∀ g, g ≠ p → g ∉ sub.files → ∀ w ∈ sub.flatten, w.filename ≠ g := by
      intro g hp hs w hw e
      rcases List.mem_cons.1 (j1 w hw) with h | h
      · exact hp (e ▸ h)
      · exact hs (e ▸ h)
    have restNot : ∀ g, g ≠ f → g ∉ t.files → ∀ w ∈ t.flatten, w.filename ≠ g := by
      intro g hp hs w hw e
      rcases List.mem_cons.1 (i1 w hw) with h | h
      · exact hp (e ▸ h)
      · exact hs (e ▸ h)
    refine ⟨?_, ?_, ?_, ?_⟩
    · intro w hw
      rw [Items.flatten] at hw
      rw [Items.files]
      simp only [List.mem_cons, List.mem_append] at hw ⊢
      rcases hw with rfl | hw | hw
      · exact .inl rfl
      · rcases List.mem_cons.1 (j1 w hw) with h | h
        · exact .inr (.inl h)
        · exact .inr (.inr (.inl h))
      · rcases List.mem_cons.1 (i1 w hw) with h | h
        · exact .inl h
        · exact .inr (.inr (.inr h))
    · rw [Items.flatten, List.filter_cons, List.filter_append, i2,
        noneOf sub.flatten f (subNot f d1.1 d1.2.1)]
      simp [numbered]
    · intro g hg
      rw [Items.files] at hg
      rw [Items.flatten, List.filter_cons, List.filter_append]
      simp only [List.mem_cons, List.mem_append] at hg
      rcases hg with rfl | hg | hg
      · refine ⟨c, hpc, ?_⟩
        rw [j2, noneOf t.flatten g (restNot g (Ne.symm d1.1) d2.2), if_neg (by simpa using d1.1)]
        simp
      · obtain ⟨c', c1, c2⟩ := j3 g hg
        refine ⟨c', c1, ?_⟩
        rw [c2, noneOf t.flatten g (restNot g (fun e => d1.2.1 (e ▸ hg)) (fun h => d5 g hg g h rfl)),
          if_neg (by simpa using fun e : f = g => d1.2.1 (e ▸ hg))]
        simp
      · obtain ⟨c', c1, c2⟩ := i3 g hg
        refine ⟨c', c1, ?_⟩
        rw [c2, noneOf sub.flatten g (subNot g (fun e => d2.2 (e ▸ hg)) (fun h => d5 g h g hg rfl)),
          if_neg (by simpa using fun e : f = g => d1.2.2 (e ▸ hg))]
        simp
    · rw [Items.flatten]
      refine List.pairwise_cons.2 ⟨?_, List.pairwise_append.2 ⟨j4, i4, ?_⟩⟩
      · intro w hw he
        rcases List.mem_append.1 hw with hw | hw
        · exact absurd he.symm (subNot f d1.1 d1.2.1 w hw)
        · exact lower i2 w hw he
      · intro a ha b hb e
        exfalso
        rcases List.mem_cons.1 (i1 b hb) with h | h
        · exact subNot b.filename (h ▸ d1.1) (h ▸ d1.2.1) a ha e
        · exact subNot b.filename (fun e' => d2.2 (e' ▸ h)) (fun h' => d5 _ h' _ h rfl) a ha e

end ALint
