import Verif.Proofs.Ident
import Verif.Props.Dialplan

/-!
# C69: similar identifiers
-/

namespace ALint.Props
open ALint ALint.Spec

/-- The surroundings for ASCII. -/
def asciiIds : IEnv where
  lower := fun s => s.map Char.toLower
  isUpper := fun s => s.any (fun c => c.isUpper) && !s.any (fun c => c.isLower)
  isLower := fun s => s.any (fun c => c.isLower) && !s.any (fun c => c.isUpper)
  dist := lev

theorem ascii_distance (a b : Str) : Distance (asciiIds.dist a b) a b := lev_distance a b

/-- C69, first part: whatever is listed is right. If `b` is listed as similar to `a`, both are
identifiers, different ones, they look alike and are not exempt, and no other identifier stands
between them by name or between them by length. -/
theorem C69_listed (env : IEnv) (hd : ∀ a b, Distance (env.dist a b) a b) (ids : List Str) (hn : ids.Nodup)
    (a b : Str) (bs : List Str) (h : (a, bs) ∈ similarLines env ids) (hb : b ∈ bs) :
    a ∈ ids ∧ b ∈ ids ∧ a ≠ b ∧ Alike env.lower a b ∧ ¬ Exempt env.lower env.isUpper env.isLower a b ∧
      (Beside (nameLt env) ids a b ∨ Beside (lenLt env) ids a b) := by
  have key : ∀ x y, (x, y) ∈ similarPairs env ids → x ∈ ids ∧ y ∈ ids ∧ x ≠ y ∧ Alike env.lower x y ∧
      ¬ Exempt env.lower env.isUpper env.isLower x y ∧
      (Beside (nameLt env) ids x y ∨ Beside (lenLt env) ids x y) := by
    intro x y hxy
    have one : ∀ (lt : Str → Str → Bool), Weak lt → (x, y) ∈ scanIds env none (sortBy lt ids) →
        x ∈ ids ∧ y ∈ ids ∧ x ≠ y ∧ Alike env.lower x y ∧
        ¬ Exempt env.lower env.isUpper env.isLower x y ∧ Beside lt ids x y := by
      intro lt hw hs
      obtain ⟨⟨l1, l2, hl⟩, _, hc⟩ := (scan_iff env _ x y).1 hs
      have hx : x ∈ sortBy lt ids := by rw [hl]; simp
      have hy : y ∈ sortBy lt ids := by rw [hl]; simp
      have hne : x ≠ y := by
        have := nodup_sortBy (lt := lt).2 hn
        rw [hl, List.nodup_append, List.nodup_cons] at this
        intro he
        exact this.2.1.1 (by simp [he])
      obtain ⟨c1, c2⟩ := (tooClose_iff hd x y).1 hc
      have hbs := adjacent_beside hw (sortBy_ascending hw ids) hl
      exact ⟨mem_sortBy.1 hx, mem_sortBy.1 hy, hne, c1, c2, fun c hc => hbs c (mem_sortBy.2 hc)⟩
    rcases List.mem_append.1 hxy with hs | hs
    · obtain ⟨h1, h2, h3, h4, h5, h6⟩ := one _ (nameLt_weak env) hs
      exact ⟨h1, h2, h3, h4, h5, .inl h6⟩
    · obtain ⟨h1, h2, h3, h4, h5, h6⟩ := one _ (lenLt_weak env) hs
      exact ⟨h1, h2, h3, h4, h5, .inr h6⟩
  rcases (listed_iff env ids a b).1 ⟨bs, h, hb⟩ with h | h
  · exact key a b h
  · obtain ⟨h1, h2, h3, h4, h5, h6⟩ := key b a h
    exact ⟨h2, h1, h3.symm, alike_symm h4, fun he => h5 (exempt_symm he), h6.imp beside_symm beside_symm⟩

/-- C69: similarity is listed on both sides. -/
theorem C69_symmetric (env : IEnv) (ids : List Str) (a b : Str) :
    (∃ bs, (a, bs) ∈ similarLines env ids ∧ b ∈ bs) → ∃ as, (b, as) ∈ similarLines env ids ∧ a ∈ as := by
  rw [listed_iff, listed_iff]
  exact Or.symm

/-- C69, second part: if no two identifiers differ in case only, exactly the pairs that look
alike, are not exempt and have no other identifier between them (by name or by length) are
listed.  (In general: `C69_violated_missed`.) -/
theorem C69_exact_partial (env : IEnv) (hd : ∀ a b, Distance (env.dist a b) a b) (ids : List Str) (hn : ids.Nodup)
    (hc : ∀ a ∈ ids, ∀ b ∈ ids, env.lower a = env.lower b → a = b) (a b : Str) :
    (∃ bs, (a, bs) ∈ similarLines env ids ∧ b ∈ bs) ↔
      a ∈ ids ∧ b ∈ ids ∧ a ≠ b ∧ Alike env.lower a b ∧ ¬ Exempt env.lower env.isUpper env.isLower a b ∧
      (Beside (nameLt env) ids a b ∨ Beside (lenLt env) ids a b) := by
  refine ⟨fun ⟨bs, h, hb⟩ => C69_listed env hd ids hn a b bs h hb, ?_⟩
  rintro ⟨ha, hb, hne, hal, hex, hbe⟩
  rw [listed_iff]
  have one : ∀ (lt : Str → Str → Bool), Weak lt → (∀ x y, lt x y = false → lt y x = false → env.lower x = env.lower y) →
      Beside lt ids a b → (a, b) ∈ scanIds env none (sortBy lt ids) ∨ (b, a) ∈ scanIds env none (sortBy lt ids) := by
    intro lt hw ht hbe
    have hd' : ∀ x ∈ sortBy lt ids, ∀ y ∈ sortBy lt ids, lt x y = false → lt y x = false → x = y :=
      fun x hx y hy h1 h2 => hc x (mem_sortBy.1 hx) y (mem_sortBy.1 hy) (ht x y h1 h2)
    have hbe' : Beside lt (sortBy lt ids) a b := fun c hc => hbe c (mem_sortBy.1 hc)
    have ne : ∀ {x y : Str}, Alike env.lower x y → x ≠ [] := by
      rintro x y ⟨n, _, _, h3, _⟩ rfl
      simp at h3
    cases hlt : lt a b with
    | true =>
      left
      exact (scan_iff env _ a b).2 ⟨beside_adjacent (sortBy_ascending hw ids) (nodup_sortBy.2 hn) hd'
        (mem_sortBy.2 ha) (mem_sortBy.2 hb) hlt hbe', ne hal, (tooClose_iff hd a b).2 ⟨hal, hex⟩⟩
    | false =>
      cases hlt' : lt b a with
      | true =>
        right
        exact (scan_iff env _ b a).2 ⟨beside_adjacent (sortBy_ascending hw ids) (nodup_sortBy.2 hn) hd'
          (mem_sortBy.2 hb) (mem_sortBy.2 ha) hlt' (beside_symm hbe'), ne (alike_symm hal),
          (tooClose_iff hd b a).2 ⟨alike_symm hal, fun he => hex (exempt_symm he)⟩⟩
      | false => exact absurd (hc a ha b hb (ht a b hlt hlt')) hne
  rcases hbe with h | h
  · rcases one _ (nameLt_weak env) (fun _ _ => nameLt_total) h with h | h
    · exact .inl (List.mem_append.2 (.inl h))
    · exact .inr (List.mem_append.2 (.inl h))
  · rcases one _ (lenLt_weak env) (fun _ _ => lenLt_total) h with h | h
    · exact .inl (List.mem_append.2 (.inr h))
    · exact .inr (List.mem_append.2 (.inr h))

/-- C69, third part: an identifier that is another one with some letters in upper and some in
lower case is always listed. -/
theorem C69_case (env : IEnv) (hd : ∀ a b, Distance (env.dist a b) a b) (ids : List Str)
    (a b : Str) (ha : a ∈ ids) (hb : b ∈ ids) (hab : a ≠ b) (hl : env.lower a = env.lower b)
    (hu : env.isUpper a = false) (hlo : env.isLower a = false) (harg : ¬ ArgName a)
    (hlen : ∀ c ∈ ids, env.lower c = env.lower a → 1 < c.length) :
    ∃ bs, (a, bs) ∈ similarLines env ids := by
  have hw := nameLt_weak env
  have ha' : a ∈ sortBy (nameLt env) ids := mem_sortBy.2 ha
  have hb' : b ∈ sortBy (nameLt env) ids := mem_sortBy.2 hb
  have hasc := sortBy_ascending hw ids
  have hex : ∀ c, ¬ Exempt env.lower env.isUpper env.isLower a c := by
    rintro c (⟨_, h | h⟩ | h)
    · rw [hu] at h; simp at h
    · rw [hlo] at h; simp at h
    · exact harg h.1
  have hali : ∀ c ∈ ids, env.lower c = env.lower a → Alike env.lower a c := by
    intro c hc he
    refine ⟨0, ?_, by omega, by simpa using hlen a ha rfl, by simpa using hlen c hc he⟩
    rw [he]
    exact ⟨edits_refl _, fun _ _ => Nat.zero_le _⟩
  suffices ∃ c, (a, c) ∈ similarPairs env ids ∨ (c, a) ∈ similarPairs env ids by
    obtain ⟨c, hc⟩ := this
    obtain ⟨bs, h, _⟩ := (listed_iff env ids a c).2 hc
    exact ⟨bs, h⟩
  have hmem : ∀ c ∈ sortBy (nameLt env) ids, c ∈ ids := fun c hc => mem_sortBy.1 hc
  have nel : ∀ c ∈ ids, env.lower c = env.lower a → c ≠ [] := by
    rintro c hc he rfl
    have := hlen [] hc he
    simp at this
  generalize hs : sortBy (nameLt env) ids = l at *
  obtain ⟨l1, r, rfl⟩ := List.append_of_mem ha'
  unfold Ascending at hasc
  rw [List.pairwise_append, List.pairwise_cons] at hasc
  obtain ⟨h1, ⟨h2, h3⟩, h4⟩ := hasc
  have hba : nameLt env b a = false := by unfold nameLt; rw [hl]; exact strLt_irrefl _
  rcases List.mem_append.1 hb' with hb1 | hb1
  · obtain ⟨m1, m2, rfl⟩ := List.append_of_mem hb1
    -- the element before `a`
    obtain ⟨k1, c, hk⟩ : ∃ k1 c, m1 ++ b :: m2 = k1 ++ [c] :=
      ⟨(m1 ++ b :: m2).dropLast, _, (List.dropLast_concat_getLast (by simp)).symm⟩
    have hcmem : c ∈ m1 ++ b :: m2 := by rw [hk]; simp
    have hca : nameLt env a c = false := h4 c hcmem a (by simp)
    have hcb : nameLt env c b = false := by
      rcases List.mem_append.1 (show b ∈ k1 ++ [c] by rw [← hk]; simp) with hx | hx
      · rw [hk, List.pairwise_append] at h1
        exact h1.2.2 b hx c (by simp)
      · simp only [List.mem_singleton] at hx
        rw [hx]; exact hw.irrefl c
    have hlow : env.lower c = env.lower a := by
      refine nameLt_total ?_ hca
      unfold nameLt at hcb ⊢
      rw [hl]; exact hcb
    have hcids := hmem c (by rw [List.mem_append]; exact .inl hcmem)
    refine ⟨c, .inr (List.mem_append.2 (.inl ?_))⟩
    rw [hs, scan_iff]
    refine ⟨⟨k1, r, by rw [hk]; simp⟩, nel c hcids hlow, (tooClose_iff hd c a).2
      ⟨alike_symm (hali c hcids hlow), fun he => hex c (exempt_symm he)⟩⟩
  · rcases List.mem_cons.1 hb1 with hb1 | hb1
    · exact absurd hb1.symm hab
    · cases r with
      | nil => simp at hb1
      | cons c r =>
        have hca : nameLt env c a = false := h2 c (by simp)
        have hbc : nameLt env b c = false := by
          rcases List.mem_cons.1 hb1 with rfl | hx
          · exact hw.irrefl b
          · exact (List.pairwise_cons.1 h3).1 b hx
        have hlow : env.lower c = env.lower a := by
          refine nameLt_total hca ?_
          unfold nameLt at hbc ⊢
          rw [hl]; exact hbc
        have hcids := hmem c (by simp)
        refine ⟨c, .inl (List.mem_append.2 (.inl ?_))⟩
        rw [hs, scan_iff]
        exact ⟨⟨l1, r, rfl⟩, nel a ha rfl, (tooClose_iff hd a c).2 ⟨hali c hcids hlow, hex c⟩⟩

/-- C69: if no two identifiers differ in case only, the output does not depend on the order in
which Python enumerates the set (which changes from run to run). -/
theorem C69_order_partial (env : IEnv) (ids ids' : List Str) (hp : ids.Perm ids')
    (hc : ∀ a ∈ ids, ∀ b ∈ ids, env.lower a = env.lower b → a = b) : similarLines env ids = similarLines env ids' := by
  unfold similarLines similarPairs
  rw [sortBy_congr (nameLt_weak env) hp (fun a ha b hb h1 h2 => hc a ha b hb (nameLt_total h1 h2)),
    sortBy_congr (lenLt_weak env) hp (fun a ha b hb h1 h2 => hc a ha b hb (lenLt_total h1 h2))]

/-- C69: every identifier has at most one line, the lines are in the order of the names, and
those listed as similar are in order and listed once. -/
theorem C69_once (env : IEnv) (ids : List Str) :
    ((similarLines env ids).map (·.1)).Nodup ∧
    List.Pairwise (fun x y : Str × List Str => strLt (env.lower y.1) (env.lower x.1) = false) (similarLines env ids) ∧
    ∀ x ∈ similarLines env ids, x.2.Nodup ∧ List.Pairwise (fun b c => strLt c b = false) x.2 := by
  unfold similarLines
  refine ⟨?_, ?_, fun x hx => ?_⟩
  · rw [List.map_map]
    have : ((fun x : Str × List Str => x.1) ∘ fun k => (k, sortBy strLt (similarTo (similarPairs env ids) k))) = id := rfl
    rw [this, List.map_id]
    exact nodup_sortBy.2 (by unfold similarKeys; exact nodup_eraseDups _ _ rfl)
  · rw [List.pairwise_map]
    exact sortBy_ascending (nameLt_weak env) _
  · obtain ⟨k, _, rfl⟩ := List.mem_map.1 hx
    exact ⟨nodup_sortBy.2 (by unfold similarTo; exact nodup_eraseDups _ _ rfl), sortBy_ascending strLt_weak _⟩

/-- C69: the exit code is 1 exactly if something is listed, and 0 else. -/
theorem C69_exit (env : IEnv) (ids : List Str) :
    (identExit (similarLines env ids) = 1 ↔ ∃ a bs, (a, bs) ∈ similarLines env ids) ∧
    (identExit (similarLines env ids) = 0 ↔ similarLines env ids = []) := by
  unfold identExit
  cases h : similarLines env ids with
  | nil => simp
  | cons x l => simp; exact ⟨x.1, x.2, .inl rfl⟩

/-- C69: the identifiers are the names of the contexts, the labels of the steps and the
variables counted, each once. -/
theorem C69_identifiers (env : DEnv) (sp : Option Str) (es : List Elem) (log : List Msg) (st : DState)
    (h : After env sp es log st) : (identifiers st).Nodup ∧ ∀ x, x ∈ identifiers st ↔
      (∃ c ∈ st.dp.contexts, c.name = x) ∨
      (x ≠ [] ∧ ∃ c ∈ st.dp.contexts, ∃ s ∈ c.steps, s.label = some x) ∨ ∃ w, Ev.var x w ∈ st.uses := by
  obtain ⟨hi, _, _⟩ := after_inv h
  refine ⟨by unfold identifiers; exact nodup_eraseDups _ _ rfl, fun x => ?_⟩
  have hr : ∀ o : Option Str, realLabel o = some x ↔ x ≠ [] ∧ o = some x := by
    intro o
    cases o with
    | none => simp [realLabel]
    | some l => cases l with
      | nil =>
        simp only [realLabel, reduceCtorEq, Option.some.injEq, false_iff, not_and]
        intro h1 h2; exact h1 h2.symm
      | cons c cs =>
        simp only [realLabel, Option.some.injEq]
        constructor
        · rintro rfl; exact ⟨by simp, rfl⟩
        · exact fun h => h.2
  unfold identifiers
  simp only [List.mem_eraseDups, List.mem_append, List.mem_map, List.mem_filterMap, hi.labels, hr]
  constructor
  · rintro ((⟨c, hc, hx⟩ | ⟨c, hc, s, hs, h1, h2⟩) | ⟨e, he, hx⟩)
    · exact .inl ⟨c, hc, hx⟩
    · exact .inr (.inl ⟨h1, c, hc, s, hs, h2⟩)
    · cases e with
      | var n w =>
        simp only [Option.some.injEq] at hx
        subst hx
        exact .inr (.inr ⟨w, he⟩)
      | _ => simp at hx
  · rintro (⟨c, hc, hx⟩ | ⟨h1, c, hc, s, hs, h2⟩ | ⟨w, hw⟩)
    · exact .inl (.inl ⟨c, hc, hx⟩)
    · exact .inl (.inr ⟨c, hc, s, hs, h1, h2⟩)
    · exact .inr ⟨_, hw, rfl⟩

-- similar by name, similar by length, the same but for case, exempt
example : similarLines asciiIds [c! "bar", c! "Bart", c! "quux", c! "QUUX", c! "ARG1", c! "ARG2", c! "xuux"] =
    [(c! "bar", [c! "Bart"]), (c! "Bart", [c! "bar"]), (c! "QUUX", [c! "xuux"]), (c! "xuux", [c! "QUUX"])] := by decide +kernel

example : Alike asciiIds.lower (c! "bar") (c! "Bart") := ⟨1, lev_distance (c! "bar") (c! "bart"), by decide⟩

example : similarLines asciiIds [c! "Foo", c! "foo"] = [(c! "Foo", [c! "foo"]), (c! "foo", [c! "Foo"])] := by
  decide +kernel

/-- C69 is violated: with three identifiers that differ in case only, what is listed depends on
the order in which the set is enumerated. -/
theorem C69_violated_order : ∃ ids ids' : List Str, ids.Nodup ∧ ids.Perm ids' ∧
    similarLines asciiIds ids ≠ similarLines asciiIds ids' ∧
    (∃ bs, (c! "foo", bs) ∈ similarLines asciiIds ids) ∧ ¬ ∃ bs, (c! "foo", bs) ∈ similarLines asciiIds ids' := by
  refine ⟨[c! "foo", c! "Foo", c! "FOO"], [c! "foo", c! "FOO", c! "Foo"], by decide, by decide, by decide +kernel,
    ⟨[c! "Foo"], by decide +kernel⟩, ?_⟩
  have : similarLines asciiIds [c! "foo", c! "FOO", c! "Foo"] = [(c! "FOO", [c! "Foo"]), (c! "Foo", [c! "FOO"])] := by
    decide +kernel
  rw [this]
  rintro ⟨bs, h⟩
  simp at h

/-- C69 is violated: two identifiers that look alike are not listed if others are between them. -/
theorem C69_violated_missed : ∃ (ids : List Str) (a b : Str), ids.Nodup ∧ a ∈ ids ∧ b ∈ ids ∧ a ≠ b ∧
    Alike asciiIds.lower a b ∧ ¬ Exempt asciiIds.lower asciiIds.isUpper asciiIds.isLower a b ∧
    similarLines asciiIds ids = [] := by
  refine ⟨[c! "aone", c! "azzz", c! "bone"], c! "aone", c! "bone", by decide, by decide, by decide, by decide,
    ⟨1, lev_distance (c! "aone") (c! "bone"), by decide⟩, ?_, by decide +kernel⟩
  rintro (⟨h, _⟩ | ⟨h, _⟩)
  · exact absurd h (by decide)
  · rw [← isArgName_iff] at h
    exact absurd h (by decide)

end ALint.Props
