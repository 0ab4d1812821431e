import Verif.Spec.Testing
import Verif.Proofs.Str
import Verif.Proofs.Sort
import Verif.Props.Message

/-!
# C87, C88: tests that check messages; generated tests
-/

namespace ALint.Props
open ALint ALint.Spec

/-! ## `ignoreLinted` -/

theorem ignoreValue_cases (ig : Ignoring) (v : Str) :
    ('*' ∉ v ∧ ignoreValue ig v = .ok { ig with equals := ig.equals ++ [v] }) ∨
    (∃ p, '*' ∉ p ∧ v = p ++ ['*'] ∧ ignoreValue ig v = .ok { ig with starts := ig.starts ++ [p] }) ∨
    ('*' ∈ v.dropLast ∧ ignoreValue ig v = .error .valueError) := by
  by_cases h : '*' ∈ v
  · right
    obtain ⟨a, b, rfl, ha⟩ := List.append_of_mem h |>.elim fun a => fun ⟨b, hb⟩ => first_star hb
    have hs : splitAll '*' (a ++ '*' :: b) = a :: splitAll '*' b := splitAll_append '*' a b ha
    cases b with
    | nil =>
      left
      exact ⟨a, ha, rfl, by simp [ignoreValue, hs, splitAll]⟩
    | cons c b =>
      right
      refine ⟨?_, ?_⟩
      · rw [List.dropLast_append_of_ne_nil (by simp)]; simp
      · unfold ignoreValue
        rw [hs]
        cases hb : splitAll '*' (c :: b) with
        | nil => exact absurd hb (splitAll_ne_nil _ _)
        | cons x l => cases l with
          | nil => cases x with
            | nil =>
              simp only [splitAll] at hb
              split at hb
              · simp at hb; exact absurd hb (splitAll_ne_nil _ _)
              · split at hb <;> simp at hb
            | cons => rfl
          | cons => cases x <;> rfl
  · exact .inl ⟨h, by simp [ignoreValue, splitAll_no _ _ h]⟩
where
  first_star {v : Str} {a b : Str} (h : v = a ++ '*' :: b) : ∃ a b, v = a ++ '*' :: b ∧ '*' ∉ a := by
    induction a generalizing v with
    | nil => exact ⟨[], b, h, by simp⟩
    | cons x a ih =>
      by_cases hx : x = '*'
      · subst hx; exact ⟨[], a ++ '*' :: b, h, by simp⟩
      · obtain ⟨a', b', h1, h2⟩ := ih rfl
        exact ⟨x :: a', b', by rw [h, List.cons_append, h1]; rfl, by simp [h2, Ne.symm hx]⟩

theorem test_iff (ig : Ignoring) (name : Str) :
    ig.test name = true ↔ name ∈ ig.equals ∨ ∃ p rest, p ∈ ig.starts ∧ name = p ++ rest := by
  simp only [Ignoring.test, Bool.or_eq_true, List.contains_iff_mem, List.any_eq_true, List.isPrefixOf_iff_prefix]
  refine or_congr Iff.rfl ⟨?_, ?_⟩
  · rintro ⟨p, hp, rest, h⟩; exact ⟨p, rest, hp, h.symm⟩
  · rintro ⟨p, rest, hp, h⟩; exact ⟨p, hp, rest, h.symm⟩

theorem ignoring_from (values : List Str) : ∀ ig : Ignoring,
    ((∃ v ∈ values, '*' ∈ v.dropLast) → values.foldlM ignoreValue ig = .error .valueError) ∧
    ((∀ v ∈ values, '*' ∉ v.dropLast) → ∃ ig', values.foldlM ignoreValue ig = .ok ig' ∧
      ∀ name, ig'.test name = true ↔ ig.test name = true ∨ IsIgnored values name) := by
  induction values with
  | nil => exact fun ig => ⟨by simp, fun _ => ⟨ig, rfl, fun name => by simp [IsIgnored]⟩⟩
  | cons v vs ih =>
    intro ig
    rw [List.foldlM_cons]
    rcases ignoreValue_cases ig v with ⟨hv, h⟩ | ⟨p, hp, rfl, h⟩ | ⟨hv, h⟩
    · rw [h]
      have hno : '*' ∉ v.dropLast := fun hh => hv (List.dropLast_subset v hh)
      refine ⟨fun ⟨w, hw, hs⟩ => ?_, fun hall => ?_⟩
      · rcases List.mem_cons.1 hw with rfl | hw
        · exact absurd hs hno
        · exact (ih _).1 ⟨w, hw, hs⟩
      · obtain ⟨ig', h1, h2⟩ := (ih _).2 fun w hw => hall w (by simp [hw])
        refine ⟨ig', h1, fun name => ?_⟩
        rw [h2, test_iff, test_iff]
        simp only [IsIgnored, List.mem_append, List.mem_cons, List.not_mem_nil, or_false]
        constructor
        · rintro ((( h | rfl) | h) | (⟨h, h'⟩ | ⟨q, r, hq, h⟩))
          · exact .inl (.inl h)
          · exact .inr (.inl ⟨.inl rfl, hv⟩)
          · exact .inl (.inr h)
          · exact .inr (.inl ⟨.inr h, h'⟩)
          · exact .inr (.inr ⟨q, r, .inr hq, h⟩)
        · rintro ((h | h) | (⟨rfl | h, h'⟩ | ⟨q, r, rfl | hq, h⟩))
          · exact .inl (.inl (.inl h))
          · exact .inl (.inr h)
          · exact .inl (.inl (.inr rfl))
          · exact .inr (.inl ⟨h, h'⟩)
          · simp at hv
          · exact .inr (.inr ⟨q, r, hq, h⟩)
    · rw [h]
      refine ⟨fun ⟨w, hw, hs⟩ => ?_, fun hall => ?_⟩
      · rcases List.mem_cons.1 hw with rfl | hw
        · simp at hs; exact absurd hs hp
        · exact (ih _).1 ⟨w, hw, hs⟩
      · obtain ⟨ig', h1, h2⟩ := (ih _).2 fun w hw => hall w (by simp [hw])
        refine ⟨ig', h1, fun name => ?_⟩
        rw [h2, test_iff, test_iff]
        simp only [IsIgnored, List.mem_append, List.mem_cons, List.not_mem_nil, or_false]
        constructor
        · rintro ((h | ⟨q, r, hq | rfl, h'⟩) | (⟨h, h'⟩ | ⟨q, r, hq, h⟩))
          · exact .inl (.inl h)
          · exact .inl (.inr ⟨q, r, hq, h'⟩)
          · exact .inr (.inr ⟨q, r, .inl rfl, h'⟩)
          · exact .inr (.inl ⟨.inr h, h'⟩)
          · exact .inr (.inr ⟨q, r, .inr hq, h⟩)
        · rintro ((h | ⟨q, r, hq, h⟩) | (⟨rfl | h, h'⟩ | ⟨q, r, hq | hq, h'⟩))
          · exact .inl (.inl h)
          · exact .inl (.inr ⟨q, r, .inl hq, h⟩)
          · simp at h'
          · exact .inr (.inl ⟨h, h'⟩)
          · obtain ⟨rfl, _⟩ := List.append_inj' hq rfl
            exact .inl (.inr ⟨q, r, .inr rfl, h'⟩)
          · exact .inr (.inr ⟨q, r, hq, h'⟩)
    · rw [h]
      exact ⟨fun _ => rfl, fun hall => absurd hv (hall v (by simp))⟩

/-- C87: `ignoreLinted` accepts values with at most one asterisk, at the end; what it ignores. -/
theorem C87_ignore (values : List Str) :
    ((∃ v ∈ values, '*' ∈ v.dropLast) → Ignoring.of values = .error .valueError) ∧
    ((∀ v ∈ values, '*' ∉ v.dropLast) → ∃ ig, Ignoring.of values = .ok ig ∧
      ∀ name, ig.test name = true ↔ IsIgnored values name) := by
  refine ⟨(ignoring_from values _).1, fun h => ?_⟩
  obtain ⟨ig, h1, h2⟩ := (ignoring_from values ⟨[], []⟩).2 h
  exact ⟨ig, h1, fun name => by rw [h2, test_iff]; simp⟩

example : (∀ v ∈ [c! "H_DP_*", c! "W_APP_WSH"], '*' ∉ v.dropLast) ∧
    IsIgnored [c! "H_DP_*", c! "W_APP_WSH"] (c! "H_DP_MSG") ∧ ¬ IsIgnored [c! "H_DP_*", c! "W_APP_WSH"] (c! "W_APP_WSH2") := by
  obtain ⟨ig, h1, h2⟩ := (C87_ignore [c! "H_DP_*", c! "W_APP_WSH"]).2 (by decide)
  have : ig = ⟨[c! "W_APP_WSH"], [c! "H_DP_"]⟩ := Except.ok.inj (h1.symm.trans (by decide))
  subst this
  refine ⟨by decide, (h2 _).1 (by decide), fun h => absurd ((h2 _).2 h) (by decide)⟩

example : Ignoring.of [c! "W_*", c! "*_WSH"] = .error .valueError := by decide

/-! ## Counting -/

/-- These are the messages with those names. -/
structure Tally (raised : List (Str × List Msg)) (names : List Str) : Prop where
  keys : (raised.map (·.1)).Nodup
  some : ∀ kv ∈ raised, kv.2 ≠ []
  count : ∀ x, ((raised.lookup x).getD []).length = names.count x

theorem addRaised_keys (n : Str) (m : Msg) (l : List (Str × List Msg)) :
    (addRaised n m l).map (·.1) = if n ∈ l.map (·.1) then l.map (·.1) else l.map (·.1) ++ [n] := by
  induction l with
  | nil => simp [addRaised]
  | cons kv l ih =>
    obtain ⟨k, ms⟩ := kv
    simp only [addRaised]
    split
    · rename_i h; simp [h]
    · rename_i h
      rw [List.map_cons, ih]
      by_cases h' : n ∈ l.map (·.1)
      · simp only [h', if_true, List.map_cons, List.mem_cons, or_true]
      · simp only [h', if_false, List.map_cons, List.mem_cons, or_false, if_neg (Ne.symm h)]; rfl

theorem addRaised_some (n : Str) (m : Msg) (l : List (Str × List Msg)) (h : ∀ kv ∈ l, kv.2 ≠ []) :
    ∀ kv ∈ addRaised n m l, kv.2 ≠ [] := by
  induction l with
  | nil => simp [addRaised]
  | cons kv l ih =>
    obtain ⟨k, ms⟩ := kv
    simp only [addRaised]
    split
    · intro kv hkv
      rcases List.mem_cons.1 hkv with rfl | hkv
      · simp
      · exact h kv (by simp [hkv])
    · intro kv hkv
      rcases List.mem_cons.1 hkv with rfl | hkv
      · exact h _ (by simp)
      · exact ih (fun kv hk => h kv (by simp [hk])) kv hkv

theorem tally_nil : Tally [] [] := ⟨by simp, by simp, fun x => by simp⟩

theorem tally_add {raised : List (Str × List Msg)} {names : List Str} (h : Tally raised names) (m : Msg) :
    Tally (addRaised m.kind.name m raised) (names ++ [m.kind.name]) := by
  refine ⟨?_, addRaised_some _ _ _ h.some, fun x => ?_⟩
  · rw [addRaised_keys]
    split
    · exact h.keys
    · rename_i hn
      rw [List.nodup_append]
      exact ⟨h.keys, by simp, fun a ha b hb hab => hn (by simp at hb; rw [← hb, ← hab]; exact ha)⟩
  · rw [lookup_addRaised, List.count_append]
    split
    · rename_i hx; subst hx; simp [h.count]
    · rename_i hx; simp [h.count, Ne.symm hx]

theorem dict_mem {α : Type} {l : List (Str × α)} (hn : (l.map (·.1)).Nodup) (x : Str) (v : α) :
    l.lookup x = some v ↔ (x, v) ∈ l := by
  induction l with
  | nil => simp
  | cons kv l ih =>
    obtain ⟨k, w⟩ := kv
    rw [List.map_cons, List.nodup_cons] at hn
    rw [List.lookup_cons]
    by_cases h : x = k
    · subst h
      simp only [beq_self_eq_true, Option.some.injEq, List.mem_cons, Prod.mk.injEq, true_and]
      constructor
      · rintro rfl; exact .inl rfl
      · rintro (h | h)
        · exact h.symm
        · exact absurd (List.mem_map_of_mem (f := (·.1)) h) hn.1
    · simp only [beq_eq_false_iff_ne.2 h, ih hn.2, List.mem_cons, Prod.mk.injEq, h, false_and, false_or]

theorem tally_mem {raised : List (Str × List Msg)} {names : List Str} (h : Tally raised names) (name : Str) (k : Nat) :
    (name, k) ∈ raisedCounts raised ↔ k = names.count name ∧ 0 < k := by
  unfold raisedCounts
  rw [List.mem_map, ← h.count name]
  constructor
  · rintro ⟨⟨n, ms⟩, hm, he⟩
    simp only [Prod.mk.injEq] at he
    obtain ⟨rfl, rfl⟩ := he
    rw [(dict_mem h.keys n ms).2 hm]
    exact ⟨rfl, List.length_pos_iff.2 (h.some _ hm)⟩
  · rintro ⟨rfl, hk⟩
    cases hl : raised.lookup name with
    | none => simp [hl] at hk
    | some ms => exact ⟨(name, ms), (dict_mem h.keys _ _).1 hl, rfl⟩

theorem raisedCounts_keys (raised : List (Str × List Msg)) : (raisedCounts raised).map (·.1) = raised.map (·.1) := by
  simp [raisedCounts]

theorem nodup_of_map {α β : Type} {f : α → β} {l : List α} (h : (l.map f).Nodup) : l.Nodup := by
  rw [List.Nodup, List.pairwise_map] at h
  exact h.imp fun hab he => hab (by rw [he])

theorem subset_of_length {α : Type} [DecidableEq α] : ∀ {a b : List α}, a.Nodup → b.Nodup → a ⊆ b → a.length = b.length → b ⊆ a
  | [], b, _, _, _, hl => by cases b <;> simp at hl; simp
  | x :: a, b, ha, hb, hs, hl => by
    rw [List.nodup_cons] at ha
    have hx : x ∈ b := hs (by simp)
    have := subset_of_length (a := a) (b := b.erase x) ha.2 (hb.erase _)
      (fun y hy => (List.mem_erase_of_ne (fun he : y = x => ha.1 (he ▸ hy))).2 (hs (by simp [hy])))
      (by rw [List.length_erase_of_mem hx]; simp at hl; omega)
    intro y hy
    by_cases h : y = x
    · simp [h]
    · exact List.mem_cons_of_mem _ (this ((List.mem_erase_of_ne h).2 hy))

theorem sameDict_iff {a b : List (Str × Nat)} (ha : (a.map (·.1)).Nodup) (hb : (b.map (·.1)).Nodup) :
    sameDict a b = true ↔ ∀ kv, kv ∈ b ↔ kv ∈ a := by
  unfold sameDict
  simp only [Bool.and_eq_true, beq_iff_eq, List.all_eq_true]
  have hna : a.Nodup := nodup_of_map ha
  have hnb : b.Nodup := nodup_of_map hb
  constructor
  · rintro ⟨hl, hall⟩
    have hsub : a ⊆ b := fun kv hkv => (dict_mem hb kv.1 kv.2).1 (hall kv hkv)
    exact fun kv => ⟨fun h => subset_of_length hna hnb hsub hl h, fun h => hsub h⟩
  · intro h
    exact ⟨((List.perm_ext_iff_of_nodup hna hnb).2 fun kv => (h kv).symm).length_eq,
      fun kv hkv => (dict_mem hb kv.1 kv.2).2 ((h kv).2 hkv)⟩

theorem dropIgnored_keys (ig : Option Ignoring) {counts : List (Str × Nat)} (h : (counts.map (·.1)).Nodup) :
    ((dropIgnored ig counts).map (·.1)).Nodup := by
  cases ig with
  | none => exact h
  | some i => exact List.Nodup.sublist (List.Sublist.map _ List.filter_sublist) h

/-- What is ignored. -/
def Drops (ig : Option Ignoring) (name : Str) : Prop := ∃ i, ig = some i ∧ i.test name = true

theorem mem_dropIgnored (ig : Option Ignoring) (counts : List (Str × Nat)) (kv : Str × Nat) :
    kv ∈ dropIgnored ig counts ↔ kv ∈ counts ∧ ¬ Drops ig kv.1 := by
  cases ig with
  | none => simp [dropIgnored, Drops]
  | some i => simp [dropIgnored, Drops]

theorem assert_iff (ig : Option Ignoring) (e : List (Str × Nat)) (he : (e.map (·.1)).Nodup) (s : TestState) (names : List Str)
    (h : Tally s.mg.raised names) : (assertLinted ig e s).2 = true ↔ AsExpected (Drops ig) names e := by
  show sameDict _ e = true ↔ _
  rw [sameDict_iff (dropIgnored_keys ig (by rw [raisedCounts_keys]; exact h.keys)) he]
  unfold AsExpected
  constructor
  · intro hall name k
    rw [hall, mem_dropIgnored, tally_mem h, and_assoc]
  · rintro hall ⟨name, k⟩
    rw [hall, mem_dropIgnored, tally_mem h, and_assoc]

theorem assert_end (ig : Option Ignoring) (s : TestState) (names : List Str) (h : Tally s.mg.raised names) :
    (assertLinted ig [] s).2 = true ↔ ∀ n ∈ names, Drops ig n := by
  rw [assert_iff ig [] (by simp) s names h]
  unfold AsExpected
  simp only [List.not_mem_nil, false_iff, not_and, Classical.not_not]
  constructor
  · intro hall n hn
    exact hall n _ rfl (List.count_pos_iff.2 hn)
  · rintro hall n k rfl hk
    exact hall n (List.count_pos_iff.1 hk)

theorem mem_addCount (n : Str) (k : Nat) (l : List (Str × Nat)) (x : Str) :
    x ∈ (addCount n k l).map (·.1) ↔ x = n ∨ x ∈ l.map (·.1) := by
  induction l with
  | nil => simp [addCount]
  | cons kv l ih =>
    obtain ⟨a, v⟩ := kv
    simp only [addCount]
    split
    · rename_i h
      subst h
      simp
    · rw [List.map_cons, List.mem_cons, ih, List.map_cons, List.mem_cons]
      constructor
      · rintro (h | h | h)
        · exact .inr (.inl h)
        · exact .inl h
        · exact .inr (.inr h)
      · rintro (h | h | h)
        · exact .inr (.inl h)
        · exact .inl h
        · exact .inr (.inr h)

theorem mem_addCounts (c l : List (Str × Nat)) (x : Str) :
    x ∈ (addCounts c l).map (·.1) ↔ x ∈ c.map (·.1) ∨ x ∈ l.map (·.1) := by
  unfold addCounts
  induction c generalizing l with
  | nil => simp
  | cons kv c ih =>
    rw [List.foldl_cons, ih, mem_addCount, List.map_cons, List.mem_cons]
    constructor
    · rintro (h | h | h)
      · exact .inl (.inr h)
      · exact .inl (.inl h)
      · exact .inr h
    · rintro ((h | h) | h)
      · exact .inr (.inl h)
      · exact .inl h
      · exact .inr (.inr h)

theorem tally_keys {raised : List (Str × List Msg)} {names : List Str} (h : Tally raised names) (x : Str) :
    x ∈ (raisedCounts raised).map (·.1) ↔ x ∈ names := by
  rw [List.mem_map]
  constructor
  · rintro ⟨⟨n, k⟩, hm, rfl⟩
    obtain ⟨rfl, hk⟩ := (tally_mem h n k).1 hm
    exact List.count_pos_iff.1 hk
  · intro hx
    exact ⟨(x, names.count x), (tally_mem h x _).2 ⟨rfl, List.count_pos_iff.2 hx⟩, rfl⟩

/-- The result of a method together with the check in `tearDown`. -/
def wellEnded (ig : Option Ignoring) (r : TestState × Bool) : Bool := r.2 && (assertLinted ig [] r.1).2

theorem steps_iff (env : Str) (ig : Option Ignoring) (steps : List TStep)
    (hd : ∀ e, .check e ∈ steps → (e.map (·.1)).Nodup) : ∀ (s : TestState) (since : List Str), Tally s.mg.raised since →
    (wellEnded ig (runSteps env ig steps s) = true ↔ GoesWell (Drops ig) since steps) ∧
    (wellEnded ig (runSteps env ig steps s) = true →
      ∀ x, x ∈ (assertLinted ig [] (runSteps env ig steps s).1).1.linted.map (·.1) ↔
        x ∈ s.linted.map (·.1) ∨ x ∈ since ∨ Issues x steps) ∧
    (∃ left, Tally (runSteps env ig steps s).1.mg.raised left ∧
      ∀ x, x ∈ left ∨ x ∈ (runSteps env ig steps s).1.linted.map (·.1) →
        x ∈ s.linted.map (·.1) ∨ x ∈ since ∨ Issues x steps) := by
  induction steps with
  | nil =>
    intro s since h
    refine ⟨?_, ?_, since, h, ?_⟩
    · simp only [wellEnded, runSteps, Bool.true_and, GoesWell]
      exact assert_end ig s since h
    · intro _ x
      show x ∈ (addCounts _ _).map (·.1) ↔ _
      rw [mem_addCounts]
      simp only [runSteps]
      rw [tally_keys h]
      constructor
      · rintro (hx | hx)
        · exact .inr (.inl hx)
        · exact .inl hx
      · rintro (hx | hx | ⟨m, hm, _⟩)
        · exact .inr hx
        · exact .inl hx
        · simp at hm
    · rintro x (hx | hx)
      · exact .inr (.inl hx)
      · exact .inl hx
  | cons st steps ih =>
    intro s since h
    have hd' : ∀ e, .check e ∈ steps → (e.map (·.1)).Nodup := fun e he => hd e (by simp [he])
    have iss : ∀ x, Issues x steps → Issues x (st :: steps) := fun x ⟨m, hm, hx⟩ => ⟨m, by simp [hm], hx⟩
    cases st with
    | raise =>
      refine ⟨by simp [wellEnded, runSteps, GoesWell], by simp [wellEnded, runSteps], since, h, ?_⟩
      rintro x (hx | hx)
      · exact .inr (.inl hx)
      · exact .inl hx
    | issue m =>
      have hrai := onMessage_raised env true s.mg m
      have issm : Issues m.kind.name (.issue m :: steps) := ⟨m, by simp, rfl⟩
      have back : ∀ x, x ∈ since ++ [m.kind.name] ∨ Issues x steps ↔ x ∈ since ∨ Issues x (.issue m :: steps) := by
        intro x
        constructor
        · rintro (hx | hx)
          · rcases List.mem_append.1 hx with hx | hx
            · exact .inl hx
            · simp at hx; subst hx; exact .inr issm
          · exact .inr (iss x hx)
        · rintro (hx | ⟨m', hm, hx⟩)
          · exact .inl (by simp [hx])
          · rcases List.mem_cons.1 hm with h1 | h1
            · cases h1; exact .inl (by simp [← hx])
            · exact .inr ⟨m', h1, hx⟩
      have ht : Tally (s.mg.onMessage env true m).1.raised (since ++ [m.kind.name]) := by
        rw [hrai]; exact tally_add h m
      cases hr : m.render with
      | error x =>
        have hrun : runSteps env ig (.issue m :: steps) s = ({ s with mg := (s.mg.onMessage env true m).1 }, false) := by
          simp [runSteps, Manager.onMessage, hr]
        rw [hrun]
        refine ⟨by simp [wellEnded, GoesWell, HasText, hr], by simp [wellEnded], _, ht, ?_⟩
        rintro x (hx | hx)
        · exact .inr ((back x).1 (.inl hx))
        · exact .inl hx
      | ok t =>
        have hrun : runSteps env ig (.issue m :: steps) s = runSteps env ig steps { s with mg := (s.mg.onMessage env true m).1 } := by
          simp [runSteps, Manager.onMessage, hr]
        rw [hrun]
        obtain ⟨h1, h2, left, h3, h4⟩ := ih hd' { s with mg := (s.mg.onMessage env true m).1 } _ ht
        refine ⟨by rw [h1]; simp [GoesWell, HasText, hr], fun hw x => ?_, left, h3, fun x hx => ?_⟩
        · rw [h2 hw x, back]
        · rw [← back]; exact h4 x hx
    | check e =>
      have hin : ∀ x, x ∈ (assertLinted ig e s).1.linted.map (·.1) ↔ x ∈ s.linted.map (·.1) ∨ x ∈ since := by
        intro x
        show x ∈ (addCounts _ _).map (·.1) ↔ _
        rw [mem_addCounts, tally_keys h, or_comm]
      have back : ∀ x, Issues x (.check e :: steps) ↔ Issues x steps := by
        refine fun x => ⟨fun ⟨m, hm, hx⟩ => ⟨m, by simpa using hm, hx⟩, iss x⟩
      have ha := assert_iff ig e (hd e (by simp)) s since h
      have hz : (assertLinted ig e s).1.mg.raised = [] := rfl
      cases hb : (assertLinted ig e s).2 with
      | false =>
        have hrun : runSteps env ig (.check e :: steps) s = ((assertLinted ig e s).1, false) := by
          rw [runSteps, show assertLinted ig e s = ((assertLinted ig e s).1, false) from Prod.ext rfl hb]
        rw [hrun]
        rw [hb] at ha
        refine ⟨?_, by simp [wellEnded], [], ?_, ?_⟩
        · simp only [wellEnded, Bool.false_and, Bool.false_eq_true, GoesWell, false_iff, not_and]
          exact fun hh => absurd (ha.2 hh) (by simp)
        · rw [hz]; exact tally_nil
        · rintro x (hx | hx)
          · simp at hx
          · rcases (hin x).1 hx with hx | hx
            · exact .inl hx
            · exact .inr (.inl hx)
      | true =>
        have hrun : runSteps env ig (.check e :: steps) s = runSteps env ig steps (assertLinted ig e s).1 := by
          rw [runSteps, show assertLinted ig e s = ((assertLinted ig e s).1, true) from Prod.ext rfl hb]
        rw [hrun]
        obtain ⟨h1, h2, left, h3, h4⟩ := ih hd' (assertLinted ig e s).1 [] (by rw [hz]; exact tally_nil)
        refine ⟨by rw [h1]; simp only [GoesWell]; exact ⟨fun hh => ⟨ha.1 hb, hh⟩, fun hh => hh.2⟩, fun hw x => ?_, left, h3, fun x hx => ?_⟩
        · rw [h2 hw x, hin, back]
          simp [or_assoc]
        · have := h4 x hx
          rw [hin] at this
          rw [back]
          simpa [or_assoc] using this

/-! ## Tests -/

/-- The mark left by `ignoreLinted` with these values, or none. -/
def Marked : Option (List Str) → Option Ignoring → Prop
  | none, ig => ig = none
  | some vs, ig => ∃ i, Ignoring.of vs = .ok i ∧ ig = some i

/-- The expected counts are dictionaries. -/
def Dicts (steps : List TStep) : Prop := ∀ e, .check e ∈ steps → (e.map (·.1)).Nodup

theorem ignoring_ok {vs : List Str} {i : Ignoring} (h : Ignoring.of vs = .ok i) (name : Str) :
    i.test name = true ↔ IsIgnored vs name := by
  by_cases hv : ∃ v ∈ vs, '*' ∈ v.dropLast
  · rw [(C87_ignore vs).1 hv] at h; simp at h
  · obtain ⟨j, h1, h2⟩ := (C87_ignore vs).2 fun v hm hs => hv ⟨v, hm, hs⟩
    cases h.symm.trans h1
    exact h2 name

theorem drops_iff {cv v : Option (List Str)} {t : ATest} (hc : Marked cv t.classIgnore) (hv : Marked v t.ignore) (name : Str) :
    Drops t.ignoring name ↔ TestIgnores cv v name := by
  unfold Drops ATest.ignoring TestIgnores
  cases cv with
  | some vs =>
    obtain ⟨i, h1, h2⟩ := hc
    simp [h2, ignoring_ok h1]
  | none =>
    rw [show t.classIgnore = none from hc]
    cases v with
    | some vs =>
      obtain ⟨i, h1, h2⟩ := hv
      simp [h2, ignoring_ok h1]
    | none => simp [show t.ignore = none from hv]

theorem goesWell_congr {P Q : Str → Prop} (h : ∀ n, P n ↔ Q n) : ∀ (steps : List TStep) (since : List Str),
    GoesWell P since steps ↔ GoesWell Q since steps
  | [], since => by simp [GoesWell, h]
  | .issue m :: steps, since => by simp only [GoesWell, goesWell_congr h steps]
  | .check e :: steps, since => by simp only [GoesWell, AsExpected, goesWell_congr h steps, h]
  | .raise :: _, _ => Iff.rfl

/-- C87: a test succeeds exactly if it goes well: nothing is raised, every `assertLinted` names the
messages issued since the one before, and after the last one there are no others than those ignored. -/
theorem C87_test (env : Str) (cv v : Option (List Str)) (t : ATest) (hc : Marked cv t.classIgnore) (hv : Marked v t.ignore)
    (hd : Dicts t.steps) (hf : t.failing = false) (mg : Manager) (hm : mg.raised = []) :
    (runTest env t mg).2 = true ↔ GoesWell (TestIgnores cv v) [] t.steps := by
  have h := (steps_iff env t.ignoring t.steps hd ⟨mg, []⟩ [] (by simp only [hm]; exact tally_nil)).1
  rw [← goesWell_congr (drops_iff hc hv), ← h]
  unfold runTest wellEnded
  generalize runSteps env t.ignoring t.steps ⟨mg, []⟩ = r
  obtain ⟨s, b⟩ := r
  cases b <;> simp [hf]

/-- With `expectedFailure`: the test has to fail before its end. -/
theorem C87_failing (env : Str) (t : ATest) (hf : t.failing = true) (mg : Manager) :
    (runTest env t mg).2 = true ↔ (runSteps env t.ignoring t.steps ⟨mg, []⟩).2 = false := by
  unfold runTest
  generalize runSteps env t.ignoring t.steps ⟨mg, []⟩ = r
  obtain ⟨s, b⟩ := r
  cases b <;> simp [hf]

theorem runTest_clean (env : Str) (t : ATest) (mg : Manager) : (runTest env t mg).1.mg.raised = [] := by
  unfold runTest
  generalize runSteps env t.ignoring t.steps ⟨mg, []⟩ = r
  obtain ⟨s, b⟩ := r
  cases b <;> rfl

theorem steps_printed (env : Str) (ig : Option Ignoring) (steps : List TStep) (p : List (Msg × List Rendered)) :
    ∀ (r : List (Str × List Msg)) (l : List (Str × Nat)),
    runSteps env ig steps ⟨⟨r, p⟩, l⟩ =
      (⟨⟨(runSteps env ig steps ⟨⟨r, []⟩, l⟩).1.mg.raised, p⟩, (runSteps env ig steps ⟨⟨r, []⟩, l⟩).1.linted⟩,
        (runSteps env ig steps ⟨⟨r, []⟩, l⟩).2) := by
  induction steps with
  | nil => intro r l; rfl
  | cons st steps ih =>
    intro r l
    cases st with
    | raise => rfl
    | issue m =>
      cases hr : m.render with
      | error e => simp [runSteps, Manager.onMessage, hr]
      | ok t =>
        simp only [runSteps, Manager.onMessage, hr, Bool.true_or, if_true]
        exact ih _ _
    | check e =>
      simp only [runSteps, assertLinted, Manager.reset]
      cases sameDict (dropIgnored ig (raisedCounts r)) e with
      | false => rfl
      | true => exact ih _ _

/-- C87: no message of a test is printed or left for the next one: whatever was printed before stays,
and the result of a test and what it counts are those of the test run alone. -/
theorem C87_alone (env : Str) (t : ATest) (mg : Manager) (hm : mg.raised = []) :
    (runTest env t mg).1.mg = mg ∧ (runTest env t mg).2 = (runTest env t .init).2 ∧
    (runTest env t mg).1.linted = (runTest env t .init).1.linted := by
  obtain ⟨r, p⟩ := mg
  subst hm
  have h := steps_printed env t.ignoring t.steps p [] []
  unfold runTest Manager.init
  rw [h]
  generalize hr : runSteps env t.ignoring t.steps ⟨⟨[], []⟩, []⟩ = x
  obtain ⟨⟨⟨a, b⟩, c⟩, d⟩ := x
  cases d <;> simp [assertLinted, Manager.reset]

theorem runTests_alone (env : Str) : ∀ (ts : List ATest) (mg : Manager) (l : List (Str × Nat)), mg.raised = [] →
    (runTests env ts mg l).1 = ts.map fun t => (runTest env t .init).2
  | [], _, _, _ => rfl
  | t :: ts, mg, l, hm => by
    simp only [runTests, List.map_cons]
    rw [runTests_alone env ts _ _ (runTest_clean env t mg), (C87_alone env t mg hm).2.1]

/-- C87: the results of several tests are those of the tests run alone. -/
theorem C87_suite (env : Str) (ts : List ATest) :
    (runTests env ts .init []).1 = ts.map fun t => (runTest env t .init).2 :=
  runTests_alone env ts _ _ rfl

theorem test_counts (env : Str) (t : ATest) (hd : Dicts t.steps) (x : Str) :
    (x ∈ (runTest env t .init).1.linted.map (·.1) → Issues x t.steps) ∧
    (t.failing = false → (runTest env t .init).2 = true → Issues x t.steps → x ∈ (runTest env t .init).1.linted.map (·.1)) := by
  obtain ⟨_, h2, left, h3, h4⟩ := steps_iff env t.ignoring t.steps hd ⟨.init, []⟩ [] tally_nil
  unfold runTest
  unfold wellEnded at h2
  generalize runSteps env t.ignoring t.steps ⟨.init, []⟩ = r at h2 h3 h4 ⊢
  obtain ⟨s, b⟩ := r
  cases b with
  | false =>
    refine ⟨fun hx => ?_, fun hf => by simp [hf]⟩
    have := h4 x (.inr hx)
    simpa using this
  | true =>
    refine ⟨fun hx => ?_, fun hf hok hi => ?_⟩
    · have : x ∈ (addCounts (raisedCounts s.mg.raised) s.linted).map (·.1) := hx
      rw [mem_addCounts, tally_keys h3] at this
      simpa using h4 x this
    · simp only [hf, Bool.not_false, Bool.true_and] at hok
      exact (h2 (by simp [hok]) x).2 (.inr (.inr hi))

theorem suite_counts (env : Str) (x : Str) : ∀ (ts : List ATest) (mg : Manager) (l : List (Str × Nat)), mg.raised = [] →
    (∀ t ∈ ts, Dicts t.steps) →
    (x ∈ (runTests env ts mg l).2.map (·.1) → x ∈ l.map (·.1) ∨ ∃ t ∈ ts, Issues x t.steps) ∧
    ((∀ t ∈ ts, t.failing = false ∧ (runTest env t .init).2 = true) →
      (x ∈ l.map (·.1) ∨ ∃ t ∈ ts, Issues x t.steps) → x ∈ (runTests env ts mg l).2.map (·.1))
  | [], _, _, _, _ => by simp [runTests]
  | t :: ts, mg, l, hm, hd => by
    obtain ⟨h1, h2⟩ := suite_counts env x ts (runTest env t mg).1.mg (addCounts (runTest env t mg).1.linted l)
      (runTest_clean env t mg) (fun t ht => hd t (by simp [ht]))
    obtain ⟨h3, h4⟩ := test_counts env t (hd t (by simp)) x
    rw [mem_addCounts, (C87_alone env t mg hm).2.2] at h1 h2
    simp only [runTests]
    rw [(C87_alone env t mg hm).2.2]
    refine ⟨fun hx => ?_, fun hall hx => ?_⟩
    · rcases h1 hx with (h | h) | ⟨u, hu, h⟩
      · exact .inr ⟨t, by simp, h3 h⟩
      · exact .inl h
      · exact .inr ⟨u, by simp [hu], h⟩
    · refine h2 (fun u hu => hall u (by simp [hu])) ?_
      rcases hx with h | ⟨u, hu, h⟩
      · exact .inl (.inr h)
      · rcases List.mem_cons.1 hu with rfl | hu
        · exact .inl (.inl (h4 (hall u (by simp)).1 (hall u (by simp)).2 h))
        · exact .inr ⟨u, hu, h⟩

/-- C87: every kind of message that is not issued by any test is listed as untested; and if all tests
succeed, no others. The list is sorted. -/
theorem C87_untested (env : Str) (ts : List ATest) (hd : ∀ t ∈ ts, Dicts t.steps) (defined : List Str) :
    ((∀ x ∈ defined, (∀ t ∈ ts, ¬ Issues x t.steps) → x ∈ untested defined (runTests env ts .init []).2) ∧
    ∀ x ∈ untested defined (runTests env ts .init []).2, x ∈ defined) ∧
    ((∀ t ∈ ts, t.failing = false) → (∀ b ∈ (runTests env ts .init []).1, b = true) →
      ∀ x ∈ untested defined (runTests env ts .init []).2, ∀ t ∈ ts, ¬ Issues x t.steps) ∧
    (untested defined (runTests env ts .init []).2).Pairwise (fun a b => strLt b a = false) := by
  have hs := fun x => suite_counts env x ts .init [] rfl hd
  refine ⟨⟨?_, ?_⟩, ?_, sortBy_ascending strLt_weak _⟩
  · intro x hx hno
    rw [untested, mem_sortBy, List.mem_filter]
    refine ⟨hx, ?_⟩
    rw [Bool.not_eq_true', ← Bool.not_eq_true, List.contains_iff_mem]
    intro hin
    rcases (hs x).1 hin with h | ⟨t, ht, h⟩
    · simp at h
    · exact hno t ht h
  · intro x hx
    rw [untested, mem_sortBy, List.mem_filter] at hx
    exact hx.1
  · intro hf hall x hx t ht hi
    rw [untested, mem_sortBy, List.mem_filter] at hx
    rw [Bool.not_eq_true', ← Bool.not_eq_true, List.contains_iff_mem] at hx
    refine hx.2 ((hs x).2 (fun u hu => ⟨hf u hu, hall _ ?_⟩) (.inr ⟨t, ht, hi⟩))
    rw [C87_suite, List.mem_map]
    exact ⟨u, hu, rfl⟩

/-- A message. -/
def blankMsg : Msg := ⟨.W_WSH_BOL, ⟨c! "test.conf", 1, []⟩, [], none⟩

/-- A message of another kind. -/
def eofMsg : Msg := ⟨.W_WSH_EOL, ⟨c! "test.conf", 2, []⟩, [], none⟩

/-- A test with two checks, in a class that ignores some messages. -/
def sampleTest : ATest := ⟨some ⟨[], [c! "W_WSH_E"]⟩, none, false,
  [.issue blankMsg, .issue eofMsg, .issue blankMsg, .check [(c! "W_WSH_BOL", 2)], .check [], .issue eofMsg]⟩

example : Marked (some [c! "W_WSH_E*"]) sampleTest.classIgnore ∧ Dicts sampleTest.steps ∧
    GoesWell (TestIgnores (some [c! "W_WSH_E*"]) none) [] sampleTest.steps := by
  have hm : Marked (some [c! "W_WSH_E*"]) sampleTest.classIgnore := ⟨_, (by decide : _ = Except.ok _), rfl⟩
  have hd : Dicts sampleTest.steps := by
    intro e he
    simp [sampleTest] at he
    rcases he with rfl | rfl <;> simp
  exact ⟨hm, hd, (C87_test [] _ none sampleTest hm rfl hd rfl .init rfl).1 (by decide)⟩

/-- A check that forgets one, and a message after the last check. -/
example : (runTests [] [sampleTest, ⟨none, none, false, [.issue blankMsg, .check []]⟩, ⟨none, none, false, [.issue eofMsg]⟩,
      ⟨none, none, true, [.raise]⟩, sampleTest] .init []) = ([true, false, false, true, true],
    [(c! "W_WSH_BOL", 5), (c! "W_WSH_EOL", 5)]) := by decide

example : untested [c! "W_B", c! "W_WSH_BOL", c! "E_A"] (runTests [] [sampleTest] .init []).2 = [c! "E_A", c! "W_B"] := by decide

/-! ## Generated tests -/

theorem setKey_lookup {α : Type} (n : Str) (v : α) (d : List (Str × α)) (x : Str) :
    (setKey n v d).lookup x = if x = n then some v else d.lookup x := by
  induction d with
  | nil =>
    by_cases h : x = n
    · simp [setKey, h]
    · simp [setKey, h, List.lookup, beq_eq_false_iff_ne.2 h]
  | cons kw d ih =>
    obtain ⟨k, w⟩ := kw
    simp only [setKey]
    split
    · rename_i hk
      subst hk
      by_cases h : x = k
      · simp [h]
      · simp [h, List.lookup, beq_eq_false_iff_ne.2 h]
    · rename_i hk
      by_cases h : x = k
      · subst h; simp [List.lookup, hk]
      · simp only [List.lookup, beq_eq_false_iff_ne.2 h, ih]

/-- C88, what holds: the method of each name is the one generated for the last arguments that give
this name, or the one the class had. -/
theorem C88_generated {α : Type} (call : List Str → α) (own : List (Str × α)) (argslist : List (List Str)) :
    (∀ before args after, argslist = before ++ args :: after → (∀ a ∈ after, testName a ≠ testName args) →
      (generateTests call own argslist).lookup (testName args) = some (call args)) ∧
    (∀ name, (∀ a ∈ argslist, testName a ≠ name) → (generateTests call own argslist).lookup name = own.lookup name) := by
  have keep : ∀ (l : List (List Str)) (d : List (Str × α)) (name : Str), (∀ a ∈ l, testName a ≠ name) →
      (generateTests call d l).lookup name = d.lookup name := by
    intro l
    unfold generateTests
    induction l with
    | nil => exact fun _ _ _ => rfl
    | cons a l ih =>
      intro d name h
      rw [List.foldl_cons, ih _ _ fun b hb => h b (by simp [hb]), setKey_lookup, if_neg (Ne.symm (h a (by simp)))]
  refine ⟨?_, fun name h => keep argslist own name h⟩
  rintro before args after rfl h
  have : generateTests call own (before ++ args :: after) =
      generateTests call (setKey (testName args) (call args) (generateTests call own before)) after := by
    simp [generateTests, List.foldl_append]
  rw [this, keep _ _ _ h, setKey_lookup, if_pos rfl]

/-- C88 in part: if the names are all different, there is a test for all arguments.  The full property
is violated, see below. -/
theorem C88_all_partial {α : Type} (call : List Str → α) (own : List (Str × α)) (argslist : List (List Str))
    (hd : (argslist.map testName).Nodup) (args : List Str) (h : args ∈ argslist) :
    (generateTests call own argslist).lookup (testName args) = some (call args) := by
  obtain ⟨before, after, rfl⟩ := List.append_of_mem h
  refine (C88_generated call own _).1 before args after rfl fun a ha he => ?_
  rw [List.map_append, List.map_cons, List.nodup_append, List.nodup_cons] at hd
  exact hd.2.1.1 (he ▸ List.mem_map_of_mem ha)

theorem join_inj : ∀ {a b : List Str}, a.length = b.length → (∀ x ∈ a, '_' ∉ x) → (∀ x ∈ b, '_' ∉ x) →
    joinWith '_' a = joinWith '_' b → a = b
  | [], [], _, _, _, _ => rfl
  | x :: a, y :: b, hl, ha, hb, h => by
    have h1 := splitAll_joinWith '_' (x :: a) (by simp) ha
    have h2 := splitAll_joinWith '_' (y :: b) (by simp) hb
    rw [← h1, ← h2, h]

/-- The names are different if the arguments are, and none of them contains an underscore: for then
the arguments can be read off the name. -/
theorem C88_names (n : Nat) (argslist : List (List Str)) (hd : argslist.Nodup) (hl : ∀ a ∈ argslist, a.length = n)
    (hu : ∀ a ∈ argslist, ∀ x ∈ a, '_' ∉ x) : (argslist.map testName).Nodup := by
  rw [List.Nodup, List.pairwise_map]
  refine hd.imp_of_mem fun {a b} ha hb hne he => hne ?_
  exact join_inj ((hl a ha).trans (hl b hb).symm) (hu a ha) (hu b hb) (List.append_cancel_left he)

example : generateTests (fun a => a) [] [[c! "1", c! "4"], [c! "2", c! "3"]] =
    [(c! "test_1_4", [c! "1", c! "4"]), (c! "test_2_3", [c! "2", c! "3"])] := by decide

/-- C88 is violated: of two arguments that give the same name one is never tested, and a test of the
class itself is lost if it has such a name. -/
theorem C88_violated :
    generateTests (fun a => a) [(c! "test_1", [])] [[c! "a_b", c! "c"], [c! "a", c! "b_c"], [c! "1"]] =
      [(c! "test_1", [c! "1"]), (c! "test_a_b_c", [c! "a", c! "b_c"])] := by decide

end ALint.Props
