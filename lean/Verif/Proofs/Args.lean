import Verif.Proofs.Separate

/-! # Checks of arguments (lemmas) -/

namespace ALint
open ALint.Spec

theorem msgs_append (a b : List Ev) : msgs (a ++ b) = msgs a ++ msgs b := by simp [msgs]

theorem countKind_append (k : MK) (a b : List Ev) : countKind k (a ++ b) = countKind k a + countKind k b := by
  simp [countKind, msgs_append]

theorem about_append (k : MK) (n : Nat) (a b : List Ev) : about k n (a ++ b) = about k n a ++ about k n b := by
  simp [about, msgs_append]

theorem falsy_iff (v : V) (h : isText v = true) : v.truthy = false ↔ v.tokens = [] := by
  have := truthy_iff h
  cases ht : v.truthy with
  | true => simp [this.1 ht]
  | false =>
    simp only [true_iff]
    exact Classical.byContradiction fun hn => by rw [this.2 hn] at ht; simp at ht

/-- Both parts of a sequence happen if the first does not fail. -/
theorem Tr.bind_unit {β : Type} {x : Tr Unit} (h : x.val = .ok ()) (f : Unit → Tr β) :
    Tr.bind x f = ⟨x.ev ++ (f ()).ev, (f ()).val⟩ := by
  simp [Tr.bind, h]

theorem minMax_val (w : Where) (name : Str) (mn mx : Option Nat) (args : List V) :
    (minMaxCheck w name mn mx args).val = .ok () := by
  unfold minMaxCheck
  split
  · rfl
  · split <;> rfl

theorem tooFew_iff (m : Nat) (args : List V) (h : args ≠ []) (ht : ∀ a ∈ args, isText a = true) :
    minMaxCheck.tooFew (some m) args = true ↔ given args < m := by
  match args, h with
  | [a], _ =>
    have := falsy_iff a (ht a (by simp))
    by_cases he : a.tokens = []
    · simp [minMaxCheck.tooFew, given, he, this.2 he]; omega
    · have h' : a.truthy = true := by
        cases hh : a.truthy with
        | true => rfl
        | false => exact absurd (this.1 hh) he
      simp [minMaxCheck.tooFew, given, he, h']
  | a :: b :: rest, _ => simp [minMaxCheck.tooFew, given]

theorem tooMany_iff (m : Nat) (hm : 1 ≤ m) (args : List V) :
    minMaxCheck.tooMany (some m) args = true ↔ m < given args := by
  unfold given
  split
  · rename_i h
    have : args.length = 1 := by simpa using congrArg List.length h
    simp [minMaxCheck.tooMany, this]; omega
  · simp [minMaxCheck.tooMany]

theorem minMax_counts (w : Where) (name : Str) (mn : Option Nat) (mx : Nat) (args : List V) (h : args ≠ [])
    (ht : ∀ a ∈ args, isText a = true) (hx : 1 ≤ mx) (hm : ∀ m, mn = some m → m ≤ mx) :
    countKind .E_APP_ARG_FEW (minMaxCheck w name mn (some mx) args).ev =
      (if given args < mn.getD 0 then 1 else 0) ∧
    countKind .E_APP_ARG_MANY (minMaxCheck w name mn (some mx) args).ev =
      (if mx < given args then 1 else 0) ∧
    ∀ k n, about k n (minMaxCheck w name mn (some mx) args).ev = [] := by
  have hmany := tooMany_iff mx hx args
  unfold minMaxCheck
  by_cases hf : minMaxCheck.tooFew mn args = true
  · rw [if_pos hf]
    cases mn with
    | none => simp [minMaxCheck.tooFew] at hf
    | some m =>
      have h1 := (tooFew_iff m args h ht).1 hf
      have h2 := hm m rfl
      have h3 : ¬ mx < given args := by omega
      refine ⟨?_, ?_, ?_⟩
      · simp [h1, Tr.emit, countKind, msgs, mkMsg]
      · simp [h3, Tr.emit, countKind, msgs, mkMsg]
      · intro k n
        simp [about, msgs, Tr.emit, mkMsg, List.lookup]
  · rw [if_neg hf]
    have h1 : ¬ given args < mn.getD 0 := by
      cases mn with
      | none => simp
      | some m => intro h'; exact hf ((tooFew_iff m args h ht).2 h')
    by_cases hg : minMaxCheck.tooMany (some mx) args = true
    · rw [if_pos hg]
      have h2 := hmany.1 hg
      refine ⟨?_, ?_, ?_⟩
      · simp [h1, Tr.emit, countKind, msgs, mkMsg]
      · simp [h2, Tr.emit, countKind, msgs, mkMsg]
      · intro k n
        simp [about, msgs, Tr.emit, mkMsg, List.lookup]
    · rw [if_neg hg]
      have h2 : ¬ mx < given args := fun h' => hg (hmany.2 h')
      refine ⟨?_, ?_, ?_⟩
      · simp [h1, Tr.pure, countKind, msgs]
      · simp [h2, Tr.pure, countKind, msgs]
      · intro k n; rfl

theorem pipe_val (w : Where) (name : Str) (data : V) (args : List V) :
    (pipeCheck w name data args).val = .ok () := by
  unfold pipeCheck
  split
  · split <;> rfl
  · rfl

theorem pipe_kinds (w : Where) (name : Str) (data : V) (args : List V) :
    ∀ m ∈ msgs (pipeCheck w name data args).ev, m.kind = .E_APP_ARG_PIPEDELIM := by
  unfold pipeCheck
  split
  · split <;> simp [Tr.emit, Tr.pure, msgs, mkMsg]
  · simp [Tr.pure, msgs]

theorem natStr_ok (n : Nat) : ∃ s, (V.int n).toStr = .ok s := ⟨_, rfl⟩

theorem validate_val (w : Where) (name : Str) (n : Nat) (b : ArgBeh) (a : V) :
    (validateArg w name n b a).val = .ok () := by
  cases b with
  | any => rfl
  | options opts =>
    simp only [validateArg]
    have : ∀ x y : Tr Unit, x.val = .ok () → y.val = .ok () → (Tr.bind x fun _ => y).val = .ok () := by
      intro x y hx hy; simp [Tr.bind, hx, hy]
    apply this
    · split <;> rfl
    · split <;> rfl
  | appOrExten =>
    simp only [validateArg]
    split <;> rfl

theorem natV_inj {a b : Nat} (h : natV a = natV b) : a = b := by
  simp [natV] at h; omega

/-- Events of the checks have the number of the argument they are about. -/
theorem validate_number (w : Where) (name : Str) (n : Nat) (b : ArgBeh) (a : V) :
    ∀ m ∈ msgs (validateArg w name n b a).ev,
      (m.kind = .E_APP_ARG_BADOPT ∨ m.kind = .E_APP_ARG_DUPEOPT) ∧
        m.args.lookup (c! "argno") = some (natV n) := by
  cases b with
  | any => simp [validateArg, Tr.pure, msgs]
  | options opts =>
    simp only [validateArg]
    rw [Tr.bind_unit (by split <;> rfl), msgs_append]
    intro m hm
    rcases List.mem_append.1 hm with hm | hm
    · split at hm
      · simp [Tr.pure, msgs] at hm
      · simp [Tr.emit, msgs, mkMsg] at hm; subst hm; simp [List.lookup]
    · split at hm
      · simp [Tr.emit, msgs, mkMsg] at hm; subst hm; simp [List.lookup]
      · simp [Tr.pure, msgs] at hm
  | appOrExten =>
    simp only [validateArg]
    intro m hm
    split at hm
    · simp [Tr.pure, msgs] at hm
    · simp [Tr.emit, msgs, mkMsg] at hm; subst hm; simp [List.lookup]

theorem validateArgs_val (w : Where) (name : Str) (n : Nat) (bs : List ArgBeh) (as : List V) :
    (validateArgs w name n bs as).val = .ok () := by
  induction bs generalizing n as with
  | nil => cases as <;> rfl
  | cons b bs ih =>
    cases as with
    | nil => rfl
    | cons a as =>
      rw [validateArgs, Tr.bind_unit (validate_val ..)]
      exact ih _ _

theorem validateArgs_number (w : Where) (name : Str) (n : Nat) (bs : List ArgBeh) (as : List V) :
    ∀ m ∈ msgs (validateArgs w name n bs as).ev,
      (m.kind = .E_APP_ARG_BADOPT ∨ m.kind = .E_APP_ARG_DUPEOPT) ∧
        ∃ j, n ≤ j ∧ m.args.lookup (c! "argno") = some (natV j) := by
  induction bs generalizing n as with
  | nil => cases as <;> simp [validateArgs, Tr.pure, msgs]
  | cons b bs ih =>
    cases as with
    | nil => simp [validateArgs, Tr.pure, msgs]
    | cons a as =>
      rw [validateArgs, Tr.bind_unit (validate_val ..), msgs_append]
      intro m hm
      rcases List.mem_append.1 hm with hm | hm
      · obtain ⟨h1, h2⟩ := validate_number _ _ _ _ _ m hm
        exact ⟨h1, n, Nat.le_refl _, h2⟩
      · obtain ⟨h1, j, h2, h3⟩ := ih _ _ m hm
        exact ⟨h1, j, by omega, h3⟩

theorem about_nil {k : MK} {n : Nat} {ev : List Ev}
    (h : ∀ m ∈ msgs ev, m.kind = k → m.args.lookup (c! "argno") ≠ some (natV n)) : about k n ev = [] := by
  unfold about
  rw [List.filter_eq_nil_iff]
  intro m hm
  simp
  exact h m hm

/-- The messages about one argument are those of its own check. -/
theorem validateArgs_about (k : MK) (w : Where) (name : Str) (n : Nat) (bs : List ArgBeh) (as : List V) (i : Nat)
    (b : ArgBeh) (a : V) (hb : bs[i]? = some b) (ha : as[i]? = some a) :
    about k (n + i) (validateArgs w name n bs as).ev = about k (n + i) (validateArg w name (n + i) b a).ev := by
  induction bs generalizing n as i with
  | nil => simp at hb
  | cons b' bs ih =>
    cases as with
    | nil => simp at ha
    | cons a' as =>
      rw [validateArgs, Tr.bind_unit (validate_val ..), about_append]
      cases i with
      | zero =>
        simp at hb ha; subst hb ha
        have : about k (n + 0) (validateArgs w name (n + 1) bs as).ev = [] := by
          apply about_nil
          intro m hm _ he
          obtain ⟨_, j, hj, h3⟩ := validateArgs_number _ _ _ _ _ m hm
          rw [h3] at he
          have := natV_inj (Option.some.inj he)
          omega
        rw [this, List.append_nil]; rfl
      | succ i =>
        simp at hb ha
        have : about k (n + (i + 1)) (validateArg w name n b' a').ev = [] := by
          apply about_nil
          intro m hm _ he
          obtain ⟨_, h3⟩ := validate_number _ _ _ _ _ m hm
          rw [h3] at he
          have := natV_inj (Option.some.inj he)
          omega
        rw [this, List.nil_append, show n + (i + 1) = n + 1 + i by omega]
        exact ih (n + 1) as i hb ha

/-- An argument without description has no messages of its own. -/
theorem validateArgs_none (k : MK) (w : Where) (name : Str) (n : Nat) (bs : List ArgBeh) (as : List V) (i : Nat)
    (h : bs[i]? = none ∨ bs[i]? = some .any ∨ as[i]? = none) :
    about k (n + i) (validateArgs w name n bs as).ev = [] := by
  induction bs generalizing n as i with
  | nil => cases as <;> rfl
  | cons b' bs ih =>
    cases as with
    | nil => rfl
    | cons a' as =>
      rw [validateArgs, Tr.bind_unit (validate_val ..), about_append]
      cases i with
      | zero =>
        simp at h; subst h
        have : about k (n + 0) (validateArgs w name (n + 1) bs as).ev = [] := by
          apply about_nil
          intro m hm _ he
          obtain ⟨_, j, hj, h3⟩ := validateArgs_number _ _ _ _ _ m hm
          rw [h3] at he
          have := natV_inj (Option.some.inj he)
          omega
        rw [this]; rfl
      | succ i =>
        have : about k (n + (i + 1)) (validateArg w name n b' a').ev = [] := by
          apply about_nil
          intro m hm _ he
          obtain ⟨_, h3⟩ := validate_number _ _ _ _ _ m hm
          rw [h3] at he
          have := natV_inj (Option.some.inj he)
          omega
        rw [this, List.nil_append, show n + (i + 1) = n + 1 + i by omega]
        exact ih (n + 1) as i (by simpa using h)

theorem countKind_zero {k : MK} {ev : List Ev} (h : ∀ m ∈ msgs ev, m.kind ≠ k) : countKind k ev = 0 := by
  unfold countKind
  rw [List.length_eq_zero_iff, List.filter_eq_nil_iff]
  intro m hm
  simpa using h m hm

/-! ### options -/

theorem optionStrs_letters (ts : List V) (h : ∀ t ∈ ts, isTok t = true) :
    (ts.filterMap fun t => match t with | .str s => some s | _ => none) = (letters ts).map fun c => [c] := by
  induction ts with
  | nil => rfl
  | cons t ts ih =>
    have ih := ih (fun t ht => h t (by simp [ht]))
    have ht := h t (by simp)
    cases t with
    | str s =>
      match s, ht with
      | [c], _ => simp only [List.filterMap_cons, letters, List.map_cons] at ih ⊢; rw [ih]
      | [], ht => simp [isTok] at ht
      | _ :: _ :: _, ht => simp [isTok] at ht
    | _ => simpa [letters] using ih

theorem optionStrs_eq (a : V) : optionStrs a = (letters a.tokens).map fun c => [c] :=
  optionStrs_letters _ (tokens_isTok a)

theorem contains_single (c : Char) (s : Str) : contains [c] s = decide (c ∈ s) := by
  induction s with
  | nil => simp [contains]
  | cons d s ih =>
    rw [contains, ih]
    by_cases h : c = d
    · subst h; simp [List.isPrefixOf]
    · simp [List.isPrefixOf, h]

theorem badOptions_eq (opts : Str) (a : V) :
    badOptions opts a = ((letters a.tokens).filter fun c => decide (c ∉ opts)).map fun c => [c] := by
  rw [badOptions, optionStrs_eq, List.filter_map]
  congr 1
  apply List.filter_congr
  intro c _
  simp [contains_single]

theorem eraseDups_map_single (l : Str) :
    ((l.map fun c => [c]).eraseDups) = l.eraseDups.map fun c => [c] := by
  generalize hn : l.length = n
  induction n using Nat.strongRecOn generalizing l with
  | ind n ih =>
    cases l with
    | nil => rfl
    | cons c l =>
      rw [List.map_cons, List.eraseDups_cons, List.eraseDups_cons, List.map_cons, List.filter_map]
      have e : ((fun b => !b == [c]) ∘ fun c => [c]) = fun b : Char => !b == c := by
        funext b; simp
      rw [e, ih _ (by have := List.length_filter_le (fun b : Char => !b == c) l; simp at hn; omega) _ rfl]

theorem eraseDups_length (l : Str) : l.eraseDups.length ≤ l.length ∧ (l.eraseDups.length = l.length ↔ l.Nodup) := by
  generalize hn : l.length = n
  induction n using Nat.strongRecOn generalizing l with
  | ind n ih =>
    cases l with
    | nil => subst hn; simp
    | cons c l =>
      rw [List.eraseDups_cons, List.length_cons, List.nodup_cons]
      have hl := List.length_filter_le (fun b : Char => !b == c) l
      simp only [List.length_cons] at hn
      obtain ⟨i1, i2⟩ := ih _ (by omega : (l.filter fun b => !b == c).length < n) _ rfl
      refine ⟨by omega, ?_⟩
      constructor
      · intro h
        have h1 : (l.filter fun b => !b == c).length = l.length := by omega
        have h2 : l.filter (fun b => !b == c) = l := by
          rw [List.filter_eq_self]
          exact List.length_filter_eq_length_iff.1 h1
        constructor
        · intro hc
          have := List.filter_eq_self.1 h2 c hc
          simp at this
        · rw [h2] at i2 i1
          exact i2.1 (by rw [h2] at h; omega)
      · rintro ⟨h1, h2⟩
        have h3 : l.filter (fun b => !b == c) = l := by
          rw [List.filter_eq_self]
          intro b hb
          simp
          rintro rfl
          exact h1 hb
        rw [h3] at i2 ⊢
        rw [i2.2 h2]; omega

theorem dupes_iff (a : V) : (optionStrs a).length ≠ (optionStrs a).eraseDups.length ↔ ¬ (letters a.tokens).Nodup := by
  rw [optionStrs_eq, eraseDups_map_single, List.length_map, List.length_map, ← (eraseDups_length _).2]
  omega

theorem validate_options (w : Where) (name : Str) (n : Nat) (opts : Str) (a : V) :
    about .E_APP_ARG_BADOPT n (validateArg w name n (.options opts) a).ev =
      (if (letters a.tokens).filter (fun c => decide (c ∉ opts)) = [] then [] else
        [mkMsg .E_APP_ARG_BADOPT w [(c! "argno", natV n), (c! "app", strV name),
          (c! "opts", strV ((letters a.tokens).filter fun c => decide (c ∉ opts)))]]) ∧
    about .E_APP_ARG_DUPEOPT n (validateArg w name n (.options opts) a).ev =
      (if (letters a.tokens).Nodup then [] else
        [mkMsg .E_APP_ARG_DUPEOPT w [(c! "argno", natV n), (c! "app", strV name), (c! "opts", .one a)]]) := by
  have hb : (badOptions opts a).isEmpty = true ↔ (letters a.tokens).filter (fun c => decide (c ∉ opts)) = [] := by
    rw [badOptions_eq, List.isEmpty_iff]; simp
  have hf : (badOptions opts a).flatten = (letters a.tokens).filter (fun c => decide (c ∉ opts)) := by
    rw [badOptions_eq]
    generalize (letters a.tokens).filter _ = l
    induction l with
    | nil => rfl
    | cons c l ih => simp [ih]
  have hd := dupes_iff a
  simp only [validateArg]
  rw [Tr.bind_unit (by split <;> rfl), about_append, about_append, hf]
  by_cases h1 : (letters a.tokens).filter (fun c => decide (c ∉ opts)) = [] <;>
    by_cases h2 : (letters a.tokens).Nodup
  all_goals
    simp only [hb, hd, h1, h2, if_true, if_false, not_true, not_false_eq_true]
    simp [about, msgs, Tr.emit, Tr.pure, mkMsg, List.lookup]

end ALint
