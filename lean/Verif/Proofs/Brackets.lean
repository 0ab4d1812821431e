import Verif.Spec.Var
import Verif.Proofs.Var

namespace ALint
open ALint.Spec

/-! ### traces -/

theorem Tr.bind_ok {α β : Type} {x : Tr α} {f : α → Tr β} {b : β} (h : (Tr.bind x f).val = .ok b) :
    ∃ a, x.val = .ok a ∧ (f a).val = .ok b ∧ (Tr.bind x f).ev = x.ev ++ (f a).ev := by
  unfold Tr.bind at *
  cases hx : x.val with
  | error e => simp [hx] at h
  | ok a => simp only [hx] at h ⊢; exact ⟨a, rfl, h, rfl⟩

theorem Tr.bind_err {α β : Type} {x : Tr α} {f : α → Tr β} {e : Exc} (h : (Tr.bind x f).val = .error e) :
    x.val = .error e ∨ ∃ a, x.val = .ok a ∧ (f a).val = .error e := by
  unfold Tr.bind at h
  cases hx : x.val with
  | error e' => simp [hx] at h; exact .inl (by rw [h])
  | ok a => simp only [hx] at h; exact .inr ⟨a, rfl, h⟩

theorem Tr.bind_val_ok {α β : Type} {x : Tr α} {f : α → Tr β} {a : α} (h : x.val = .ok a) :
    (Tr.bind x f).val = (f a).val ∧ (Tr.bind x f).ev = x.ev ++ (f a).ev := by
  unfold Tr.bind; rw [h]; exact ⟨rfl, rfl⟩

theorem Tr.bind_congr {α β : Type} (x : Tr α) (f g : α → Tr β) (h : ∀ a, x.val = .ok a → f a = g a) :
    Tr.bind x f = Tr.bind x g := by
  unfold Tr.bind
  cases hx : x.val with
  | error e => rfl
  | ok a => simp only [h a hx]

theorem Tr.pure_bind {α β : Type} (a : α) (f : α → Tr β) : Tr.bind (Tr.pure a) f = f a := by
  simp [Tr.bind, Tr.pure]

/-! ### substitutions -/

theorem hasSubst_cons_iff (c : Char) (s : Str) :
    HasSubst (c :: s) ↔ (c = '$' ∧ opensSubst s = true) ∨ HasSubst s := by
  unfold HasSubst
  simp only [List.infix_cons_iff]
  have h : ∀ d : Char, ['$', d] <+: c :: s ↔ c = '$' ∧ s.head? = some d := by
    intro d
    cases s with
    | nil => simp [List.cons_prefix_cons]
    | cons x xs => simp [List.cons_prefix_cons, eq_comm]
  rw [h, h]
  have ho : opensSubst s = true ↔ s.head? = some '{' ∨ s.head? = some '[' := by
    unfold opensSubst
    split
    · simp
    · simp
    · rename_i h1 h2
      cases s with
      | nil => simp
      | cons x xs =>
        simp
        exact ⟨fun e => h1 xs (by rw [e]), fun e => h2 xs (by rw [e])⟩
  rw [ho]
  constructor
  · rintro ((⟨h1, h2⟩ | h) | ⟨h1, h2⟩ | h)
    · exact .inl ⟨h1, .inl h2⟩
    · exact .inr (.inl h)
    · exact .inl ⟨h1, .inr h2⟩
    · exact .inr (.inr h)
  · rintro (⟨h1, h2 | h2⟩ | h | h)
    · exact .inl (.inl ⟨h1, h2⟩)
    · exact .inr (.inl ⟨h1, h2⟩)
    · exact .inl (.inr h)
    · exact .inr (.inr h)

theorem not_hasSubst_nil : ¬ HasSubst [] := by simp [HasSubst]

theorem hasSubst_infix {a b : Str} (h : a <:+: b) (ha : HasSubst a) : HasSubst b := by
  rcases ha with ha | ha
  · exact .inl (ha.trans h)
  · exact .inr (ha.trans h)

theorem findSubst_cons (c : Char) (cs : Str) :
    findSubst (c :: cs) =
      if c = '$' ∧ cs.head? = some '{' then some ([], true, cs.tail)
      else if c = '$' ∧ cs.head? = some '[' then some ([], false, cs.tail)
      else (findSubst cs).map fun r => (c :: r.1, r.2) := by
  conv => lhs; unfold findSubst
  split
  · simp
  · simp
  · rename_i h1 h2
    have a1 : ¬ (c = '$' ∧ cs.head? = some '{') := by
      rintro ⟨rfl, h⟩
      cases cs with
      | nil => simp at h
      | cons x xs => simp at h; exact h1 xs rfl (by rw [h])
    have a2 : ¬ (c = '$' ∧ cs.head? = some '[') := by
      rintro ⟨rfl, h⟩
      cases cs with
      | nil => simp at h
      | cons x xs => simp at h; exact h2 xs rfl (by rw [h])
    rw [if_neg a1, if_neg a2]

theorem opensSubst_iff (s : Str) : opensSubst s = true ↔ s.head? = some '{' ∨ s.head? = some '[' := by
  unfold opensSubst
  split
  · simp
  · simp
  · rename_i h1 h2
    cases s with
    | nil => simp
    | cons x xs =>
      simp
      exact ⟨fun e => h1 xs (by rw [e]), fun e => h2 xs (by rw [e])⟩

theorem findSubst_none (s : Str) : findSubst s = none ↔ ¬ HasSubst s := by
  induction s with
  | nil => simp [findSubst, not_hasSubst_nil]
  | cons c cs ih =>
    rw [findSubst_cons, hasSubst_cons_iff, opensSubst_iff]
    by_cases h1 : c = '$' ∧ cs.head? = some '{'
    · simp [h1]
    · by_cases h2 : c = '$' ∧ cs.head? = some '['
      · simp [h2]
      · rw [if_neg h1, if_neg h2, Option.map_eq_none_iff, ih]
        constructor
        · rintro h (⟨ha, hb | hb⟩ | hb)
          · exact h1 ⟨ha, hb⟩
          · exact h2 ⟨ha, hb⟩
          · exact h hb
        · intro h hb; exact h (.inr hb)

theorem findSubst_some (s pre rest : Str) (curly : Bool) :
    findSubst s = some (pre, curly, rest) ↔ ¬ HasSubst pre ∧ s = pre ++ '$' :: brOpen curly :: rest := by
  induction s generalizing pre with
  | nil => simp [findSubst]
  | cons c cs ih =>
    rw [findSubst_cons]
    by_cases h1 : c = '$' ∧ cs.head? = some '{'
    · rw [if_pos h1]
      obtain ⟨rfl, h1⟩ := h1
      cases cs with
      | nil => simp at h1
      | cons x xs =>
        simp at h1; subst h1
        constructor
        · intro h
          simp at h
          obtain ⟨rfl, rfl, rfl⟩ := h
          exact ⟨not_hasSubst_nil, rfl⟩
        · rintro ⟨hn, h⟩
          cases pre with
          | nil =>
            simp at h
            cases curly
            · simp [brOpen] at h
            · simp [h.2]
          | cons y pre =>
            exfalso
            simp at h
            obtain ⟨rfl, h⟩ := h
            apply hn
            rw [hasSubst_cons_iff]
            left
            refine ⟨rfl, ?_⟩
            cases pre with
            | nil => simp at h
            | cons z pre => simp at h; rw [← h.1]; rfl
    · rw [if_neg h1]
      by_cases h2 : c = '$' ∧ cs.head? = some '['
      · rw [if_pos h2]
        obtain ⟨rfl, h2⟩ := h2
        cases cs with
        | nil => simp at h2
        | cons x xs =>
          simp at h2; subst h2
          constructor
          · intro h
            simp at h
            obtain ⟨rfl, rfl, rfl⟩ := h
            exact ⟨not_hasSubst_nil, rfl⟩
          · rintro ⟨hn, h⟩
            cases pre with
            | nil =>
              simp at h
              cases curly
              · simp [h.2]
              · simp [brOpen] at h
            | cons y pre =>
              exfalso
              simp at h
              obtain ⟨rfl, h⟩ := h
              apply hn
              rw [hasSubst_cons_iff]
              left
              refine ⟨rfl, ?_⟩
              cases pre with
              | nil => simp at h
              | cons z pre => simp at h; rw [← h.1]; rfl
      · rw [if_neg h2]
        simp only [Option.map_eq_some_iff]
        constructor
        · rintro ⟨⟨p, k, r⟩, hf, he⟩
          simp at he
          obtain ⟨rfl, rfl, rfl⟩ := he
          obtain ⟨ha, rfl⟩ := (ih p).1 hf
          refine ⟨?_, rfl⟩
          rw [hasSubst_cons_iff, opensSubst_iff]
          rintro (⟨h3, h4⟩ | h3)
          · cases p with
            | nil => simp at h4
            | cons z p =>
              simp at h1 h2 h4
              rcases h4 with h4 | h4
              · exact h1 h3 h4
              · exact h2 h3 h4
          · exact ha h3
        · rintro ⟨hn, h⟩
          cases pre with
          | nil =>
            exfalso
            simp at h
            obtain ⟨rfl, rfl⟩ := h
            cases curly
            · simp [brOpen] at h2
            · simp [brOpen] at h1
          | cons y pre =>
            simp at h
            obtain ⟨rfl, rfl⟩ := h
            refine ⟨(pre, curly, rest), (ih pre).2 ⟨?_, rfl⟩, rfl⟩
            intro hh; exact hn ((hasSubst_cons_iff _ _).2 (.inr hh))

/-! ### the closing bracket -/

/-- Closing `d + 1` open brackets. -/
def EnclosesAt (l r : Char) (d : Nat) (s inner tail : Str) : Prop :=
  s = inner ++ r :: tail ∧ inner.count l + d = inner.count r ∧
    ∀ p, p <+: inner → p.count r ≤ p.count l + d

theorem prefix_cons_all {c : Char} {x : Str} {P : Str → Prop} (h0 : P [])
    (h : ∀ q, q <+: x → P (c :: q)) : ∀ p, p <+: c :: x → P p := by
  intro p hp
  cases p with
  | nil => exact h0
  | cons d p =>
    rw [List.cons_prefix_cons] at hp
    obtain ⟨rfl, hp⟩ := hp
    exact h p hp

theorem enclosesAt_nil (l r : Char) (d : Nat) (cs inner tail : Str) (hlr : l ≠ r) :
    EnclosesAt l r d (r :: cs) inner tail ↔
      (d = 0 ∧ inner = [] ∧ tail = cs) ∨
      ∃ d' x, d = d' + 1 ∧ inner = r :: x ∧ EnclosesAt l r d' cs x tail := by
  constructor
  · rintro ⟨h1, h2, h3⟩
    cases inner with
    | nil =>
      simp at h1 h2
      exact .inl ⟨h2, rfl, h1.symm⟩
    | cons y x =>
      simp at h1
      obtain ⟨rfl, rfl⟩ := h1
      have hd := h3 [r] (by simp)
      rw [List.count_singleton_self, List.count_cons_of_ne (Ne.symm hlr), List.count_nil] at hd
      obtain ⟨d', rfl⟩ : ∃ d', d = d' + 1 := ⟨d - 1, by omega⟩
      refine .inr ⟨d', x, rfl, rfl, rfl, ?_, ?_⟩
      · rw [List.count_cons_self, List.count_cons_of_ne (Ne.symm hlr)] at h2; omega
      · intro p hp
        have := h3 (r :: p) (by simpa [List.cons_prefix_cons] using hp)
        rw [List.count_cons_self, List.count_cons_of_ne (Ne.symm hlr)] at this
        omega
  · rintro (⟨rfl, rfl, rfl⟩ | ⟨d', x, rfl, rfl, rfl, h2, h3⟩)
    · exact ⟨rfl, by simp, by simp⟩
    · refine ⟨rfl, ?_, ?_⟩
      · rw [List.count_cons_self, List.count_cons_of_ne (Ne.symm hlr)]; omega
      · apply prefix_cons_all
        · simp
        · intro q hq
          have := h3 q hq
          rw [List.count_cons_self, List.count_cons_of_ne (Ne.symm hlr)]
          omega

theorem enclosesAt_open (l r : Char) (d : Nat) (cs inner tail : Str) (hlr : l ≠ r) :
    EnclosesAt l r d (l :: cs) inner tail ↔
      ∃ x, inner = l :: x ∧ EnclosesAt l r (d + 1) cs x tail := by
  constructor
  · rintro ⟨h1, h2, h3⟩
    cases inner with
    | nil => simp at h1; exact absurd h1.1 hlr
    | cons y x =>
      simp at h1
      obtain ⟨rfl, rfl⟩ := h1
      refine ⟨x, rfl, rfl, ?_, ?_⟩
      · rw [List.count_cons_self, List.count_cons_of_ne hlr] at h2; omega
      · intro p hp
        have := h3 (l :: p) (by simpa [List.cons_prefix_cons] using hp)
        rw [List.count_cons_self, List.count_cons_of_ne hlr] at this
        omega
  · rintro ⟨x, rfl, rfl, h2, h3⟩
    refine ⟨rfl, ?_, ?_⟩
    · rw [List.count_cons_self, List.count_cons_of_ne hlr]; omega
    · apply prefix_cons_all
      · simp
      · intro q hq
        have := h3 q hq
        rw [List.count_cons_self, List.count_cons_of_ne hlr]
        omega

theorem enclosesAt_other (l r c : Char) (d : Nat) (cs inner tail : Str) (hl : c ≠ l) (hr : c ≠ r) :
    EnclosesAt l r d (c :: cs) inner tail ↔
      ∃ x, inner = c :: x ∧ EnclosesAt l r d cs x tail := by
  constructor
  · rintro ⟨h1, h2, h3⟩
    cases inner with
    | nil => simp at h1; exact absurd h1.1 hr
    | cons y x =>
      simp at h1
      obtain ⟨rfl, rfl⟩ := h1
      refine ⟨x, rfl, rfl, ?_, ?_⟩
      · rw [List.count_cons_of_ne hl, List.count_cons_of_ne hr] at h2; omega
      · intro p hp
        have := h3 (c :: p) (by simpa [List.cons_prefix_cons] using hp)
        rw [List.count_cons_of_ne hl, List.count_cons_of_ne hr] at this
        omega
  · rintro ⟨x, rfl, rfl, h2, h3⟩
    refine ⟨rfl, ?_, ?_⟩
    · rw [List.count_cons_of_ne hl, List.count_cons_of_ne hr]; omega
    · apply prefix_cons_all
      · simp
      · intro q hq
        have := h3 q hq
        rw [List.count_cons_of_ne hl, List.count_cons_of_ne hr]
        omega

theorem bracketsEnd_iff (curly : Bool) (d : Nat) (s inner tail : Str) :
    (∃ more, bracketsEnd (brOpen curly) (brClose curly) d s = some (inner, more, tail)) ↔
      EnclosesAt (brOpen curly) (brClose curly) d s inner tail := by
  have hlr : brOpen curly ≠ brClose curly := by cases curly <;> decide
  have hl : '$' ≠ brOpen curly := by cases curly <;> decide
  have hr : '$' ≠ brClose curly := by cases curly <;> decide
  induction s generalizing d inner with
  | nil => simp [bracketsEnd, EnclosesAt]
  | cons c cs ih =>
    simp only [bracketsEnd]
    by_cases h0 : c = '$'
    · subst h0
      rw [if_pos rfl, enclosesAt_other _ _ _ _ _ _ _ hl hr]
      simp only [Option.map_eq_some_iff]
      constructor
      · rintro ⟨m, ⟨i, m', t⟩, h1, h2⟩
        simp at h2
        obtain ⟨rfl, _, rfl⟩ := h2
        exact ⟨i, rfl, (ih d i).1 ⟨m', h1⟩⟩
      · rintro ⟨x, rfl, h⟩
        obtain ⟨m, h⟩ := (ih d x).2 h
        exact ⟨_, _, h, rfl⟩
    · rw [if_neg h0]
      by_cases h1 : c = brOpen curly
      · subst h1
        rw [if_pos rfl, enclosesAt_open _ _ _ _ _ _ hlr]
        simp only [Option.map_eq_some_iff]
        constructor
        · rintro ⟨m, ⟨i, m', t⟩, h1, h2⟩
          simp at h2
          obtain ⟨rfl, _, rfl⟩ := h2
          exact ⟨i, rfl, (ih (d + 1) i).1 ⟨m', h1⟩⟩
        · rintro ⟨x, rfl, h⟩
          obtain ⟨m, h⟩ := (ih (d + 1) x).2 h
          exact ⟨m, _, h, rfl⟩
      · rw [if_neg h1]
        by_cases h2 : c = brClose curly
        · subst h2
          rw [if_pos rfl, enclosesAt_nil _ _ _ _ _ _ hlr]
          cases d with
          | zero =>
            simp
            intro _
            exact eq_comm
          | succ d =>
            simp only [Option.map_eq_some_iff]
            constructor
            · rintro ⟨m, ⟨i, m', t⟩, h1, h2⟩
              simp at h2
              obtain ⟨rfl, _, rfl⟩ := h2
              exact .inr ⟨d, i, rfl, rfl, (ih d i).1 ⟨m', h1⟩⟩
            · rintro (⟨h, _⟩ | ⟨d', x, hd, rfl, h⟩)
              · simp at h
              · simp at hd; subst hd
                obtain ⟨m, h⟩ := (ih d x).2 h
                exact ⟨m, _, h, rfl⟩
        · rw [if_neg h2, enclosesAt_other _ _ _ _ _ _ _ h1 h2]
          simp only [Option.map_eq_some_iff]
          constructor
          · rintro ⟨m, ⟨i, m', t⟩, h1, h2⟩
            simp at h2
            obtain ⟨rfl, _, rfl⟩ := h2
            exact ⟨i, rfl, (ih d i).1 ⟨m', h1⟩⟩
          · rintro ⟨x, rfl, h⟩
            obtain ⟨m, h⟩ := (ih d x).2 h
            exact ⟨m, _, h, rfl⟩

theorem enclosesAt_zero (l r : Char) (s inner tail : Str) :
    EnclosesAt l r 0 s inner tail ↔ Encloses l r s inner tail := by
  simp [EnclosesAt, Encloses]

theorem encloses_length {l r : Char} {s inner tail : Str} (h : Encloses l r s inner tail) :
    inner.length < s.length ∧ tail.length < s.length := by
  obtain ⟨rfl, _⟩ := h
  simp; omega

/-- The flag tells whether there are substitutions inside. -/
theorem bracketsEnd_more (curly : Bool) (d : Nat) (s inner tail : Str) (more : Bool)
    (h : bracketsEnd (brOpen curly) (brClose curly) d s = some (inner, more, tail)) :
    more = true ↔ HasSubst inner := by
  induction s generalizing d inner more with
  | nil => simp [bracketsEnd] at h
  | cons c cs ih =>
    simp only [bracketsEnd] at h
    by_cases h0 : c = '$'
    · rw [if_pos h0] at h
      simp only [Option.map_eq_some_iff] at h
      obtain ⟨⟨i, m', t⟩, h1, h2⟩ := h
      simp at h2
      obtain ⟨rfl, rfl, rfl⟩ := h2
      have henc := (bracketsEnd_iff curly d cs i t).1 ⟨m', h1⟩
      rw [hasSubst_cons_iff]
      simp only [Bool.or_eq_true, ih d i m' h1, h0, true_and]
      have : opensSubst cs = true ↔ opensSubst i = true := by
        rw [opensSubst_iff, opensSubst_iff, henc.1]
        cases i with
        | nil => cases curly <;> simp [brClose]
        | cons y i => simp
      rw [this]
    · rw [if_neg h0] at h
      have nc : ∀ x, HasSubst (c :: x) ↔ HasSubst x := by
        intro x; rw [hasSubst_cons_iff]; simp [h0]
      by_cases h1 : c = brOpen curly
      · rw [if_pos h1] at h
        simp only [Option.map_eq_some_iff] at h
        obtain ⟨⟨i, m', t⟩, h1, h2⟩ := h
        simp at h2
        obtain ⟨rfl, rfl, rfl⟩ := h2
        rw [nc]; exact ih _ i m' h1
      · rw [if_neg h1] at h
        by_cases h2 : c = brClose curly
        · rw [if_pos h2] at h
          cases d with
          | zero =>
            simp at h
            obtain ⟨rfl, rfl, rfl⟩ := h
            simp [not_hasSubst_nil]
          | succ d =>
            simp only [Option.map_eq_some_iff] at h
            obtain ⟨⟨i, m', t⟩, h1, h2⟩ := h
            simp at h2
            obtain ⟨rfl, rfl, rfl⟩ := h2
            rw [nc]; exact ih _ i m' h1
        · rw [if_neg h2] at h
          simp only [Option.map_eq_some_iff] at h
          obtain ⟨⟨i, m', t⟩, h1, h2⟩ := h
          simp at h2
          obtain ⟨rfl, rfl, rfl⟩ := h2
          rw [nc]; exact ih _ i m' h1

/-- Closed texts, by the kind of bracket. -/
theorem closed_subst {pre s inner tail : Str} (curly : Bool) (h1 : ¬ HasSubst pre)
    (h2 : Encloses (brOpen curly) (brClose curly) s inner tail) (h3 : Closed inner) (h4 : Closed tail) :
    Closed (pre ++ '$' :: brOpen curly :: s) := by
  cases curly
  · exact .square h1 h2 h3 h4
  · exact .curly h1 h2 h3 h4

theorem closed_inv {s pre rest : Str} {curly : Bool} (h : Closed s)
    (hf : findSubst s = some (pre, curly, rest)) :
    ∃ inner tail, Encloses (brOpen curly) (brClose curly) rest inner tail ∧ Closed inner ∧ Closed tail := by
  cases h with
  | plain h => rw [(findSubst_none s).2 h] at hf; simp at hf
  | @curly pre' s' inner tail h1 h2 h3 h4 =>
    have : findSubst (pre' ++ '$' :: '{' :: s') = _ := (findSubst_some _ pre' s' true).2 ⟨h1, rfl⟩
    rw [this] at hf
    simp at hf
    obtain ⟨rfl, rfl, rfl⟩ := hf
    exact ⟨inner, tail, h2, h3, h4⟩
  | @square pre' s' inner tail h1 h2 h3 h4 =>
    have : findSubst (pre' ++ '$' :: '[' :: s') = _ := (findSubst_some _ pre' s' false).2 ⟨h1, rfl⟩
    rw [this] at hf
    simp at hf
    obtain ⟨rfl, rfl, rfl⟩ := hf
    exact ⟨inner, tail, h2, h3, h4⟩

theorem encloses_unique (curly : Bool) {s i1 t1 i2 t2 : Str}
    (h1 : Encloses (brOpen curly) (brClose curly) s i1 t1)
    (h2 : Encloses (brOpen curly) (brClose curly) s i2 t2) : i1 = i2 ∧ t1 = t2 := by
  obtain ⟨m1, e1⟩ := (bracketsEnd_iff curly 0 s i1 t1).2 ((enclosesAt_zero ..).2 h1)
  obtain ⟨m2, e2⟩ := (bracketsEnd_iff curly 0 s i2 t2).2 ((enclosesAt_zero ..).2 h2)
  rw [e1] at e2
  simp at e2
  exact ⟨e2.1, e2.2.2⟩

end ALint
