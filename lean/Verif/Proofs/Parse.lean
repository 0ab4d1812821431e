import Verif.Proofs.Brackets
import Verif.Proofs.Split

namespace ALint
open ALint.Spec

/-! ### the bound on the recursion of the parser -/

/-- The text inside brackets, as a value. -/
def innerOf (env : FEnv) (w : Where) (fuel : Nat) (more : Bool) (inner : Str) : Tr V :=
  if more then .bind (parseItems env w fuel inner) fun l => .pure (join l) else .pure (.str inner)

theorem parseItems_none {env : FEnv} {w : Where} {fuel : Nat} {s : Str} (h : findSubst s = none) :
    parseItems env w (fuel + 1) s = .pure [.str s] := by
  simp only [parseItems, h]

theorem parseItems_open {env : FEnv} {w : Where} {fuel : Nat} {s pre rest : Str} {curly : Bool}
    (h : findSubst s = some (pre, curly, rest))
    (hb : bracketsEnd (brOpen curly) (brClose curly) 0 rest = none) :
    parseItems env w (fuel + 1) s = .raise .varParseError := by
  simp only [parseItems, h, hb]

theorem parseItems_subst {env : FEnv} {w : Where} {fuel : Nat} {s pre rest inner tail : Str}
    {curly more : Bool} (h : findSubst s = some (pre, curly, rest))
    (hb : bracketsEnd (brOpen curly) (brClose curly) 0 rest = some (inner, more, tail)) :
    parseItems env w (fuel + 1) s =
      .bind (innerOf env w fuel more inner) fun data' =>
      .bind (processSubst env w curly data') fun v =>
      .bind (parseItems env w fuel tail) fun l =>
      .pure (.str pre :: v :: l) := by
  simp only [parseItems, h, hb]
  rfl

theorem subst_length {s pre rest inner tail : Str} {curly more : Bool}
    (h : findSubst s = some (pre, curly, rest))
    (hb : bracketsEnd (brOpen curly) (brClose curly) 0 rest = some (inner, more, tail)) :
    inner.length + 3 ≤ s.length ∧ tail.length + 3 ≤ s.length := by
  obtain ⟨_, rfl⟩ := (findSubst_some ..).1 h
  obtain ⟨rfl, _⟩ := (bracketsEnd_iff curly 0 rest inner tail).1 ⟨more, hb⟩
  simp; omega

/-- The result does not depend on the bound, once it exceeds the length of the text. -/
theorem parseItems_fuel (env : FEnv) (w : Where) (s : Str) (f g : Nat)
    (hf : s.length < f) (hg : s.length < g) : parseItems env w f s = parseItems env w g s := by
  induction f generalizing s g with
  | zero => omega
  | succ f ih =>
    cases g with
    | zero => omega
    | succ g =>
      cases h : findSubst s with
      | none => rw [parseItems_none h, parseItems_none h]
      | some r =>
        obtain ⟨pre, curly, rest⟩ := r
        cases hb : bracketsEnd (brOpen curly) (brClose curly) 0 rest with
        | none => rw [parseItems_open h hb, parseItems_open h hb]
        | some x =>
          obtain ⟨inner, more, tail⟩ := x
          obtain ⟨h1, h2⟩ := subst_length h hb
          rw [parseItems_subst h hb, parseItems_subst h hb]
          have e1 : innerOf env w f more inner = innerOf env w g more inner := by
            unfold innerOf; rw [ih inner g (by omega) (by omega)]
          have e2 : parseItems env w f tail = parseItems env w g tail := ih tail g (by omega) (by omega)
          rw [e1, e2]

/-- Induction along the structure of the text. -/
theorem parse_induction {P : Str → Prop}
    (plain : ∀ s, findSubst s = none → P s)
    (opened : ∀ s pre rest curly, findSubst s = some (pre, curly, rest) →
      bracketsEnd (brOpen curly) (brClose curly) 0 rest = none → P s)
    (subst : ∀ s pre rest curly inner more tail, findSubst s = some (pre, curly, rest) →
      bracketsEnd (brOpen curly) (brClose curly) 0 rest = some (inner, more, tail) →
      P inner → P tail → P s) : ∀ s, P s := by
  have key : ∀ n (s : Str), s.length < n → P s := by
    intro n
    induction n with
    | zero => intro s h; omega
    | succ n ih =>
      intro s hs
      cases h : findSubst s with
      | none => exact plain s h
      | some r =>
        obtain ⟨pre, curly, rest⟩ := r
        cases hb : bracketsEnd (brOpen curly) (brClose curly) 0 rest with
        | none => exact opened s pre rest curly h hb
        | some x =>
          obtain ⟨inner, more, tail⟩ := x
          obtain ⟨h1, h2⟩ := subst_length h hb
          exact subst s pre rest curly inner more tail h hb (ih _ (by omega)) (ih _ (by omega))
  exact fun s => key (s.length + 1) s (by omega)

/-- The pieces of a text. -/
def items (env : FEnv) (w : Where) (s : Str) : Tr (List V) := parseItems env w (s.length + 1) s

/-- The text inside brackets, parsed. -/
def innerVal (env : FEnv) (w : Where) (more : Bool) (inner : Str) : Tr V :=
  if more then .bind (items env w inner) fun l => .pure (join l) else .pure (.str inner)

theorem items_none {env : FEnv} {w : Where} {s : Str} (h : findSubst s = none) :
    items env w s = .pure [.str s] := parseItems_none h

theorem items_open {env : FEnv} {w : Where} {s pre rest : Str} {curly : Bool}
    (h : findSubst s = some (pre, curly, rest))
    (hb : bracketsEnd (brOpen curly) (brClose curly) 0 rest = none) :
    items env w s = .raise .varParseError := parseItems_open h hb

theorem items_subst {env : FEnv} {w : Where} {s pre rest inner tail : Str}
    {curly more : Bool} (h : findSubst s = some (pre, curly, rest))
    (hb : bracketsEnd (brOpen curly) (brClose curly) 0 rest = some (inner, more, tail)) :
    items env w s =
      .bind (innerVal env w more inner) fun data' =>
      .bind (processSubst env w curly data') fun v =>
      .bind (items env w tail) fun l =>
      .pure (.str pre :: v :: l) := by
  obtain ⟨h1, h2⟩ := subst_length h hb
  unfold items
  rw [parseItems_subst h hb, parseItems_fuel env w tail s.length (tail.length + 1) (by omega) (by omega)]
  have e1 : innerOf env w s.length more inner = innerVal env w more inner := by
    unfold innerOf innerVal items
    rw [parseItems_fuel env w inner s.length (inner.length + 1) (by omega) (by omega)]
  rw [e1]

theorem parseVariables_eq (env : FEnv) (w : Where) (s : Str) :
    parseVariables env w s = .bind (items env w s) fun l => .pure (join l) := rfl

/-! ### closed texts -/

theorem closed_of_items (env : FEnv) (w : Where) (s : Str) :
    ∀ l, (items env w s).val = .ok l → Closed s := by
  induction s using parse_induction with
  | plain s h => intro l _; exact .plain ((findSubst_none s).1 h)
  | opened s pre rest curly h hb =>
    intro l hl; rw [items_open h hb] at hl; simp [Tr.raise] at hl
  | subst s pre rest curly inner more tail h hb ih1 ih2 =>
    intro l hl
    rw [items_subst h hb] at hl
    obtain ⟨d, hd, hl, _⟩ := Tr.bind_ok hl
    obtain ⟨v, _, hl, _⟩ := Tr.bind_ok hl
    obtain ⟨t, ht, _, _⟩ := Tr.bind_ok hl
    obtain ⟨hp, rfl⟩ := (findSubst_some ..).1 h
    refine closed_subst curly hp ((enclosesAt_zero ..).1 ((bracketsEnd_iff ..).1 ⟨more, hb⟩)) ?_ (ih2 _ ht)
    have hm := bracketsEnd_more curly 0 _ _ _ _ hb
    cases more with
    | false => exact .plain (fun hh => by have := hm.2 hh; simp at this)
    | true =>
      simp only [innerVal, if_true] at hd
      obtain ⟨l', hl', _, _⟩ := Tr.bind_ok hd
      exact ih1 l' hl'

/-! ### where a `VarParseError` comes from -/

/-- No `VarParseError`. -/
def NoVPE {α : Type} (x : Tr α) : Prop := x.val ≠ .error .varParseError

theorem noVPE_bind {α β : Type} {x : Tr α} {f : α → Tr β} (hx : NoVPE x)
    (hf : ∀ a, x.val = .ok a → NoVPE (f a)) : NoVPE (Tr.bind x f) := by
  intro h
  rcases Tr.bind_err h with h | ⟨a, ha, h⟩
  · exact hx h
  · exact hf a ha h

theorem noVPE_pure {α : Type} (a : α) : NoVPE (Tr.pure a) := by simp [NoVPE, Tr.pure]
theorem noVPE_raise {α : Type} {e : Exc} (h : e ≠ .varParseError) : NoVPE (Tr.raise e : Tr α) := by
  simpa [NoVPE, Tr.raise] using h
theorem noVPE_note (e : Ev) : NoVPE (Tr.note e) := by simp [NoVPE, Tr.note]

end ALint
