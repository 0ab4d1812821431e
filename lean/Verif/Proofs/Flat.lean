import Verif.Proofs.Var
import Verif.Proofs.VgPlain
import Verif.Model.Dialplan

/-!
# Values without line feeds
-/

namespace ALint

/-- No line feed in a text. -/
def Flat (s : Str) : Prop := '\n' ∉ s

namespace Flat

theorem sub {a b : Str} (h : Flat b) (hs : ∀ c ∈ a, c ∈ b) : Flat a := fun hm => h (hs _ hm)
theorem nil : Flat [] := by simp [Flat]
theorem append {a b : Str} (ha : Flat a) (hb : Flat b) : Flat (a ++ b) := by
  intro h
  rcases List.mem_append.1 h with h | h
  · exact ha h
  · exact hb h
theorem cons {c : Char} {s : Str} (hc : c ≠ '\n') (h : Flat s) : Flat (c :: s) := by
  intro hm
  rcases List.mem_cons.1 hm with hm | hm
  · exact hc hm.symm
  · exact h hm
theorem left {a b : Str} (h : Flat (a ++ b)) : Flat a := h.sub fun _ hc => List.mem_append.2 (.inl hc)
theorem right {a b : Str} (h : Flat (a ++ b)) : Flat b := h.sub fun _ hc => List.mem_append.2 (.inr hc)
theorem tail {c : Char} {s : Str} (h : Flat (c :: s)) : Flat s := h.sub fun _ hc => List.mem_cons_of_mem _ hc
theorem head {c : Char} {s : Str} (h : Flat (c :: s)) : c ≠ '\n' := fun he => h (by simp [he])
theorem take {s : Str} (h : Flat s) (n : Nat) : Flat (s.take n) := h.sub fun _ hc => List.mem_of_mem_take hc
theorem drop {s : Str} (h : Flat s) (n : Nat) : Flat (s.drop n) := h.sub fun _ hc => List.mem_of_mem_drop hc
theorem dropLast {s : Str} (h : Flat s) : Flat s.dropLast := h.sub fun _ hc => List.dropLast_subset _ hc
theorem lstrip {s : Str} (h : Flat s) (p : Char → Bool) : Flat (lstripP p s) :=
  h.sub fun _ hc => (List.dropWhile_sublist _).subset hc
theorem rstrip {s : Str} (h : Flat s) (p : Char → Bool) : Flat (rstripP p s) := h.sub fun _ hc => rstripP_mem hc
theorem strip {s : Str} (h : Flat s) (p : Char → Bool) : Flat (stripP p s) := (h.rstrip p).lstrip p
theorem flatMap {α : Type} {f : α → Str} {l : List α} (h : ∀ a ∈ l, Flat (f a)) : Flat (l.flatMap f) := by
  intro hm
  obtain ⟨a, ha, hc⟩ := List.mem_flatMap.1 hm
  exact h a ha hc

theorem splitOnce {s a b : Str} {c : Char} (h : Flat s) (hs : ALint.splitOnce c s = some (a, b)) : Flat a ∧ Flat b := by
  obtain ⟨rfl, _⟩ := splitOnce_some hs
  exact ⟨h.left, h.right.tail⟩

theorem splitN {c : Char} {n : Option Nat} {s : Str} (h : Flat s) : ∀ p ∈ ALint.splitN c n s, Flat p := by
  induction s generalizing n with
  | nil =>
    intro p hp
    have : p = [] := by
      cases n with
      | none => simpa [ALint.splitN] using hp
      | some n => cases n <;> simpa [ALint.splitN] using hp
    rw [this]; exact .nil
  | cons x xs ih =>
    have step : ∀ m, ∀ p ∈ (if x = c then [] :: ALint.splitN c (m.map (· - 1)) xs
        else match ALint.splitN c m xs with
          | [] => [[x]]
          | p :: ps => (x :: p) :: ps), Flat p := by
      intro m p hp
      split at hp
      · rcases List.mem_cons.1 hp with rfl | hp
        · exact .nil
        · exact ih h.tail p hp
      · have ihm := ih (n := m) h.tail
        cases hq : ALint.splitN c m xs with
        | nil =>
          rw [hq] at hp
          rw [List.mem_singleton.1 hp]
          exact .cons h.head .nil
        | cons q qs =>
          rw [hq] at hp ihm
          rcases List.mem_cons.1 hp with rfl | hp
          · exact .cons h.head (ihm q (by simp))
          · exact ihm p (by simp [hp])
    intro p hp
    cases n with
    | none => rw [ALint.splitN.eq_def] at hp; exact step none p hp
    | some n =>
      cases n with
      | zero =>
        simp only [ALint.splitN, List.mem_singleton] at hp
        rw [hp]; exact h
      | succ n => rw [ALint.splitN.eq_def] at hp; exact step (some (n + 1)) p hp

end Flat

theorem ofNat_lf {n : Nat} (h : Char.ofNat n = '\n') : n = 10 := by
  unfold Char.ofNat at h
  split at h
  · rename_i hv
    have h1 := congrArg Char.toNat h
    have h2 : (Char.ofNatAux n hv).toNat = n := by
      show (UInt32.ofBitVec (BitVec.ofNatLT n _)).toNat = n
      simp
    rw [h2] at h1
    exact h1
  · exact absurd h (by decide)

theorem flat_decDigits (fuel n : Nat) : Flat (decDigits fuel n) := by
  have hne : ∀ k, Char.ofNat (48 + k) ≠ '\n' := fun k h => by have := ofNat_lf h; omega
  induction fuel generalizing n with
  | zero => exact .nil
  | succ fuel ih =>
    rw [decDigits]
    split
    · exact .cons (hne _) .nil
    · exact (ih _).append (.cons (hne _) .nil)

theorem flat_intStr (n : Int) : Flat (intStr n) := by
  cases n with
  | ofNat n => exact flat_decDigits _ _
  | negSucc n => exact .cons (by decide) (flat_decDigits _ _)

/-! ## Values -/

/-- No line feed in any text inside a value. -/
inductive V.Flat : V → Prop where
  | str {s : Str} : ALint.Flat s → V.Flat (.str s)
  | int {n : Int} : V.Flat (.int n)
  | none : V.Flat .none
  | lst {items : List V} : (∀ v ∈ items, V.Flat v) → V.Flat (.lst items)
  | atom {k : Kind} {n s l : V} : V.Flat n → V.Flat s → V.Flat l → V.Flat (.atom k n s l)

/-- No line feed in the values. -/
def AllFlat (vs : List V) : Prop := ∀ v ∈ vs, v.Flat

def Arg.Flat : Arg → Prop
  | .one v => v.Flat
  | .many vs => AllFlat vs

theorem V.Flat.of_str {s : Str} (h : (V.str s).Flat) : ALint.Flat s := by cases h; assumption
theorem V.Flat.of_lst {l : List V} (h : (V.lst l).Flat) : AllFlat l := by cases h; assumption

namespace AllFlat
theorem nil : AllFlat [] := by simp [AllFlat]
theorem cons {v : V} {vs : List V} (hv : v.Flat) (hs : AllFlat vs) : AllFlat (v :: vs) := by
  intro x hx
  rcases List.mem_cons.1 hx with rfl | hx
  · exact hv
  · exact hs x hx
theorem head {v : V} {vs : List V} (h : AllFlat (v :: vs)) : v.Flat := h v (by simp)
theorem tail {v : V} {vs : List V} (h : AllFlat (v :: vs)) : AllFlat vs := fun x hx => h x (by simp [hx])
theorem append {a b : List V} (ha : AllFlat a) (hb : AllFlat b) : AllFlat (a ++ b) := by
  intro x hx
  rcases List.mem_append.1 hx with hx | hx
  · exact ha x hx
  · exact hb x hx
theorem sub {a b : List V} (h : AllFlat b) (hs : ∀ v ∈ a, v ∈ b) : AllFlat a := fun v hv => h v (hs v hv)
theorem take {l : List V} (h : AllFlat l) (n : Nat) : AllFlat (l.take n) := h.sub fun _ hc => List.mem_of_mem_take hc
theorem drop {l : List V} (h : AllFlat l) (n : Nat) : AllFlat (l.drop n) := h.sub fun _ hc => List.mem_of_mem_drop hc
theorem reverse {l : List V} (h : AllFlat l) : AllFlat l.reverse := h.sub fun _ hc => List.mem_reverse.1 hc
end AllFlat

theorem tokensAll_flat {items : List V} (h : ∀ v ∈ items, AllFlat v.tokens) : AllFlat (V.tokensAll items) := by
  induction items with
  | nil => exact .nil
  | cons v vs ih =>
    rw [V.tokensAll]
    exact (h v (by simp)).append (ih fun x hx => h x (by simp [hx]))

theorem V.Flat.tokens {v : V} (h : v.Flat) : AllFlat v.tokens := by
  induction h with
  | str hs =>
    intro t ht
    rw [V.tokens] at ht
    obtain ⟨c, hc, rfl⟩ := List.mem_map.1 ht
    exact .str (.cons (fun he => hs (he ▸ hc)) .nil)
  | int => exact .nil
  | none => exact .nil
  | lst _ ih => exact tokensAll_flat ih
  | atom h1 h2 h3 => exact .cons (.atom h1 h2 h3) .nil

theorem toStrAll_flat {items : List V} {t : Str} (h : ∀ v ∈ items, ∀ s, v.toStr = .ok s → Flat s)
    (ht : V.toStrAll items = .ok t) : Flat t := by
  induction items generalizing t with
  | nil => rw [V.toStrAll] at ht; cases ht; exact .nil
  | cons v vs ih =>
    rw [V.toStrAll] at ht
    cases h1 : v.toStr with
    | error e => simp [h1] at ht
    | ok a =>
      cases h2 : V.toStrAll vs with
      | error e => simp [h1, h2] at ht
      | ok b =>
        simp only [h1, h2, Except.ok.injEq] at ht
        subst ht
        exact (h v (by simp) a h1).append (ih (fun x hx => h x (by simp [hx])) h2)

theorem flat_wrap {a b t : Str} {x : Except Exc Str} (ha : Flat a) (hb : Flat b) (h : ∀ s, x = .ok s → Flat s)
    (ht : x.map (fun t => a ++ t ++ b) = .ok t) : Flat t := by
  cases x with
  | error e => simp [Except.map] at ht
  | ok s =>
    simp only [Except.map, Except.ok.injEq] at ht
    subst ht
    exact (ha.append (h s rfl)).append hb

theorem flat_ok {a t : Str} (ha : Flat a) (h : (Except.ok a : Except Exc Str) = .ok t) : Flat t := by
  cases h; exact ha

theorem V.Flat.toStr {v : V} (h : v.Flat) {t : Str} (ht : v.toStr = .ok t) : ALint.Flat t := by
  induction h generalizing t with
  | str hs => rw [V.toStr] at ht; cases ht; exact hs
  | int => rw [V.toStr] at ht; cases ht; exact flat_intStr _
  | none => rw [V.toStr] at ht; cases ht; unfold ALint.Flat; decide
  | lst _ ih => rw [V.toStr] at ht; exact toStrAll_flat (fun v hv s hs => ih v hv hs) ht
  | @atom k n s l h1 h2 h3 i1 i2 i3 =>
    have d1 : ALint.Flat (c! "${") := by unfold ALint.Flat; decide
    have d2 : ALint.Flat (c! "}") := by unfold ALint.Flat; decide
    have d3 : ALint.Flat (c! "$[") := by unfold ALint.Flat; decide
    have d4 : ALint.Flat (c! "]") := by unfold ALint.Flat; decide
    have d5 : ALint.Flat (c! ":") := by unfold ALint.Flat; decide
    have slice : ∀ (t : Str), (match n.toStr, s.toStr, l.toStr with
        | .error e, _, _ => .error e
        | .ok _, .error e, _ => .error e
        | .ok tn, .ok ts, tl =>
          if l.truthy then tl.map (fun tl => c! "${" ++ tn ++ c! ":" ++ ts ++ c! ":" ++ tl ++ c! "}")
          else .ok (c! "${" ++ tn ++ c! ":" ++ ts ++ c! "}")) = (Except.ok t : Except Exc Str) → ALint.Flat t := by
      intro t ht
      split at ht
      · cases ht
      · cases ht
      · rename_i tn ts tl e1 e2
        have f1 := i1 e1
        have f2 := i2 e2
        split at ht
        · exact flat_wrap ((((d1.append f1).append d5).append f2).append d5) d2 (fun s hs => i3 hs) ht
        · exact flat_ok ((((d1.append f1).append d5).append f2).append d2) ht
    cases k with
    | var =>
      simp only [V.toStr] at ht
      split at ht
      · exact flat_wrap d1 d2 (fun s hs => i1 hs) ht
      · cases ht
    | func =>
      simp only [V.toStr] at ht
      split at ht
      · exact flat_wrap d1 d2 (fun s hs => i1 hs) ht
      · cases ht
    | expr =>
      simp only [V.toStr] at ht
      split at ht
      · exact flat_wrap d3 d4 (fun s hs => i1 hs) ht
      · cases ht
    | slice => rw [V.toStr.eq_def] at ht; exact slice t ht
    | dynSlice => rw [V.toStr.eq_def] at ht; exact slice t ht
    | funcSlice => rw [V.toStr.eq_def] at ht; exact slice t ht

/-! ## Joining and splitting -/

theorem flat_joinCons {v : V} {rest : List V} (hv : v.Flat) (h : AllFlat rest) : AllFlat (joinCons v rest) := by
  unfold joinCons
  split
  · exact .cons (.str (hv.of_str.append h.head.of_str)) h.tail
  · exact .cons hv h

theorem flat_strjoin {l : List V} (h : AllFlat l) : AllFlat (strjoin l) := by
  induction l with
  | nil => exact .nil
  | cons v vs ih =>
    have i := ih h.tail
    cases v with
    | str s =>
      rw [strjoin]
      split
      · rename_i t r hr
        rw [hr] at i
        exact .cons (.str (h.head.of_str.append i.head.of_str)) i.tail
      · exact .cons h.head i
    | int n => exact .cons h.head i
    | none => exact .cons h.head i
    | lst l => exact .cons h.head i
    | atom k n s l => exact .cons h.head i

theorem flat_joinItems {l : List V} (h : AllFlat l) : AllFlat (joinItems l) := by
  induction l with
  | nil => exact .nil
  | cons v vs ih =>
    rw [joinItems]
    split
    · exact flat_joinCons h.head (ih h.tail)
    · exact ih h.tail

theorem flat_join {l : List V} (h : AllFlat l) : (join l).Flat := by
  have := flat_joinItems h
  unfold join
  split
  · exact .str .nil
  · rename_i v hv
    rw [hv] at this
    exact this.head
  · exact .lst this

theorem flat_getSlice {v : V} (h : v.Flat) (i j : Nat) : (v.getSlice i j).Flat := by
  have key : ∀ l, AllFlat l → (match strjoin l with
      | [x] => Arg.one x
      | l => .many l).Flat := by
    intro l hl
    have := flat_strjoin hl
    split
    · rename_i x hx
      rw [hx] at this
      exact this.head
    · exact this
  cases v with
  | str s => exact .str ((h.of_str.drop _).take _)
  | int n => exact key _ ((h.tokens.drop _).take _)
  | none => exact key _ ((h.tokens.drop _).take _)
  | lst l => exact key _ ((h.tokens.drop _).take _)
  | atom k n s l => exact key _ ((h.tokens.drop _).take _)

theorem Arg.Flat.iter {a : Arg} (h : a.Flat) : AllFlat a.iter := by
  cases a with
  | one v => exact V.Flat.tokens h
  | many vs => exact h

def GroupsFlat (gs : List (List V)) : Prop := ∀ g ∈ gs, AllFlat g

theorem flat_consHead {v : V} {gs : List (List V)} (hv : v.Flat) (h : GroupsFlat gs) : GroupsFlat (consHead v gs) := by
  cases gs with
  | nil =>
    intro g hg
    rw [List.mem_singleton.1 hg]
    exact .cons hv .nil
  | cons g gs =>
    intro x hx
    rcases List.mem_cons.1 hx with rfl | hx
    · exact .cons hv (h g (by simp))
    · exact h x (by simp [hx])

theorem flat_spread {ps : List Str} {gs : List (List V)} (hp : ∀ p ∈ ps, Flat p) (h : GroupsFlat gs) :
    GroupsFlat (spread ps gs) := by
  induction ps with
  | nil => exact h
  | cons p ps ih =>
    have hp' := ih fun q hq => hp q (by simp [hq])
    have h0 : Flat p := hp p (by simp)
    cases ps with
    | nil =>
      rw [spread]
      split
      · exact h
      · exact flat_consHead (.str h0) h
    | cons q qs =>
      rw [spread]
      intro x hx
      rcases List.mem_cons.1 hx with rfl | hx
      · split
        · exact .nil
        · exact .cons (.str h0) .nil
      · exact hp' x hx
      · simp

theorem flat_splitGroups {c : Char} {n : Option Nat} {l : List V} (h : AllFlat l) : GroupsFlat (splitGroups c n l) := by
  induction l generalizing n with
  | nil =>
    intro g hg
    rw [splitGroups, List.mem_singleton] at hg
    rw [hg]; exact .nil
  | cons v vs ih =>
    cases v with
    | str s =>
      rw [splitGroups]
      split
      · exact flat_consHead h.head (ih h.tail)
      · exact flat_spread (Flat.splitN h.head.of_str) (ih h.tail)
    | int k => exact flat_consHead h.head (ih h.tail)
    | none => exact flat_consHead h.head (ih h.tail)
    | lst k => exact flat_consHead h.head (ih h.tail)
    | atom k a s l => exact flat_consHead h.head (ih h.tail)

theorem flat_joinGroup {g : List V} (h : AllFlat g) : (joinGroup g).Flat := by
  unfold joinGroup
  split
  · exact .str .nil
  · exact h.head
  · exact flat_join h

theorem flat_groups {gs : List (List V)} (h : GroupsFlat gs) : AllFlat (gs.map joinGroup) := by
  intro v hv
  obtain ⟨g, hg, rfl⟩ := List.mem_map.1 hv
  exact flat_joinGroup (h g hg)

theorem flat_split {c : Char} {n : Option Nat} {v : V} (h : v.Flat) {ps : List V} (hs : v.split c n = .ok ps) : AllFlat ps := by
  cases v with
  | str s =>
    rw [V.split] at hs; cases hs
    intro x hx
    obtain ⟨p, hp, rfl⟩ := List.mem_map.1 hx
    exact .str (Flat.splitN h.of_str p hp)
  | lst l =>
    rw [V.split] at hs; cases hs
    exact flat_groups (flat_splitGroups h.of_lst)
  | atom k a s l =>
    rw [V.split] at hs
    split at hs
    · cases hs
      cases h with
      | atom h1 _ _ => exact flat_groups (flat_splitGroups (.cons h1 .nil))
    · cases hs
  | int n => rw [V.split] at hs; cases hs
  | none => rw [V.split] at hs; cases hs

theorem flat_dropBlank {l : List V} (h : AllFlat l) : AllFlat (V.dropBlank l) := by
  cases l with
  | nil => exact .nil
  | cons v vs =>
    rw [V.dropBlank]
    split
    · exact h.tail
    · exact h

theorem flat_strip {v : V} (h : v.Flat) {r : V} (hs : v.strip = .ok r) : r.Flat := by
  cases v with
  | str s => rw [V.strip] at hs; cases hs; exact .str (h.of_str.strip _)
  | lst l =>
    have hn : AllFlat (V.dropBlank (V.dropBlank l).reverse).reverse :=
      (flat_dropBlank (flat_dropBlank h.of_lst).reverse).reverse
    rw [V.strip] at hs
    generalize (V.dropBlank (V.dropBlank l).reverse).reverse = new at hn hs
    split at hs
    · cases hs; exact h
    · split at hs
      · cases hs; exact hn.head
      · cases hs; exact .lst hn
  | atom k a s l =>
    rw [V.strip] at hs
    split at hs
    · cases hs; exact h
    · cases hs
  | int n => rw [V.strip] at hs; cases hs
  | none => rw [V.strip] at hs; cases hs

theorem Arg.Flat.slice {a : Arg} (h : a.Flat) (i j : Nat) : AllFlat (a.slice i j) := by
  cases a with
  | one v => exact (flat_getSlice h i j).iter
  | many vs => exact (AllFlat.drop h i).take _

theorem flat_sepLoop {d : Char} {remove : Bool} {data : Arg} (h : data.Flat) (i : Nat) (ts : List V) (st : SepSt)
    (start : Nat) (cur : List V) (hc : AllFlat cur) : GroupsFlat (sepLoop d remove data i ts st start cur) := by
  induction ts generalizing i st start cur with
  | nil =>
    intro g hg
    rw [sepLoop, List.mem_singleton] at hg
    rw [hg]
    exact hc.append (h.slice _ _)
  | cons t ts ih =>
    rw [sepLoop]
    split
    · exact ih _ _ _ _ hc
    · exact ih _ _ _ _ (hc.append (h.slice _ _))
    · intro g hg
      rcases List.mem_cons.1 hg with rfl | hg
      · exact hc.append (h.slice _ _)
      · exact ih _ _ _ _ .nil g hg

theorem flat_separateArgs {d : Char} {remove : Bool} {data : Arg} (h : data.Flat) : AllFlat (separateArgs d remove data) := by
  intro v hv
  obtain ⟨g, hg, rfl⟩ := List.mem_map.1 hv
  have hs := flat_strjoin (flat_sepLoop h _ _ _ _ _ .nil g hg)
  unfold squash
  split
  · rename_i x hx
    rw [hx] at hs
    exact hs.head
  · exact flat_join hs

/-! ## Substitutions -/

theorem flat_findSubst {s pre rest : Str} {b : Bool} (h : Flat s) (hs : findSubst s = some (pre, b, rest)) :
    Flat pre ∧ Flat rest := by
  induction s generalizing pre b rest with
  | nil => simp [findSubst] at hs
  | cons c cs ih =>
    rw [findSubst.eq_def] at hs
    dsimp only at hs
    split at hs
    · simp only [Option.some.injEq, Prod.mk.injEq] at hs
      obtain ⟨rfl, _, rfl⟩ := hs
      exact ⟨.nil, h.tail.tail⟩
    · simp only [Option.some.injEq, Prod.mk.injEq] at hs
      obtain ⟨rfl, _, rfl⟩ := hs
      exact ⟨.nil, h.tail.tail⟩
    · cases hf : findSubst cs with
      | none => simp [hf] at hs
      | some r =>
        obtain ⟨p, b', r⟩ := r
        simp only [hf, Option.map_some, Option.some.injEq, Prod.mk.injEq] at hs
        obtain ⟨rfl, _, rfl⟩ := hs
        obtain ⟨h1, h2⟩ := ih h.tail hf
        exact ⟨.cons h.head h1, h2⟩

theorem flat_bracketsEnd {l r : Char} {depth : Nat} {s inner tail : Str} {b : Bool} (h : Flat s)
    (hs : bracketsEnd l r depth s = some (inner, b, tail)) : Flat inner ∧ Flat tail := by
  induction s generalizing depth inner b tail with
  | nil => simp [bracketsEnd] at hs
  | cons c cs ih =>
    have step : ∀ {d : Nat} {f : Str × Bool × Str → Str × Bool × Str},
        (bracketsEnd l r d cs).map f = some (inner, b, tail) → (∀ x, (f x).1 = c :: x.1 ∧ (f x).2.2 = x.2.2) →
        Flat inner ∧ Flat tail := by
      intro d f hm hf
      cases hb : bracketsEnd l r d cs with
      | none => simp [hb] at hm
      | some x =>
        simp only [hb, Option.map_some, Option.some.injEq] at hm
        obtain ⟨h1, h2⟩ := hf x
        obtain ⟨x1, x2, x3⟩ := x
        rw [hm] at h1 h2
        dsimp only at h1 h2
        obtain ⟨i1, i2⟩ := ih h.tail hb
        rw [h1, h2]
        exact ⟨.cons h.head i1, i2⟩
    rw [bracketsEnd.eq_def] at hs
    dsimp only at hs
    split at hs
    · exact step hs fun x => ⟨rfl, rfl⟩
    · split at hs
      · exact step hs fun x => ⟨rfl, rfl⟩
      · split at hs
        · cases depth with
          | zero =>
            simp only [Option.some.injEq, Prod.mk.injEq] at hs
            obtain ⟨rfl, _, rfl⟩ := hs
            exact ⟨.nil, h.tail⟩
          | succ d => exact step hs fun x => ⟨rfl, rfl⟩
        · exact step hs fun x => ⟨rfl, rfl⟩

/-! ## `format` -/

theorem flat_pySlice {s : Str} (h : Flat s) (a : Int) (b : Option Int) : Flat (pySlice s a b) := (h.drop _).take _

theorem flat_formatKind {k : Kind} {value t : Str} {start length : V} (h : Flat value)
    (ht : formatKind k value start length = .ok t) : Flat t := by
  have hs : ∀ {t : Str}, sliceFormat value start length = .ok t → Flat t := by
    intro t ht
    unfold sliceFormat at ht
    split at ht
    · exact flat_ok (flat_pySlice h _ _) ht
    · split at ht <;> exact flat_ok (flat_pySlice h _ _) ht
    · split at ht
      · cases ht
      · exact flat_ok (flat_pySlice h _ _) ht
    · cases ht
  unfold formatKind at ht
  split at ht
  · exact hs ht
  · exact hs ht
  · exact flat_ok h ht

theorem flat_lookupExten {exten key t : Str} (h : Flat exten) (ht : lookupExten exten key = .ok t) : Flat t := by
  unfold lookupExten at ht
  split at ht
  · exact flat_ok h ht
  · cases ht

theorem flat_formatAll {exten : Str} {items : List V} {t : Str}
    (h : ∀ v ∈ items, ∀ s, v.format exten = .ok s → Flat s) (ht : V.formatAll exten items = .ok t) : Flat t := by
  induction items generalizing t with
  | nil => rw [V.formatAll] at ht; exact flat_ok .nil ht
  | cons v vs ih =>
    rw [V.formatAll] at ht
    cases h1 : v.format exten with
    | error e => simp [h1] at ht
    | ok a =>
      simp only [h1] at ht
      cases h2 : V.formatAll exten vs with
      | error e => simp [h2, Except.map] at ht
      | ok b =>
        simp only [h2, Except.map, Except.ok.injEq] at ht
        subst ht
        exact (h v (by simp) a h1).append (ih (fun x hx => h x (by simp [hx])) h2)

theorem V.Flat.format {v : V} (h : v.Flat) {exten t : Str} (he : ALint.Flat exten) (ht : v.format exten = .ok t) :
    ALint.Flat t := by
  induction h generalizing t with
  | str hs => rw [V.format] at ht; exact flat_ok hs ht
  | int => rw [V.format.eq_def] at ht; cases ht
  | none => rw [V.format.eq_def] at ht; cases ht
  | lst _ ih => rw [V.format] at ht; exact flat_formatAll (fun v hv s hs => ih v hv hs) ht
  | @atom k n s l =>
    rw [V.format.eq_def] at ht
    dsimp only at ht
    have fin : ∀ {key : Str}, (match lookupExten exten key with
        | .error e => .error e
        | .ok value => formatKind k value s l) = (Except.ok t : Except Exc Str) → ALint.Flat t := by
      intro key hk
      split at hk
      · cases hk
      · rename_i value hv
        exact flat_formatKind (flat_lookupExten he hv) hk
    split at ht
    · exact fin ht
    · split at ht
      · cases ht
      · exact fin ht
    · split at ht
      · cases ht
      · exact fin ht
    · cases ht

end ALint
