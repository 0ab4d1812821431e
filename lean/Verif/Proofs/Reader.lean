import Verif.Model.Reader
import Verif.Spec.Expand

namespace ALint
open ALint.Spec

/-! ### physical lines -/

theorem physLines_flatten (bs : Bytes) : (physLines bs).flatten = bs := by
  induction bs with
  | nil => rfl
  | cons b bs ih =>
    simp only [physLines]
    split
    · simp [ih]
    · split
      · rename_i h; rw [h] at ih; simp at ih; simp [← ih]
      · rename_i l ls h; rw [h] at ih; simp at ih ⊢; exact ih

theorem physLines_line (bs : Bytes) : ∀ l ∈ physLines bs,
    l ≠ [] ∧ ∀ a b, l = a ++ 10 :: b → b = [] := by
  induction bs with
  | nil => simp [physLines]
  | cons b bs ih =>
    simp only [physLines]
    split
    · rename_i hb; subst hb
      intro l hl
      rcases List.mem_cons.1 hl with rfl | hl
      · refine ⟨by simp, ?_⟩
        intro a b h
        cases a with
        | nil => simp at h; exact h
        | cons x xs => simp at h
      · exact ih l hl
    · rename_i hb
      split
      · intro l hl
        simp at hl; subst hl
        refine ⟨by simp, ?_⟩
        intro a c h
        cases a with
        | nil => simp at h; exact absurd h.1 hb
        | cons x xs => simp at h
      · rename_i l0 ls h
        rw [h] at ih
        intro l hl
        rcases List.mem_cons.1 hl with rfl | hl
        · refine ⟨by simp, ?_⟩
          intro a c he
          cases a with
          | nil => simp at he; exact absurd he.1 hb
          | cons x xs =>
            simp at he
            exact (ih l0 (by simp)).2 xs c he.2
        · exact ih l (by simp [hl])

theorem physLines_lf (bs : Bytes) : ∀ l ∈ (physLines bs).dropLast, l.getLast? = some 10 := by
  induction bs with
  | nil => simp [physLines]
  | cons b bs ih =>
    simp only [physLines]
    split
    · rename_i hb; subst hb
      cases h : physLines bs with
      | nil => simp
      | cons l ls =>
        rw [h] at ih
        intro x hx
        simp only [List.dropLast_cons_cons, List.mem_cons] at hx
        rcases hx with rfl | hx
        · rfl
        · exact ih x hx
    · split
      · simp
      · rename_i l ls h
        rw [h] at ih
        cases ls with
        | nil => simp
        | cons l2 ls =>
          intro x hx
          simp only [List.dropLast_cons_cons, List.mem_cons] at hx ih
          rcases hx with rfl | hx
          · have := ih l (.inl rfl)
            have hl : l ≠ [] := by rintro rfl; simp at this
            obtain ⟨y, ys, rfl⟩ := List.exists_cons_of_ne_nil hl
            simpa using this
          · exact ih x (.inr hx)

/-- The three facts determine the lines. -/
theorem lines_unique : ∀ (ls ms : List Bytes),
    ls.flatten = ms.flatten →
    (∀ l ∈ ls, l ≠ [] ∧ ∀ a b, l = a ++ 10 :: b → b = []) →
    (∀ l ∈ ms, l ≠ [] ∧ ∀ a b, l = a ++ 10 :: b → b = []) →
    (∀ l ∈ ls.dropLast, l.getLast? = some 10) → (∀ l ∈ ms.dropLast, l.getLast? = some 10) →
    ls = ms := by
  intro ls
  induction ls with
  | nil =>
    intro ms h _ h2 _ _
    cases ms with
    | nil => rfl
    | cons m ms =>
      have := (h2 m (by simp)).1
      simp at h
      exact absurd h.1 this
  | cons l ls ih =>
    intro ms h h1 h2 h3 h4
    cases ms with
    | nil =>
      have := (h1 l (by simp)).1
      simp at h
      exact absurd h.1 this
    | cons m ms =>
      have hl := h1 l (by simp)
      have hm := h2 m (by simp)
      simp only [List.flatten_cons] at h
      have key : ∀ (l m : Bytes) (x y : Bytes), l ++ x = m ++ y → l ≠ [] →
          (∀ a b, m = a ++ 10 :: b → b = []) → (x ≠ [] → l.getLast? = some 10) →
          m.length ≤ l.length := by
        intro l m x y he hne hm hx
        rcases List.append_eq_append_iff.1 he with ⟨t, ht, ht'⟩ | ⟨t, ht, ht'⟩
        · -- m = l ++ t
          cases t with
          | nil => subst ht; simp
          | cons z t =>
            have hx' : x ≠ [] := by rw [ht']; simp
            have := hx hx'
            obtain ⟨l', hl'⟩ := List.getLast?_eq_some_iff.1 this
            have := hm l' (z :: t) (by rw [ht, hl']; simp)
            simp at this
        · subst ht; simp
      have hx : ls.flatten ≠ [] → l.getLast? = some 10 := by
        intro hne
        apply h3
        cases ls with
        | nil => simp at hne
        | cons l2 ls => simp
      have hy : ms.flatten ≠ [] → m.getLast? = some 10 := by
        intro hne
        apply h4
        cases ms with
        | nil => simp at hne
        | cons l2 ls => simp
      have e1 := key l m _ _ h hl.1 hm.2 hx
      have e2 := key m l _ _ h.symm hm.1 hl.2 hy
      have hlm : l = m ∧ ls.flatten = ms.flatten := by
        exact List.append_inj h (by omega)
      obtain ⟨rfl, hrest⟩ := hlm
      congr 1
      apply ih ms hrest (fun x hx => h1 x (by simp [hx])) (fun x hx => h2 x (by simp [hx]))
      · intro x hx
        cases ls with
        | nil => simp at hx
        | cons l2 ls => exact h3 x (by simp only [List.dropLast_cons_cons, List.mem_cons]; exact .inr hx)
      · intro x hx
        cases ms with
        | nil => simp at hx
        | cons l2 ls => exact h4 x (by simp only [List.dropLast_cons_cons, List.mem_cons]; exact .inr hx)

/-! ### the reader follows the expansion -/

theorem nextLine_nil_rest (f : Str) (k : Nat) (stack : List Frame) :
    nextLine (⟨f, k, []⟩ :: stack) = nextLine stack := rfl

theorem readFuel_skip (fs : FS) (inc) (n : Nat) (f : Str) (k : Nat) (stack : List Frame) :
    readFuel fs inc n (⟨f, k, []⟩ :: stack) = readFuel fs inc n stack := by
  cases n <;> rfl

theorem readFuel_cons (fs : FS) (inc) (n : Nat) (f : Str) (k : Nat) (l : Bytes) (ls : List Bytes)
    (stack : List Frame) :
    readFuel fs inc (n + 1) (⟨f, k, l :: ls⟩ :: stack) =
      let w : Where := ⟨f, (k : Int) + 1, l⟩
      let r := match pulls fs inc w with
        | none => readFuel fs inc n (⟨f, k + 1, ls⟩ :: stack)
        | some (p, c) => readFuel fs inc n (openFrame p c :: ⟨f, k + 1, ls⟩ :: stack)
      (w :: r.1, r.2) := by
  simp only [readFuel, nextLine, pulls]
  cases inc ⟨f, (k : Int) + 1, l⟩ with
  | none => rfl
  | some p => simp only []; cases fs p <;> rfl

theorem readFuel_expand {fs : FS} {inc} {f : Str} {k : Nat} {ls : List Bytes} {t : Items}
    (h : Expand fs inc f k ls t) : ∀ (stack : List Frame) (m : Nat),
    readFuel fs inc (t.flatten.length + m) (⟨f, k, ls⟩ :: stack) =
      (t.flatten ++ (readFuel fs inc m stack).1, (readFuel fs inc m stack).2) := by
  induction h with
  | nil => intro stack m; simp [Items.flatten, readFuel_skip]
  | line hp _ ih =>
    intro stack m
    simp only [Items.flatten, List.length_cons]
    rw [Nat.add_right_comm, readFuel_cons]
    simp only [hp, ih]
    simp
  | incl hp _ _ ih1 ih2 =>
    intro stack m
    simp only [Items.flatten, List.length_cons, List.length_append]
    rw [Nat.add_right_comm, readFuel_cons]
    simp only [hp, openFrame]
    rw [Nat.add_assoc, ih1, ih2]
    simp

theorem readFuel_length (fs : FS) (inc) : ∀ (n : Nat) (frames : List Frame),
    (readFuel fs inc n frames).2 = false → (readFuel fs inc n frames).1.length = n := by
  intro n
  induction n with
  | zero => intro frames _; rfl
  | succ n ih =>
    intro frames h
    simp only [readFuel] at h ⊢
    split at h
    · simp at h
    · simp only [List.length_cons]
      rw [ih _ h]

theorem readFuel_mono (fs : FS) (inc) : ∀ (n m : Nat) (frames : List Frame),
    (readFuel fs inc n frames).2 = true → n ≤ m → readFuel fs inc m frames = readFuel fs inc n frames := by
  intro n
  induction n with
  | zero => intro m frames h; simp [readFuel] at h
  | succ n ih =>
    intro m frames h hm
    obtain ⟨m, rfl⟩ : ∃ k, m = k + 1 := ⟨m - 1, by omega⟩
    simp only [readFuel] at h ⊢
    split at h
    · rfl
    · rw [ih m _ h (by omega)]

theorem readFuel_take (fs : FS) (inc) : ∀ (n m : Nat) (frames : List Frame), n ≤ m →
    (readFuel fs inc n frames).1 = ((readFuel fs inc m frames).1).take n := by
  intro n
  induction n with
  | zero => intros; simp [readFuel]
  | succ n ih =>
    intro m frames hm
    obtain ⟨m, rfl⟩ : ∃ k, m = k + 1 := ⟨m - 1, by omega⟩
    simp only [readFuel]
    split
    · simp
    · simp [ih m _ (by omega : n ≤ m)]

theorem expand_of_finish {fs : FS} {inc} : ∀ (n : Nat) (f : Str) (k : Nat) (ls : List Bytes)
    (stack : List Frame), (readFuel fs inc n (⟨f, k, ls⟩ :: stack)).2 = true →
    (∃ t, Expand fs inc f k ls t) ∧ ∃ m, m ≤ n ∧ (readFuel fs inc m stack).2 = true := by
  intro n
  induction n using Nat.strongRecOn with
  | ind n ih =>
    intro f k ls stack h
    cases ls with
    | nil => rw [readFuel_skip] at h; exact ⟨⟨_, .nil⟩, n, Nat.le_refl _, h⟩
    | cons l ls =>
      cases n with
      | zero => simp [readFuel] at h
      | succ n =>
        rw [readFuel_cons] at h
        simp only at h
        split at h
        · rename_i hp
          obtain ⟨⟨t, ht⟩, m, hm, hf⟩ := ih n (by omega) _ _ _ _ h
          exact ⟨⟨_, .line hp ht⟩, m, by omega, hf⟩
        · rename_i p c hp
          obtain ⟨⟨sub, hsub⟩, m, hm, hf⟩ := ih n (by omega) _ _ _ _ h
          obtain ⟨⟨t, ht⟩, m', hm', hf'⟩ := ih m (by omega) _ _ _ _ hf
          exact ⟨⟨_, .incl hp hsub ht⟩, m', by omega, hf'⟩

/-- Beginnings for a whole stack: finished expansions of the inner files, then a
beginning. -/
theorem begins_of_read {fs : FS} {inc} : ∀ (n : Nat) (f : Str) (k : Nat) (ls : List Bytes)
    (stack : List Frame),
    Begins fs inc f k ls (readFuel fs inc n (⟨f, k, ls⟩ :: stack)).1 ∨
    ∃ t m, Expand fs inc f k ls t ∧ m ≤ n ∧ 
      (readFuel fs inc n (⟨f, k, ls⟩ :: stack)).1 = t.flatten ++ (readFuel fs inc m stack).1 := by
  intro n
  induction n using Nat.strongRecOn with
  | ind n ih =>
    intro f k ls stack
    cases ls with
    | nil =>
      right
      exact ⟨.nil, n, .nil, Nat.le_refl _, by rw [readFuel_skip]; rfl⟩
    | cons l ls =>
      cases n with
      | zero => left; exact .nil
      | succ n =>
        rw [readFuel_cons]
        simp only
        split
        · rename_i hp
          rcases ih n (by omega) f (k + 1) ls stack with hb | ⟨t, m, ht, hm, he⟩
          · left; exact .line hp hb
          · right; exact ⟨.line _ t, m, .line hp ht, by omega, by simp [Items.flatten, he]⟩
        · rename_i p c hp
          rcases ih n (by omega) p 0 (physLines c) (⟨f, k + 1, ls⟩ :: stack) with
            hb | ⟨sub, m, hs, hm, he⟩
          · left; exact .inside hp hb
          · rcases ih m (by omega) f (k + 1) ls stack with hb | ⟨t, m', ht, hm', he'⟩
            · left
              rw [show readFuel fs inc n (openFrame p c :: ⟨f, k + 1, ls⟩ :: stack) =
                readFuel fs inc n (⟨p, 0, physLines c⟩ :: ⟨f, k + 1, ls⟩ :: stack) from rfl, he]
              exact .past hp hs hb
            · right
              refine ⟨.incl _ p sub t, m', .incl hp hs ht, by omega, ?_⟩
              rw [show readFuel fs inc n (openFrame p c :: ⟨f, k + 1, ls⟩ :: stack) =
                readFuel fs inc n (⟨p, 0, physLines c⟩ :: ⟨f, k + 1, ls⟩ :: stack) from rfl, he, he']
              simp [Items.flatten]

theorem begins_of_expand {fs : FS} {inc} {f k ls t} (h : Expand fs inc f k ls t) :
    Begins fs inc f k ls t.flatten := by
  induction h with
  | nil => exact .nil
  | line hp _ ih => exact .line hp ih
  | incl hp hs _ _ ih2 => exact .past hp hs ih2

/-! ### finiteness -/

theorem expand_deterministic {fs : FS} {inc} {f k ls t t'} (h : Expand fs inc f k ls t)
    (h' : Expand fs inc f k ls t') : t = t' := by
  induction h generalizing t' with
  | nil => cases h'; rfl
  | line hp _ ih =>
    cases h' with
    | line _ h => rw [ih h]
    | incl hp' _ _ => rw [hp] at hp'; simp at hp'
  | incl hp _ _ ih1 ih2 =>
    cases h' with
    | line hp' _ => rw [hp] at hp'; simp at hp'
    | incl hp' h1 h2 =>
      rw [hp] at hp'
      simp at hp'
      obtain ⟨rfl, rfl⟩ := hp'
      rw [ih1 h1, ih2 h2]

/-- The files pulled in by the lines `ls` of `f` from number `k + 1` on. -/
def linePulls (fs : FS) (inc : Where → Option Str) (f : Str) (k : Nat) (ls : List Bytes) (q : Str) : Prop :=
  ∃ (n : Nat) (l : Bytes), ls[n]? = some l ∧
    ∃ c, pulls fs inc ⟨f, ((k + n : Nat) : Int) + 1, l⟩ = some (q, c)

theorem pulls_fs {fs : FS} {inc w p c} (h : pulls fs inc w = some (p, c)) : fs p = some c := by
  simp only [pulls] at h
  split at h
  · simp at h
  · rename_i q _
    cases hq : fs q with
    | none => simp [hq] at h
    | some d => simp [hq] at h; obtain ⟨rfl, rfl⟩ := h; exact hq

theorem expand_acc {fs : FS} {inc} {f k ls t} (h : Expand fs inc f k ls t) :
    ∀ q, linePulls fs inc f k ls q → Acc (fun a b => Pulls fs inc b a) q := by
  induction h with
  | nil => rintro q ⟨n, l, hl, _⟩; simp at hl
  | @line f n l ls t hp _ ih =>
    rintro q ⟨i, l', hl, c, hc⟩
    cases i with
    | zero =>
      simp at hl; subst hl
      simp at hc; rw [hp] at hc; simp at hc
    | succ i =>
      simp at hl
      exact ih q ⟨i, l', hl, c, by rw [← hc]; congr 2; omega⟩
  | @incl f n l ls p c sub t hp _ _ ih1 ih2 =>
    rintro q ⟨i, l', hl, c', hc⟩
    cases i with
    | zero =>
      simp at hl; subst hl
      simp at hc; rw [hp] at hc; simp at hc
      obtain ⟨rfl, rfl⟩ := hc
      constructor
      rintro r ⟨content, hf, i, l', hl, c', hc'⟩
      have := pulls_fs hp
      rw [this] at hf; cases hf
      exact ih1 r ⟨i, l', hl, c', by simpa using hc'⟩
    | succ i =>
      simp at hl
      exact ih2 q ⟨i, l', hl, c', by rw [← hc]; congr 2; omega⟩

theorem expand_of_pulls {fs : FS} {inc} (f : Str) (ls : List Bytes) : ∀ k,
    (∀ q c, linePulls fs inc f k ls q → fs q = some c → ∃ t, Expand fs inc q 0 (physLines c) t) →
    ∃ t, Expand fs inc f k ls t := by
  induction ls with
  | nil => intro k _; exact ⟨_, .nil⟩
  | cons l ls ih =>
    intro k h
    obtain ⟨t, ht⟩ := ih (k + 1) (by
      rintro q c ⟨i, l', hl, c', hc'⟩ hq
      exact h q c ⟨i + 1, l', by simpa using hl, c', by rw [← hc']; congr 2; omega⟩ hq)
    cases hp : pulls fs inc ⟨f, (k : Int) + 1, l⟩ with
    | none => exact ⟨_, .line hp ht⟩
    | some pc =>
      obtain ⟨p, c⟩ := pc
      obtain ⟨sub, hs⟩ := h p c ⟨0, l, by simp, c, by simpa using hp⟩ (pulls_fs hp)
      exact ⟨_, .incl hp hs ht⟩

theorem expand_of_acc {fs : FS} {inc} {f : Str} (h : Acc (fun a b => Pulls fs inc b a) f) :
    ∀ c, fs f = some c → ∃ t, Expand fs inc f 0 (physLines c) t := by
  induction h with
  | intro f _ ih =>
    intro c hc
    apply expand_of_pulls
    rintro q cq ⟨i, l, hl, c', hc'⟩ hq
    exact ih q ⟨c, hc, i, l, hl, c', by simpa using hc'⟩ cq hq

theorem acc_no_cycle {fs : FS} {inc} {f : Str} (h : Acc (fun a b => Pulls fs inc b a) f) :
    ¬ PullsPlus fs inc f f := by
  have trans : ∀ {a b c}, PullsPlus fs inc a b → PullsPlus fs inc b c → PullsPlus fs inc a c := by
    intro a b c h1 h2
    induction h1 with
    | one h => exact .more h h2
    | more h _ ih => exact .more h (ih h2)
  have snoc : ∀ {a b c}, PullsPlus fs inc a b → Pulls fs inc b c → PullsPlus fs inc a c :=
    fun h1 h2 => trans h1 (.one h2)
  induction h with
  | intro f _ ih =>
    intro h
    cases h with
    | one h => exact ih f h (.one h)
    | more h h' => exact ih _ h (snoc h' h)

/-! ### the pipeline reads the same lines -/

theorem ffStage_data (st st' : List FInfo) (w : Where) (data : Str) :
    (ffStage st w data).2.2 = (ffStage st' w data).2.2 := rfl

/-- One round of the pipeline opens what `opens` says. -/
theorem lineStep_frames (fs : FS) (ff : List FInfo) (frames : List Frame) (w : Where) (r : RState)
    (e : Option Elem) (h : (lineStep fs ff frames w).2 = .ok (r, e)) :
    r.frames = match pulls fs opens w with
      | none => frames
      | some (p, c) => openFrame p c :: frames := by
  simp only [lineStep, fileStage] at h
  simp only [pulls, opens]
  cases he : (encodingStage w).2 with
  | error x => simp [he] at h
  | ok data =>
    simp only [he] at h ⊢
    rw [ffStage_data [] ff]
    cases hp : (parserStage w (commentStage w (ffStage ff w data).2.2).2.1
        (commentStage w (ffStage ff w data).2.2).2.2).2 with
    | elem e => simp [hp] at h ⊢; rw [← h.1]
    | pp pp =>
      simp only [hp] at h
      cases pp with
      | nothing => simp [runPP] at h; simp; rw [← h.1]
      | open_ path must name =>
        simp only [runPP] at h
        by_cases hn : path.any (fun c => c.toNat = 0)
        · simp [hn] at h
        · simp only [hn] at h
          cases hf : fs path with
          | none => simp [hf] at h; simp [hf]; rw [← h.1]
          | some c => simp [hf] at h; simp [hf]; rw [← h.1]

end ALint

namespace ALint
open ALint.Spec

/-- With finitely many files, no file below `f` including itself means that the
include relation is well-founded below `f`. -/
theorem acc_of_no_cycle {fs : FS} {inc} :
    ∀ (n : Nat) (f : Str) (R : List Str), R.length ≤ n →
      (∀ p, PullsPlus fs inc f p → p ∈ R) → (∀ p, PullsPlus fs inc f p → ¬ PullsPlus fs inc p p) →
      Acc (fun a b => Pulls fs inc b a) f := by
  intro n
  induction n with
  | zero =>
    intro f R hR hp _
    have : R = [] := List.length_eq_zero_iff.1 (by omega)
    subst this
    exact ⟨_, fun q hq => absurd (hp q (.one hq)) (by simp)⟩
  | succ n ih =>
    intro f R hR hp hc
    constructor
    intro q hq
    have hq' : Pulls fs inc f q := hq
    have hqR := hp q (.one hq')
    apply ih q (R.erase q)
    · rw [List.length_erase_of_mem hqR]; omega
    · intro p hqp
      have hpR := hp p (.more hq' hqp)
      have hne : p ≠ q := by
        rintro rfl
        exact hc _ (.one hq') hqp
      exact (List.mem_erase_of_ne hne).2 hpR
    · intro p hqp
      exact hc p (.more hq' hqp)

theorem pulls_mem {fs : FS} {inc} {p q} (h : Pulls fs inc p q) : ∃ c, fs q = some c := by
  obtain ⟨_, _, _, _, _, c, hc⟩ := h
  exact ⟨c, pulls_fs hc⟩

theorem pullsPlus_mem {fs : FS} {inc} {p q} (h : PullsPlus fs inc p q) : ∃ c, fs q = some c := by
  induction h with
  | one h => exact pulls_mem h
  | more _ _ ih => exact ih

theorem acc_pullsPlus {fs : FS} {inc} {f g} (h : Acc (fun a b => Pulls fs inc b a) f)
    (hp : PullsPlus fs inc f g) : Acc (fun a b => Pulls fs inc b a) g := by
  induction hp with
  | one h' => exact h.inv h'
  | more h' _ ih => exact ih (h.inv h')

theorem acc_of_expand {fs : FS} {inc} {f c t} (hf : fs f = some c)
    (h : Expand fs inc f 0 (physLines c) t) : Acc (fun a b => Pulls fs inc b a) f := by
  constructor
  rintro q ⟨content, hf', n, l, hl, c', hc'⟩
  rw [hf] at hf'; cases hf'
  exact expand_acc h q ⟨n, l, hl, c', by simpa using hc'⟩

/-! ### the lines the whole pipeline reads -/

theorem readFuel_succ (fs : FS) (inc) (n : Nat) (frames : List Frame) :
    readFuel fs inc (n + 1) frames =
      match nextLine frames with
      | none => ([], true)
      | some (w, rest) =>
        let r := readFuel fs inc n (match pulls fs inc w with
          | none => rest
          | some (p, c) => openFrame p c :: rest)
        (w :: r.1, r.2) := by
  simp only [readFuel]
  cases nextLine frames with
  | none => rfl
  | some x =>
    obtain ⟨w, rest⟩ := x
    simp only [pulls]
    cases inc w with
    | none => rfl
    | some p => simp only []; cases fs p <;> rfl

theorem pipeStep_frames {σ : Type} (fs : FS) (agg : σ → Elem → Res σ) (st st' : PState σ)
    (w : Where) (rest : List Frame) (r : Res (PState σ))
    (hn : nextLine st.frames = some (w, rest)) (h : pipeStep fs agg st = some r)
    (hv : r.val = .ok st') :
    st'.frames = match pulls fs opens w with
      | none => rest
      | some (p, c) => openFrame p c :: rest := by
  simp only [pipeStep, hn] at h
  cases h
  have key : ∀ {α β : Type} (x : Res α) (f : α → Res β) (b : β), (Res.bind x f).val = .ok b →
      ∃ a, x.val = .ok a ∧ (f a).val = .ok b := by
    intro α β x f b h
    simp only [Res.bind] at h
    cases hx : x.val with
    | error e => rw [hx] at h; simp at h
    | ok a => rw [hx] at h; exact ⟨a, rfl, h⟩
  obtain ⟨_, _, h⟩ := key _ _ _ hv
  cases hl : (lineStep fs st.ff rest w).2 with
  | error e => rw [hl] at h; simp [Res.raise] at h
  | ok re =>
    obtain ⟨rs, e⟩ := re
    rw [hl] at h
    have hf := lineStep_frames fs st.ff rest w rs e hl
    cases e with
    | none => simp only [Res.pure] at h; cases h; exact hf
    | some e =>
      simp only [] at h
      obtain ⟨_, _, h⟩ := key _ _ _ h
      obtain ⟨_, _, h⟩ := key _ _ _ h
      simp only [Res.pure] at h; cases h; exact hf

theorem pipeLines_prefix {σ : Type} (fs : FS) (agg : σ → Elem → Res σ) : ∀ (n : Nat) (st : PState σ),
    pipeLines fs agg n st <+: (readFuel fs opens n st.frames).1 := by
  intro n
  induction n with
  | zero => intro st; simp [pipeLines]
  | succ n ih =>
    intro st
    rw [readFuel_succ]
    simp only [pipeLines]
    cases hn : nextLine st.frames with
    | none => simp
    | some x =>
      obtain ⟨w, rest⟩ := x
      simp only
      cases hp : pipeStep fs agg st with
      | none => simp
      | some r =>
        simp only
        cases hv : r.val with
        | error e => simp
        | ok st' =>
          have := pipeStep_frames fs agg st st' w rest r hn hp hv
          rw [← this]
          exact (List.prefix_cons_inj w).2 (ih st')

/-- If the run does not raise, the pipeline reads as the reader does, and finishes
when the reader does. -/
theorem pipeRun_reader {σ : Type} (fs : FS) (agg : σ → Elem → Res σ) : ∀ (n : Nat) (st : PState σ)
    (o : Option σ), (pipeRun fs agg n st).val = .ok o →
    pipeLines fs agg n st = (readFuel fs opens n st.frames).1 ∧
      o.isSome = (readFuel fs opens n st.frames).2 := by
  intro n
  induction n with
  | zero =>
    intro st o h
    simp only [pipeRun, Res.pure] at h
    cases h
    simp [pipeLines, readFuel]
  | succ n ih =>
    intro st o h
    rw [readFuel_succ]
    simp only [pipeLines, pipeRun] at h ⊢
    cases hn : nextLine st.frames with
    | none =>
      have hp : pipeStep fs agg st = none := by simp [pipeStep, hn]
      rw [hp] at h
      simp only [Res.bind, Res.pure] at h
      cases he : (pipeEnd agg st).val with
      | error e => rw [he] at h; simp at h
      | ok s => rw [he] at h; simp at h; subst h; simp
    | some x =>
      obtain ⟨w, rest⟩ := x
      cases hp : pipeStep fs agg st with
      | none => simp [pipeStep, hn] at hp
      | some r =>
        rw [hp] at h
        simp only [Res.bind] at h
        cases hv : r.val with
        | error e => rw [hv] at h; simp at h
        | ok st' =>
          rw [hv] at h
          simp only at h
          have := pipeStep_frames fs agg st st' w rest r hn hp hv
          have hi := ih st' o h
          simp only [hv]
          rw [← this, hi.1]
          exact ⟨rfl, hi.2⟩

end ALint
