import Verif.Proofs.Res
import Verif.Proofs.PatternOrder

/-!
# Adding steps to a context
-/

namespace ALint
open Pattern (Values)

/-! ## Look-ups -/

theorem lookup_putCache (key k : Str) (p : PCache) (l : List (Str × PCache)) :
    (putCache key p l).lookup k = if k = key then some p else l.lookup k := by
  induction l with
  | nil =>
    by_cases h : k = key
    · simp [putCache, h]
    · have : (k == key) = false := by simpa using h
      simp [putCache, List.lookup, h, this]
  | cons x xs ih =>
    obtain ⟨a, q⟩ := x
    by_cases ha : a = key
    · subst ha
      by_cases h : k = a
      · simp [putCache, h]
      · have : (k == a) = false := by simpa using h
        simp [putCache, List.lookup, h, this]
    · simp only [putCache, ha, if_false, List.lookup]
      by_cases hk : k = a
      · subst hk; simp [ha]
      · have : (k == a) = false := by simpa using hk
        simp [this, ih]

theorem putCache_keys (key : Str) (p : PCache) (l : List (Str × PCache))
    (h : (l.map (·.1)).Nodup) : ((putCache key p l).map (·.1)).Nodup ∧
      ∀ k, k ∈ (putCache key p l).map (·.1) ↔ k ∈ l.map (·.1) ∨ k = key := by
  induction l with
  | nil => simp [putCache]
  | cons x xs ih =>
    obtain ⟨a, q⟩ := x
    simp only [List.map_cons, List.nodup_cons] at h
    by_cases ha : a = key
    · subst ha
      refine ⟨by simp [putCache, h.1, h.2], fun k => ?_⟩
      simp only [putCache, if_true, List.map_cons, List.mem_cons]
      constructor
      · rintro (h | h) <;> simp_all
      · rintro ((h | h) | h) <;> simp_all
    · obtain ⟨i1, i2⟩ := ih h.2
      simp only [putCache, ha, if_false, List.map_cons, List.nodup_cons]
      refine ⟨⟨fun hc => ?_, i1⟩, fun k => ?_⟩
      · rcases (i2 a).1 hc with h' | h'
        · exact h.1 h'
        · exact ha h'
      · simp only [List.mem_cons, i2]
        constructor
        · rintro (h | h | h) <;> simp_all
        · rintro ((h | h) | h) <;> simp_all

theorem lookup_snoc {α β : Type} [DecidableEq α] [BEq α] [LawfulBEq α] (l : List (α × β)) (a k : α) (b : β) :
    (l ++ [(a, b)]).lookup k = (l.lookup k).or (if k = a then some b else none) := by
  induction l with
  | nil =>
    by_cases h : k = a
    · simp [h]
    · have : (k == a) = false := by simpa using h
      simp [List.lookup, h, this]
  | cons x xs ih =>
    obtain ⟨c, d⟩ := x
    simp only [List.cons_append, List.lookup]
    by_cases h : k = c
    · simp [h]
    · have : (k == c) = false := by simpa using h
      simp [this, ih]

theorem lookup_any {α β : Type} [DecidableEq α] [BEq α] [LawfulBEq α] (l : List (α × β)) (k : α) :
    l.any (fun x => decide (x.1 = k)) = (l.lookup k).isSome := by
  induction l with
  | nil => rfl
  | cons x xs ih =>
    obtain ⟨a, b⟩ := x
    simp only [List.any_cons, List.lookup]
    by_cases h : k = a
    · simp [h]
    · have h1 : (k == a) = false := by simpa using h
      have h2 : ¬ a = k := fun e => h e.symm
      simp [h1, h2, ih]

theorem lookup_of_mem {α β : Type} [DecidableEq α] [BEq α] [LawfulBEq α] {l : List (α × β)} (hn : (l.map (·.1)).Nodup)
    {a : α} {b : β} (h : (a, b) ∈ l) : l.lookup a = some b := by
  induction l with
  | nil => simp at h
  | cons x xs ih =>
    obtain ⟨c, d⟩ := x
    simp only [List.map_cons, List.nodup_cons] at hn
    rcases List.mem_cons.1 h with h | h
    · cases h; simp
    · have : c ≠ a := by
        rintro rfl
        exact hn.1 (List.mem_map.2 ⟨_, h, rfl⟩)
      have h1 : (a == c) = false := by simpa using fun e : a = c => this e.symm
      simp [List.lookup, h1, ih hn.2 h]

theorem mem_of_lookup {α β : Type} [DecidableEq α] [BEq α] [LawfulBEq α] {l : List (α × β)}
    {a : α} {b : β} (h : l.lookup a = some b) : (a, b) ∈ l := by
  induction l with
  | nil => simp at h
  | cons x xs ih =>
    obtain ⟨c, d⟩ := x
    simp only [List.lookup] at h
    by_cases hk : a = c
    · subst hk; simp at h; simp [h]
    · have h1 : (a == c) = false := by simpa using hk
      simp only [h1] at h
      exact List.mem_cons_of_mem _ (ih h)

/-- The `where` remembered for a priority. -/
def cachedPrio (c : DCtx) (key : Str) (n : Nat) : Option Where :=
  (c.cache.lookup key).bind (·.prios.lookup n)

/-- The `where` remembered for a label. -/
def cachedLabel (c : DCtx) (key l : Str) : Option Where :=
  (c.cache.lookup key).bind (·.labels.lookup l)

/-! ## The cases of `add` -/

def dupeMsg (w : Where) (n : Nat) (prev : Where) : Msg :=
  ⟨.E_DP_PRIO_DUPE, w, [(c! "prio", natV n)], some prev⟩
def labelDupeMsg (w : Where) (l : Str) (prev : Where) : Msg :=
  ⟨.E_DP_LABEL_DUPE, w, [(c! "label", strV l)], some prev⟩

/-- What happens to the label of a stored step: label kept, labels registered, message. -/
inductive LabelCase (c : DCtx) (key : Str) (label : Option Str) (w : Where) :
    Option Str → List Str → List Msg → Prop
  | plain (h : realLabel label = none) : LabelCase c key label w label [] []
  | new (l : Str) (h : realLabel label = some l) (hc : cachedLabel c key l = none) :
      LabelCase c key label w label [l] []
  | dupe (l : Str) (prev : Where) (h : realLabel label = some l) (hc : cachedLabel c key l = some prev) :
      LabelCase c key label w (some []) [] [labelDupeMsg w l prev]

theorem cacheCheck_none {c : DCtx} {key : Str} {n : Nat} {label : Option Str} {w : Where}
    (h : (cacheCheck c key n label w).val = .ok none) :
    ∃ prev, cachedPrio c key n = some prev ∧ (cacheCheck c key n label w).log = [dupeMsg w n prev] := by
  unfold cacheCheck at h ⊢
  unfold cachedPrio
  cases hk : c.cache.lookup key with
  | none =>
    simp only [hk] at h
    cases hl : realLabel label <;> simp [hl] at h
  | some pc =>
    simp only [hk] at h ⊢
    cases hp : pc.prios.lookup n with
    | none =>
      simp only [hp] at h
      cases hl : realLabel label with
      | none => simp [hl] at h
      | some l =>
        simp only [hl] at h
        cases hl2 : pc.labels.lookup l with
        | none => simp [hl2] at h
        | some prev =>
          simp only [hl2] at h
          obtain ⟨_, _, h, _⟩ := Res.bind_ok h
          simp at h
    | some prev =>
      refine ⟨prev, by simp [hp], ?_⟩
      simp only [hp] at h
      obtain ⟨u, h1, h2, h3⟩ := Res.bind_ok h
      rw [h3]
      rfl

theorem cacheCheck_some {c : DCtx} {key : Str} {n : Nat} {label label' : Option Str} {w : Where}
    {pc : PCache} {ls : List Str}
    (h : (cacheCheck c key n label w).val = .ok (some (pc, label', ls))) :
    cachedPrio c key n = none ∧
    (∀ m, pc.prios.lookup m = (cachedPrio c key m).or (if m = n then some w else none)) ∧
    (∀ l, pc.labels.lookup l = (cachedLabel c key l).or (if l ∈ ls then some w else none)) ∧
    LabelCase c key label w label' ls (cacheCheck c key n label w).log := by
  unfold cacheCheck at h ⊢
  cases hk : c.cache.lookup key with
  | none =>
    simp only [hk] at h ⊢
    have hp : cachedPrio c key = fun _ => none := by funext m; simp [cachedPrio, hk]
    have hl' : cachedLabel c key = fun _ => none := by funext m; simp [cachedLabel, hk]
    cases hl : realLabel label with
    | none =>
      simp only [hl, Res.pure_val, Except.ok.injEq, Option.some.injEq, Prod.mk.injEq] at h
      obtain ⟨rfl, rfl, rfl⟩ := h
      refine ⟨by rw [hp], fun m => ?_, fun l => by simp [hl'], by simpa [hl] using LabelCase.plain hl⟩
      have := lookup_snoc ([] : List (Nat × Where)) n m w
      simpa [hp] using this
    | some l =>
      simp only [hl, Res.pure_val, Except.ok.injEq, Option.some.injEq, Prod.mk.injEq] at h
      obtain ⟨rfl, rfl, rfl⟩ := h
      refine ⟨by rw [hp], fun m => ?_, fun l' => ?_,
        by simpa [hl] using LabelCase.new l hl (by rw [hl'])⟩
      · have := lookup_snoc ([] : List (Nat × Where)) n m w
        simpa [hp] using this
      · have := lookup_snoc ([] : List (Str × Where)) l l' w
        simpa [hl'] using this
  | some q =>
    simp only [hk] at h ⊢
    have hp' : ∀ m, cachedPrio c key m = q.prios.lookup m := by intro m; simp [cachedPrio, hk]
    have hl' : ∀ l, cachedLabel c key l = q.labels.lookup l := by intro m; simp [cachedLabel, hk]
    cases hp : q.prios.lookup n with
    | some prev =>
      simp only [hp] at h
      obtain ⟨u, _, h2, _⟩ := Res.bind_ok h
      simp at h2
    | none =>
      simp only [hp] at h ⊢
      cases hl : realLabel label with
      | none =>
        simp only [hl, Res.pure_val, Except.ok.injEq, Option.some.injEq, Prod.mk.injEq] at h
        obtain ⟨rfl, rfl, rfl⟩ := h
        refine ⟨by rw [hp', hp], fun m => by rw [hp', lookup_snoc], fun l => by simp [hl'],
          by simpa [hl] using LabelCase.plain hl⟩
      | some l =>
        simp only [hl] at h ⊢
        cases hl2 : q.labels.lookup l with
        | none =>
          simp only [hl2, Res.pure_val, Except.ok.injEq, Option.some.injEq, Prod.mk.injEq] at h
          obtain ⟨rfl, rfl, rfl⟩ := h
          refine ⟨by rw [hp', hp], fun m => by rw [hp', lookup_snoc], fun l' => ?_,
            by simpa [hl2] using LabelCase.new l hl (by rw [hl', hl2])⟩
          rw [hl']
          simp [lookup_snoc]
        | some prev =>
          simp only [hl2] at h ⊢
          obtain ⟨u, h1, h2, h3⟩ := Res.bind_ok h
          simp only [Res.pure_val, Except.ok.injEq, Option.some.injEq, Prod.mk.injEq] at h2
          obtain ⟨rfl, rfl, rfl⟩ := h2
          refine ⟨by rw [hp', hp], fun m => by rw [hp', lookup_snoc], fun l' => by simp [hl'], ?_⟩
          rw [h3]
          exact LabelCase.dupe l prev hl (by rw [hl', hl2])

theorem labelCase_congr {c d : DCtx} {key label w label' ls ms}
    (h : ∀ l, cachedLabel c key l = cachedLabel d key l) (hl : LabelCase c key label w label' ls ms) :
    LabelCase d key label w label' ls ms := by
  cases hl with
  | plain hl => exact .plain hl
  | new l hl hc => exact .new l hl (by rw [← h]; exact hc)
  | dupe l prev hl hc => exact .dupe l prev hl (by rw [← h]; exact hc)

/-- The cases of `addExt`, with the messages. -/
inductive AddCase (last : Option Nat) (c : DCtx) (e : ExtLine) : Added → List Msg → Prop
  | noPat (hp : resolvePat c e = none) :
      AddCase last c e ⟨{ c with sorted := none }, last, [], []⟩ [mkMsg .E_DP_PAT_MISSING e.at_ []]
  | noPrio (raw : Str) (pat : Values) (ms : List Msg) (hp : resolvePat c e = some (raw, pat))
      (hr : resolvePrio last { c with sorted := none } raw pat e = ⟨ms, .ok none⟩) :
      AddCase last c e ⟨{ c with sorted := none }, last, [], []⟩ ms
  | dupe (raw : Str) (pat : Values) (ms : List Msg) (n : Nat) (prev : Where)
      (hp : resolvePat c e = some (raw, pat))
      (hr : resolvePrio last { c with sorted := none } raw pat e = ⟨ms, .ok (some n)⟩)
      (hd : cachedPrio c (Pattern.canonical pat) n = some prev) :
      AddCase last c e ⟨{ c with sorted := none, lastPrio := some n }, some n, [], []⟩
        (ms ++ [dupeMsg e.at_ n prev])
  | stored (raw : Str) (pat : Values) (ms : List Msg) (n : Nat) (label' : Option Str) (ls : List Str)
      (ds : List Dest) (pc : PCache) (lms : List Msg) (hp : resolvePat c e = some (raw, pat))
      (hr : resolvePrio last { c with sorted := none } raw pat e = ⟨ms, .ok (some n)⟩)
      (hd : cachedPrio c (Pattern.canonical pat) n = none)
      (hpc : ∀ m, pc.prios.lookup m =
        (cachedPrio c (Pattern.canonical pat) m).or (if m = n then some e.at_ else none))
      (hlc : ∀ l, pc.labels.lookup l =
        (cachedLabel c (Pattern.canonical pat) l).or (if l ∈ ls then some e.at_ else none))
      (hl : LabelCase c (Pattern.canonical pat) e.label e.at_ label' ls lms)
      (hj : completeDests c.name (Pattern.exampleOf pat) e.at_ e.jumps = .ok ds) :
      AddCase last c e ⟨{ c with
          sorted := none, lastPrio := some n,
          cache := putCache (Pattern.canonical pat) pc c.cache,
          steps := c.steps ++ [⟨raw, pat, n, label', e.app, e.comment, e.at_⟩] }, some n, ls, ds⟩
        (ms ++ lms)

theorem addExt_cases {last : Option Nat} {c : DCtx} {e : ExtLine} {a : Added}
    (h : (addExt last c e).val = .ok a) : AddCase last c e a (addExt last c e).log := by
  unfold addExt at h ⊢
  dsimp only at h ⊢
  have hpat : resolvePat { c with sorted := none } e = resolvePat c e := rfl
  rw [hpat] at h ⊢
  cases hp : resolvePat c e with
  | none =>
    simp only [hp] at h ⊢
    obtain ⟨u, h1, h2, h3⟩ := Res.bind_ok h
    simp only [Res.pure_val, Except.ok.injEq] at h2
    rw [h3, ← h2]
    exact AddCase.noPat hp
  | some p =>
    obtain ⟨raw, pat⟩ := p
    simp only [hp] at h ⊢
    obtain ⟨r, h1, h2, h3⟩ := Res.bind_ok h
    have hr : resolvePrio last { c with sorted := none } raw pat e =
        ⟨(resolvePrio last { c with sorted := none } raw pat e).log, .ok r⟩ := by rw [← h1]
    rw [h3]
    cases r with
    | none =>
      simp only [Res.pure_val, Except.ok.injEq] at h2
      rw [← h2]
      simpa using AddCase.noPrio raw pat _ hp hr
    | some n =>
      simp only [] at h2 ⊢
      unfold storeStep at h2 ⊢
      dsimp only at h2 ⊢
      obtain ⟨r, h4, h5, h6⟩ := Res.bind_ok h2
      rw [h6]
      cases r with
      | none =>
        simp only [Res.pure_val, Except.ok.injEq] at h5
        obtain ⟨prev, hd, hlog⟩ := cacheCheck_none h4
        rw [hlog, ← h5]
        simpa using AddCase.dupe raw pat _ n prev hp hr hd
      | some x =>
        obtain ⟨pc, label', ls⟩ := x
        simp only [] at h5 ⊢
        obtain ⟨ds, h7, h8, h9⟩ := Res.bind_ok h5
        simp only [Res.pure_val, Except.ok.injEq] at h8
        obtain ⟨g1, g2, g3, g4⟩ := cacheCheck_some h4
        rw [h9, ← h8]
        have g4' : LabelCase c (Pattern.canonical pat) e.label e.at_ label' ls
            (cacheCheck { c with sorted := none, lastPrio := some n } (Pattern.canonical pat) n e.label
              e.at_).log := by refine labelCase_congr ?_ g4; intro l; rfl
        simpa using AddCase.stored raw pat _ n label' ls ds pc _ hp hr g1 g2 g3 g4' h7

/-! ## Priorities -/

/-- How a priority is found. -/
inductive PrioCase (last : Option Nat) (e : ExtLine) : Nat → Prop
  | next (m : Nat) (h : e.prio = none) (hl : last = some m) (hm : m ≠ 0) : PrioCase last e (m + 1)
  | num (n : Nat) (h : e.prio = some n) (hn : 1 ≤ n) : PrioCase last e n

theorem resolvePrio_some {last : Option Nat} {c : DCtx} {raw : Str} {pat : Values} {e : ExtLine}
    {n : Nat} (h : (resolvePrio last c raw pat e).val = .ok (some n)) : PrioCase last e n := by
  unfold resolvePrio at h
  cases hp : e.prio with
  | none =>
    simp only [hp] at h
    split at h
    · obtain ⟨_, _, h, _⟩ := Res.bind_ok h
      simp at h
    · rename_i hl
      obtain ⟨_, _, h, _⟩ := Res.bind_ok h
      obtain ⟨_, _, h, _⟩ := Res.bind_ok h
      cases last with
      | none => simp at hl
      | some m =>
        simp at h hl
        rw [← h]
        exact .next m hp rfl hl
  | some k =>
    simp only [hp] at h
    split at h
    · obtain ⟨_, _, h, _⟩ := Res.bind_ok h
      simp at h
    · rename_i hk
      have hk' : 1 ≤ k := by omega
      have : k = n := by
        split at h
        · split at h
          · obtain ⟨_, _, h, _⟩ := Res.bind_ok h
            simpa using h
          · split at h
            · obtain ⟨_, _, h, _⟩ := Res.bind_ok h
              simpa using h
            · simpa using h
        · simpa using h
      subst this
      exact .num k hp hk'

/-- Why a priority is refused. -/
inductive PrioBad (last : Option Nat) (raw : Str) (e : ExtLine) : List Msg → Prop
  | next (h : e.prio = none) (hl : last.getD 0 = 0) :
      PrioBad last raw e [mkMsg .E_DP_PRIO_MISSING e.at_ [(c! "pat", strV raw)]]
  | zero (h : e.prio = some 0) :
      PrioBad last raw e [mkMsg .E_DP_PRIO_INVALID e.at_ [(c! "prio", natV 0)]]

theorem resolvePrio_none {last : Option Nat} {c : DCtx} {raw : Str} {pat : Values} {e : ExtLine}
    (h : (resolvePrio last c raw pat e).val = .ok none) :
    PrioBad last raw e (resolvePrio last c raw pat e).log := by
  unfold resolvePrio at h ⊢
  cases hp : e.prio with
  | none =>
    simp only [hp] at h ⊢
    split at h
    · rename_i hl
      rw [if_pos hl]
      obtain ⟨_, _, h1, h2⟩ := Res.bind_ok h
      rw [h2]
      exact .next hp hl
    · obtain ⟨_, _, h, _⟩ := Res.bind_ok h
      obtain ⟨_, _, h, _⟩ := Res.bind_ok h
      simp at h
  | some k =>
    simp only [hp] at h ⊢
    split at h
    · rename_i hk
      rw [if_pos hk]
      have : k = 0 := by omega
      subst this
      obtain ⟨_, _, h1, h2⟩ := Res.bind_ok h
      rw [h2]
      exact .zero hp
    · exfalso
      split at h
      · split at h
        · obtain ⟨_, _, h, _⟩ := Res.bind_ok h
          simp at h
        · split at h
          · obtain ⟨_, _, h, _⟩ := Res.bind_ok h
            simp at h
          · simp at h
      · simp at h

/-- Messages issued on the way to a priority: at most one about the order. -/
theorem resolvePrio_log {last : Option Nat} {c : DCtx} {raw : Str} {pat : Values} {e : ExtLine} {n : Nat}
    (h : (resolvePrio last c raw pat e).val = .ok (some n)) :
    (resolvePrio last c raw pat e).log = [] ∨
      ∃ p, (resolvePrio last c raw pat e).log = [badOrder e.at_ raw p] := by
  unfold resolvePrio at h ⊢
  cases hp : e.prio with
  | none =>
    simp only [hp] at h ⊢
    split at h
    · obtain ⟨_, _, h, _⟩ := Res.bind_ok h
      simp at h
    · rename_i hl
      rw [if_neg hl]
      obtain ⟨b, h1, h2, h3⟩ := Res.bind_ok h
      obtain ⟨u, h4, h5, h6⟩ := Res.bind_ok h2
      rw [h3, h6]
      cases b
      · exact .inl rfl
      · exact .inr ⟨_, rfl⟩
  | some k =>
    simp only [hp] at h ⊢
    split at h
    · obtain ⟨_, _, h, _⟩ := Res.bind_ok h
      simp at h
    · rename_i hk
      rw [if_neg hk]
      split at h
      · rename_i hk1
        rw [if_pos hk1]
        split at h
        · obtain ⟨_, _, h, h'⟩ := Res.bind_ok h
          exact .inr ⟨_, h'⟩
        · split at h
          · rename_i hc
            simp only [if_pos hc]
            obtain ⟨_, _, h, h'⟩ := Res.bind_ok h
            exact .inr ⟨_, h'⟩
          · rename_i hc
            simp only [if_neg hc]
            exact .inl rfl
      · rename_i hk1
        rw [if_neg hk1]
        exact .inl rfl

/-! ## The invariant of a context -/

structure CtxInv (c : DCtx) : Prop where
  prios : ∀ key n w, cachedPrio c key n = some w ↔
    ∃ s ∈ c.steps, Pattern.canonical s.pat = key ∧ s.prio = n ∧ s.at_ = w
  labels : ∀ key l w, cachedLabel c key l = some w ↔
    ∃ s ∈ c.steps, Pattern.canonical s.pat = key ∧ realLabel s.label = some l ∧ s.at_ = w
  unique : c.steps.Pairwise fun s t => ¬ (Pattern.canonical s.pat = Pattern.canonical t.pat ∧ s.prio = t.prio)
  uniqueLabel : c.steps.Pairwise fun s t => ¬ (Pattern.canonical s.pat = Pattern.canonical t.pat ∧
    ∃ l, realLabel s.label = some l ∧ realLabel t.label = some l)
  positive : ∀ s ∈ c.steps, 1 ≤ s.prio
  last : c.lastPrio.getD 0 ≠ 0 → c.steps ≠ []
  sorted : c.sorted = none ∨ c.sorted = some (sortedPatterns c.steps)
  keys : (c.cache.map (·.1)).Nodup

theorem CtxInv.fresh (name : Str) (w : Where) : CtxInv ⟨name, w, [], [], none, [], none⟩ where
  prios := by simp [cachedPrio]
  labels := by simp [cachedLabel]
  unique := .nil
  uniqueLabel := .nil
  positive := by simp
  last := by simp
  sorted := .inl rfl
  keys := by simp

theorem labelCase_real {c key label w label' ls ms} (h : LabelCase c key label w label' ls ms) :
    ∀ l, realLabel label' = some l ↔ l ∈ ls := by
  intro l
  cases h with
  | plain h => simp [h]
  | new l' h hc => simp [h, eq_comm]
  | dupe l' prev h hc => simp [realLabel]

theorem labelCase_new {c key label w label' ls ms} (h : LabelCase c key label w label' ls ms) :
    ∀ l ∈ ls, cachedLabel c key l = none := by
  intro l hl
  cases h with
  | plain h => simp at hl
  | new l' h hc => simp at hl; rw [hl, hc]
  | dupe l' prev h hc => simp at hl

theorem pairwise_snoc {α : Type} {R : α → α → Prop} (l : List α) (a : α) :
    (l ++ [a]).Pairwise R ↔ l.Pairwise R ∧ ∀ x ∈ l, R x a := by
  simp [List.pairwise_append]

theorem addCase_inv {last : Option Nat} {c : DCtx} {e : ExtLine} {a : Added} {ms : List Msg}
    (h : AddCase last c e a ms) (hi : CtxInv c) : CtxInv a.ctx := by
  cases h with
  | noPat hp => exact ⟨hi.prios, hi.labels, hi.unique, hi.uniqueLabel, hi.positive, hi.last, .inl rfl, hi.keys⟩
  | noPrio raw pat _ hp hr =>
    exact ⟨hi.prios, hi.labels, hi.unique, hi.uniqueLabel, hi.positive, hi.last, .inl rfl, hi.keys⟩
  | dupe raw pat _ n prev hp hr hd =>
    refine ⟨hi.prios, hi.labels, hi.unique, hi.uniqueLabel, hi.positive, fun _ => ?_, .inl rfl, hi.keys⟩
    obtain ⟨s, hs, _⟩ := (hi.prios _ _ _).1 hd
    exact List.ne_nil_of_mem hs
  | stored raw pat ms n label' ls ds pc lms hp hr hd hpc hlc hl hj =>
    have hreal := labelCase_real hl
    have hnew := labelCase_new hl
    have hn : 1 ≤ n := by
      have := resolvePrio_some (congrArg Res.val hr)
      cases this with
      | next m _ _ hm => omega
      | num => assumption
    have none_iff : ∀ {α : Type} {o : Option α}, o = none ↔ ∀ w, o ≠ some w := by
      intro α o; cases o <;> simp
    refine ⟨fun key m w => ?_, fun key l w => ?_, ?_, ?_, ?_, fun _ => by simp, .inl rfl, ?_⟩
    · simp only [cachedPrio, lookup_putCache]
      by_cases hk : key = Pattern.canonical pat
      · subst hk
        simp only [if_true, Option.bind_some, hpc, List.mem_append, List.mem_singleton]
        by_cases hm : m = n
        · subst hm
          rw [hd]
          simp only [if_true, Option.none_or, Option.some.injEq]
          constructor
          · rintro rfl
            exact ⟨_, .inr rfl, rfl, rfl, rfl⟩
          · rintro ⟨s, hs | rfl, h1, h2, h3⟩
            · have := (hi.prios _ _ w).2 ⟨s, hs, h1, h2, h3⟩
              rw [hd] at this
              simp at this
            · exact h3
        · simp only [hm, if_false, Option.or_none]
          rw [hi.prios]
          constructor
          · rintro ⟨s, hs, h1⟩
            exact ⟨s, .inl hs, h1⟩
          · rintro ⟨s, hs | rfl, h1, h2, h3⟩
            · exact ⟨s, hs, h1, h2, h3⟩
            · exact absurd h2.symm hm
      · simp only [hk, if_false, List.mem_append, List.mem_singleton]
        rw [show ((List.lookup key c.cache).bind fun x => List.lookup m x.prios) = cachedPrio c key m from rfl,
          hi.prios]
        constructor
        · rintro ⟨s, hs, h1⟩
          exact ⟨s, .inl hs, h1⟩
        · rintro ⟨s, hs | rfl, h1, h2, h3⟩
          · exact ⟨s, hs, h1, h2, h3⟩
          · exact absurd h1.symm hk
    · simp only [cachedLabel, lookup_putCache]
      by_cases hk : key = Pattern.canonical pat
      · subst hk
        simp only [if_true, Option.bind_some, hlc, List.mem_append, List.mem_singleton]
        by_cases hm : l ∈ ls
        · rw [hnew l hm]
          simp only [hm, if_true, Option.none_or, Option.some.injEq]
          constructor
          · rintro rfl
            exact ⟨_, .inr rfl, rfl, (hreal l).2 hm, rfl⟩
          · rintro ⟨s, hs | rfl, h1, h2, h3⟩
            · have := (hi.labels _ _ w).2 ⟨s, hs, h1, h2, h3⟩
              rw [hnew l hm] at this
              simp at this
            · exact h3
        · simp only [hm, if_false, Option.or_none]
          rw [hi.labels]
          constructor
          · rintro ⟨s, hs, h1⟩
            exact ⟨s, .inl hs, h1⟩
          · rintro ⟨s, hs | rfl, h1, h2, h3⟩
            · exact ⟨s, hs, h1, h2, h3⟩
            · exact absurd ((hreal l).1 h2) hm
      · simp only [hk, if_false, List.mem_append, List.mem_singleton]
        rw [show ((List.lookup key c.cache).bind fun x => List.lookup l x.labels) = cachedLabel c key l from rfl,
          hi.labels]
        constructor
        · rintro ⟨s, hs, h1⟩
          exact ⟨s, .inl hs, h1⟩
        · rintro ⟨s, hs | rfl, h1, h2, h3⟩
          · exact ⟨s, hs, h1, h2, h3⟩
          · exact absurd h1.symm hk
    · refine (pairwise_snoc _ _).2 ⟨hi.unique, fun s hs ⟨h1, h2⟩ => ?_⟩
      exact none_iff.1 hd _ ((hi.prios _ _ _).2 ⟨s, hs, h1, h2, rfl⟩)
    · refine (pairwise_snoc _ _).2 ⟨hi.uniqueLabel, fun s hs ⟨h1, l, h2, h3⟩ => ?_⟩
      exact none_iff.1 (hnew l ((hreal l).1 h3)) _ ((hi.labels _ _ _).2 ⟨s, hs, h1, h2, rfl⟩)
    · intro s hs
      rcases List.mem_append.1 hs with hs | hs
      · exact hi.positive s hs
      · simp at hs; rw [hs]; exact hn
    · exact (putCache_keys _ _ _ hi.keys).1

theorem hasLabel_iff {c : DCtx} (hi : CtxInv c) (l : Str) :
    c.hasLabel l = true ↔ ∃ s ∈ c.steps, realLabel s.label = some l := by
  unfold DCtx.hasLabel
  simp only [lookup_any]
  constructor
  · intro h
    obtain ⟨⟨key, pc⟩, h1, h2⟩ := List.any_eq_true.1 h
    obtain ⟨w, hw⟩ := Option.isSome_iff_exists.1 h2
    have : cachedLabel c key l = some w := by
      simp only [cachedLabel, lookup_of_mem hi.keys h1]
      exact hw
    obtain ⟨s, hs, _, hr, _⟩ := (hi.labels _ _ _).1 this
    exact ⟨s, hs, hr⟩
  · rintro ⟨s, hs, hr⟩
    have := (hi.labels _ _ _).2 ⟨s, hs, rfl, hr, rfl⟩
    unfold cachedLabel at this
    cases hk : c.cache.lookup (Pattern.canonical s.pat) with
    | none => simp [hk] at this
    | some pc =>
      simp [hk] at this
      exact List.any_eq_true.2 ⟨_, mem_of_lookup hk, by simp [this]⟩

end ALint
