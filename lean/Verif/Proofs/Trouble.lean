import Verif.Spec.Trouble
import Verif.Proofs.Lookup
import Verif.Proofs.DialplanMore

/-!
# Internal errors of the dialplan aggregator
-/

namespace ALint
open ALint.Spec
open Pattern (Values)

/-- An exception is raised. -/
def Fails {α : Type} (x : Res α) : Prop := ∃ e, x.val = .error e

theorem fails_bind {α β : Type} {x : Res α} {f : α → Res β} :
    Fails (Res.bind x f) ↔ Fails x ∨ ∃ a, x.val = .ok a ∧ Fails (f a) := by
  unfold Fails
  cases hx : x.val with
  | error e => rw [Res.bind_of_error hx]; simp
  | ok a => rw [Res.bind_of_ok hx]; simp

@[simp] theorem fails_pure {α : Type} (a : α) : Fails (Res.pure a) ↔ False := by
  simp [Fails]

@[simp] theorem fails_raise {α : Type} (e : Exc) : Fails (Res.raise e : Res α) ↔ True := by
  simp [Fails]

theorem fails_lift {α : Type} (x : Except Exc α) : Fails (Res.lift x) ↔ ∃ e, x = .error e := Iff.rfl

theorem not_fails {α : Type} {x : Res α} {a : α} (h : x.val = .ok a) : ¬ Fails x := by
  rintro ⟨e, he⟩
  rw [h] at he
  simp at he

theorem ok_or_fails {α : Type} (x : Res α) : (∃ a, x.val = .ok a) ∨ Fails x := by
  unfold Fails
  cases x.val with
  | ok a => exact .inl ⟨a, rfl⟩
  | error e => exact .inr ⟨e, rfl⟩

theorem fails_quiet {α β : Type} {x : Res α} {a : α} {f : α → Res β} (h : x.val = .ok a) :
    Fails (Res.bind x f) ↔ Fails (f a) := by
  rw [fails_bind]
  constructor
  · rintro (h' | ⟨b, hb, h'⟩)
    · exact absurd h' (not_fails h)
    · rw [h] at hb; simp at hb; subst hb; exact h'
  · intro h'; exact .inr ⟨a, h, h'⟩

/-! ## Headers -/

theorem fails_onContext {env : DEnv} {st : DState} {c : CtxE} :
    Fails (onContext st c) ↔ Trouble env st (.ctx c) := by
  unfold onContext
  by_cases hg : c.name = c! "general"
  · rw [if_pos hg]
    have hT : Trouble env st (.ctx c) ↔ st.dp.general.isSome = true := by
      constructor
      · intro h
        cases h with
        | general _ hn h => exact h
        | reopened _ d hs => rw [hg] at hs; simp [special] at hs
      · exact fun h => .general c hg h
    rw [hT, fails_bind]
    unfold addGeneral
    cases hgen : st.dp.general with
    | some g =>
      simp only [fails_pure, and_false, exists_false, or_false, Option.isSome_some, iff_true]
      rw [fails_quiet (a := ()) rfl]
      simp
    | none =>
      simp only [fails_pure, and_false, exists_false, or_false, Option.isSome_none, Bool.false_eq_true, iff_false]
      split
      · rw [fails_quiet (a := ()) rfl]; simp
      · simp
  · rw [if_neg hg]
    by_cases hgl : c.name = c! "globals"
    · rw [if_pos hgl]
      have hT : ¬ Trouble env st (.ctx c) := by
        intro h
        cases h with
        | general _ hn h => exact hg hn
        | reopened _ d hs => rw [hgl] at hs; simp [special] at hs
      refine iff_of_false ?_ hT
      rw [fails_bind]
      unfold addGlobals
      cases hgen : st.dp.globals with
      | some g =>
        simp only [fails_pure, and_false, exists_false, or_false]
        rw [fails_quiet (a := ()) rfl]
        simp
      | none =>
        simp only [fails_pure, and_false, exists_false, or_false]
        split
        · rw [fails_quiet (a := ()) rfl]; simp
        · simp
    · rw [if_neg hgl]
      have hs : special c.name = false := by simp [special, hg, hgl]
      have hT : Trouble env st (.ctx c) ↔ (st.dp.get c.name).isSome = true ∧ (c.comment = true ∨ c.templates ≠ []) := by
        constructor
        · intro h
          cases h with
          | general _ hn h => exact absurd hn hg
          | reopened _ d _ hd h => exact ⟨by simp [hd], h⟩
        · rintro ⟨h1, h2⟩
          obtain ⟨d, hd⟩ := Option.isSome_iff_exists.1 h1
          exact .reopened c d hs hd h2
      rw [hT]
      have hq : (if c.templates.isEmpty then Res.pure () else
          .emit (mkMsg .I_NOTIMPL_TEMPLATES c.at_ []) : Res Unit).val = .ok () := by
        split <;> rfl
      rw [fails_quiet hq, fails_bind, fails_lift]
      simp only [fails_pure, and_false, exists_false, or_false]
      unfold onDialplanContext
      cases hd : st.dp.get c.name with
      | none => simp
      | some d =>
        simp only [Option.isSome_some, true_and]
        unfold updateCtx
        cases hc : c.comment with
        | true => simp
        | false =>
          simp only [Bool.false_eq_true, if_false, false_or]
          cases ht : c.templates with
          | nil => simp
          | cons t ts => simp

/-! ## Lines -/

theorem lineText_iff {v : VarE} (hk : v.key = c! "exten" ∨ v.key = c! "same") {x : Option Str} {ps : Str}
    {lab : Option Str} {app : Str} :
    LineText v x ps lab app ↔ ∃ rest, splitExten v = .ok (x, rest) ∧ (splitLabel (splitApp rest).1) = (ps, lab) ∧
      (splitApp rest).2 = app := by
  have happ : ∀ rest pl, ((',' ∉ pl ∧ rest = pl ++ ',' :: app) ∨ (',' ∉ rest ∧ pl = rest ∧ app = [])) ↔
      splitApp rest = (pl, app) := by
    intro rest pl
    unfold splitApp
    constructor
    · rintro (⟨h1, rfl⟩ | ⟨h1, rfl, rfl⟩)
      · rw [splitOnce_append h1]
      · rw [splitOnce_none h1]
    · cases hs : splitOnce ',' rest with
      | none =>
        intro h
        simp only [Prod.mk.injEq] at h
        exact .inr ⟨splitOnce_none_iff.1 hs, h.1.symm, h.2.symm⟩
      | some p =>
        intro h
        simp only at h
        subst h
        obtain ⟨h1, h2⟩ := splitOnce_some hs
        exact .inl ⟨h2, h1⟩
  have hlab : ∀ pl, (('(' ∉ ps ∧ ∃ l, lab = some l ∧ pl = ps ++ '(' :: l) ∨ ('(' ∉ pl ∧ ps = pl ∧ lab = none)) ↔
      splitLabel pl = (ps, lab) := by
    intro pl
    unfold splitLabel
    constructor
    · rintro (⟨h1, l, rfl, rfl⟩ | ⟨h1, rfl, rfl⟩)
      · rw [splitOnce_append h1]
      · rw [splitOnce_none h1]
    · cases hs : splitOnce '(' pl with
      | none =>
        intro h
        simp only [Prod.mk.injEq] at h
        exact .inr ⟨splitOnce_none_iff.1 hs, h.1.symm, h.2.symm⟩
      | some p =>
        obtain ⟨a, l⟩ := p
        intro h
        simp only [Prod.mk.injEq] at h
        obtain ⟨h1, h2⟩ := splitOnce_some hs
        rw [← h.1, ← h.2]
        exact .inl ⟨h2, l, rfl, h1⟩
  have hx : ∀ rest, ((v.key = c! "exten" ∧ ∃ raw, ',' ∉ raw ∧ v.value = raw ++ ',' :: rest ∧
          ((raw = [] ∧ x = none) ∨ (raw ≠ [] ∧ x = some raw))) ∨
      (v.key = c! "same" ∧ v.value = rest ∧ x = none)) ↔ splitExten v = .ok (x, rest) := by
    intro rest
    unfold splitExten
    by_cases he : v.key = c! "exten"
    · rw [if_pos he]
      have hns : ¬ v.key = c! "same" := by rw [he]; decide
      simp only [eq_true he, eq_false hns, true_and, false_and, or_false]
      constructor
      · rintro ⟨raw, h1, h2, h3⟩
        rw [h2, splitOnce_append h1]
        rcases h3 with ⟨rfl, rfl⟩ | ⟨h3, rfl⟩
        · rfl
        · cases raw with
          | nil => exact absurd rfl h3
          | cons _ _ => rfl
      · cases hs : splitOnce ',' v.value with
        | none => simp
        | some p =>
          obtain ⟨raw, r⟩ := p
          obtain ⟨h1, h2⟩ := splitOnce_some hs
          intro h
          simp only [Except.ok.injEq, Prod.mk.injEq] at h
          obtain ⟨h3, rfl⟩ := h
          refine ⟨raw, h2, h1, ?_⟩
          cases raw with
          | nil => exact .inl ⟨rfl, by simpa using h3.symm⟩
          | cons a as => exact .inr ⟨by simp, by simpa using h3.symm⟩
    · rw [if_neg he]
      have hs : v.key = c! "same" := hk.resolve_left he
      simp only [eq_false he, eq_true hs, true_and, false_and, false_or, Except.ok.injEq, Prod.mk.injEq]
      constructor
      · rintro ⟨h1, h2⟩; exact ⟨h2.symm, h1⟩
      · rintro ⟨h1, h2⟩; exact ⟨h2, h1.symm⟩
  constructor
  · rintro ⟨rest, pl, h1, h2, h3⟩
    have h2' := (happ rest pl).1 h2
    refine ⟨rest, (hx rest).1 h1, ?_, ?_⟩
    · rw [h2']; exact (hlab pl).1 h3
    · rw [h2']
  · rintro ⟨rest, h1, h2, h3⟩
    exact ⟨rest, (splitApp rest).1, (hx rest).2 h1, (happ _ _).2 (by rw [← h3]), (hlab _).2 h2⟩

theorem lineText_key {v : VarE} {x : Option Str} {ps : Str} {lab : Option Str} {app : Str}
    (h : LineText v x ps lab app) : v.key = c! "exten" ∨ v.key = c! "same" := by
  obtain ⟨_, _, h, _, _⟩ := h
  rcases h with ⟨h, _⟩ | ⟨h, _⟩
  · exact .inl h
  · exact .inr h

theorem fails_readPrio {w : Where} {ps : Str} :
    Fails (readPrio w ps) ↔ isDigitS ps = true ∧ decNat 0 ps = none := by
  unfold readPrio
  by_cases h1 : ps = c! "n"
  · rw [if_pos h1]
    subst h1
    simp
    decide
  · rw [if_neg h1]
    cases h2 : isDigitS ps with
    | true =>
      simp only [if_true, true_and]
      cases decNat 0 ps <;> simp
    | false =>
      simp only [Bool.false_eq_true, if_false, false_and, iff_false]
      split
      · rw [fails_quiet (a := ()) rfl]; simp
      · rw [fails_quiet (a := ()) rfl]; simp

theorem readPrio_some {w : Where} {ps : Str} {p : Option Nat} :
    (readPrio w ps).val = .ok (some p) ↔ PrioRead ps p := by
  unfold readPrio
  by_cases h1 : ps = c! "n"
  · rw [if_pos h1]
    simp only [Res.pure_val, Except.ok.injEq, Option.some.injEq]
    constructor
    · rintro rfl; rw [h1]; exact .next
    · intro h
      cases h with
      | next => rfl
      | num _ n hd hn => rw [h1] at hd; exact absurd hd (by decide)
  · rw [if_neg h1]
    cases h2 : isDigitS ps with
    | true =>
      simp only [if_true]
      cases hn : decNat 0 ps with
      | none =>
        simp only [Res.raise_val, reduceCtorEq, false_iff]
        intro h
        cases h with
        | next => exact h1 rfl
        | num _ n hd hn' => rw [hn] at hn'; simp at hn'
      | some n =>
        simp only [Res.pure_val, Except.ok.injEq, Option.some.injEq]
        constructor
        · rintro rfl; exact .num ps n h2 hn
        · intro h
          cases h with
          | next => exact absurd rfl h1
          | num _ n hd hn' => rw [hn] at hn'; exact hn'
    | false =>
      simp only [Bool.false_eq_true, if_false]
      have hno : ¬ PrioRead ps p := by
        intro h
        cases h with
        | next => exact h1 rfl
        | num _ n hd hn' => rw [h2] at hd; simp at hd
      refine iff_of_false ?_ hno
      split
      · rw [Res.bind_of_ok (a := ()) rfl]; simp
      · rw [Res.bind_of_ok (a := ()) rfl]; simp

theorem closed_iff {lab : Option Str} (w : Where) : LabelClosed lab ↔ ¬ Fails (readLabel w lab) := by
  cases lab with
  | none => simp [LabelClosed, readLabel]
  | some l =>
    have : LabelClosed (some l) ↔ l.getLast? = some ')' := by
      rw [List.getLast?_eq_some_iff]
      simp [LabelClosed]
    rw [this]
    unfold readLabel
    by_cases h : l.getLast? = some ')'
    · simp [h]
    · simp only [if_neg h]
      rw [fails_bind]
      refine iff_of_false h (fun h' => h' (.inl ⟨.keyError, rfl⟩))

theorem readable_iff {x : Option Str} : Readable x ↔ ¬ ∃ e, readPattern x = .error e := by
  cases x with
  | none => simp [Readable, readPattern]
  | some raw =>
    simp only [Readable, Option.some.injEq, readPattern]
    cases h : Pattern.parse raw with
    | ok p => simp [h]
    | error e => simp [h]

theorem readPattern_got {x : Option Str} {p : Option (Str × Values)} (h : readPattern x = .ok p) :
    (x = none ∧ p = none) ∨ ∃ raw pat, x = some raw ∧ p = some (raw, pat) ∧ Pattern.parse raw = .ok pat := by
  cases x with
  | none => simp [readPattern] at h; exact .inl ⟨rfl, h.symm⟩
  | some raw =>
    simp only [readPattern] at h
    cases hp : Pattern.parse raw with
    | ok v => rw [hp] at h; simp at h; exact .inr ⟨raw, v, rfl, h.symm, hp⟩
    | error e => rw [hp] at h; simp at h

theorem canonCheck_val (e : ExtLine) : (canonCheck e).val = .ok () := by
  unfold canonCheck
  cases e.pat with
  | none => rfl
  | some p =>
    obtain ⟨raw, v⟩ := p
    simp only
    split <;> rfl

theorem completeDests_error {ctx ex : Str} {w : Where} {js : List Jump} :
    (∃ e, completeDests ctx ex w js = .error e) ↔ ∃ j ∈ js, ∃ e, completeDest ctx ex w j = .error e := by
  induction js with
  | nil => simp [completeDests]
  | cons j js ih =>
    unfold completeDests
    cases hj : completeDest ctx ex w j with
    | error e => simp [hj]
    | ok d =>
      cases hs : completeDests ctx ex w js with
      | error e =>
        rw [hs] at ih
        simp only [Except.map, List.mem_cons, exists_eq_or_imp, hj, reduceCtorEq, exists_false, false_or]
        rw [← ih]
      | ok ds =>
        rw [hs] at ih
        simp only [Except.map, List.mem_cons, exists_eq_or_imp, hj, reduceCtorEq, exists_false, false_or]
        rw [← ih]
        simp

theorem fails_cacheCheck {c : DCtx} {key : Str} {n : Nat} {label : Option Str} {w : Where} :
    ¬ Fails (cacheCheck c key n label w) := by
  unfold cacheCheck
  cases c.cache.lookup key with
  | none => cases realLabel label <;> simp
  | some pc =>
    simp only
    cases pc.prios.lookup n with
    | some prev => simp only; rw [fails_quiet (a := ()) rfl]; simp
    | none =>
      simp only
      cases realLabel label with
      | none => simp
      | some l =>
        simp only
        cases pc.labels.lookup l with
        | none => simp
        | some prev => simp only; rw [fails_quiet (a := ()) rfl]; simp

theorem fails_storeStep {c : DCtx} {raw : Str} {pat : Values} {n : Nat} {e : ExtLine} :
    Fails (storeStep c raw pat n e) ↔ cachedPrio c (Pattern.canonical pat) n = none ∧
      ∃ j ∈ e.jumps, ∃ x, completeDest c.name (Pattern.exampleOf pat) e.at_ j = .error x := by
  unfold storeStep
  dsimp only
  rcases ok_or_fails (cacheCheck { c with lastPrio := some n } (Pattern.canonical pat) n e.label e.at_) with
    ⟨r, hr⟩ | hf
  · rw [fails_quiet hr]
    cases r with
    | none =>
      obtain ⟨prev, hp, _⟩ := cacheCheck_none hr
      have : cachedPrio c (Pattern.canonical pat) n = some prev := hp
      simp [this]
    | some t =>
      obtain ⟨pc, label', ls⟩ := t
      have hp : cachedPrio c (Pattern.canonical pat) n = none := (cacheCheck_some hr).1
      simp only [hp, true_and]
      rw [fails_bind, fails_lift, completeDests_error]
      simp
  · exact absurd hf fails_cacheCheck

theorem fails_resolvePrio {last : Option Nat} {c : DCtx} {raw : Str} {pat : Values} {e : ExtLine}
    (hl : c.lastPrio.getD 0 ≠ 0 → c.steps ≠ []) : ¬ Fails (resolvePrio last c raw pat e) := by
  unfold resolvePrio
  cases e.prio with
  | none =>
    simp only
    split
    · rw [fails_quiet (a := ()) rfl]; simp
    · have : ∃ b, outOfOrder c pat = .ok b := by
        unfold outOfOrder
        split
        · exact ⟨_, rfl⟩
        · rename_i h
          cases hg : c.steps.getLast? with
          | none => exact absurd (List.getLast?_eq_none_iff.1 hg) (hl h)
          | some s => exact ⟨_, rfl⟩
      obtain ⟨b, hb⟩ := this
      rw [fails_quiet (a := b) (by rw [hb]; rfl)]
      have : (if b = true then Res.emit (badOrder e.at_ raw (strV (c! "<unset>"))) else .pure () : Res Unit).val = .ok () := by
        split <;> rfl
      rw [fails_quiet this]
      simp
  | some n =>
    simp only
    have hr : ∀ k : Nat, (Res.emit (badOrder e.at_ raw (natV k))).val = .ok () := fun k => rfl
    split
    · rw [fails_quiet (a := ()) rfl]; simp
    · split
      · split
        · rw [fails_quiet (hr _)]; simp
        · split
          · rw [fails_quiet (hr _)]; simp
          · simp
      · simp

theorem resolvePrio_value {last : Option Nat} {c : DCtx} {raw : Str} {pat : Values} {e : ExtLine}
    (hl : c.lastPrio.getD 0 ≠ 0 → c.steps ≠ []) (n : Nat) :
    (resolvePrio last c raw pat e).val = .ok (some n) ↔
      (e.prio = some n ∧ 1 ≤ n) ∨ (e.prio = none ∧ ∃ m, last = some m ∧ m ≠ 0 ∧ n = m + 1) := by
  have hlast : last.getD 0 = 0 ↔ ¬ ∃ m, last = some m ∧ m ≠ 0 := by
    cases last <;> simp
  unfold resolvePrio
  cases hp : e.prio with
  | none =>
    simp only [reduceCtorEq, false_and, false_or, true_and]
    split
    · rename_i h
      rw [Res.bind_of_ok (a := ()) rfl]
      simp only [Res.pure_val, Except.ok.injEq, reduceCtorEq, false_iff]
      rintro ⟨m, h1, h2, _⟩
      exact hlast.1 h ⟨m, h1, h2⟩
    · rename_i h
      have : ∃ b, outOfOrder c pat = .ok b := by
        unfold outOfOrder
        split
        · exact ⟨_, rfl⟩
        · rename_i h
          cases hg : c.steps.getLast? with
          | none => exact absurd (List.getLast?_eq_none_iff.1 hg) (hl h)
          | some s => exact ⟨_, rfl⟩
      obtain ⟨b, hb⟩ := this
      rw [Res.bind_of_ok (a := b) (by rw [hb]; rfl)]
      have : (if b = true then Res.emit (badOrder e.at_ raw (strV (c! "<unset>"))) else .pure () : Res Unit).val = .ok () := by
        split <;> rfl
      rw [Res.bind_of_ok this]
      cases hla : last with
      | none => rw [hla] at h; simp at h
      | some m =>
        rw [hla] at h
        simp only [Res.pure_val, Except.ok.injEq, Option.some.injEq, Option.getD_some] at h ⊢
        constructor
        · rintro rfl; exact ⟨m, rfl, h, rfl⟩
        · rintro ⟨_, rfl, _, rfl⟩; rfl
  | some k =>
    simp only [Option.some.injEq, reduceCtorEq, false_and, or_false]
    have hr : (Res.emit (badOrder e.at_ raw (natV k))).val = .ok () := rfl
    have hfin : ¬ k < 1 → (k = n ↔ k = n ∧ 1 ≤ n) := by
      intro h; constructor
      · rintro rfl; exact ⟨rfl, by omega⟩
      · exact fun h => h.1
    split
    · rename_i h
      rw [Res.bind_of_ok (a := ()) rfl]
      simp only [Res.pure_val, Except.ok.injEq, reduceCtorEq, false_iff]
      omega
    · rename_i h
      split
      · split
        · rw [Res.bind_of_ok hr]; simpa using hfin h
        · split
          · rw [Res.bind_of_ok hr]; simpa using hfin h
          · simpa using hfin h
      · simpa using hfin h

theorem cachedPrio_none {c : DCtx} (hi : CtxInv c) {key : Str} {n : Nat} :
    cachedPrio c key n = none ↔ ∀ s ∈ c.steps, ¬ (Pattern.canonical s.pat = key ∧ s.prio = n) := by
  constructor
  · intro h s hs hk
    have := (hi.prios key n s.at_).2 ⟨s, hs, hk.1, hk.2, rfl⟩
    rw [h] at this; simp at this
  · intro h
    cases hc : cachedPrio c key n with
    | none => rfl
    | some w =>
      obtain ⟨s, hs, h1, h2, _⟩ := (hi.prios key n w).1 hc
      exact absurd ⟨h1, h2⟩ (h s hs)

theorem fails_addExt {last : Option Nat} {c : DCtx} {e : ExtLine} {x : Option Str} (hi : CtxInv c)
    (hx : readPattern x = .ok e.pat) :
    Fails (addExt last c e) ↔ ∃ pat, Accepted last c.steps x e.prio pat ∧
      ∃ j ∈ e.jumps, ∃ y, completeDest c.name (Pattern.exampleOf pat) e.at_ j = .error y := by
  have hpat : ∀ pat, patternFor c.steps x = some pat ↔ ∃ raw, resolvePat c e = some (raw, pat) := by
    intro pat
    unfold resolvePat patternFor
    rcases readPattern_got hx with ⟨rfl, hp⟩ | ⟨raw, pat', rfl, hp, h⟩
    · rw [hp]
      cases c.steps.getLast? with
      | none => simp
      | some s => simp
    · rw [hp]; simp [h, Except.toOption]
  unfold addExt
  dsimp only
  have hr : resolvePat { c with sorted := none } e = resolvePat c e := rfl
  rw [hr]
  cases hp : resolvePat c e with
  | none =>
    simp only
    rw [fails_quiet (a := ()) rfl]
    simp only [fails_pure, false_iff]
    rintro ⟨pat, ⟨h, _⟩, _⟩
    obtain ⟨raw, h⟩ := (hpat pat).1 h
    rw [hp] at h; simp at h
  | some q =>
    obtain ⟨raw, pat⟩ := q
    simp only
    have hl : ({ c with sorted := none } : DCtx).lastPrio.getD 0 ≠ 0 → ({ c with sorted := none } : DCtx).steps ≠ [] := hi.last
    have hno := fails_resolvePrio (last := last) (raw := raw) (pat := pat) (e := e) hl
    rw [fails_bind]
    have huniq : ∀ pat', patternFor c.steps x = some pat' ↔ pat' = pat := by
      intro pat'
      rw [hpat, hp]
      simp only [Option.some.injEq, Prod.mk.injEq]
      constructor
      · rintro ⟨_, _, h⟩; exact h.symm
      · rintro rfl; exact ⟨raw, rfl, rfl⟩
    constructor
    · rintro (h | ⟨r, h1, h2⟩)
      · exact absurd h hno
      · cases r with
        | none => simp at h2
        | some n =>
          simp only at h2
          obtain ⟨h3, h4⟩ := fails_storeStep.1 h2
          exact ⟨pat, ⟨(huniq pat).2 rfl, n, (resolvePrio_value hl n).1 h1, (cachedPrio_none hi).1 h3⟩, h4⟩
    · rintro ⟨pat', ⟨h1, n, h2, h3⟩, h4⟩
      have := (huniq pat').1 h1
      subst this
      refine .inr ⟨some n, (resolvePrio_value hl n).2 h2, ?_⟩
      exact fails_storeStep.2 ⟨(cachedPrio_none hi).2 h3, h4⟩

theorem prioRead_unique {ps : Str} {p q : Option Nat} (h : PrioRead ps p) (h' : PrioRead ps q) : p = q := by
  have h1 := (readPrio_some (w := ⟨[], 0, []⟩)).2 h
  have h2 := (readPrio_some (w := ⟨[], 0, []⟩)).2 h'
  rw [h1] at h2
  simpa using h2

theorem prioRead_digits {ps : Str} {p : Option Nat} (h : PrioRead ps p) :
    ¬ (isDigitS ps = true ∧ decNat 0 ps = none) := by
  intro h'
  have h1 := (readPrio_some (w := ⟨[], 0, []⟩)).2 h
  exact not_fails h1 (fails_readPrio.2 h')

theorem lineText_unique {v : VarE} {x x' : Option Str} {ps ps' : Str} {lab lab' : Option Str} {app app' : Str}
    (h : LineText v x ps lab app) (h' : LineText v x' ps' lab' app') :
    x = x' ∧ ps = ps' ∧ lab = lab' ∧ app = app' := by
  have hk := lineText_key h
  obtain ⟨r, h1, h2, h3⟩ := (lineText_iff hk).1 h
  obtain ⟨r', h1', h2', h3'⟩ := (lineText_iff hk).1 h'
  rw [h1] at h1'
  simp only [Except.ok.injEq, Prod.mk.injEq] at h1'
  obtain ⟨rfl, rfl⟩ := h1'
  rw [h2] at h2'
  simp only [Prod.mk.injEq] at h2'
  exact ⟨rfl, h2'.1, h2'.2, by rw [← h3, ← h3']⟩

/-- The line cannot be read. -/
inductive ReadTrouble (env : DEnv) (sp : Option Str) (v : VarE) : Prop
  | noComma (hk : v.key = c! "exten") (h : ',' ∉ v.value)
  | digits (x : Option Str) (ps : Str) (lab : Option Str) (app : Str) (ht : LineText v x ps lab app)
      (hd : isDigitS ps = true) (h : decNat 0 ps = none)
  | label (x : Option Str) (ps : Str) (lab : Option Str) (app : Str) (ht : LineText v x ps lab app)
      (p : Option Nat) (hp : PrioRead ps p) (h : ¬ LabelClosed lab)
  | pattern (x : Option Str) (ps : Str) (lab : Option Str) (app : Str) (ht : LineText v x ps lab app)
      (p : Option Nat) (hp : PrioRead ps p) (hl : LabelClosed lab) (h : ¬ Readable x)
  | app (x : Option Str) (ps : Str) (lab : Option Str) (app : Str) (ht : LineText v x ps lab app)
      (p : Option Nat) (hp : PrioRead ps p) (hl : LabelClosed lab) (hx : Readable x) (e : Exc)
      (h : (runApp env.toAEnv env.depth sp v.at_ (strV app)).val = .error e)

theorem toRes_error {α : Type} {x : Tr α} : Fails x.toRes ↔ ∃ e, x.val = .error e := by
  unfold Fails Tr.toRes
  cases x.val <;> simp [Except.map]

theorem fails_readExten {env : DEnv} {sp : Option Str} {v : VarE}
    (hk : v.key = c! "exten" ∨ v.key = c! "same") : Fails (readExten env sp v) ↔ ReadTrouble env sp v := by
  unfold readExten
  cases hs : splitExten v with
  | error e =>
    have hT : v.key = c! "exten" ∧ ',' ∉ v.value := by
      unfold splitExten at hs
      by_cases he : v.key = c! "exten"
      · rw [if_pos he] at hs
        cases hc : splitOnce ',' v.value with
        | none => exact ⟨he, splitOnce_none_iff.1 hc⟩
        | some p => rw [hc] at hs; simp at hs
      · rw [if_neg he] at hs; simp at hs
    refine iff_of_true ?_ (.noComma hT.1 hT.2)
    rw [fails_bind, fails_lift]
    exact .inl ⟨e, rfl⟩
  | ok q =>
    obtain ⟨x, rest⟩ := q
    generalize hpl : splitLabel (splitApp rest).1 = pl
    generalize hap : (splitApp rest).2 = app
    obtain ⟨ps, lab⟩ := pl
    have ht : LineText v x ps lab app := (lineText_iff hk).2 ⟨rest, hs, hpl, hap⟩
    rw [fails_quiet (a := (x, rest)) rfl]
    dsimp only
    rw [hpl, hap]
    have hnc : ¬ (v.key = c! "exten" ∧ ',' ∉ v.value) := by
      rintro ⟨h1, h2⟩
      unfold splitExten at hs
      rw [if_pos h1, splitOnce_none h2] at hs
      simp at hs
    constructor
    · intro h
      rcases fails_bind.1 h with h | ⟨pr, hpr, h⟩
      · obtain ⟨h1, h2⟩ := fails_readPrio.1 h
        exact .digits x ps lab app ht h1 h2
      · cases pr with
        | none => simp at h
        | some p =>
          have hp := readPrio_some.1 hpr
          simp only at h
          rcases fails_bind.1 h with h | ⟨lb, hlb, h⟩
          · exact .label x ps lab app ht p hp (fun hc => (closed_iff v.at_).1 hc h)
          · have hl : LabelClosed lab := (closed_iff v.at_).2 (not_fails hlb)
            cases lb with
            | none => simp at h
            | some l =>
              simp only at h
              rcases fails_bind.1 h with h | ⟨pt, hpt, h⟩
              · exact .pattern x ps lab app ht p hp hl (fun hr => readable_iff.1 hr h)
              · have hx : Readable x := readable_iff.2 (by
                  rintro ⟨e, he⟩
                  simp only [Res.lift_val] at hpt
                  rw [he] at hpt; simp at hpt)
                rcases fails_bind.1 h with h | ⟨_, _, h⟩
                · obtain ⟨e, he⟩ := toRes_error.1 h
                  exact .app x ps lab app ht p hp hl hx e he
                · simp at h
    · intro h
      cases h with
      | noComma h1 h2 => exact absurd ⟨h1, h2⟩ hnc
      | digits x' ps' lab' app' ht' hd h =>
        obtain ⟨rfl, rfl, rfl, rfl⟩ := lineText_unique ht ht'
        rw [fails_bind]
        exact .inl (fails_readPrio.2 ⟨hd, h⟩)
      | label x' ps' lab' app' ht' p hp h =>
        obtain ⟨rfl, rfl, rfl, rfl⟩ := lineText_unique ht ht'
        rw [fails_quiet (readPrio_some.2 hp)]
        simp only
        rw [fails_bind]
        exact .inl (by
          apply Classical.byContradiction
          intro hn
          exact h ((closed_iff v.at_).2 hn))
      | pattern x' ps' lab' app' ht' p hp hl h =>
        obtain ⟨rfl, rfl, rfl, rfl⟩ := lineText_unique ht ht'
        rw [fails_quiet (readPrio_some.2 hp)]
        simp only
        rcases ok_or_fails (readLabel v.at_ lab) with ⟨lb, hlb⟩ | hf
        · obtain ⟨l, rfl, _⟩ := readLabel_ok hlb
          rw [fails_quiet hlb]
          simp only
          rw [fails_bind]
          exact .inl (by
            apply Classical.byContradiction
            intro hn
            exact h (readable_iff.2 hn))
        · exact absurd hf ((closed_iff v.at_).1 hl)
      | app x' ps' lab' app' ht' p hp hl hx e h =>
        obtain ⟨rfl, rfl, rfl, rfl⟩ := lineText_unique ht ht'
        rw [fails_quiet (readPrio_some.2 hp)]
        simp only
        rcases ok_or_fails (readLabel v.at_ lab) with ⟨lb, hlb⟩ | hf
        · obtain ⟨l, rfl, _⟩ := readLabel_ok hlb
          rw [fails_quiet hlb]
          simp only
          rw [fails_bind]
          cases hpt : readPattern x with
          | error e => exact .inl ⟨e, by rw [Res.lift_val]⟩
          | ok pt =>
            refine .inr ⟨pt, rfl, ?_⟩
            rw [fails_bind]
            exact .inl (toRes_error.2 ⟨e, h⟩)
        · exact absurd hf ((closed_iff v.at_).1 hl)

theorem fails_fromVarset {env : DEnv} {sp : Option Str} {v : VarE} :
    Fails (fromVarset env sp v) ↔ ReadTrouble env sp v := by
  have hkey : ReadTrouble env sp v → v.key = c! "exten" ∨ v.key = c! "same" := by
    intro h
    cases h with
    | noComma hk => exact .inl hk
    | digits _ _ _ _ ht => exact lineText_key ht
    | label _ _ _ _ ht => exact lineText_key ht
    | pattern _ _ _ _ ht => exact lineText_key ht
    | app _ _ _ _ ht => exact lineText_key ht
  unfold fromVarset
  by_cases hk : v.key = c! "exten" ∨ v.key = c! "same"
  · rw [if_pos hk, fails_quiet (expectArrow_val v)]
    exact fails_readExten hk
  · rw [if_neg hk]
    refine iff_of_false ?_ (fun h => hk (hkey h))
    split
    · rw [fails_quiet (expectArrow_val v)]; simp
    · split
      · rw [fails_quiet (expectArrow_val v), fails_quiet (a := ()) rfl]; simp
      · split
        · rw [fails_quiet (expectArrow_val v), fails_quiet (a := ()) rfl]; simp
        · rw [fails_quiet (a := ()) rfl]; simp

theorem trouble_read {env : DEnv} {st : DState} {v : VarE} {n : Str} (hc : st.cur = .ctx n)
    (h : ReadTrouble env st.sp v) : Trouble env st (.var v) := by
  cases h with
  | noComma hk h => exact .noComma v n hc hk h
  | digits x ps lab app ht hd h => exact .digits v n x ps lab app hc ht hd h
  | label x ps lab app ht p hp h => exact .label v n x ps lab app hc ht p hp h
  | pattern x ps lab app ht p hp hl h => exact .pattern v n x ps lab app hc ht p hp hl h
  | app x ps lab app ht p hp hl hx e h => exact .app v n x ps lab app hc ht p hp hl hx e h

theorem trouble_cur {env : DEnv} {st : DState} {v : VarE} (h : Trouble env st (.var v)) : ∃ n, st.cur = .ctx n := by
  cases h <;> exact ⟨_, by assumption⟩

theorem fails_onVarset {env : DEnv} {st : DState} {v : VarE} (hi : DpInv st) :
    Fails (onVarset env st v) ↔ Trouble env st (.var v) := by
  unfold onVarset
  have hno : (∀ n, st.cur ≠ .ctx n) → ¬ Trouble env st (.var v) := by
    intro h ht
    obtain ⟨n, hn⟩ := trouble_cur ht
    exact h n hn
  cases hcur : st.cur with
  | none =>
    simp only
    rw [fails_quiet (a := ()) rfl]
    exact iff_of_false (by simp) (hno (by simp [hcur]))
  | general => exact iff_of_false (by simp) (hno (by simp [hcur]))
  | globals => exact iff_of_false (by simp) (hno (by simp [hcur]))
  | detached => exact iff_of_false (by simp) (hno (by simp [hcur]))
  | ctx n =>
    obtain ⟨c, hg⟩ := hi.cur n hcur
    obtain ⟨hmem, hname⟩ := get_mem hg
    have hci := hi.ctxs c hmem
    simp only [hg]
    rw [fails_bind]
    constructor
    · rintro (h | ⟨⟨sp', us, dv⟩, hf, h⟩)
      · exact trouble_read hcur (fails_fromVarset.1 h)
      · have hcase := fromVarset_cases hf
        rw [fails_bind] at h
        rcases h with h | ⟨_, _, h⟩
        · cases dv with
          | nothing => simp [onDVar] at h
          | include_ _ _ => simp [onDVar] at h
          | ext e =>
            simp only [onDVar] at h
            rw [fails_quiet (canonCheck_val e), fails_bind] at h
            rcases h with h | ⟨_, _, h⟩
            · generalize (fromVarset env st.sp v).log = lg at hcase
              cases hcase with
              | line r ms hk hr =>
                cases hr with
                | ext x rest pat prio label _ jumps _ _ hs hp hl hpat hrun =>
                  rw [fails_addExt (x := x) hci hpat] at h
                  obtain ⟨pt, ha, j, hj, y, hy⟩ := h
                  have ht : LineText v x (splitLabel (splitApp rest).1).1 (splitLabel (splitApp rest).1).2 (splitApp rest).2 :=
                    (lineText_iff hk).2 ⟨rest, hs, rfl, rfl⟩
                  rw [hname] at hy
                  refine .jump v n c x _ _ _ hcur hg ht prio ?_ ?_ ?_ sp' jumps ?_ pt ha j hj y hy
                  · exact (readPrio_some (w := v.at_)).1 (by rw [hp]; rfl)
                  · exact (closed_iff v.at_).2 (not_fails (a := some label) (by rw [hl]; rfl))
                  · exact readable_iff.2 (by rintro ⟨e, he⟩; rw [he] at hpat; simp at hpat)
                  · have := congrArg Res.val hrun
                    unfold Tr.toRes at this
                    cases hv : (runApp env.toAEnv env.depth st.sp v.at_ (strV (splitApp rest).2)).val with
                    | error e => rw [hv] at this; simp [Except.map] at this
                    | ok z =>
                      rw [hv] at this
                      simp only [Except.map, Except.ok.injEq, Prod.mk.injEq] at this
                      rw [this.1]
            · simp at h
        · simp at h
    · intro h
      have read : ReadTrouble env st.sp v → Fails (fromVarset env st.sp v) := fails_fromVarset.2
      cases h with
      | noComma _ _ _ hk h => exact .inl (read (.noComma hk h))
      | digits _ _ x ps lab app _ ht hd h => exact .inl (read (.digits x ps lab app ht hd h))
      | label _ _ x ps lab app _ ht p hp h => exact .inl (read (.label x ps lab app ht p hp h))
      | pattern _ _ x ps lab app _ ht p hp hl h => exact .inl (read (.pattern x ps lab app ht p hp hl h))
      | app _ _ x ps lab app _ ht p hp hl hx e h => exact .inl (read (.app x ps lab app ht p hp hl hx e h))
      | jump _ n' c' x ps lab app hc' hg' ht p hp hl hx sp' jumps hr pat ha j hj e h =>
        rw [hcur] at hc'
        simp only [Cur.ctx.injEq] at hc'
        subst hc'
        rw [hg] at hg'
        simp only [Option.some.injEq] at hg'
        subst hg'
        right
        have hk := lineText_key ht
        obtain ⟨rest, h1, h2, h3⟩ := (lineText_iff hk).1 ht
        have hpt : ∃ pt, readPattern x = .ok pt := by
          cases hq : readPattern x with
          | ok pt => exact ⟨pt, rfl⟩
          | error e => exact absurd ⟨e, hq⟩ (readable_iff.1 hx)
        obtain ⟨pt, hpt⟩ := hpt
        have hlb : ∃ l, (readLabel v.at_ lab).val = .ok (some l) := by
          rcases ok_or_fails (readLabel v.at_ lab) with ⟨lb, hlb⟩ | hf
          · obtain ⟨l, rfl, _⟩ := readLabel_ok hlb
            exact ⟨l, hlb⟩
          · exact absurd hf ((closed_iff v.at_).1 hl)
        obtain ⟨l, hlb⟩ := hlb
        have hrun : (runApp env.toAEnv env.depth st.sp v.at_ (strV app)).toRes.val =
            .ok ((sp', jumps), evUses (runApp env.toAEnv env.depth st.sp v.at_ (strV app)).ev) := by
          unfold Tr.toRes
          rw [hr]
          rfl
        have hf : (fromVarset env st.sp v).val = .ok (sp', evUses (runApp env.toAEnv env.depth st.sp v.at_ (strV app)).ev,
            .ext ⟨pt, p, l, app, jumps, v.comment, v.at_⟩) := by
          unfold fromVarset
          rw [if_pos hk, Res.bind_of_ok (expectArrow_val v)]
          unfold readExten
          dsimp only
          rw [h1, Res.bind_of_ok (a := (x, rest)) rfl]
          dsimp only
          rw [h2, h3]
          dsimp only
          rw [Res.bind_of_ok (readPrio_some.2 hp)]
          dsimp only
          rw [Res.bind_of_ok hlb]
          dsimp only
          rw [hpt, Res.bind_of_ok (a := pt) rfl]
          dsimp only
          rw [Res.bind_of_ok hrun]
          rfl
        refine ⟨_, hf, ?_⟩
        rw [fails_bind]
        left
        simp only [onDVar]
        rw [fails_quiet (canonCheck_val _), fails_bind]
        left
        rw [fails_addExt (x := x) hci hpt]
        exact ⟨pat, ha, j, hj, e, by rw [hname]; exact h⟩

/-- Exactly these elements end the reading. -/
theorem fails_step {env : DEnv} {st : DState} {el : Elem} (hi : DpInv st) :
    Fails (dialplanStep env st el) ↔ Trouble env st el := by
  cases el with
  | ctx c => exact fails_onContext
  | var v => exact fails_onVarset hi
  | empty a b =>
    refine iff_of_false (by simp [dialplanStep]) ?_
    intro h
    cases h

theorem wrapExc_fails {α : Type} {r : Res α} : Fails (wrapExc r) ↔ Fails r := by
  unfold Fails wrapExc
  cases r.val <;> simp

theorem fails_feed {env : DEnv} {st : DState} (hi : DpInv st) {es : List Elem} :
    Fails (feed (dialplanStep env) st es) ↔ ∃ pre el post st', es = pre ++ el :: post ∧
      (feed (dialplanStep env) st pre).val = .ok st' ∧ Trouble env st' el := by
  induction es generalizing st with
  | nil => simp [feed]
  | cons e es ih =>
    rw [feed, fails_bind, wrapExc_fails, fails_step hi]
    constructor
    · rintro (h | ⟨s, h1, h2⟩)
      · exact ⟨[], e, es, st, rfl, rfl, h⟩
      · have h1' := wrapExc_ok.1 h1
        obtain ⟨pre, el, post, st', rfl, h3, h4⟩ := (ih (step_inv hi h1')).1 h2
        refine ⟨e :: pre, el, post, st', rfl, ?_, h4⟩
        rw [feed, Res.bind_of_ok h1]
        exact h3
    · rintro ⟨pre, el, post, st', he, h1, h2⟩
      cases pre with
      | nil =>
        simp only [List.nil_append, List.cons.injEq] at he
        obtain ⟨rfl, rfl⟩ := he
        simp only [feed, Res.pure_val, Except.ok.injEq] at h1
        subst h1
        exact .inl h2
      | cons p pre =>
        simp only [List.cons_append, List.cons.injEq] at he
        obtain ⟨rfl, rfl⟩ := he
        obtain ⟨s, h3, h4, _⟩ := feed_cons_ok h1
        refine .inr ⟨s, wrapExc_ok.2 h3, ?_⟩
        exact (ih (step_inv hi h3)).2 ⟨pre, el, post, st', rfl, h4, h2⟩

end ALint
