import Verif.Spec.Jumps
import Verif.Proofs.Lookup
import Verif.Proofs.Filter

/-!
# The jumps of a dialplan
-/

namespace ALint
open ALint.Spec
open Pattern (Values)

/-! ## Completing -/

theorem zipIdx_part (lo hi : Int) (x : Str) : ∀ k : Nat,
    ((x.zipIdx k).filter fun p => decide (lo ≤ p.2 ∧ p.2 < hi)).map (·.1) =
      (x.drop (lo - k).toNat).take ((hi - k).toNat - (lo - k).toNat) := by
  induction x with
  | nil => simp
  | cons c cs ih =>
    intro k
    rw [List.zipIdx_cons, List.filter_cons]
    by_cases h : lo ≤ (k : Int) ∧ (k : Int) < hi
    · rw [if_pos (by simpa using h), List.map_cons, ih]
      have h0 : (lo - k).toNat = 0 := by omega
      have h1 : (lo - ((k + 1 : Nat) : Int)).toNat = 0 := by omega
      have h2 : (hi - (k : Int)).toNat = (hi - ((k + 1 : Nat) : Int)).toNat + 1 := by omega
      rw [h0, h1, h2]
      simp
    · rw [if_neg (by simpa using h), ih]
      by_cases hlo : lo ≤ (k : Int)
      · have : ¬ (k : Int) < hi := fun hh => h ⟨hlo, hh⟩
        have h1 : (hi - (k : Int)).toNat = 0 := by omega
        have h2 : (hi - ((k + 1 : Nat) : Int)).toNat = 0 := by omega
        rw [h1, h2]
        simp
      · have h1 : (lo - (k : Int)).toNat = (lo - ((k + 1 : Nat) : Int)).toNat + 1 := by omega
        rw [h1, List.drop_succ_cons]
        congr 1
        omega

theorem partOf_eq (x : Str) (start : Int) (length : Option Int) :
    partOf x start length = (x.drop (startAt x.length start).toNat).take
      ((endAt x.length start length).toNat - (startAt x.length start).toNat) := by
  have := zipIdx_part (startAt x.length start) (endAt x.length start length) x 0
  simp only [Int.natCast_zero, Int.sub_zero] at this
  exact this

theorem take_drop_min {α : Type} (x : List α) (a b : Nat) :
    (x.drop (min x.length a)).take (min x.length b - min x.length a) = (x.drop a).take (b - a) := by
  by_cases ha : a ≤ x.length
  · rw [Nat.min_eq_right ha]
    by_cases hb : b ≤ x.length
    · rw [Nat.min_eq_right hb]
    · rw [Nat.min_eq_left (by omega)]
      rw [List.take_of_length_le (by simp), List.take_of_length_le (by simp; omega)]
  · rw [Nat.min_eq_left (show x.length ≤ a by omega), List.drop_eq_nil_of_le (Nat.le_refl _),
      List.drop_eq_nil_of_le (show x.length ≤ a by omega)]
    simp

theorem pySlice_none (x : Str) (a : Int) : pySlice x a none = partOf x a none := by
  rw [partOf_eq]
  unfold pySlice sliceIdx startAt endAt
  by_cases h : a < 0
  · simp only [if_pos h]
    rw [List.take_of_length_le (by simp), List.take_of_length_le (by simp)]
  · simp only [if_neg h]
    have := take_drop_min x a.toNat x.length
    rw [Nat.min_self] at this
    simpa using this

theorem pySlice_some (x : Str) (a n : Int) (hn : n ≠ 0) (hneg : a < 0 → 0 < n → a + n < 0) :
    pySlice x a (some (if n < 0 then n else a + n)) = partOf x a (some n) := by
  rw [partOf_eq]
  unfold pySlice sliceIdx endAt startAt
  by_cases h : a < 0
  · by_cases h2 : n < 0
    · simp only [if_pos h, if_pos h2]
    · have h3 := hneg h (by omega)
      simp only [if_pos h, if_neg h2, if_pos h3]
      congr 2
      omega
  · by_cases h2 : n < 0
    · simp only [if_neg h, if_pos h2]
      have := take_drop_min x a.toNat ((x.length : Int) + n).toNat
      rw [Nat.min_eq_right (show ((x.length : Int) + n).toNat ≤ x.length by omega)] at this
      exact this
    · have h3 : ¬ a + n < 0 := by omega
      simp only [if_neg h, if_neg h2, if_neg h3]
      exact take_drop_min x a.toNat (a + n).toNat

mutual
theorem filled_format {x : Str} : ∀ {v : V} {s : Str}, Filled x v s → v.format x = .ok s
  | _, _, .text s => by simp [V.format]
  | _, _, .joined items s h => by rw [V.format]; exact filledAll_format h
  | _, _, .exten name a b h => filled_atom h rfl
  | _, _, .from_ name start h => filled_atom h (by simp [formatKind, sliceFormat, pySlice_none])
  | _, _, .slice name start n h hn hneg =>
    filled_atom h (by simp [formatKind, sliceFormat, hn, pySlice_some x start n hn hneg])
theorem filled_atom {x : Str} {name a b : V} {k : Kind} {s : Str} : Filled x name (c! "EXTEN") →
    formatKind k x a b = .ok s → (V.atom k name a b).format x = .ok s
  | h, hk => by
    have := filled_format h
    cases name with
    | str key =>
      simp only [V.format, Except.ok.injEq] at this
      subst this
      simp [V.format, lookupExten, hk]
    | lst items =>
      rw [V.format] at this
      simp [V.format, this, lookupExten, hk]
    | atom k' n' a' b' =>
      rw [V.format, this]
      simp [lookupExten, hk]
    | int n => simp [V.format] at this
    | none => simp [V.format] at this
theorem filledAll_format {x : Str} : ∀ {vs : List V} {s : Str}, FilledAll x vs s → V.formatAll x vs = .ok s
  | _, _, .nil => by simp [V.formatAll]
  | _, _, .cons v vs s t h hs => by
    rw [V.formatAll, filled_format h, filledAll_format hs]
    rfl
end

/-- With another variable in it there is no text. -/
theorem foreign_format {x : Str} {v : V} (h : Foreign x v) : ∀ s, v.format x ≠ .ok s := by
  induction h with
  | name k name a b key h hne =>
    intro s hs
    have hf := filled_format h
    cases name with
    | str k' =>
      simp only [V.format, Except.ok.injEq] at hf
      subst hf
      simp [V.format, lookupExten, hne] at hs
    | lst items =>
      rw [V.format] at hf
      simp [V.format, hf, lookupExten, hne] at hs
    | atom k' n' a' b' =>
      rw [V.format, hf] at hs
      simp [lookupExten, hne] at hs
    | int n => simp [V.format] at hf
    | none => simp [V.format] at hf
  | inner k name a b h ih =>
    intro s hs
    cases name with
    | str k' => cases h
    | lst items =>
      have := fun t => ih t
      simp only [V.format] at this hs
      cases hx : V.formatAll x items with
      | ok t => exact this t hx
      | error e => rw [hx] at hs; simp at hs
    | atom k' n' a' b' =>
      rw [V.format] at hs
      cases hx : (V.atom k' n' a' b').format x with
      | ok t => exact ih t hx
      | error e => rw [hx] at hs; simp at hs
    | int n => cases h
    | none => cases h
  | joined items v hv h ih =>
    intro s hs
    rw [V.format] at hs
    clear h
    induction items generalizing s with
    | nil => simp at hv
    | cons w ws ihw =>
      rw [V.formatAll] at hs
      cases hx : w.format x with
      | error e => rw [hx] at hs; simp at hs
      | ok t =>
        rw [hx] at hs
        simp only at hs
        cases hy : V.formatAll x ws with
        | error e => rw [hy] at hs; simp [Except.map] at hs
        | ok u =>
          rcases List.mem_cons.1 hv with rfl | hv
          · exact ih t hx
          · exact ihw hv u hy

theorem missing_iff (v : V) : Missing v ↔ v.truthy = false := by
  unfold Missing
  cases v with
  | str s => cases s <;> simp [V.truthy]
  | int n => simp [V.truthy]
  | none => simp [V.truthy]
  | lst items => simp [V.truthy, V.tokens]
  | atom k n a b => simp [V.truthy]

theorem foreign_truthy {x : Str} {v : V} (h : Foreign x v) : v.tokens ≠ [] ∧ v.truthy = true ∧ v.isVar = true := by
  induction h with
  | name => simp [V.tokens, V.truthy, V.isVar]
  | inner => simp [V.tokens, V.truthy, V.isVar]
  | joined items v hv h ih =>
    have key : ∀ items : List V, v ∈ items → V.tokensAll items ≠ [] := by
      intro items
      induction items with
      | nil => simp
      | cons w ws ihw =>
        intro hv
        rw [V.tokensAll]
        rcases List.mem_cons.1 hv with rfl | hv
        · simp [ih.1]
        · simp [ihw hv]
    have := key items hv
    refine ⟨by rw [V.tokens]; exact this, ?_, rfl⟩
    rw [V.truthy]
    cases hx : V.tokensAll items with
    | nil => exact absurd hx this
    | cons a b => rfl

/-- The extension of a completed jump. -/
def extenFor (x : Str) (e : V) : Except Exc V :=
  if !e.truthy then .ok (.str x)
  else if e.isVar then
    match e.format x with
    | .ok s => .ok (.str s)
    | .error .keyError => .ok e
    | .error e => .error e
  else .ok e

/-- The priority of a completed jump. -/
def prioFor (p : Arg) : Except Exc Arg :=
  match p with
  | .one (.str s) =>
    if isDigitS s then
      match decNat 0 s with
      | some n => .ok (.one (.int n))
      | none => .error .valueError
    else .ok p
  | p => .ok p

theorem completeDest_ok {name x : Str} {w : Where} {j : Jump} {d : Dest} (h : completeDest name x w j = .ok d) :
    extenFor x j.exten = .ok d.exten ∧ prioFor j.prio = .ok d.prio ∧ d.at_ = w ∧
    d.context = if j.context.truthy then j.context else .str name := by
  have : completeDest name x w j = match extenFor x j.exten, prioFor j.prio with
      | .error e, _ => .error e
      | .ok _, .error e => .error e
      | .ok x, .ok p => .ok ⟨if j.context.truthy then j.context else .str name, x, p, w⟩ := by
    unfold completeDest extenFor prioFor
    obtain ⟨c, e, p⟩ := j
    cases p with
    | many l => rfl
    | one v => cases v <;> rfl
  rw [this] at h
  cases hx : extenFor x j.exten with
  | error e => rw [hx] at h; simp at h
  | ok ex =>
    rw [hx] at h
    cases hp : prioFor j.prio with
    | error e => rw [hp] at h; simp at h
    | ok pr =>
      rw [hp] at h
      simp only [Except.ok.injEq] at h
      subst h
      exact ⟨rfl, rfl, rfl, rfl⟩

theorem completed_of {name x : Str} {w : Where} {j : Jump} {d : Dest} (h : completeDest name x w j = .ok d) :
    Completed name x w j d := by
  obtain ⟨hex, hpr, h3, h4⟩ := completeDest_ok h
  unfold extenFor at hex
  unfold prioFor at hpr
  constructor
  · exact h3
  · intro hm
    rw [missing_iff] at hm
    simp only [Bool.not_eq_false] at hm
    simp [h4, hm]
  · intro hm
    rw [missing_iff] at hm
    simp [h4, hm]
  · intro hm
    rw [missing_iff] at hm
    simp [hm] at hex
    exact hex.symm
  · intro s hs he
    rw [he] at hex
    have : s.isEmpty = false := by cases s <;> simp at hs ⊢
    simp [V.truthy, V.isVar, this] at hex
    exact hex.symm
  · intro s hm hf
    rw [missing_iff] at hm
    simp only [Bool.not_eq_false] at hm
    simp only [hm, Bool.not_true, Bool.false_eq_true, if_false] at hex
    by_cases hv : j.exten.isVar = true
    · rw [if_pos hv, filled_format hf] at hex
      simpa using hex.symm
    · rw [if_neg hv] at hex
      simp only [Except.ok.injEq] at hex
      rw [← hex]
      generalize j.exten = v at hf hv
      cases hf with
      | text => rfl
      | _ => simp [V.isVar] at hv
  · intro hf
    obtain ⟨_, h2, h3⟩ := foreign_truthy hf
    simp only [h2, Bool.not_true, Bool.false_eq_true, if_false, h3, if_true] at hex
    cases hx : j.exten.format x with
    | ok s => exact absurd hx (foreign_format hf s)
    | error e =>
      rw [hx] at hex
      cases e <;> simp at hex
      exact hex.symm
  · split at hex
    · exact .inr ⟨x, by simpa using hex.symm⟩
    · split at hex
      · split at hex
        · exact .inr ⟨_, (Except.ok.inj hex).symm⟩
        · exact .inl (Except.ok.inj hex).symm
        · cases hex
      · exact .inl (Except.ok.inj hex).symm
  · intro ds hne hd hp
    rw [hp] at hpr
    have h1 : isDigitS ds = true := by
      unfold isDigitS
      have : ds.isEmpty = false := by cases ds <;> simp at hne ⊢
      simp only [this, Bool.not_false, Bool.true_and, List.all_eq_true]
      intro c hc
      simp [isDigitC, decVal_ascii (hd c hc)]
    have h2 : decNat 0 ds = some (decimal ds) := decNat_decimal ds hd 0
    simp only [h1, if_true, h2, Except.ok.injEq] at hpr
    exact hpr.symm
  · intro hno
    cases hp : j.prio with
    | many l => rw [hp] at hpr; simpa using hpr.symm
    | one v =>
      cases v with
      | str s =>
        rw [hp] at hpr
        have h1 : isDigitS s = false := by
          unfold isDigitS
          rcases hno s hp with rfl | ⟨c, hc, hcd⟩
          · rfl
          · have : s.all isDigitC = false := by
              rw [List.all_eq_false]
              exact ⟨c, hc, by simp [hcd]⟩
            simp [this]
        simp only [h1, Bool.false_eq_true, if_false, Except.ok.injEq] at hpr
        exact hpr.symm
      | _ => rw [hp] at hpr; simpa using hpr.symm

theorem completedAll_of {name x : Str} {w : Where} {js : List Jump} {ds : List Dest}
    (h : completeDests name x w js = .ok ds) : Zips (Completed name x w) js ds := by
  induction js generalizing ds with
  | nil =>
    simp only [completeDests, Except.ok.injEq] at h
    subst h; exact .nil
  | cons j js ih =>
    simp only [completeDests] at h
    cases hd : completeDest name x w j with
    | error e => rw [hd] at h; simp at h
    | ok d =>
      rw [hd] at h
      simp only at h
      cases hr : completeDests name x w js with
      | error e => rw [hr] at h; simp [Except.map] at h
      | ok ds' =>
        rw [hr] at h
        simp only [Except.map, Except.ok.injEq] at h
        subst h
        exact .cons (completed_of hd) (ih hr)

/-! ## The jumps recorded -/

/-- The destinations are those of the steps, in the order of the file. -/
structure JumpInv (env : DEnv) (es : List Elem) (st : DState) (l : List Jumping) : Prop where
  order : List.Sublist (l.map (·.step.at_)) ((stepLines es).map (·.at_))
  dests : st.dp.dests = (l.map (·.dests)).flatten
  steps : ∀ n, (l.filter (·.context = n)).map (·.step) = stepsOf st.dp n
  jumps : ∀ x ∈ l, ∃ js, JumpsOf env x.step js ∧
    Zips (Completed x.context (Pattern.exampleOf x.step.pat) x.step.at_) js x.dests

theorem step_jumps {env : DEnv} {st st' : DState} {el : Elem} {l : List Jumping} {es : List Elem}
    {log : List Msg} (hi : DpInv st) (hr : Rel es log st)
    (hj : JumpInv env es st l) (h : (dialplanStep env st el).val = .ok st') : ∃ l', JumpInv env (es ++ [el]) st' l' := by
  have hmore : List.Sublist ((stepLines es).map (·.at_)) ((stepLines (es ++ [el])).map (·.at_)) := by
    cases el with
    | ctx c => rw [stepLines_snoc_ctx]; exact .refl _
    | empty b w => rw [stepLines_snoc_empty]; exact .refl _
    | var v => rw [stepLines_snoc_var, List.map_append]; exact List.sublist_append_left _ _
  rcases step_cases hi h with hq | ⟨v, n, c, sp', us, e, ms, a, as, rfl, hcur, hsl, hc, hrd, ha, hdp⟩
  · exact ⟨l, hj.order.trans hmore, by rw [hq.dests]; exact hj.dests, fun n => by rw [hq.steps]; exact hj.steps n, hj.jumps⟩
  · have hsame : a.ctx.steps = c.steps → a.ctx.name = c.name → a.dests = [] → JumpInv env (es ++ [.var v]) st' l := by
      intro h1 h2 h3
      obtain ⟨g1, _, g3⟩ := stepsOf_added hc h2
      refine ⟨hj.order.trans hmore, ?_, fun m => ?_, hj.jumps⟩
      · rw [hdp]; simp [Dialplan.withAdded, h3, hj.dests]
      · rw [hdp]
        by_cases hm : m = n
        · subst hm; rw [g1, h1, hj.steps, stepsOf_get hc]
        · rw [hj.steps]; simp only [stepsOf, g3 m hm]
    cases ha with
    | noPat _ => exact ⟨l, hsame rfl rfl rfl⟩
    | noPrio raw pat ms hp _ => exact ⟨l, hsame rfl rfl rfl⟩
    | dupe raw pat ms k prev hp _ _ => exact ⟨l, hsame rfl rfl rfl⟩
    | stored raw pat ms k label' ls ds pc lms hp hrp hd hpc hlc hl hjs =>
      have hname := (get_mem hc).2
      obtain ⟨g1, _, g3⟩ := stepsOf_added (a := ⟨{ c with
          sorted := none, lastPrio := some k,
          cache := putCache (Pattern.canonical pat) pc c.cache,
          steps := c.steps ++ [⟨raw, pat, k, label', e.app, e.comment, e.at_⟩] }, some k, ls, ds⟩) hc rfl
      refine ⟨l ++ [⟨n, ⟨raw, pat, k, label', e.app, e.comment, e.at_⟩, ds⟩], ?_, ?_, fun m => ?_, ?_⟩
      · have hg : ((lastHeader none es).map fun n => !special n).getD false = true := by
          have := hr.cur
          rw [hcur] at this
          unfold curOf at this
          cases hl : lastHeader none es with
          | none => rw [hl] at this; simp at this
          | some m =>
            rw [hl] at this
            simp only at this
            split at this
            · cases this
            · split at this
              · split at this <;> cases this
              · simp_all [special]
        have he : e.at_ = v.at_ := (read_ext_log hrd).2.1
        rw [stepLines_snoc_var, hg, hsl, List.map_append, List.map_append]
        refine List.Sublist.append hj.order ?_
        simp [he]
      · rw [hdp]; simp [Dialplan.withAdded, hj.dests]
      · rw [hdp]
        by_cases hm : m = n
        · subst hm
          rw [g1, List.filter_append, List.map_append, hj.steps, stepsOf_get hc]
          simp
        · have hm' : ¬ n = m := fun e => hm e.symm
          rw [List.filter_append, List.map_append, hj.steps]
          simp only [stepsOf, g3 m hm]
          simp [hm']
      · intro x hx
        rcases List.mem_append.1 hx with hx | hx
        · exact hj.jumps x hx
        · simp only [List.mem_singleton] at hx
          subst hx
          refine ⟨e.jumps, ?_, ?_⟩
          · cases hrd with
            | ext p r pat' prio label _ jumps _ _ hs hp' hl' hpat hrun =>
              refine ⟨st.sp, sp', ?_⟩
              have hv := congrArg Res.val hrun
              simp only [Tr.toRes] at hv
              cases hx : (runApp env.toAEnv env.depth st.sp v.at_ (strV (splitApp r).2)).val with
              | error e => rw [hx] at hv; simp [Except.map] at hv
              | ok y =>
                rw [hx] at hv
                simp only [Except.map, Except.ok.injEq, Prod.mk.injEq] at hv
                rw [hv.1]
          · have := completedAll_of hjs
            rw [hname] at this
            exact this

theorem read_jumps {env : DEnv} {sp : Option Str} {st : DState} {es : List Elem}
    (h : (feed (dialplanStep env) (.init sp) es).val = .ok st) : ∃ l, JumpInv env es st l := by
  induction es using snocInd generalizing st with
  | nil =>
    simp only [feed, Res.pure_val, Except.ok.injEq] at h
    subst h
    exact ⟨[], .slnil, rfl, fun _ => rfl, by simp⟩
  | snoc es e ih =>
    rw [feed_append] at h
    obtain ⟨s, h1, h2, _⟩ := Res.bind_ok h
    obtain ⟨l, hj⟩ := ih h1
    obtain ⟨s', h3, h4, _⟩ := feed_cons_ok h2
    simp only [feed, Res.pure_val, Except.ok.injEq] at h4
    subst h4
    exact step_jumps (read_inv h1) (rel_read h1) hj h3

/-! ## No reports about jumps before the end -/

theorem appKind_jump {k : MK} (h : appKind k = true) : jumpKind k = false := by
  cases k <;> first | rfl | simp [appKind] at h

theorem fileKind_jump {k : MK} (h : fileKind k = true) : jumpKind k = false := by
  cases k <;> first | rfl | simp [fileKind] at h

/-- A message about something else. -/
def NoJump (m : Msg) : Prop := jumpKind m.kind = false

macro "nojump" : tactic => `(tactic| repeat' (first
  | exact LogAll.pure _ | exact LogAll.raise _ | exact LogAll.lift _ | exact LogAll.emit rfl
  | (refine LogAll.bind ?_ fun _ => ?_) | split))

theorem nojump_arrow (v : VarE) : LogAll NoJump (expectArrow v) := by unfold expectArrow; nojump
theorem nojump_prio (w : Where) (p : Str) : LogAll NoJump (readPrio w p) := by unfold readPrio; nojump
theorem nojump_label (w : Where) (p : Option Str) : LogAll NoJump (readLabel w p) := by
  cases p <;> unfold readLabel <;> nojump
theorem nojump_run (env : DEnv) (sp : Option Str) (w : Where) (a : Arg) :
    LogAll NoJump (runApp env.toAEnv env.depth sp w a).toRes := fun _ hm =>
  appKind_jump (here_runApp _ _ _ _ _ _ hm).2
theorem nojump_readExten (env : DEnv) (sp : Option Str) (v : VarE) : LogAll NoJump (readExten env sp v) := by
  unfold readExten
  repeat' (first
    | exact nojump_prio _ _ | exact nojump_label _ _ | exact nojump_run _ _ _ _
    | exact LogAll.pure _ | exact LogAll.lift _ | (refine LogAll.bind ?_ fun _ => ?_) | split)
theorem nojump_from (env : DEnv) (sp : Option Str) (v : VarE) : LogAll NoJump (fromVarset env sp v) := by
  unfold fromVarset
  repeat' (first
    | exact nojump_arrow _ | exact nojump_readExten _ _ _
    | exact LogAll.pure _ | exact LogAll.emit rfl | (refine LogAll.bind ?_ fun _ => ?_) | split)
theorem nojump_resolve (last : Option Nat) (c : DCtx) (raw : Str) (pat : Values) (e : ExtLine) :
    LogAll NoJump (resolvePrio last c raw pat e) := by unfold resolvePrio; nojump
theorem nojump_cache (c : DCtx) (key : Str) (n : Nat) (l : Option Str) (w : Where) :
    LogAll NoJump (cacheCheck c key n l w) := by unfold cacheCheck; nojump
theorem nojump_add (last : Option Nat) (c : DCtx) (e : ExtLine) : LogAll NoJump (addExt last c e) := by
  unfold addExt storeStep
  dsimp only
  repeat' (first
    | exact nojump_resolve _ _ _ _ _ | exact nojump_cache _ _ _ _ _
    | exact LogAll.pure _ | exact LogAll.lift _ | exact LogAll.emit rfl | (refine LogAll.bind ?_ fun _ => ?_) | split)
theorem nojump_dvar (dp : Dialplan) (c : DCtx) (dv : DVar) : LogAll NoJump (onDVar dp c dv) := by
  cases dv with
  | nothing => exact .pure _
  | include_ n w => exact .pure _
  | ext e =>
    refine LogAll.bind ?_ fun _ => LogAll.bind (nojump_add _ _ _) fun _ => .pure _
    unfold canonCheck
    nojump
theorem nojump_step (env : DEnv) (st : DState) (e : Elem) : LogAll NoJump (dialplanStep env st e) := by
  cases e with
  | ctx c =>
    show LogAll NoJump (onContext st c)
    unfold onContext addGeneral addGlobals
    nojump
  | empty b w => exact .pure _
  | var v =>
    show LogAll NoJump (onVarset env st v)
    unfold onVarset
    repeat' (first
    | exact nojump_from _ _ _ | exact nojump_dvar _ _ _
      | exact LogAll.pure _ | exact LogAll.raise _ | exact LogAll.emit rfl | (refine LogAll.bind ?_ fun _ => ?_) | split)
theorem nojump_complete (dp : Dialplan) : LogAll NoJump (onComplete dp) := by unfold onComplete; nojump

end ALint
