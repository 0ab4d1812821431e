import Verif.Proofs.CanonDisk
import Verif.Props.Canon

/-!
# The aggregator on lines with canonical patterns
-/

namespace ALint
open Spec Props
open Pattern (parse canonical isCanonical Values exampleOf)

/-- The results are the same up to `g`, whatever is said on the way. -/
def VMap {α β : Type} (g : α → β) (x : Res α) (y : Res β) : Prop := y.val = x.val.map g

section
variable {α β γ δ : Type}

theorem VMap.pure {g : α → β} {a : α} {b : β} (h : b = g a) : VMap g (.pure a) (.pure b) := by subst h; rfl

theorem VMap.lift {g : α → β} {x : Except Exc α} {y : Except Exc β} (h : y = x.map g) : VMap g (.lift x) (.lift y) := h

theorem VMap.bind {g : α → β} {h : γ → δ} {x : Res α} {y : Res β} {f : α → Res γ} {k : β → Res δ} (hx : VMap g x y)
    (hf : ∀ a, x.val = .ok a → VMap h (f a) (k (g a))) : VMap h (.bind x f) (.bind y k) := by
  unfold VMap at hx hf ⊢
  unfold Res.bind
  cases hv : x.val with
  | error e => rw [hv] at hx; rw [hx]; rfl
  | ok a => rw [hv] at hx; rw [hx]; exact hf a hv

theorem VMap.emit {m m' : Msg} (hk : m'.kind = m.kind) (ha : m'.args = m.args) : VMap id (.emit m) (.emit m') := by
  show m'.render.map _ = (m.render.map _).map _
  unfold Msg.render
  rw [hk, ha]
  cases renderAll m.args m.kind.template <;> rfl

theorem VMap.emitOk {m m' : Msg} (h : (Res.emit m).val = .ok ()) (h' : (Res.emit m').val = .ok ()) :
    VMap id (.emit m) (.emit m') := by
  unfold VMap; rw [h, h']; rfl

theorem VMap.ok {g : α → β} {x : Res α} {y : Res β} (h : VMap g x y) {a : α} (ha : x.val = .ok a) : y.val = .ok (g a) := by
  unfold VMap at h; rw [h, ha]; rfl

end

/-! ## Patterns -/

/-- The pattern after the rewrite. -/
def fixPat (p : Str × Values) : Str × Values :=
  if isCanonical p.1 p.2 then p
  else (canonical p.2, match parse (canonical p.2) with | .ok v => v | .error _ => p.2)

/-- What looks at a pattern sees no difference. -/
structure GoodPat (p : Str × Values) : Prop where
  canon : canonical (fixPat p).2 = canonical p.2
  ex : exampleOf (fixPat p).2 = exampleOf p.2

theorem goodPat_canonical {p : Str × Values} (h : isCanonical p.1 p.2 = true) : GoodPat p := by
  have : fixPat p = p := by rw [fixPat, if_pos h]
  exact ⟨by rw [this], by rw [this]⟩

section
variable (φ : Where → Where)

def fixStep (s : Step) : Step :=
  { s with raw := (fixPat (s.raw, s.pat)).1, pat := (fixPat (s.raw, s.pat)).2, at_ := φ s.at_ }

def fixCache (pc : PCache) : PCache :=
  ⟨pc.labels.map fun x => (x.1, φ x.2), pc.prios.map fun x => (x.1, φ x.2)⟩

def fixCtx (c : DCtx) : DCtx :=
  { c with steps := c.steps.map (fixStep φ), cache := c.cache.map fun x => (x.1, fixCache φ x.2) }

def fixDest (d : Dest) : Dest := { d with at_ := φ d.at_ }

def fixDp (dp : Dialplan) : Dialplan :=
  { dp with contexts := dp.contexts.map (fixCtx φ), dests := dp.dests.map (fixDest φ) }

def fixExt (e : ExtLine) : ExtLine := { e with pat := e.pat.map fixPat, at_ := φ e.at_ }

def fixAdded (a : Added) : Added := ⟨fixCtx φ a.ctx, a.last, a.labels, a.dests.map (fixDest φ)⟩

theorem lookup_fix {α : Type} [BEq α] (k : α) (l : List (α × Where)) :
    (l.map fun x => (x.1, φ x.2)).lookup k = (l.lookup k).map φ := by
  induction l with
  | nil => rfl
  | cons x l ih =>
    obtain ⟨a, b⟩ := x
    simp only [List.map_cons, List.lookup_cons]
    split
    · rfl
    · exact ih

theorem lookup_fixCache (k : Str) (l : List (Str × PCache)) :
    (l.map fun x => (x.1, fixCache φ x.2)).lookup k = (l.lookup k).map (fixCache φ) := by
  induction l with
  | nil => rfl
  | cons x l ih =>
    obtain ⟨a, b⟩ := x
    simp only [List.map_cons, List.lookup_cons]
    split
    · rfl
    · exact ih

theorem putCache_fix (k : Str) (pc : PCache) : ∀ (l : List (Str × PCache)),
    putCache k (fixCache φ pc) (l.map fun x => (x.1, fixCache φ x.2)) =
      (putCache k pc l).map fun x => (x.1, fixCache φ x.2)
  | [] => rfl
  | (a, b) :: l => by
    simp only [List.map_cons, putCache]
    split
    · rfl
    · rw [putCache_fix k pc l]; rfl

theorem resolvePat_fix (c : DCtx) (e : ExtLine) :
    resolvePat (fixCtx φ c) (fixExt φ e) = (resolvePat c e).map fixPat := by
  unfold resolvePat fixExt
  cases h : e.pat with
  | some p => rfl
  | none =>
    simp only [Option.map_none, fixCtx, List.getLast?_map, Option.map_map]
    cases c.steps.getLast? <;> rfl

theorem resolvePrio_fix (last : Option Nat) (c c' : DCtx) (p p' : Str × Values) (e e' : ExtLine) (he : e'.prio = e.prio)
    (hl : c'.lastPrio = c.lastPrio) (hs : c'.steps = c.steps.map (fixStep φ)) :
    VMap id (resolvePrio last c p.1 p.2 e) (resolvePrio last c' p'.1 p'.2 e') := by
  unfold resolvePrio
  rw [he]
  cases e.prio with
  | none =>
    dsimp only
    split
    · exact .bind (.emitOk rfl rfl) fun _ _ => .pure rfl
    · have ho : ∃ g, outOfOrder c' p'.2 = (outOfOrder c p.2).map g := by
        unfold outOfOrder
        rw [hl, hs, List.getLast?_map]
        split
        · exact ⟨id, rfl⟩
        · cases c.steps.getLast? with
          | none => exact ⟨id, rfl⟩
          | some s => exact ⟨fun _ => decide ((fixStep φ s).pat ≠ p'.2), rfl⟩
      obtain ⟨g, ho⟩ := ho
      refine .bind (g := g) (.lift ho) fun bad _ => ?_
      refine .bind (g := id) ?_ fun _ _ => .pure rfl
      unfold VMap
      split <;> split <;> rfl
  | some n =>
    dsimp only
    by_cases hn : n < 1
    · rw [if_pos hn, if_pos hn]
      exact .bind (.emitOk rfl rfl) fun _ _ => .pure rfl
    · rw [if_neg hn, if_neg hn]
      by_cases hn1 : n ≠ 1
      · rw [if_pos hn1, if_pos hn1]
        unfold VMap
        cases lastOf c'.steps p'.2 <;> cases lastOf c.steps p.2 <;> dsimp only <;> (try split) <;> (try split) <;> rfl
      · rw [if_neg hn1, if_neg hn1]
        exact .pure rfl

theorem cacheCheck_fix (c c' : DCtx) (key : Str) (prio : Nat) (label : Option Str) (w : Where)
    (hc : c'.cache = c.cache.map fun x => (x.1, fixCache φ x.2)) :
    VMap (Option.map fun r => (fixCache φ r.1, r.2.1, r.2.2)) (cacheCheck c key prio label w)
      (cacheCheck c' key prio label (φ w)) := by
  unfold cacheCheck
  rw [hc, lookup_fixCache]
  cases c.cache.lookup key with
  | none =>
    dsimp only [Option.map_none]
    cases realLabel label <;> exact .pure rfl
  | some pc =>
    dsimp only [Option.map_some]
    rw [show (fixCache φ pc).prios = pc.prios.map fun x => (x.1, φ x.2) from rfl, lookup_fix]
    cases pc.prios.lookup prio with
    | some prev => exact .bind (.emit rfl rfl) fun _ _ => .pure rfl
    | none =>
      dsimp only [Option.map_none]
      cases realLabel label with
      | none => exact .pure (by simp [fixCache])
      | some l =>
        dsimp only
        rw [show (fixCache φ pc).labels = pc.labels.map fun x => (x.1, φ x.2) from rfl, lookup_fix]
        cases pc.labels.lookup l with
        | some prev => exact .bind (.emit rfl rfl) fun _ _ => .pure (by simp [fixCache])
        | none => exact .pure (by simp [fixCache])

theorem completeDest_fix (ctx ex : Str) (w : Where) (j : Jump) :
    completeDest ctx ex (φ w) j = (completeDest ctx ex w j).map (fixDest φ) := by
  unfold completeDest
  dsimp only
  split <;> rfl

theorem completeDests_fix (ctx ex : Str) (w : Where) : ∀ (js : List Jump),
    completeDests ctx ex (φ w) js = (completeDests ctx ex w js).map (List.map (fixDest φ))
  | [] => rfl
  | j :: js => by
    rw [completeDests, completeDests, completeDest_fix]
    cases completeDest ctx ex w j with
    | error e => rfl
    | ok d =>
      dsimp only [Except.map]
      rw [completeDests_fix ctx ex w js]
      cases completeDests ctx ex w js <;> rfl

theorem storeStep_fix (c : DCtx) (p : Str × Values) (hp : GoodPat p) (n : Nat) (e : ExtLine) :
    VMap (fixAdded φ) (storeStep c p.1 p.2 n e) (storeStep (fixCtx φ c) (fixPat p).1 (fixPat p).2 n (fixExt φ e)) := by
  unfold storeStep
  dsimp only
  rw [hp.canon, hp.ex]
  refine .bind (cacheCheck_fix φ _ _ _ _ _ _ rfl) fun r _ => ?_
  cases r with
  | none => exact .pure rfl
  | some r =>
    obtain ⟨pc, label, labels⟩ := r
    dsimp only [Option.map_some]
    refine .bind (.lift (completeDests_fix φ _ _ _ _)) fun ds _ => ?_
    refine .pure ?_
    simp only [fixAdded, fixCtx, putCache_fix, List.map_append]
    rfl

theorem addExt_fix (last : Option Nat) (c : DCtx) (e : ExtLine) (hc : ∀ s ∈ c.steps, GoodPat (s.raw, s.pat))
    (he : ∀ p, e.pat = some p → GoodPat p) :
    VMap (fixAdded φ) (addExt last c e) (addExt last (fixCtx φ c) (fixExt φ e)) := by
  unfold addExt
  dsimp only
  have hr : resolvePat { fixCtx φ c with sorted := none } (fixExt φ e) =
      (resolvePat { c with sorted := none } e).map fixPat := resolvePat_fix φ { c with sorted := none } e
  rw [hr]
  cases hp : resolvePat { c with sorted := none } e with
  | none =>
    dsimp only [Option.map_none]
    exact .bind (.emit rfl rfl) fun _ _ => .pure rfl
  | some p =>
    dsimp only [Option.map_some]
    have hg : GoodPat p := by
      unfold resolvePat at hp
      cases hep : e.pat with
      | some q => rw [hep] at hp; cases hp; exact he _ hep
      | none =>
        rw [hep] at hp
        dsimp only at hp
        simp only [Option.map_eq_some_iff] at hp
        obtain ⟨s, hs, rfl⟩ := hp
        exact hc s (List.mem_of_getLast? hs)
    refine .bind (resolvePrio_fix φ _ _ _ p (fixPat p) _ _ rfl rfl rfl) fun r _ => ?_
    cases r with
    | none => exact .pure rfl
    | some n => exact storeStep_fix φ _ p hg n e

theorem putCtx_fix (c : DCtx) : ∀ (cs : List DCtx),
    putCtx (fixCtx φ c) (cs.map (fixCtx φ)) = (putCtx c cs).map (fixCtx φ)
  | [] => rfl
  | d :: ds => by
    simp only [List.map_cons, putCtx]
    show (if d.name = c.name then _ else _) = _
    split
    · rfl
    · rw [putCtx_fix c ds]; rfl

theorem get_fix (dp : Dialplan) (name : Str) : (fixDp φ dp).get name = (dp.get name).map (fixCtx φ) := by
  unfold Dialplan.get fixDp
  simp only [List.find?_map]
  rfl

theorem withAdded_fix (dp : Dialplan) (a : Added) :
    (fixDp φ dp).withAdded (fixAdded φ a) = fixDp φ (dp.withAdded a) := by
  unfold Dialplan.withAdded fixDp fixAdded
  simp only [putCtx_fix, List.map_append]

end

/-! ## Steps -/

/-- A line before and after the rewrite. -/
structure Rewrote (env : DEnv) (φ : Where → Where) (v v' : VarE) (pat : Str) (vals vals' : Values) : Prop where
  place : v'.at_ = φ v.at_
  parsed : parse pat = .ok vals
  odd : isCanonical pat vals = false
  parses : parse (canonical vals) = .ok vals'
  canon : canonical vals' = canonical vals
  ex : exampleOf vals' = exampleOf vals
  fine : isCanonical (canonical vals) vals' = true
  read : ∀ sp, (fromVarset env sp v').val = (fromVarset env sp v).val.map (moveStep (φ v.at_) (canonical vals, vals'))

theorem Rewrote.fix {env : DEnv} {φ : Where → Where} {v v' : VarE} {pat : Str} {vals vals' : Values}
    (h : Rewrote env φ v v' pat vals vals') : fixPat (pat, vals) = (canonical vals, vals') := by
  unfold fixPat
  rw [h.odd, h.parses]; rfl

theorem Rewrote.good {env : DEnv} {φ : Where → Where} {v v' : VarE} {pat : Str} {vals vals' : Values}
    (h : Rewrote env φ v v' pat vals vals') : GoodPat (pat, vals) :=
  ⟨by rw [h.fix]; exact h.canon, by rw [h.fix]; exact h.ex⟩

/-- What holds for all patterns of the dialplan. -/
def GoodDp (Q : Str × Values → Prop) (dp : Dialplan) : Prop := ∀ c ∈ dp.contexts, ∀ s ∈ c.steps, Q (s.raw, s.pat)

/-- The state before and after the rewrite. -/
structure Sim (φ : Where → Where) (st st' : DState) : Prop where
  dp : st'.dp = fixDp φ st.dp
  cur : st'.cur = st.cur
  sp : st'.sp = st.sp
  uses : ∀ w, st'.uses.map (Ev.moved w) = st.uses.map (Ev.moved w)

theorem onVarset_ctx {env : DEnv} {st st1 : DState} {v : VarE} {name : Str} (h : (onVarset env st v).val = .ok st1)
    (hc : st.cur = .ctx name) :
    ∃ c sp us dv dp, st.dp.get name = some c ∧ (fromVarset env st.sp v).val = .ok (sp, us, dv) ∧
      (onDVar st.dp c dv).val = .ok dp ∧ st1 = ⟨dp, st.cur, sp, st.uses ++ us⟩ ∧
      hintsOf (onVarset env st v).log = hintsOf (onDVar st.dp c dv).log := by
  unfold onVarset at h ⊢
  simp only [hc] at h ⊢
  cases hg : st.dp.get name with
  | none => rw [hg] at h; cases h
  | some c =>
    simp only [hg] at h ⊢
    obtain ⟨r, h1, h2, h3⟩ := Res.bind_ok h
    obtain ⟨dp, h4, h5, h6⟩ := Res.bind_ok h2
    obtain ⟨sp, us, dv⟩ := r
    refine ⟨c, sp, us, dv, dp, rfl, h1, h4, ?_, ?_⟩
    · simpa using h5.symm
    · rw [h3, h6, hintsOf_append, hintsOf_append, (nohint_fromVarset env st.sp v).out]
      simp [hintsOf]

def dvHints : DVar → List Msg
  | .ext e => hintsOf (canonCheck e).log
  | _ => []

def fixDVar (φ : Where → Where) : DVar → DVar
  | .ext e => .ext (fixExt φ e)
  | d => d

theorem onDVar_hints {dp dp' : Dialplan} {c : DCtx} {dv : DVar} (h : (onDVar dp c dv).val = .ok dp') :
    hintsOf (onDVar dp c dv).log = dvHints dv := by
  cases dv with
  | nothing => rfl
  | include_ n w => rfl
  | ext e =>
    simp only [onDVar, dvHints] at h ⊢
    obtain ⟨u1, g1, g2, g3⟩ := Res.bind_ok h
    obtain ⟨a, g4, g5, g6⟩ := Res.bind_ok g2
    rw [g3, g6, hintsOf_append, hintsOf_append, (nohint_addExt _ _ _).out]
    simp [hintsOf]

theorem ext_facts {env : DEnv} {sp sp' : Option Str} {v : VarE} {us : List Ev} {e : ExtLine}
    (h : (fromVarset env sp v).val = .ok (sp', us, .ext e)) :
    e.at_ = v.at_ ∧ ∀ p, e.pat = some p → parse p.1 = .ok p.2 := by
  have hcase := fromVarset_cases h
  generalize (fromVarset env sp v).log = lg at hcase
  cases hcase with
  | line _ ms hk hr =>
    cases hr with
    | ext p rr pat prio label sp'' jumps uses ms hs hp hl hpat hrun =>
      refine ⟨rfl, ?_⟩
      rintro q hq
      dsimp only at hq
      subst hq
      cases p with
      | none => simp [readPattern] at hpat
      | some p =>
        unfold readPattern at hpat
        dsimp only at hpat
        cases hpp : parse p with
        | error e => rw [hpp] at hpat; cases hpat
        | ok vv =>
          rw [hpp] at hpat
          simp only [Except.ok.injEq, Option.some.injEq] at hpat
          subst hpat
          exact hpp

section
variable {φ : Where → Where} {Q : Str × Values → Prop}

theorem putCtx_cases {c x : DCtx} : ∀ {cs : List DCtx}, x ∈ putCtx c cs → x = c ∨ x ∈ cs
  | [], h => by simp [putCtx] at h
  | d :: ds, h => by
    rw [putCtx] at h
    split at h
    · rcases List.mem_cons.1 h with h | h
      · exact .inl h
      · exact .inr (List.mem_cons_of_mem _ h)
    · rcases List.mem_cons.1 h with h | h
      · exact .inr (h ▸ List.mem_cons_self ..)
      · rcases putCtx_cases h with h | h
        · exact .inl h
        · exact .inr (List.mem_cons_of_mem _ h)

theorem addExt_good {last : Option Nat} {c : DCtx} {e : ExtLine} {a : Added} (h : (addExt last c e).val = .ok a)
    (hc : ∀ s ∈ c.steps, Q (s.raw, s.pat)) (he : ∀ p, e.pat = some p → Q p) : ∀ s ∈ a.ctx.steps, Q (s.raw, s.pat) := by
  have hcase := addExt_cases h
  generalize (addExt last c e).log = lg at hcase
  cases hcase with
  | noPat => exact hc
  | noPrio => exact hc
  | dupe => exact hc
  | stored raw pat ms n label' ls ds pc lms hp =>
    intro s hs
    rcases List.mem_append.1 hs with hs | hs
    · exact hc s hs
    · rw [List.mem_singleton] at hs
      subst hs
      unfold resolvePat at hp
      cases hep : e.pat with
      | some q => rw [hep] at hp; cases hp; exact he _ hep
      | none =>
        rw [hep] at hp
        simp only [Option.map_eq_some_iff] at hp
        obtain ⟨s, hs, hp⟩ := hp
        have := hc s (List.mem_of_getLast? hs)
        rwa [hp] at this

theorem onDVar_ext (hQ : ∀ p, Q p → GoodPat p) {dp dp1 : Dialplan} {c : DCtx} {e : ExtLine} (hg : GoodDp Q dp)
    (hc : c ∈ dp.contexts) (he : ∀ p, e.pat = some p → Q p) (h : (onDVar dp c (.ext e)).val = .ok dp1) :
    GoodDp Q dp1 ∧ ((canonCheck (fixExt φ e)).val = .ok () →
      (onDVar (fixDp φ dp) (fixCtx φ c) (.ext (fixExt φ e))).val = .ok (fixDp φ dp1)) := by
  simp only [onDVar] at h ⊢
  obtain ⟨_, _, g2, _⟩ := Res.bind_ok h
  obtain ⟨a, g4, g5, _⟩ := Res.bind_ok g2
  simp only [Res.pure_val, Except.ok.injEq] at g5
  subst g5
  refine ⟨?_, ?_⟩
  · intro x hx s hs
    rcases putCtx_cases hx with rfl | hx
    · exact addExt_good g4 (hg c hc) he s hs
    · exact hg x hx s hs
  · intro hcc
    have := addExt_fix φ dp.lastPrio c e (fun s hs => hQ _ (hg c hc s hs)) fun p hp => hQ _ (he p hp)
    have h2 := this.ok g4
    rw [Res.bind_of_ok hcc, Res.bind_of_ok (show (addExt (fixDp φ dp).lastPrio (fixCtx φ c) (fixExt φ e)).val = _ from h2)]
    simp [withAdded_fix]

theorem addGeneral_fix (dp : Dialplan) (c : CtxE) : VMap (fixDp φ) (addGeneral dp c) (addGeneral (fixDp φ dp) c) := by
  unfold addGeneral
  rw [show (fixDp φ dp).general = dp.general from rfl]
  cases dp.general with
  | some g => exact .bind (.emit rfl rfl) fun _ _ => rfl
  | none =>
    dsimp only
    refine .bind (g := id) ?_ fun _ _ => .pure rfl
    rw [show (fixDp φ dp).globals = dp.globals from rfl,
      show (fixDp φ dp).contexts.isEmpty = dp.contexts.isEmpty from by simp [fixDp]]
    split
    · exact .emit rfl rfl
    · exact .pure rfl

theorem addGlobals_fix (dp : Dialplan) (c : CtxE) :
    VMap (fun r => (fixDp φ r.1, r.2)) (addGlobals dp c) (addGlobals (fixDp φ dp) c) := by
  unfold addGlobals
  rw [show (fixDp φ dp).globals = dp.globals from rfl]
  cases dp.globals with
  | some g => exact .bind (.emit rfl rfl) fun _ _ => .pure rfl
  | none =>
    dsimp only
    refine .bind (g := id) ?_ fun _ _ => .pure rfl
    rw [show (fixDp φ dp).general = dp.general from rfl,
      show (fixDp φ dp).contexts.isEmpty = dp.contexts.isEmpty from by simp [fixDp]]
    split
    · exact .emit rfl rfl
    · exact .pure rfl

theorem onDialplanContext_fix (dp : Dialplan) (c : CtxE) :
    onDialplanContext (fixDp φ dp) c = (onDialplanContext dp c).map (fixDp φ) := by
  unfold onDialplanContext
  rw [get_fix]
  cases dp.get c.name with
  | none => simp [fixDp, Except.map, fixCtx]
  | some old =>
    dsimp only [Option.map_some]
    have : updateCtx (fixCtx φ old) c = (updateCtx old c).map (fixCtx φ) := by
      unfold updateCtx
      split
      · rfl
      · split <;> rfl
    rw [this]
    cases updateCtx old c with
    | error e => rfl
    | ok new =>
      show Except.ok _ = Except.ok _
      rw [show (fixDp φ dp).contexts = dp.contexts.map (fixCtx φ) from rfl, putCtx_fix]
      rfl

theorem onContext_sim {st st1 st' : DState} {c : CtxE} (hs : Sim φ st st') (hg : GoodDp Q st.dp)
    (h : (onContext st c).val = .ok st1) :
    GoodDp Q st1.dp ∧ ∃ st1', (onContext st' c).val = .ok st1' ∧ Sim φ st1 st1' := by
  obtain ⟨dp', cur', sp', uses'⟩ := st'
  obtain ⟨s1, s2, s3, s4⟩ := hs
  dsimp only at s1 s2 s3 s4
  subst s1 s2 s3
  have key : VMap (fun s => (⟨fixDp φ s.dp, s.cur, s.sp, uses'⟩ : DState)) (onContext st c)
      (onContext ⟨fixDp φ st.dp, st.cur, st.sp, uses'⟩ c) := by
    unfold onContext
    split
    · exact .bind (addGeneral_fix _ _) fun _ _ => .pure rfl
    · split
      · exact .bind (addGlobals_fix _ _) fun _ _ => .pure rfl
      · refine .bind (g := id) ?_ fun _ _ => .bind (.lift (onDialplanContext_fix _ _)) fun _ _ => .pure rfl
        split
        · exact .pure rfl
        · exact .emit rfl rfl
  have rest : GoodDp Q st1.dp ∧ st1.uses = st.uses := by
    unfold onContext at h
    split at h
    · obtain ⟨dp, g1, g2, _⟩ := Res.bind_ok h
      simp only [Res.pure_val, Except.ok.injEq] at g2
      subst g2
      refine ⟨?_, rfl⟩
      unfold addGeneral at g1
      cases hgen : st.dp.general with
      | some g => rw [hgen] at g1; obtain ⟨_, _, g3, _⟩ := Res.bind_ok g1; cases g3
      | none =>
        rw [hgen] at g1
        obtain ⟨_, _, g3, _⟩ := Res.bind_ok g1
        simp only [Res.pure_val, Except.ok.injEq] at g3
        subst g3
        exact hg
    · split at h
      · obtain ⟨r, g1, g2, _⟩ := Res.bind_ok h
        simp only [Res.pure_val, Except.ok.injEq] at g2
        subst g2
        refine ⟨?_, rfl⟩
        unfold addGlobals at g1
        cases hgen : st.dp.globals with
        | some g =>
          rw [hgen] at g1
          obtain ⟨_, _, g3, _⟩ := Res.bind_ok g1
          simp only [Res.pure_val, Except.ok.injEq] at g3
          subst g3
          exact hg
        | none =>
          rw [hgen] at g1
          obtain ⟨_, _, g3, _⟩ := Res.bind_ok g1
          simp only [Res.pure_val, Except.ok.injEq] at g3
          subst g3
          exact hg
      · obtain ⟨_, _, g1, _⟩ := Res.bind_ok h
        obtain ⟨dp, g2, g3, _⟩ := Res.bind_ok g1
        simp only [Res.pure_val, Except.ok.injEq] at g3
        subst g3
        refine ⟨?_, rfl⟩
        change onDialplanContext st.dp c = .ok dp at g2
        unfold onDialplanContext at g2
        cases hget : st.dp.get c.name with
        | none =>
          rw [hget] at g2
          simp only [Except.ok.injEq] at g2
          subst g2
          intro x hx s hs
          rcases List.mem_append.1 hx with hx | hx
          · exact hg x hx s hs
          · rw [List.mem_singleton] at hx
            subst hx
            cases hs
        | some old =>
          rw [hget] at g2
          dsimp only at g2
          cases hu : updateCtx old c with
          | error e => rw [hu] at g2; cases g2
          | ok new =>
            rw [hu] at g2
            simp only [Except.ok.injEq] at g2
            subst g2
            intro x hx s hs
            rcases putCtx_cases hx with rfl | hx
            · unfold updateCtx at hu
              split at hu
              · cases hu
              · split at hu
                · cases hu
                · simp only [Except.ok.injEq] at hu
                  subst hu
                  exact hg old (List.mem_of_find?_eq_some hget) s hs
            · exact hg x hx s hs
  refine ⟨rest.1, _, key.ok h, rfl, rfl, rfl, fun w => by rw [rest.2]; exact s4 w⟩

/-- What a step may be compared with: the same line when there is no hint, the rewritten line when
there is one. -/
inductive Redone (env : DEnv) (φ : Where → Where) (Q : Str × Values → Prop) (hs : List Msg) : Elem → Elem → Prop
  | same {e : Elem} : hs = [] → φ e.at_ = e.at_ → Redone env φ Q hs e e
  | line {v v' : VarE} {pat : Str} {vals vals' : Values} : hs = [hintMsg v.at_ pat vals] → Q (pat, vals) →
      Rewrote env φ v v' pat vals vals' → Redone env φ Q hs (.var v) (.var v')

theorem Ev.moved_moved (w w' : Where) (e : Ev) : Ev.moved w (Ev.moved w' e) = Ev.moved w e := by cases e <;> rfl

theorem hintMsg_inj {w w' : Where} {p p' : Str} {v v' : Values} (h : hintMsg w p v = hintMsg w' p' v') :
    w = w' ∧ p = p' ∧ canonical v = canonical v' := by
  unfold hintMsg mkMsg strV at h
  simp only [Msg.mk.injEq, List.cons.injEq, Prod.mk.injEq, Arg.one.injEq, V.str.injEq, true_and, and_true] at h
  exact h

theorem step_sim {env : DEnv} {st st1 st' : DState} {e e' : Elem} (hQ : ∀ p, Q p → GoodPat p)
    (hcan : ∀ p, parse p.1 = .ok p.2 → isCanonical p.1 p.2 = true → Q p) (hs : Sim φ st st') (hg : GoodDp Q st.dp)
    (h : (dialplanStep env st e).val = .ok st1) (hr : Redone env φ Q (hintsOf (dialplanStep env st e).log) e e') :
    GoodDp Q st1.dp ∧ ∃ st1', (dialplanStep env st' e').val = .ok st1' ∧ Sim φ st1 st1' ∧
      hintsOf (dialplanStep env st' e').log = [] := by
  cases e with
  | ctx c =>
    cases hr with
    | same h1 h2 =>
      obtain ⟨g1, st1', g2, g3⟩ := onContext_sim hs hg h
      exact ⟨g1, st1', g2, g3, (nohint_onContext st' c).out⟩
  | empty c w =>
    cases hr with
    | same h1 h2 =>
      simp only [dialplanStep, Res.pure_val, Except.ok.injEq] at h
      subst h
      exact ⟨hg, st', rfl, hs, rfl⟩
  | var v =>
    change (onVarset env st v).val = .ok st1 at h
    by_cases hctx : ∃ name, st.cur = .ctx name
    · obtain ⟨name, hcur⟩ := hctx
      obtain ⟨c, sp, us, dv, dp, h1, h2, h3, rfl, h5⟩ := onVarset_ctx h hcur
      have hcm := List.mem_of_find?_eq_some h1
      have hhint := onDVar_hints h3
      rw [show hintsOf (dialplanStep env st (.var v)).log = hintsOf (onVarset env st v).log from rfl, h5, hhint] at hr
      -- what the rewritten line is read as
      have hnew : ∃ v' us', e' = .var v' ∧ (∀ w, us'.map (Ev.moved w) = us.map (Ev.moved w)) ∧
          (fromVarset env st.sp v').val = .ok (sp, us', fixDVar φ dv) ∧
          ∀ e, dv = .ext e → (∀ p, e.pat = some p → Q p) ∧ canonCheck (fixExt φ e) = .pure () := by
        generalize hh : dvHints dv = hh' at hr
        generalize hev : Elem.var v = ev at hr
        cases hr with
        | same r1 r2 =>
          subst hev r1
          refine ⟨v, us, rfl, fun _ => rfl, ?_, ?_⟩
          · cases dv with
            | nothing => exact h2
            | include_ n w => exact h2
            | ext e =>
              dsimp only [dvHints, fixDVar] at hh ⊢
              have hfix : fixExt φ e = e := by
                obtain ⟨f1, f2⟩ := ext_facts h2
                unfold fixExt
                have : e.pat.map fixPat = e.pat := by
                  cases hp : e.pat with
                  | none => rfl
                  | some p =>
                    rcases canonCheck_hints e with hc | ⟨raw, vv, c1, c2, c3⟩
                    · have : isCanonical p.1 p.2 = true := by
                        rw [canonCheck, hp] at hc
                        dsimp only at hc
                        by_cases hi : isCanonical p.1 p.2 = true
                        · exact hi
                        · rw [if_neg hi] at hc; cases hc
                      show some (fixPat p) = some p
                      rw [fixPat, if_pos this]
                    · rw [c3] at hh; cases hh
                rw [this, f1]
                rw [show φ v.at_ = v.at_ from r2, ← f1]
              rw [hfix]; exact h2
          · rintro e rfl
            dsimp only [dvHints] at hh
            obtain ⟨f1, f2⟩ := ext_facts h2
            have hpc : ∀ p, e.pat = some p → isCanonical p.1 p.2 = true := by
              intro p hp
              rw [canonCheck, hp] at hh
              dsimp only [dvHints] at hh
              by_cases hi : isCanonical p.1 p.2 = true
              · exact hi
              · rw [if_neg hi] at hh; cases hh
            refine ⟨fun p hp => hcan p (f2 p hp) (hpc p hp), ?_⟩
            unfold canonCheck fixExt
            cases hp : e.pat with
            | none => rfl
            | some p =>
              dsimp only [Option.map_some]
              rw [fixPat, if_pos (hpc p hp), if_pos (hpc p hp)]
        | line r1 r2 r3 =>
          rename_i v0 v' pat vals vals'
          cases hev
          have hext : ∃ e, dv = .ext e ∧ e.pat = some (pat, vals) ∧ e.at_ = v.at_ := by
            cases dv with
            | nothing => rw [r1] at hh; cases hh
            | include_ n w => rw [r1] at hh; cases hh
            | ext e =>
              refine ⟨e, rfl, ?_⟩
              dsimp only [dvHints] at hh
              rcases canonCheck_hints e with hc | ⟨raw, vv, c1, c2, c3⟩
              · rw [hc, r1] at hh; cases hh
              · rw [c3, r1] at hh
                simp only [List.cons.injEq, and_true] at hh
                obtain ⟨i1, i2, i3⟩ := hintMsg_inj hh
                obtain ⟨f1, f2⟩ := ext_facts h2
                have := f2 _ c1
                dsimp only at this
                rw [i2, r3.parsed] at this
                cases this
                rw [c1, i2]
                exact ⟨rfl, f1⟩
          obtain ⟨e, rfl, x1, x2⟩ := hext
          have hfix : fixExt φ e = { e with pat := some (canonical vals, vals'), at_ := φ v.at_ } := by
            unfold fixExt
            rw [x1, x2, Option.map_some, r3.fix]
          refine ⟨v', us.map (Ev.moved (φ v.at_)), rfl, fun w => by simp [Ev.moved_moved], ?_, ?_⟩
          · rw [r3.read, h2, fixDVar, hfix]
            rfl
          · rintro e' he'
            cases he'
            refine ⟨fun p hp => ?_, ?_⟩
            · rw [x1] at hp
              cases hp
              exact r2
            · rw [hfix]
              unfold canonCheck
              dsimp only
              rw [if_pos r3.fine]
      obtain ⟨v', us', rfl, n1, n2, n3⟩ := hnew
      have hdv : GoodDp Q dp ∧ (onDVar (fixDp φ st.dp) (fixCtx φ c) (fixDVar φ dv)).val = .ok (fixDp φ dp) ∧
          dvHints (fixDVar φ dv) = [] := by
        cases dv with
        | nothing =>
          simp only [onDVar, Res.pure_val, Except.ok.injEq] at h3
          subst h3
          exact ⟨hg, rfl, rfl⟩
        | include_ n w =>
          simp only [onDVar, Res.pure_val, Except.ok.injEq] at h3
          subst h3
          refine ⟨?_, ?_, rfl⟩
          · intro x hx s hs
            rcases putCtx_cases hx with rfl | hx
            · exact hg c hcm s hs
            · exact hg x hx s hs
          · simp only [onDVar, fixDVar, Res.pure_val]
            rw [show ({ fixCtx φ c with includes := (fixCtx φ c).includes ++ [(n, w)] } : DCtx) =
              fixCtx φ { c with includes := c.includes ++ [(n, w)] } from rfl,
              show (fixDp φ st.dp).contexts = st.dp.contexts.map (fixCtx φ) from rfl, putCtx_fix]
            rfl
        | ext e =>
          obtain ⟨m1, m2⟩ := n3 e rfl
          obtain ⟨k1, k2⟩ := onDVar_ext (φ := φ) hQ hg hcm m1 h3
          exact ⟨k1, k2 (by rw [m2]; rfl), by simp [dvHints, fixDVar, m2, hintsOf, Res.pure]⟩
      obtain ⟨d1, d2, d3⟩ := hdv
      refine ⟨d1, ⟨fixDp φ dp, st'.cur, sp, st'.uses ++ us'⟩, ?_⟩
      have hcur' : st'.cur = .ctx name := by rw [hs.cur, hcur]
      have hval : (onVarset env st' (v')).val = .ok ⟨fixDp φ dp, st'.cur, sp, st'.uses ++ us'⟩ := by
        unfold onVarset
        rw [hcur', hs.dp]
        dsimp only
        rw [get_fix, h1, hs.sp]
        dsimp only [Option.map_some]
        rw [Res.bind_of_ok n2, Res.bind_of_ok d2]
        rfl
      refine ⟨hval, ⟨rfl, hs.cur, rfl, fun w => ?_⟩, ?_⟩
      · simp only [List.map_append]
        rw [hs.uses, n1]
      · obtain ⟨c', sp'', us'', dv', dp', j1, j2, j3, j4, j5⟩ := onVarset_ctx hval hcur'
        show hintsOf (onVarset env st' v').log = []
        rw [j5, onDVar_hints j3]
        rw [hs.sp, n2] at j2
        simp only [Except.ok.injEq, Prod.mk.injEq] at j2
        rw [← j2.2.2]
        exact d3
    · have hcur : ∀ name, st.cur ≠ .ctx name := fun name hn => hctx ⟨name, hn⟩
      have hnone : ∀ (s : DState), (∀ name, s.cur ≠ .ctx name) → hintsOf (onVarset env s v).log = [] := by
        intro s hs
        unfold onVarset
        cases hc : s.cur with
        | none => exact NoHint.out (by nohint)
        | general => rfl
        | globals => rfl
        | detached => rfl
        | ctx name => exact absurd hc (hs name)
      have he : e' = .var v := by
        rw [show hintsOf (dialplanStep env st (.var v)).log = hintsOf (onVarset env st v).log from rfl, hnone st hcur] at hr
        cases hr with
        | same => rfl
        | line r1 => cases r1
      subst he
      have hcur' : ∀ name, st'.cur ≠ .ctx name := by rw [hs.cur]; exact hcur
      have hh := hnone st' hcur'
      unfold onVarset at h
      suffices hk : GoodDp Q st1.dp ∧ ∃ st1', (onVarset env st' v).val = .ok st1' ∧ Sim φ st1 st1' by
        obtain ⟨k1, st1', k2, k3⟩ := hk
        exact ⟨k1, st1', k2, k3, hh⟩
      unfold onVarset
      rw [hs.cur]
      cases hc : st.cur with
      | ctx name => exact absurd hc (hcur name)
      | none =>
        rw [hc] at h
        obtain ⟨_, _, g1, _⟩ := Res.bind_ok h
        simp only [Res.pure_val, Except.ok.injEq] at g1
        subst g1
        exact ⟨hg, st', rfl, hs⟩
      | detached =>
        rw [hc] at h
        simp only [Res.pure_val, Except.ok.injEq] at h
        subst h
        exact ⟨hg, st', rfl, hs⟩
      | general =>
        rw [hc] at h
        simp only [Res.pure_val, Except.ok.injEq] at h
        subst h
        refine ⟨hg, _, rfl, ?_, rfl, hs.sp, hs.uses⟩
        show ({ st'.dp with general := st'.dp.general.map (addVar v) } : Dialplan) = _
        rw [hs.dp]; rfl
      | globals =>
        rw [hc] at h
        simp only [Res.pure_val, Except.ok.injEq] at h
        subst h
        refine ⟨hg, _, rfl, ?_, rfl, hs.sp, hs.uses⟩
        show ({ st'.dp with globals := st'.dp.globals.map (addVar v) } : Dialplan) = _
        rw [hs.dp]; rfl

/-- The elements one by one: hints are told apart by their places. -/
theorem feed_sim {env : DEnv} (hQ : ∀ p, Q p → GoodPat p)
    (hcan : ∀ p, parse p.1 = .ok p.2 → isCanonical p.1 p.2 = true → Q p) (Φ : Elem → Elem) :
    ∀ (es : List Elem) (st st1 st' : DState), Sim φ st st' → GoodDp Q st.dp →
    (feed (dialplanStep env) st es).val = .ok st1 →
    (∀ e ∈ es, notBlank e = false → Φ e = e ∧ φ e.at_ = e.at_) →
    ((es.filter notBlank).map (·.at_)).Nodup →
    (∀ e ∈ es, Redone env φ Q ((hintsOf (feed (dialplanStep env) st es).log).filter (·.at_ = e.at_)) e (Φ e)) →
    GoodDp Q st1.dp ∧ ∃ st1', (feed (dialplanStep env) st' (es.map Φ)).val = .ok st1' ∧ Sim φ st1 st1' ∧
      hintsOf (feed (dialplanStep env) st' (es.map Φ)).log = []
  | [], st, st1, st', hs, hg, h, _, _, _ => by
    simp only [feed, Res.pure_val, Except.ok.injEq] at h
    subst h
    exact ⟨hg, st', rfl, hs, rfl⟩
  | e :: es, st, st1, st', hs, hg, h, hb, hn, hr => by
    rw [feed] at h
    obtain ⟨s, h1, h2, h3⟩ := Res.bind_ok h
    have h1' := wrapExc_ok.1 h1
    have hsub := (feed_hints es s st1 h2).1
    have hfst : ∀ m ∈ hintsOf (dialplanStep env st e).log, m.at_ = e.at_ ∧ notBlank e = true := by
      rcases step_hints h1' with hh | ⟨v, pat, rest, vals, rfl, hp, hh⟩
      · rw [hh]; simp
      · rw [hh]
        intro m hm
        rw [List.mem_singleton] at hm
        subst hm
        exact ⟨rfl, rfl⟩
    have hlog : hintsOf (feed (dialplanStep env) st (e :: es)).log =
        hintsOf (dialplanStep env st e).log ++ hintsOf (feed (dialplanStep env) s es).log := by
      rw [feed, h3, hintsOf_append, wrapExc_log]
    have hsnd : notBlank e = true → ∀ m ∈ hintsOf (feed (dialplanStep env) s es).log, m.at_ ≠ e.at_ := by
      intro hne m hm he
      rw [List.filter_cons_of_pos hne, List.map_cons, List.nodup_cons] at hn
      refine hn.1 (he ▸ hsub.subset (List.mem_map.2 ⟨m, hm, rfl⟩))
    have hredo : Redone env φ Q (hintsOf (dialplanStep env st e).log) e (Φ e) := by
      by_cases hne : notBlank e = true
      · have := hr e (by simp)
        rw [hlog, List.filter_append, List.filter_eq_self.2 (fun m hm => by simpa using (hfst m hm).1),
          List.filter_eq_nil_iff.2 (fun m hm => by simpa using hsnd hne m hm), List.append_nil] at this
        exact this
      · obtain ⟨b1, b2⟩ := hb e (by simp) (by simpa using hne)
        rw [b1]
        refine .same ?_ b2
        rw [List.eq_nil_iff_forall_not_mem]
        intro m hm
        exact hne (hfst m hm).2
    obtain ⟨g1, s', g2, g3, g4⟩ := step_sim hQ hcan hs hg h1' hredo
    have hn' : ((es.filter notBlank).map (·.at_)).Nodup := by
      by_cases hne : notBlank e = true
      · rw [List.filter_cons_of_pos hne, List.map_cons, List.nodup_cons] at hn
        exact hn.2
      · rwa [List.filter_cons_of_neg hne] at hn
    obtain ⟨i1, st1', i2, i3, i4⟩ := feed_sim hQ hcan Φ es s st1 s' g3 g1 h2 (fun x hx => hb x (by simp [hx])) hn' (by
      intro x hx
      by_cases hnx : notBlank x = true
      · have := hr x (by simp [hx])
        rw [hlog, List.filter_append, (List.filter_eq_nil_iff (l := hintsOf (dialplanStep env st e).log)).2, List.nil_append] at this
        · exact this
        · intro m hm
          obtain ⟨k1, k2⟩ := hfst m hm
          rw [List.filter_cons_of_pos k2, List.map_cons, List.nodup_cons] at hn
          simp only [decide_eq_true_eq]
          intro he
          refine hn.1 (List.mem_map.2 ⟨x, List.mem_filter.2 ⟨hx, hnx⟩, ?_⟩)
          rw [← he, k1]
      · obtain ⟨b1, b2⟩ := hb x (by simp [hx]) (by simpa using hnx)
        have := hr x (by simp [hx])
        rw [hlog, List.filter_append] at this
        rw [b1] at this ⊢
        refine .same ?_ b2
        have hz : (hintsOf (dialplanStep env st e).log).filter (·.at_ = x.at_) ++
            (hintsOf (feed (dialplanStep env) s es).log).filter (·.at_ = x.at_) = [] := by
          generalize hgen : (hintsOf (dialplanStep env st e).log).filter (·.at_ = x.at_) ++
            (hintsOf (feed (dialplanStep env) s es).log).filter (·.at_ = x.at_) = l at this
          cases this with
          | same h => exact h
          | line => exact absurd rfl hnx
        exact (List.append_eq_nil_iff.1 hz).2)
    refine ⟨i1, st1', ?_, i3, ?_⟩
    · rw [List.map_cons, feed, Res.bind_of_ok (wrapExc_ok.2 g2)]
      exact i2
    · rw [List.map_cons, feed, Res.bind_of_ok (wrapExc_ok.2 g2)]
      dsimp only
      rw [hintsOf_append, wrapExc_log, g4, i4]; rfl

end

end ALint
