import Verif.Spec.Sections
import Verif.Props.Splice
import Verif.Proofs.DialplanText
import Verif.Proofs.DialplanLine
import Verif.Proofs.Web
import Verif.Proofs.Spelled

/-!
# The sections of a dialplan file (proofs)
-/

namespace ALint.Proofs
open ALint Spec Props

/-! ## The spelling of `Background` stays -/

theorem callApp_stays {env : FEnv} {inner : Option Str → Arg → Tr (Option Str)} {x : Str}
    (hi : ∀ raw sp', (inner (some x) raw).val = .ok sp' → sp' = some x)
    {w : Where} {app : AppInfo} {data : V} {r : Option Str × List Jump}
    (h : (callApp env inner (some x) w app data).val = .ok r) : r.1 = some x := by
  have hex : ∀ (as : List Arg) (sp' : Option Str), (execAll inner (some x) as).val = .ok sp' → sp' = some x := by
    intro as
    induction as with
    | nil => intro sp' h; simp only [execAll, Tr.pure, Except.ok.injEq] at h; exact h.symm
    | cons a as ih =>
      intro sp' h
      rw [execAll] at h
      obtain ⟨s, h1, h2, -⟩ := Tr.bind_ok h
      have := hi _ _ h1
      subst this
      exact ih _ h2
  unfold callApp at h
  cases hb : app.beh <;> rw [hb] at h <;> dsimp only at h
  all_goals first
    | (obtain ⟨_, _, h2, _⟩ := Tr.bind_ok h
       first
        | (simp only [Tr.pure, Except.ok.injEq] at h2; subst h2; rfl)
        | (obtain ⟨_, _, h2, _⟩ := Tr.bind_ok h2
           simp only [Tr.pure, Except.ok.injEq] at h2; subst h2; rfl))
    | skip
  obtain ⟨p, _, h2, -⟩ := Tr.bind_ok h
  obtain ⟨sp', h4, h5, -⟩ := Tr.bind_ok h2
  simp only [Tr.pure, Except.ok.injEq] at h5
  subst h5
  exact hex _ _ h4

theorem runApp_stays (env : AEnv) {x : Str} : ∀ (depth : Nat) (w : Where) (raw : Arg)
    (r : Option Str × List Jump), (runApp env depth (some x) w raw).val = .ok r → r.1 = some x := by
  intro depth
  induction depth with
  | zero => intro w raw r h; simp [runApp, Tr.raise] at h
  | succ depth ih =>
    intro w raw r h
    rw [runApp] at h
    obtain ⟨y, h1, h2, -⟩ := Tr.bind_ok h
    cases y with
    | none => simp only [Tr.pure, Except.ok.injEq] at h2; subst h2; rfl
    | some y =>
      obtain ⟨app, data⟩ := y
      dsimp only at h2
      obtain ⟨a, h4, h5, -⟩ := Tr.bind_ok h2
      obtain ⟨d, h7, h8, -⟩ := Tr.bind_ok h5
      have ha : a.2 = some x := by
        unfold getApp at h4
        cases hx : (env.apps (env.lower app)).or (env.apps (c! "unknown")) with
        | none => rw [hx] at h4; simp [Tr.raise] at h4
        | some b =>
          rw [hx] at h4
          dsimp only at h4
          obtain ⟨_, _, k2, -⟩ := Tr.bind_ok h4
          obtain ⟨_, _, k4, -⟩ := Tr.bind_ok k2
          simp only [Tr.pure, Except.ok.injEq] at k4
          subst k4
          simp [chooseSpelling]
      rw [ha] at h8
      refine callApp_stays (fun raw sp' h => ?_) h8
      obtain ⟨r, k1, k2, -⟩ := Tr.bind_ok h
      simp only [Tr.pure, Except.ok.injEq] at k2
      subst k2
      exact ih _ _ _ k1

theorem fromVarset_stays {env : DEnv} {x : Str} {v : VarE} {r : Option Str × List Ev × DVar}
    (h : (fromVarset env (some x) v).val = .ok r) : r.1 = some x := by
  have hx : ∀ r, (readExten env (some x) v).val = .ok r → r.1 = some x := by
    intro r h
    unfold readExten at h
    obtain ⟨pr, _, h, _⟩ := Res.bind_ok h
    obtain ⟨prio, _, h, _⟩ := Res.bind_ok h
    split at h
    · simp only [Res.pure_val, Except.ok.injEq] at h; subst h; rfl
    obtain ⟨label, _, h, _⟩ := Res.bind_ok h
    split at h
    · simp only [Res.pure_val, Except.ok.injEq] at h; subst h; rfl
    obtain ⟨pat, _, h, _⟩ := Res.bind_ok h
    obtain ⟨a, ha, h, _⟩ := Res.bind_ok h
    simp only [Res.pure_val, Except.ok.injEq] at h
    subst h
    unfold Tr.toRes at ha
    dsimp only at ha
    cases hr : (runApp env.toAEnv env.depth (some x) v.at_ (strV (splitApp pr.2).2)).val with
    | error e => rw [hr] at ha; simp [Except.map] at ha
    | ok b =>
      rw [hr] at ha
      simp only [Except.map, Except.ok.injEq] at ha
      subst ha
      exact runApp_stays _ _ _ _ _ hr
  unfold fromVarset at h
  repeat' split at h
  all_goals first
    | (obtain ⟨_, _, h, _⟩ := Res.bind_ok h
       first
        | exact hx r h
        | (simp only [Res.pure_val, Except.ok.injEq] at h; subst h; rfl)
        | (obtain ⟨_, _, h, _⟩ := Res.bind_ok h
           simp only [Res.pure_val, Except.ok.injEq] at h; subst h; rfl))
    | (simp only [Res.pure_val, Except.ok.injEq] at h; subst h; rfl)

theorem step_stays {env : DEnv} {x : Str} {st st' : DState} {e : Elem} (hi : st.sp = some x)
    (h : (dialplanStep env st e).val = .ok st') : st'.sp = some x := by
  cases e with
  | empty _ _ => simp only [dialplanStep, Res.pure_val, Except.ok.injEq] at h; subst h; exact hi
  | ctx c =>
    simp only [dialplanStep, onContext] at h
    split at h
    · obtain ⟨_, _, h, _⟩ := Res.bind_ok h
      simp only [Res.pure_val, Except.ok.injEq] at h; subst h; exact hi
    · split at h
      · obtain ⟨_, _, h, _⟩ := Res.bind_ok h
        simp only [Res.pure_val, Except.ok.injEq] at h; subst h; exact hi
      · obtain ⟨_, _, h, _⟩ := Res.bind_ok h
        obtain ⟨_, _, h, _⟩ := Res.bind_ok h
        simp only [Res.pure_val, Except.ok.injEq] at h; subst h; exact hi
  | var v =>
    simp only [dialplanStep, onVarset] at h
    split at h
    · obtain ⟨_, _, h, _⟩ := Res.bind_ok h
      simp only [Res.pure_val, Except.ok.injEq] at h; subst h; exact hi
    · simp only [Res.pure_val, Except.ok.injEq] at h; subst h; exact hi
    · simp only [Res.pure_val, Except.ok.injEq] at h; subst h; exact hi
    · simp only [Res.pure_val, Except.ok.injEq] at h; subst h; exact hi
    · split at h
      · simp at h
      · obtain ⟨r, h1, h, _⟩ := Res.bind_ok h
        obtain ⟨_, _, h, _⟩ := Res.bind_ok h
        simp only [Res.pure_val, Except.ok.injEq] at h
        subst h
        rw [hi] at h1
        exact fromVarset_stays h1

theorem tellAll_stays {env : DEnv} {x : Str} : ∀ (told : List Told) {s s' : DState}, s.sp = some x →
    (tellAll env s told).val = .ok s' → s'.sp = some x
  | [], s, s', hi, h => by
    simp only [tellAll, Res.pure_val, Except.ok.injEq] at h
    exact h ▸ hi
  | y :: ys, s, s', hi, h => by
    simp only [tellAll] at h
    obtain ⟨_, -, h3, -⟩ := Res.bind_ok h
    obtain ⟨m, h4, h5, -⟩ := Res.bind_ok h3
    exact tellAll_stays ys (feed_inv (fun s => s.sp = some x) (fun _ _ _ a b => step_stays a b) _ _ _ hi h4) h5

/-- If it is the same at both ends it is the same in between. -/
theorem tellAll_between {env : DEnv} {a b : List Told} {s m s' : DState} (h1 : (tellAll env s a).val = .ok m)
    (h2 : (tellAll env m b).val = .ok s') (he : s'.sp = s.sp) : m.sp = s.sp := by
  cases hs : s.sp with
  | some x => rw [tellAll_stays a hs h1]
  | none =>
    cases hm : m.sp with
    | none => rfl
    | some x =>
      have := tellAll_stays b hm h2
      rw [he, hs] at this
      cases this

/-! ## A section, from two states -/

/-- The states `s` and `t` have come from `s0` and `t0` by the same lines of the context `a`. -/
structure Along (a : Str) (s0 t0 s t : DState) : Prop where
  here : s.dp.get a = t.dp.get a
  sp : s.sp = t.sp
  elseS : ∀ n, n ≠ a → s.dp.get n = s0.dp.get n
  elseT : ∀ n, n ≠ a → t.dp.get n = t0.dp.get n
  namesS : (s.dp.contexts.map (·.name)).Nodup
  namesT : (t.dp.contexts.map (·.name)).Nodup
  fixS : s.dp.general = s0.dp.general ∧ s.dp.globals = s0.dp.globals
  fixT : t.dp.general = t0.dp.general ∧ t.dp.globals = t0.dp.globals
  labels : ∃ l, s.dp.allLabels = s0.dp.allLabels ++ l ∧ t.dp.allLabels = t0.dp.allLabels ++ l
  dests : ∃ l, s.dp.dests = s0.dp.dests ++ l ∧ t.dp.dests = t0.dp.dests ++ l

/-- Within the section. -/
structure Inside (a : Str) (s0 t0 s t : DState) : Prop extends Along a s0 t0 s t where
  curS : s.cur = .ctx a
  curT : t.cur = .ctx a
  there : ∃ c, s.dp.get a = some c

theorem along_init {a : Str} {s t : DState} (here : s.dp.get a = t.dp.get a) (sp : s.sp = t.sp)
    (ns : (s.dp.contexts.map (·.name)).Nodup) (nt : (t.dp.contexts.map (·.name)).Nodup) : Along a s t s t :=
  ⟨here, sp, fun _ _ => rfl, fun _ _ => rfl, ns, nt, ⟨rfl, rfl⟩, ⟨rfl, rfl⟩, ⟨[], by simp⟩, ⟨[], by simp⟩⟩

/-- What is put in place of the context of that name. -/
theorem get_putted {dp : Dialplan} {c d : DCtx} {a : Str} (hc : dp.get a = some c) (hd : d.name = a) (dp' : Dialplan)
    (h : dp'.contexts = putCtx d dp.contexts) : dp'.get a = some d ∧ ∀ m, m ≠ a → dp'.get m = dp.get m := by
  have := get_put hc hd
  unfold Dialplan.get at this ⊢
  rw [h]
  exact this

theorem inside_var {env : DEnv} {a : Str} {s0 t0 s t : DState} (h : Inside a s0 t0 s t) (v : VarE)
    (hind : ∀ r, (fromVarset env s.sp v).val = .ok r → ∀ e c, r.2.2 = .ext e → addExt s.dp.lastPrio c e = addExt t.dp.lastPrio c e) :
    (dialplanStep env s (.var v)).log = (dialplanStep env t (.var v)).log ∧ ∀ s', (dialplanStep env s (.var v)).val = .ok s' →
      ∃ t' r, (dialplanStep env t (.var v)).val = .ok t' ∧ Inside a s0 t0 s' t' ∧ (fromVarset env s.sp v).val = .ok r ∧
        (s.dp.lastPrio = t.dp.lastPrio ∨ (∃ e, r.2.2 = .ext e) → s'.dp.lastPrio = t'.dp.lastPrio) := by
  obtain ⟨c, hc⟩ := h.there
  have hc' : t.dp.get a = some c := h.here ▸ hc
  have hcn := (get_mem hc).2
  simp only [dialplanStep, onVarset, h.curS, h.curT, hc, hc', ← h.sp]
  cases hr : (fromVarset env s.sp v).val with
  | error e => rw [Res.bind_of_error hr, Res.bind_of_error hr]; exact ⟨rfl, fun s' h => by cases h⟩
  | ok r =>
    rw [Res.bind_of_ok hr, Res.bind_of_ok hr]
    obtain ⟨sp', us, dv⟩ := r
    cases dv with
    | nothing =>
      refine ⟨rfl, fun s' h' => ?_⟩
      simp only [onDVar, Res.pure_bind, Res.pure_val, Except.ok.injEq] at h'
      subst h'
      refine ⟨_, _, rfl, ⟨⟨h.here, rfl, h.elseS, h.elseT, h.namesS, h.namesT, h.fixS, h.fixT, h.labels, h.dests⟩, rfl, rfl, c, hc⟩, rfl, ?_⟩
      rintro (e | ⟨e, he⟩)
      · exact e
      · cases he
    | include_ name w =>
      refine ⟨rfl, fun s' h' => ?_⟩
      simp only [onDVar, Res.pure_bind, Res.pure_val, Except.ok.injEq] at h'
      subst h'
      have gs := get_putted (d := { c with includes := c.includes ++ [(name, w)] }) hc hcn
        { s.dp with contexts := putCtx { c with includes := c.includes ++ [(name, w)] } s.dp.contexts } rfl
      have gt := get_putted (d := { c with includes := c.includes ++ [(name, w)] }) hc' hcn
        { t.dp with contexts := putCtx { c with includes := c.includes ++ [(name, w)] } t.dp.contexts } rfl
      refine ⟨_, _, rfl, ⟨⟨gs.1.trans gt.1.symm, rfl, fun n hn => (gs.2 n hn).trans (h.elseS n hn),
        fun n hn => (gt.2 n hn).trans (h.elseT n hn), ?_, ?_, h.fixS, h.fixT, h.labels, h.dests⟩, rfl, rfl, _, gs.1⟩, rfl, ?_⟩
      · show ((putCtx _ s.dp.contexts).map _).Nodup
        rw [putCtx_names]; exact h.namesS
      · show ((putCtx _ t.dp.contexts).map _).Nodup
        rw [putCtx_names]; exact h.namesT
      · rintro (e | ⟨e, he⟩)
        · exact e
        · cases he
    | ext e =>
      have hadd := hind _ hr e c rfl
      simp only [onDVar, Res.bind_assoc, hadd]
      cases hcan : (canonCheck e).val with
      | error x => rw [Res.bind_of_error hcan, Res.bind_of_error hcan]; exact ⟨rfl, fun s' h => by cases h⟩
      | ok _ =>
        rw [Res.bind_of_ok hcan, Res.bind_of_ok hcan]
        cases ha : (addExt t.dp.lastPrio c e).val with
        | error x => rw [Res.bind_of_error ha, Res.bind_of_error ha]; exact ⟨rfl, fun s' h => by cases h⟩
        | ok ad =>
          rw [Res.bind_of_ok ha, Res.bind_of_ok ha]
          refine ⟨rfl, fun s' h' => ?_⟩
          simp only [Res.pure_bind, Res.pure_val, Except.ok.injEq] at h'
          subst h'
          have hn : ad.ctx.name = a := (addCase_frame (addExt_cases ha)).1.trans hcn
          have gs := get_putted hc hn (s.dp.withAdded ad) rfl
          have gt := get_putted hc' hn (t.dp.withAdded ad) rfl
          obtain ⟨l, l1, l2⟩ := h.labels
          obtain ⟨ds, d1, d2⟩ := h.dests
          refine ⟨_, _, rfl, ⟨⟨gs.1.trans gt.1.symm, rfl, fun n hn => (gs.2 n hn).trans (h.elseS n hn),
            fun n hn => (gt.2 n hn).trans (h.elseT n hn), ?_, ?_, h.fixS, h.fixT, ⟨l ++ ad.labels, ?_, ?_⟩, ⟨ds ++ ad.dests, ?_, ?_⟩⟩,
            rfl, rfl, _, gs.1⟩, rfl, fun _ => rfl⟩
          · show ((putCtx _ s.dp.contexts).map _).Nodup
            rw [putCtx_names]; exact h.namesS
          · show ((putCtx _ t.dp.contexts).map _).Nodup
            rw [putCtx_names]; exact h.namesT
          · show s.dp.allLabels ++ ad.labels = _
            rw [l1, List.append_assoc]
          · show t.dp.allLabels ++ ad.labels = _
            rw [l2, List.append_assoc]
          · show s.dp.dests ++ ad.dests = _
            rw [d1, List.append_assoc]
          · show t.dp.dests ++ ad.dests = _
            rw [d2, List.append_assoc]

/-- A step with a priority of its own does not look at the last one. -/
theorem addExt_own {last last' : Option Nat} {c : DCtx} {e : ExtLine} {n : Nat} (hp : e.pat.isSome = true) (hn : e.prio = some n) (h1 : 1 ≤ n) :
    addExt last c e = addExt last' c e := by
  unfold addExt
  dsimp only
  have : ∃ p, resolvePat { c with sorted := none } e = some p := by
    unfold resolvePat
    cases he : e.pat with
    | none => rw [he] at hp; cases hp
    | some p => exact ⟨p, rfl⟩
  obtain ⟨⟨raw, pat⟩, hr⟩ := this
  rw [hr]
  dsimp only
  have h0 : ¬ n < 1 := by omega
  simp only [resolvePrio, hn, h0, if_false]
  by_cases h2 : n ≠ 1
  · simp only [h2, ne_eq, not_false_eq_true, if_true]
    cases lastOf c.steps pat with
    | none => simp only [Res.bind_assoc, Res.pure_bind]
    | some prev =>
      dsimp only
      split
      · simp only [Res.bind_assoc, Res.pure_bind]
      · simp only [Res.pure_bind]
  · simp only [h2, if_false, Res.pure_bind]

/-- Either the last priority is the same, or it does not matter. -/
def Settled (s t : DState) (vs : List VarE) : Prop := s.dp.lastPrio = t.dp.lastPrio ∨ OwnStart vs

theorem settled_var {env : DEnv} {s t : DState} {v : VarE} {vs : List VarE} (h : Settled s t (v :: vs)) :
    (∀ r, (fromVarset env s.sp v).val = .ok r → ∀ e c, r.2.2 = .ext e → addExt s.dp.lastPrio c e = addExt t.dp.lastPrio c e) ∧
    ∀ r, (fromVarset env s.sp v).val = .ok r → s.dp.lastPrio = t.dp.lastPrio ∨ (∃ e, r.2.2 = .ext e) ∨ OwnStart vs := by
  rcases h with h | h
  · exact ⟨fun _ _ e c _ => by rw [h], fun _ _ => .inl h⟩
  · cases h with
    | other k1 k2 hv =>
      refine ⟨fun r hr e c he => ?_, fun _ _ => .inr (.inr hv)⟩
      have hcase := fromVarset_cases hr
      generalize (fromVarset env s.sp v).log = lg at hcase
      cases hcase with
      | line _ ms hk _ => exact absurd hk (by simp [k1, k2])
      | incl _ => cases he
      | other ms _ _ => cases he
    | @step _ _ p raw n ht he hp h1 =>
      have hk : v.key = c! "exten" ∨ v.key = c! "same" := by
        obtain ⟨_, hkey, _⟩ := ht
        rw [he] at hkey
        exact .inl hkey
      have key : ∀ r, (fromVarset env s.sp v).val = .ok r → ∃ e, r.2.2 = .ext e ∧ e.pat.isSome = true ∧ e.prio = some n := by
        intro r hr
        unfold fromVarset at hr
        rw [if_pos hk, readExten_text env s.sp ht, he] at hr
        obtain ⟨_, -, hr, -⟩ := Res.bind_ok hr
        obtain ⟨pat, hpat, hr, -⟩ := Res.bind_ok hr
        obtain ⟨x, -, hr, -⟩ := Res.bind_ok hr
        simp only [Res.pure_val, Except.ok.injEq] at hr
        subst hr
        refine ⟨_, rfl, ?_, hp⟩
        simp only [Res.lift_val, readPattern] at hpat
        split at hpat
        · simp only [Except.ok.injEq] at hpat; subst hpat; rfl
        · cases hpat
      refine ⟨fun r hr e c hre => ?_, fun r hr => ?_⟩
      · obtain ⟨e', h2, h3, h4⟩ := key r hr
        rw [hre] at h2
        cases h2
        exact addExt_own h3 h4 h1
      · obtain ⟨e', h2, -, -⟩ := key r hr
        exact .inr (.inl ⟨e', h2⟩)

/-- The lines below the header. -/
theorem inside_told {env : DEnv} {a : Str} : ∀ (told : List Told) {s0 t0 s t : DState}, Inside a s0 t0 s t →
    Settled s t (varsOf (elemsOf told)) → (∀ x ∈ told, ∀ c, x.gives ≠ .elem (.ctx c)) →
    ∀ s', (tellAll env s told).val = .ok s' →
      ∃ t', (tellAll env t told).val = .ok t' ∧ Along a s0 t0 s' t' ∧ (tellAll env s told).log = (tellAll env t told).log
  | [], s0, t0, s, t, h, _, _ => by
    intro s' h'
    simp only [tellAll, Res.pure_val, Except.ok.injEq] at h'
    subst h'
    exact ⟨t, rfl, h.toAlong, rfl⟩
  | x :: xs, s0, t0, s, t, h, hset, hb => by
    have hbs : ∀ y ∈ xs, ∀ c, y.gives ≠ .elem (.ctx c) := fun y hy => hb y (List.mem_cons_of_mem _ hy)
    have simple : elemsOf (x :: xs) = elemsOf xs ∨ (∃ b w, elemsOf (x :: xs) = .empty b w :: elemsOf xs) →
        feed (dialplanStep env) s x.gives.elem?.toList = .pure s → feed (dialplanStep env) t x.gives.elem?.toList = .pure t →
        ∀ s', (tellAll env s (x :: xs)).val = .ok s' →
          ∃ t', (tellAll env t (x :: xs)).val = .ok t' ∧ Along a s0 t0 s' t' ∧
            (tellAll env s (x :: xs)).log = (tellAll env t (x :: xs)).log := by
      intro he f1 f2
      have hv : varsOf (elemsOf (x :: xs)) = varsOf (elemsOf xs) := by
        rcases he with he | ⟨b, w, he⟩ <;> rw [he]
        rfl
      rw [hv] at hset
      have ih := inside_told (env := env) xs h hset hbs
      simp only [tellAll, f1, f2, Res.pure_bind]
      intro s' h'
      rw [Res.bind_of_ok (a := ()) rfl] at h'
      obtain ⟨t', h4, h5, h6⟩ := ih s' h'
      rw [Res.bind_of_ok (a := ()) rfl, Res.bind_of_ok (a := ()) rfl]
      exact ⟨t', h4, h5, by simp only [h6]⟩
    cases hg : x.gives with
    | file f =>
      have e : x.gives.elem?.toList = [] := by rw [hg]; rfl
      exact simple (.inl (by simp [elemsOf, hg, Gives.elem?])) (by rw [e]; rfl) (by rw [e]; rfl)
    | nothing =>
      have e : x.gives.elem?.toList = [] := by rw [hg]; rfl
      exact simple (.inl (by simp [elemsOf, hg, Gives.elem?])) (by rw [e]; rfl) (by rw [e]; rfl)
    | elem e =>
      cases e with
      | ctx c => exact absurd hg (hb x List.mem_cons_self c)
      | empty b w =>
        have e : x.gives.elem?.toList = [.empty b w] := by rw [hg]; rfl
        exact simple (.inr ⟨b, w, by simp [elemsOf, hg, Gives.elem?]⟩) (by rw [e]; rfl) (by rw [e]; rfl)
      | var v =>
        have e : x.gives.elem?.toList = [.var v] := by rw [hg]; rfl
        have hv : varsOf (elemsOf (x :: xs)) = v :: varsOf (elemsOf xs) := by simp [elemsOf, hg, Gives.elem?, varsOf]
        rw [hv] at hset
        obtain ⟨k1, k2⟩ := settled_var (env := env) hset
        obtain ⟨l1, l2⟩ := inside_var h v k1
        simp only [tellAll, e, feed, Res.bind_assoc, Res.pure_bind]
        intro s' h'
        obtain ⟨_, -, h3, -⟩ := Res.bind_ok h'
        obtain ⟨s1, h4, h5, -⟩ := Res.bind_ok h3
        obtain ⟨t1, r, m1, m2, m3, m4⟩ := l2 s1 (wrapExc_ok.1 h4)
        have hset' : Settled s1 t1 (varsOf (elemsOf xs)) := by
          rcases k2 r m3 with q | q | q
          · exact .inl (m4 (.inl q))
          · exact .inl (m4 (.inr q))
          · exact .inr q
        obtain ⟨t', i1, i2, i3⟩ := inside_told xs m2 hset' hbs s' h5
        have ht' := wrapExc_ok.2 m1
        rw [Res.bind_of_ok (a := ()) rfl, Res.bind_of_ok (a := ()) rfl, Res.bind_of_ok h4, Res.bind_of_ok ht']
        exact ⟨t', i1, i2, by simp only [wrapExc_log, l1, i3]⟩

/-- A whole section. -/
theorem along_section {env : DEnv} {a : Str} {told : List Told} (hsec : SectionLines a told) {s t : DState}
    (here : s.dp.get a = t.dp.get a) (sp : s.sp = t.sp)
    (ns : (s.dp.contexts.map (·.name)).Nodup) (nt : (t.dp.contexts.map (·.name)).Nodup) {s' : DState}
    (h : (tellAll env s told).val = .ok s') :
    ∃ t', (tellAll env t told).val = .ok t' ∧ Along a s t s' t' ∧ (tellAll env s told).log = (tellAll env t told).log := by
  obtain ⟨c, hc, hname⟩ := hsec.header
  cases told with
  | nil => cases hc
  | cons x xs =>
    simp only [List.head?_cons, Option.map_some, Option.some.injEq] at hc
    have e : x.gives.elem?.toList = [.ctx c] := by rw [hc]; rfl
    have hg1 : ¬ c.name = c! "general" := by rw [hname]; exact hsec.named.1
    have hg2 : ¬ c.name = c! "globals" := by rw [hname]; exact hsec.named.2
    simp only [tellAll, e, feed, Res.bind_assoc, Res.pure_bind] at h ⊢
    obtain ⟨_, -, h3, -⟩ := Res.bind_ok h
    obtain ⟨s1, h4, h5, -⟩ := Res.bind_ok h3
    have h4' := wrapExc_ok.1 h4
    have key : ∃ t1, (dialplanStep env t (.ctx c)).val = .ok t1 ∧ Inside a s t s1 t1 ∧
        (dialplanStep env s (.ctx c)).log = (dialplanStep env t (.ctx c)).log := by
      have hal := along_init here sp ns nt
      simp only [dialplanStep, onContext, hg1, hg2, if_false] at h4' ⊢
      obtain ⟨_, g1, h6, -⟩ := Res.bind_ok h4'
      obtain ⟨dp, h7, h8, -⟩ := Res.bind_ok h6
      simp only [Res.pure_val, Except.ok.injEq] at h8
      subst h8
      simp only [Res.lift_val, onDialplanContext] at h7
      rw [Res.bind_of_ok g1, Res.bind_of_ok g1]
      simp only [onDialplanContext]
      rw [hname, ← here]
      rw [hname] at h7
      cases hs : s.dp.get a with
      | some old =>
        have ht := here ▸ hs
        rw [hs] at h7
        dsimp only at h7 ⊢
        cases hu : updateCtx old c with
        | error e => rw [hu] at h7; cases h7
        | ok new =>
          rw [hu] at h7
          dsimp only at h7 ⊢
          simp only [Except.ok.injEq] at h7
          subst h7
          have hn : new.name = a := by
            have : new.name = old.name := by
              unfold updateCtx at hu
              split at hu
              · cases hu
              · split at hu
                · cases hu
                · simp only [Except.ok.injEq] at hu; subst hu; rfl
            rw [this]; exact (get_mem hs).2
          have gs := get_putted hs hn { s.dp with contexts := putCtx new s.dp.contexts } rfl
          have gt := get_putted ht hn { t.dp with contexts := putCtx new t.dp.contexts } rfl
          refine ⟨_, rfl, ⟨⟨gs.1.trans gt.1.symm, sp, gs.2, gt.2, ?_, ?_, ⟨rfl, rfl⟩, ⟨rfl, rfl⟩, ⟨[], by simp⟩, ⟨[], by simp⟩⟩, rfl, rfl, _, gs.1⟩, rfl⟩
          · show ((putCtx _ s.dp.contexts).map _).Nodup
            rw [putCtx_names]; exact ns
          · show ((putCtx _ t.dp.contexts).map _).Nodup
            rw [putCtx_names]; exact nt
      | none =>
        have ht := here ▸ hs
        rw [hs] at h7
        dsimp only at h7 ⊢
        simp only [Except.ok.injEq] at h7
        subst h7
        have app : ∀ (dp : Dialplan), dp.get a = none → (dp.contexts.map (·.name)).Nodup → ∀ d : DCtx, d.name = a →
            ({ dp with contexts := dp.contexts ++ [d] } : Dialplan).get a = some d ∧
            (∀ m, m ≠ a → ({ dp with contexts := dp.contexts ++ [d] } : Dialplan).get m = dp.get m) ∧
            ((dp.contexts ++ [d]).map (·.name)).Nodup := by
          intro dp hnone hnd d hd
          unfold Dialplan.get at hnone ⊢
          dsimp only
          refine ⟨?_, fun m hm => ?_, ?_⟩
          · rw [List.find?_append, hnone]; simp [hd]
          · rw [List.find?_append]
            have : ¬ d.name = m := fun e => hm (by rw [← e, hd])
            simp [this]
          · rw [List.map_append, List.nodup_append]
            refine ⟨hnd, by simp, ?_⟩
            intro x hx y hy he
            simp only [List.map_cons, List.map_nil, List.mem_singleton] at hy
            subst hy he
            rw [List.find?_eq_none] at hnone
            obtain ⟨z, hz, hz2⟩ := List.mem_map.1 hx
            exact hnone z hz (by simp [hz2, hd])
        have gs := app s.dp hs ns ⟨a, c.at_, [], [], none, [], none⟩ rfl
        have gt := app t.dp ht nt ⟨a, c.at_, [], [], none, [], none⟩ rfl
        exact ⟨_, rfl, ⟨⟨gs.1.trans gt.1.symm, sp, gs.2.1, gt.2.1, gs.2.2, gt.2.2, ⟨rfl, rfl⟩, ⟨rfl, rfl⟩, ⟨[], by simp⟩, ⟨[], by simp⟩⟩, rfl, rfl, _, gs.1⟩, rfl⟩
    obtain ⟨t1, k1, k2, k3⟩ := key
    have hown : OwnStart (varsOf (elemsOf xs)) := by
      have : varsOf (elemsOf (x :: xs)) = varsOf (elemsOf xs) := by simp [elemsOf, hc, Gives.elem?, varsOf]
      rw [← this]; exact hsec.own
    obtain ⟨t', i1, i2, i3⟩ := inside_told xs k2 (.inr hown) (fun y hy => (hsec.body y hy).1) s' h5
    have ht' := wrapExc_ok.2 k1
    rw [Res.bind_of_ok (a := ()) rfl, Res.bind_of_ok (a := ()) rfl, Res.bind_of_ok h4, Res.bind_of_ok ht']
    exact ⟨t', i1, i2, by simp only [wrapExc_log, k3, i3]⟩

/-! ## Sections in another order -/

/-- The same things, those with the same name in the same order. -/
inductive Regrouped {α : Type} : List (Str × α) → List (Str × α) → Prop
  | nil : Regrouped [] []
  | cons (x : Str × α) {l l' : List (Str × α)} : Regrouped l l' → Regrouped (x :: l) (x :: l')
  | swap (x y : Str × α) (l : List (Str × α)) : y.1 ≠ x.1 → Regrouped (y :: x :: l) (x :: y :: l)
  | trans {l m n : List (Str × α)} : Regrouped l m → Regrouped m n → Regrouped l n

theorem regrouped_refl {α : Type} : ∀ l : List (Str × α), Regrouped l l
  | [] => .nil
  | x :: l => .cons x (regrouped_refl l)

theorem regrouped_perm {α : Type} {l l' : List (Str × α)} (h : Regrouped l l') : l.Perm l' := by
  induction h with
  | nil => exact .refl _
  | cons x _ ih => exact ih.cons x
  | swap x y l _ => exact .swap x y l
  | trans _ _ ih1 ih2 => exact ih1.trans ih2

theorem regrouped_map {α β : Type} {f : Str × α → Str × β} (hf : ∀ x, (f x).1 = x.1) {l l' : List (Str × α)} (h : Regrouped l l') :
    Regrouped (l.map f) (l'.map f) := by
  induction h with
  | nil => exact .nil
  | cons x _ ih => exact .cons _ ih
  | swap x y l hne => exact .swap _ _ _ (by rw [hf, hf]; exact hne)
  | trans _ _ ih1 ih2 => exact ih1.trans ih2

theorem regrouped_lifted {α β : Type} {f : Str × α → Str × β} (hf : ∀ x, (f x).1 = x.1) {m m' : List (Str × β)} (h : Regrouped m m') :
    ∀ {l : List (Str × α)}, l.map f = m → ∃ l', Regrouped l l' ∧ l'.map f = m' := by
  induction h with
  | nil => intro l h; exact ⟨l, regrouped_refl l, h⟩
  | cons x _ ih =>
    intro l h
    cases l with
    | nil => cases h
    | cons a l =>
      simp only [List.map_cons, List.cons.injEq] at h
      obtain ⟨l', h1, h2⟩ := ih h.2
      exact ⟨a :: l', h1.cons a, by rw [List.map_cons, h2, h.1]⟩
  | swap x y m hne =>
    intro l h
    cases l with
    | nil => cases h
    | cons a l =>
      cases l with
      | nil => simp at h
      | cons b l =>
        simp only [List.map_cons, List.cons.injEq] at h
        refine ⟨b :: a :: l, .swap _ _ _ ?_, by simp [h.1, h.2.1, h.2.2]⟩
        rw [← hf a, ← hf b, h.1, h.2.1]
        exact hne
  | trans _ _ ih1 ih2 =>
    intro l h
    obtain ⟨l1, h1, h2⟩ := ih1 h
    obtain ⟨l2, h3, h4⟩ := ih2 h2
    exact ⟨l2, h1.trans h3, h4⟩

theorem regrouped_up {α : Type} (x : Str × α) (q : List (Str × α)) : ∀ p : List (Str × α), (∀ y ∈ p, y.1 ≠ x.1) →
    Regrouped (x :: (p ++ q)) (p ++ x :: q)
  | [], _ => regrouped_refl _
  | y :: p, h => .trans (.swap y x (p ++ q) (h y List.mem_cons_self).symm)
      (.cons y (regrouped_up x q p fun z hz => h z (List.mem_cons_of_mem _ hz)))

theorem regrouped_of {α : Type} : ∀ {l l' : List (Str × α)}, (∀ a, l.filter (·.1 = a) = l'.filter (·.1 = a)) → Regrouped l l'
  | [], l', h => by
    cases l' with
    | nil => exact .nil
    | cons x l' => have := h x.1; simp at this
  | x :: l, l', h => by
    have hx := h x.1
    rw [List.filter_cons_of_pos (by simp)] at hx
    obtain ⟨p, q, rfl, hp, -, hq⟩ := List.filter_eq_cons_iff.1 hx.symm
    have hp' : ∀ y ∈ p, y.1 ≠ x.1 := fun y hy e => hp y hy (by simp [e])
    refine .trans (.cons x (regrouped_of (l' := p ++ q) fun a => ?_)) (regrouped_up x q p hp')
    have ha := h a
    by_cases hxa : x.1 = a
    · subst hxa
      have hnil : p.filter (fun y => decide (y.1 = x.1)) = [] := List.filter_eq_nil_iff.2 fun y hy => by simpa using hp' y hy
      rw [List.filter_append, ← hq, hnil]
      rfl
    · rw [List.filter_cons_of_neg (by simpa using hxa), List.filter_append, List.filter_cons_of_neg (by simpa using hxa)] at ha
      rw [ha, List.filter_append]

theorem regrouped_names {α : Type} {l l' : List (Str × α)} (h : l.Perm l') : (l.map (·.1)).Nodup → Regrouped l l' := by
  induction h with
  | nil => exact fun _ => .nil
  | cons x _ ih => exact fun hnd => .cons x (ih (List.nodup_cons.1 hnd).2)
  | swap x y l =>
    intro hnd
    simp only [List.map_cons, List.nodup_cons, List.mem_cons, not_or] at hnd
    exact .swap _ _ _ hnd.1.1
  | trans p _ ih1 ih2 => exact fun hnd => .trans (ih1 hnd) (ih2 ((p.map _).nodup_iff.1 hnd))

/-- Two states that differ in the order of things. -/
structure Shuffled (s t : DState) : Prop where
  gets : ∀ n, s.dp.get n = t.dp.get n
  sp : s.sp = t.sp
  namesS : (s.dp.contexts.map (·.name)).Nodup
  namesT : (t.dp.contexts.map (·.name)).Nodup
  general : s.dp.general = t.dp.general
  globals : s.dp.globals = t.dp.globals
  labels : s.dp.allLabels.Perm t.dp.allLabels
  dests : s.dp.dests.Perm t.dp.dests

theorem shuffled_refl {s : DState} (h : (s.dp.contexts.map (·.name)).Nodup) : Shuffled s s :=
  ⟨fun _ => rfl, rfl, h, h, rfl, rfl, .refl _, .refl _⟩

theorem shuffled_section {env : DEnv} {a : Str} {told : List Told} (hsec : SectionLines a told) {s t s' : DState} (h : Shuffled s t)
    (hs : (tellAll env s told).val = .ok s') :
    ∃ t', (tellAll env t told).val = .ok t' ∧ Shuffled s' t' ∧ (tellAll env s told).log = (tellAll env t told).log := by
  obtain ⟨t', h1, h2, h3⟩ := along_section hsec (h.gets a) h.sp h.namesS h.namesT hs
  refine ⟨t', h1, ⟨fun n => ?_, h2.sp, h2.namesS, h2.namesT, ?_, ?_, ?_, ?_⟩, h3⟩
  · by_cases hn : n = a
    · rw [hn]; exact h2.here
    · rw [h2.elseS n hn, h2.elseT n hn, h.gets]
  · rw [h2.fixS.1, h2.fixT.1, h.general]
  · rw [h2.fixS.2, h2.fixT.2, h.globals]
  · obtain ⟨l, e1, e2⟩ := h2.labels
    rw [e1, e2]
    exact h.labels.append_right l
  · obtain ⟨l, e1, e2⟩ := h2.dests
    rw [e1, e2]
    exact h.dests.append_right l

theorem perm_crossed {α : Type} {s t x y : List α} (h : s.Perm t) : (s ++ x ++ y).Perm (t ++ y ++ x) := by
  rw [List.append_assoc, List.append_assoc]
  exact h.append List.perm_append_comm

theorem tellAll_two {env : DEnv} {s s1 : DState} {a : List Told} (h1 : (tellAll env s a).val = .ok s1) (b : List Told) :
    tellAll env s (a ++ b) = ⟨(tellAll env s a).log ++ (tellAll env s1 b).log, (tellAll env s1 b).val⟩ := by
  rw [tellAll_append, Res.bind_of_ok h1]

/-- The lines of sections. -/
def flatLines {κ : Type} (secs : List (κ × List Told)) : List Told := secs.flatMap (·.2)

theorem sections_shuffled {env : DEnv} {l l' : List (Str × List Told)} (hp : Regrouped l l') :
    (∀ x ∈ l, SectionLines x.1 x.2) → ∀ {s t s' : DState}, Shuffled s t →
    (tellAll env s (flatLines l)).val = .ok s' → s'.sp = s.sp →
    ∃ t', (tellAll env t (flatLines l')).val = .ok t' ∧ Shuffled s' t' ∧
      (tellAll env s (flatLines l)).log.Perm (tellAll env t (flatLines l')).log := by
  induction hp with
  | nil =>
    intro _ s t s' h hs _
    simp only [flatLines, List.flatMap_nil, tellAll, Res.pure_val, Except.ok.injEq] at hs
    subst hs
    exact ⟨t, rfl, h, .refl _⟩
  | @cons x l l' _ ih =>
    intro hsec s t s' h hs hsp
    simp only [flatLines, List.flatMap_cons] at hs ⊢
    rw [tellAll_append] at hs
    obtain ⟨s1, h1, h2, -⟩ := Res.bind_ok hs
    obtain ⟨t1, k1, k2, k3⟩ := shuffled_section (hsec x List.mem_cons_self) h h1
    have hm := tellAll_between h1 h2 hsp
    obtain ⟨t', j1, j2, j3⟩ := ih (fun y hy => hsec y (List.mem_cons_of_mem _ hy)) k2 h2 (hsp.trans hm.symm)
    rw [tellAll_two h1, tellAll_two k1, k3]
    exact ⟨t', j1, j2, j3.append_left _⟩
  | swap x y l hxy =>
    intro hsec s t s' h hs hsp
    simp only [flatLines, List.flatMap_cons] at hs ⊢
    rw [tellAll_append] at hs
    obtain ⟨s1, h1, hs1, -⟩ := Res.bind_ok hs
    have hm1 := tellAll_between h1 hs1 hsp
    rw [tellAll_append] at hs1
    obtain ⟨s2, h2, h3, -⟩ := Res.bind_ok hs1
    have hm2 := tellAll_between h2 h3 (hsp.trans hm1.symm)
    have hsx := hsec x (by simp)
    have hsy := hsec y (by simp)
    -- `y` first from `s`, then `x`
    have a0 := along_section (env := env) hsy rfl rfl h.namesS h.namesS h1
    obtain ⟨_, _, a0, _⟩ := a0
    -- `x` from `s1` and from `t`
    obtain ⟨t1, b1, b2, b3⟩ := along_section (env := env) hsx (s := s1) (t := t) (by rw [a0.elseS _ (Ne.symm hxy), h.gets]) (by rw [hm1, h.sp])
      a0.namesS h.namesT h2
    -- `y` from `s` and from `t1`
    obtain ⟨t2, c1, c2, c3⟩ := along_section (env := env) hsy (s := s) (t := t1) (by rw [b2.elseT _ hxy, h.gets])
      (by rw [← b2.sp, hm2, hm1]) h.namesS b2.namesT h1
    have hsh : Shuffled s2 t2 := by
      refine ⟨fun n => ?_, ?_, b2.namesS, c2.namesT, ?_, ?_, ?_, ?_⟩
      · by_cases hn : n = x.1
        · subst hn
          rw [b2.here, c2.elseT _ (Ne.symm hxy)]
        · rw [b2.elseS n hn]
          by_cases hn' : n = y.1
          · subst hn'
            rw [c2.here]
          · rw [c2.elseS n hn', c2.elseT n hn', b2.elseT n hn, h.gets]
      · rw [hm2, c2.sp]
      · rw [b2.fixS.1, c2.fixS.1, c2.fixT.1, b2.fixT.1, h.general]
      · rw [b2.fixS.2, c2.fixS.2, c2.fixT.2, b2.fixT.2, h.globals]
      · obtain ⟨l1, e1, e2⟩ := b2.labels
        obtain ⟨l2, e3, e4⟩ := c2.labels
        rw [e1, e3, e4, e2]
        exact perm_crossed h.labels
      · obtain ⟨l1, e1, e2⟩ := b2.dests
        obtain ⟨l2, e3, e4⟩ := c2.dests
        rw [e1, e3, e4, e2]
        exact perm_crossed h.dests
    -- the others
    have rest : ∀ (l : List (Str × List Told)), (∀ z ∈ l, SectionLines z.1 z.2) → ∀ {s t s' : DState}, Shuffled s t →
        (tellAll env s (l.flatMap (·.2))).val = .ok s' → ∃ t', (tellAll env t (l.flatMap (·.2))).val = .ok t' ∧ Shuffled s' t' ∧
          (tellAll env s (l.flatMap (·.2))).log = (tellAll env t (l.flatMap (·.2))).log := by
      intro l
      induction l with
      | nil =>
        intro _ s t s' h hs
        simp only [List.flatMap_nil, tellAll, Res.pure_val, Except.ok.injEq] at hs
        subst hs
        exact ⟨t, rfl, h, rfl⟩
      | cons z l ih =>
        intro hz s t s' h hs
        simp only [List.flatMap_cons] at hs ⊢
        rw [tellAll_append] at hs
        obtain ⟨u, h1, h2, -⟩ := Res.bind_ok hs
        obtain ⟨u', k1, k2, k3⟩ := shuffled_section (hz z List.mem_cons_self) h h1
        obtain ⟨t', j1, j2, j3⟩ := ih (fun y hy => hz y (List.mem_cons_of_mem _ hy)) k2 h2
        rw [tellAll_two h1, tellAll_two k1, k3]
        exact ⟨t', j1, j2, by simp only [j3]⟩
    obtain ⟨t', d1, d2, d3⟩ := rest l (fun z hz => hsec z (by simp [hz])) hsh h3
    refine ⟨t', ?_, d2, ?_⟩
    · rw [tellAll_two b1, tellAll_two c1]
      exact d1
    · rw [tellAll_two h1, tellAll_two h2, tellAll_two b1, tellAll_two c1, ← b3, ← c3, d3]
      dsimp only
      rw [← List.append_assoc, ← List.append_assoc]
      exact List.perm_append_comm.append_right _
  | trans p1 p2 ih1 ih2 =>
    intro hsec s t s' h hs hsp
    obtain ⟨m, h1, h2, h3⟩ := ih1 hsec (shuffled_refl h.namesS) hs hsp
    obtain ⟨t', k1, k2, k3⟩ := ih2 (fun x hx => hsec x ((regrouped_perm p1).mem_iff.2 hx)) h h1 (by rw [← h2.sp, hsp])
    refine ⟨t', k1, ?_, h3.trans k3⟩
    exact ⟨fun n => (h2.gets n).trans (k2.gets n), h2.sp.trans k2.sp, h2.namesS, k2.namesT, h2.general.trans k2.general,
      h2.globals.trans k2.globals, h2.labels.trans k2.labels, h2.dests.trans k2.dests⟩

/-! ## The end of the check -/

theorem perm_of_same {α : Type} : ∀ {l m : List α}, l.Nodup → m.Nodup → (∀ a, a ∈ l ↔ a ∈ m) → l.Perm m
  | [], m, _, _, h => by
    cases m with
    | nil => exact .refl _
    | cons b m => exact absurd ((h b).2 List.mem_cons_self) (by simp)
  | a :: l, m, hl, hm, h => by
    obtain ⟨x, y, rfl⟩ := List.append_of_mem ((h a).1 List.mem_cons_self)
    have hp : (x ++ a :: y).Perm (a :: (x ++ y)) := List.perm_middle
    have hm' := hp.nodup_iff.1 hm
    rw [List.nodup_cons] at hl hm'
    refine (List.Perm.cons a (perm_of_same hl.2 hm'.2 fun b => ?_)).trans hp.symm
    have hb := h b
    rw [hp.mem_iff, List.mem_cons, List.mem_cons] at hb
    constructor
    · intro q
      rcases hb.1 (.inr q) with rfl | r
      · exact absurd q hl.1
      · exact r
    · intro q
      rcases hb.2 (.inr q) with rfl | r
      · exact absurd q hm'.1
      · exact r

theorem nodup_of_names {α β : Type} {f : α → β} : ∀ {l : List α}, (l.map f).Nodup → l.Nodup
  | [], _ => .nil
  | a :: l, h => by
    rw [List.map_cons, List.nodup_cons] at h
    exact List.nodup_cons.2 ⟨fun hm => h.1 (List.mem_map.2 ⟨a, hm, rfl⟩), nodup_of_names h.2⟩

theorem shuffled_contexts {s t : DState} (h : Shuffled s t) : s.dp.contexts.Perm t.dp.contexts := by
  refine perm_of_same (nodup_of_names h.namesS) (nodup_of_names h.namesT) fun c => ⟨fun hc => ?_, fun hc => ?_⟩
  · have := get_of_mem h.namesS hc
    rw [h.gets] at this
    exact (get_mem this).1
  · have := get_of_mem h.namesT hc
    rw [← h.gets] at this
    exact (get_mem this).1

theorem firstOf_congr {α : Type} {f g : α → Except Exc (Option Step)} (h : ∀ a, f a = g a) (l : List α) : firstOf f l = firstOf g l := by
  rw [show f = g from funext h]

theorem matchPattern_gets {dp dp' : Dialplan} (h : ∀ n, dp.get n = dp'.get n) : ∀ (depth : Nat) (ctx exten : Str) (prio : Arg),
    matchPattern dp depth ctx exten prio = matchPattern dp' depth ctx exten prio
  | 0, _, _, _ => rfl
  | depth + 1, ctx, exten, prio => by
    have ih := matchPattern_gets h depth
    have e : (fun i : Str × Where => matchIf (dp.get i.1).isSome (matchPattern dp depth i.1 exten prio)) =
        fun i => matchIf (dp'.get i.1).isSome (matchPattern dp' depth i.1 exten prio) := by
      funext i
      rw [h, ih]
    rw [matchPattern.eq_def dp, matchPattern.eq_def dp']
    dsimp only
    rw [h, e]
    cases dp'.get ctx with
    | none => rfl
    | some c =>
      dsimp only
      cases matchHere c.steps exten prio (sortedPatterns c.steps) with
      | error e => rfl
      | ok r =>
        cases r with
        | some s => rfl
        | none =>
          dsimp only
          rw [ih]

theorem walkDest_shuffled {s t : DState} (h : Shuffled s t) (depth : Nat) (d : Dest) : walkDest s.dp depth d = walkDest t.dp depth d := by
  have h1 : ∀ l, s.dp.hasLabel l = t.dp.hasLabel l := by
    intro l
    unfold Dialplan.hasLabel
    rw [Bool.eq_iff_iff, List.contains_iff_mem, List.contains_iff_mem, h.labels.mem_iff]
  have h2 : (fun x => s.dp.get x) = fun x => t.dp.get x := funext h.gets
  unfold walkDest
  simp only [h1, h.gets, matchPattern_gets h.gets]

theorem walkDests_perm {dp dp' : Dialplan} {depth : Nat} (h : ∀ d, walkDest dp depth d = walkDest dp' depth d) {l l' : List Dest}
    (hp : l.Perm l') : (walkDests dp depth l).val = .ok () →
    (walkDests dp' depth l').val = .ok () ∧ (walkDests dp depth l).log.Perm (walkDests dp' depth l').log := by
  have same : ∀ l, walkDests dp depth l = walkDests dp' depth l := by
    intro l
    induction l with
    | nil => rfl
    | cons d l ih => simp only [walkDests, h, ih]
  rw [same l]
  clear same h
  induction hp with
  | nil => intro h; exact ⟨h, .refl _⟩
  | cons d _ ih =>
    intro h
    simp only [walkDests] at h ⊢
    obtain ⟨_, h1, h2, -⟩ := Res.bind_ok h
    obtain ⟨h3, h4⟩ := ih h2
    rw [Res.bind_of_ok h1, Res.bind_of_ok h1]
    exact ⟨h3, h4.append_left _⟩
  | swap d e l =>
    intro h
    simp only [walkDests] at h ⊢
    obtain ⟨_, h1, h2, -⟩ := Res.bind_ok h
    obtain ⟨_, h3, h4, -⟩ := Res.bind_ok h2
    rw [Res.bind_of_ok h1, Res.bind_of_ok h3, Res.bind_of_ok h3, Res.bind_of_ok h1]
    refine ⟨h4, ?_⟩
    rw [← List.append_assoc, ← List.append_assoc]
    exact List.perm_append_comm.append_right _
  | trans _ _ ih1 ih2 =>
    intro h
    obtain ⟨h1, h2⟩ := ih1 h
    obtain ⟨h3, h4⟩ := ih2 h1
    exact ⟨h3, h2.trans h4⟩

theorem onComplete_shuffled {s t : DState} (h : Shuffled s t) : (onComplete s.dp).val = .ok () ∧ (onComplete t.dp).val = .ok () ∧
    (onComplete s.dp).log.map (reM textOnly) = (onComplete t.dp).log.map (reM textOnly) := by
  have hp := shuffled_contexts h
  unfold onComplete
  rw [h.general, h.globals]
  cases hs : s.dp.contexts with
  | nil =>
    rw [hs] at hp
    rw [List.nil_perm.1 hp]
    exact ⟨rfl, rfl, rfl⟩
  | cons c cs =>
    cases ht : t.dp.contexts with
    | nil =>
      rw [hs, ht] at hp
      cases List.perm_nil.1 hp
    | cons d ds =>
      dsimp only
      cases t.dp.general <;> cases t.dp.globals <;> exact ⟨rfl, rfl, rfl⟩

/-- The sections in another order, every line with its place in the file it came from. -/
theorem wholeTell_shuffled {env : DEnv} {sp : Option Str} {ta : List Told} {l l' : List (Str × List Told)} (hp : Regrouped l l')
    (hsec : ∀ x ∈ l, SectionLines x.1 x.2) {s0 s : DState}
    (h0 : (tellAll env (.init sp) ta).val = .ok s0) (h : (wholeTell env sp (ta ++ flatLines l)).val = .ok s) (hsp : s.sp = s0.sp) :
    ∃ t, (wholeTell env sp (ta ++ flatLines l')).val = .ok t ∧ Shuffled s t ∧
      ((wholeTell env sp (ta ++ flatLines l)).log.map (reM textOnly)).Perm ((wholeTell env sp (ta ++ flatLines l')).log.map (reM textOnly)) := by
  have hs := wholeTell_end h
  rw [tellAll_two h0] at hs
  have hi := (tellAll_inv ta (DpInv.init sp) (MoreInv.init sp) h0).1
  obtain ⟨t, h1, h2, h3⟩ := sections_shuffled hp hsec (shuffled_refl hi.names) hs hsp
  obtain ⟨c1, c2, c3⟩ := onComplete_shuffled h2
  have e1 : (tellAll env (.init sp) (ta ++ flatLines l)).val = .ok s := by rw [tellAll_two h0]; exact hs
  have e2 : (tellAll env (.init sp) (ta ++ flatLines l')).val = .ok t := by rw [tellAll_two h0]; exact h1
  unfold wholeTell at h ⊢
  rw [Res.bind_of_ok e1, Res.bind_of_ok c1] at h
  obtain ⟨_, w1, -, -⟩ := Res.bind_ok h
  obtain ⟨w2, w3⟩ := walkDests_perm (fun d => walkDest_shuffled h2 env.depth d) h2.dests w1
  rw [Res.bind_of_ok e1, Res.bind_of_ok c1, Res.bind_of_ok w1, Res.bind_of_ok e2, Res.bind_of_ok c2, Res.bind_of_ok w2]
  refine ⟨t, rfl, h2, ?_⟩
  rw [tellAll_two h0, tellAll_two h0]
  simp only [List.map_append, Res.pure_log, List.append_nil, c3]
  exact ((h3.map _).append_left _).append ((w3.map _).append_left _)

/-! ## Sections in a file -/

theorem reV_own {φ : Where → Where} : ∀ {l : List VarE}, OwnStart l → OwnStart (l.map (reV φ))
  | _, .none => .none
  | _, .other h1 h2 h3 => .other h1 h2 (reV_own h3)
  | _, .step (p := p) ⟨ps, a, b, c, d, e⟩ h2 h3 h4 => .step (p := p) ⟨ps, a, b, c, d, e⟩ h2 h3 h4

theorem own_reV {φ : Where → Where} : ∀ {l : List VarE}, OwnStart (l.map (reV φ)) → OwnStart l
  | [], _ => .none
  | v :: l, h => by
    rw [List.map_cons] at h
    cases h with
    | other h1 h2 h3 => exact .other h1 h2 (own_reV h3)
    | @step _ _ p _ _ h1 h2 h3 h4 =>
      obtain ⟨ps, a, b, c, d, e⟩ := h1
      exact .step (p := p) ⟨ps, a, b, c, d, e⟩ h2 h3 h4

theorem varsOf_re (φ : Where → Where) (l : List Told) : varsOf (elemsOf (l.map (reTold φ))) = (varsOf (elemsOf l)).map (reV φ) := by
  induction l with
  | nil => rfl
  | cons x l ih =>
    obtain ⟨w, ms, g⟩ := x
    cases g with
    | file p => simpa [elemsOf, reTold, reG, Gives.elem?] using ih
    | nothing => simpa [elemsOf, reTold, reG, Gives.elem?] using ih
    | elem e => cases e <;> simpa [elemsOf, reTold, reG, reE, Gives.elem?, varsOf] using ih

theorem sectionShape_re (φ : Where → Where) {name : Str} {l : List Told} :
    SectionShape name (l.map (reTold φ)) ↔ SectionShape name l := by
  have hg : ∀ x : Told, ((∀ c, (reTold φ x).gives ≠ .elem (.ctx c)) ↔ ∀ c, x.gives ≠ .elem (.ctx c)) ∧
      ((∀ f, (reTold φ x).gives ≠ .file f) ↔ ∀ f, x.gives ≠ .file f) := by
    rintro ⟨w, ms, g⟩
    cases g with
    | file p => simp [reTold, reG]
    | nothing => simp [reTold, reG]
    | elem e => cases e <;> simp [reTold, reG, reE]
  constructor
  · intro h
    refine ⟨?_, h.named, fun x hx => ?_⟩
    · obtain ⟨c, h1, h2⟩ := h.header
      cases l with
      | nil => cases h1
      | cons x l =>
        obtain ⟨w, ms, g⟩ := x
        simp only [List.map_cons, List.head?_cons, Option.map_some, Option.some.injEq, reTold] at h1
        cases g with
        | file p => cases h1
        | nothing => cases h1
        | elem e =>
          cases e with
          | ctx d =>
            simp only [reG, reE, Gives.elem.injEq, Elem.ctx.injEq] at h1
            exact ⟨d, rfl, by rw [← h2, ← h1]; rfl⟩
          | var v => cases h1
          | empty b w => cases h1
    · have := h.body (reTold φ x) (by rw [← List.map_tail]; exact List.mem_map.2 ⟨x, hx, rfl⟩)
      exact ⟨(hg x).1.1 this.1, (hg x).2.1 this.2⟩
  · intro h
    refine ⟨?_, h.named, fun x hx => ?_⟩
    · obtain ⟨c, h1, h2⟩ := h.header
      cases l with
      | nil => cases h1
      | cons x l =>
        simp only [List.head?_cons, Option.map_some, Option.some.injEq] at h1
        exact ⟨reC φ c, by simp only [List.map_cons, List.head?_cons, Option.map_some, reTold, h1, reG, reE], h2⟩
    · rw [← List.map_tail] at hx
      obtain ⟨y, hy, rfl⟩ := List.mem_map.1 hx
      exact ⟨(hg y).1.2 (h.body y hy).1, (hg y).2.2 (h.body y hy).2⟩

theorem sectionLines_re (φ : Where → Where) {name : Str} {l : List Told} :
    SectionLines name (l.map (reTold φ)) ↔ SectionLines name l := by
  constructor
  · intro h
    refine ⟨(sectionShape_re φ).1 h.toSectionShape, ?_⟩
    have := h.own
    rw [varsOf_re] at this
    exact own_reV this
  · intro h
    refine ⟨(sectionShape_re φ).2 h.toSectionShape, ?_⟩
    rw [varsOf_re]
    exact reV_own h.own

theorem linesFrom_append (path : Str) : ∀ (a b : List Bytes) (n : Nat),
    linesFrom path n (a ++ b) = linesFrom path n a ++ linesFrom path (n + a.length) b
  | [], _, _ => rfl
  | l :: a, b, n => by
    simp only [List.cons_append, linesFrom, linesFrom_append path a b (n + 1), List.length_cons]
    rw [show n + 1 + a.length = n + (a.length + 1) by omega]

theorem linesFrom_elsewhere (path : Str) : ∀ (a : List Bytes) (n m : Nat), Zips Elsewhere (linesFrom path n a) (linesFrom path m a)
  | [], _, _ => .nil
  | _ :: a, n, m => .cons ⟨rfl, fun _ => rfl⟩ (linesFrom_elsewhere path a (n + 1) (m + 1))

theorem expand_linesFrom {fs : FS} {path : Str} : ∀ {ls : List Bytes} {n : Nat}, (∀ w ∈ linesFrom path n ls, opens w = none) →
    ∃ t, Expand fs opens path n ls t ∧ t.flatten = linesFrom path n ls
  | [], _, _ => ⟨.nil, .nil, rfl⟩
  | l :: ls, n, h => by
    obtain ⟨t, h1, h2⟩ := expand_linesFrom (fs := fs) (ls := ls) (n := n + 1) fun w hw => h w (List.mem_cons_of_mem _ hw)
    have h0 := h _ List.mem_cons_self
    exact ⟨_, .line (by unfold pulls; rw [h0]) h1, by simp [Items.flatten, linesFrom, h2]⟩

/-- Lines of sections, as read. -/
structure Laid (fs fs' : FS) (path : Str) (n : Nat) (b : Bytes) (told : List Told) : Prop where
  lines : told.map (·.line) = linesFrom path n (physLines b)
  here : ∀ x ∈ told, lineModel fs x.line = some (x.msgs, x.gives)
  there : ∀ x ∈ told, lineModel fs' x.line = some (x.msgs, x.gives)
  shut : ∀ x ∈ told, opens x.line = none

/-- What a text says, without places. -/
noncomputable def sayings (fs : FS) (path : Str) (P : List Told → Prop) (b : Bytes) : List Told :=
  open Classical in if h : TextIs fs path b P then h.2.choose_spec.choose.map (reTold textOnly) else []

/-- What is said of lines does not depend on their places, and they do not include files. -/
structure Placeless (P : List Told → Prop) : Prop where
  re : ∀ l, P (l.map (reTold textOnly)) ↔ P l
  shut : ∀ l, P l → ∀ x ∈ l, ∀ f, x.gives ≠ .file f

theorem text_laid {fs : FS} (fs' : FS) {path : Str} {P : List Told → Prop} (hP : Placeless P) {b : Bytes} (h : TextIs fs path b P) (n : Nat) :
    ∃ told, Laid fs fs' path n b told ∧ P told ∧ told.map (reTold textOnly) = sayings fs path P b := by
  have hsay : sayings fs path P b = h.2.choose_spec.choose.map (reTold textOnly) := by unfold sayings; rw [dif_pos h]
  have hspec := h.2.choose_spec.choose_spec
  revert hsay hspec
  generalize h.2.choose_spec.choose = told0
  generalize h.2.choose = n0
  rintro hsay ⟨h1, h2, h3⟩
  obtain ⟨told, k1, k2, k3⟩ := tolds_elsewhere (fs := fs) textOnly_of (told := told0) (ws := linesFrom path n (physLines b))
    (fun y hy => lineTells_model (h2 y hy)) (by rw [h1]; exact linesFrom_elsewhere _ _ _ _)
  have hsec : P told := by
    rw [← hP.re, k3, hP.re]
    exact h3
  have hshut := hP.shut _ hsec
  refine ⟨told, ⟨k1, k2, fun y hy => ?_, fun y hy => ?_⟩, hsec, k3.trans hsay.symm⟩
  · rw [lineModel_asks (fs := fs) fun ms q hq => ?_]
    · exact k2 y hy
    · rw [k2 y hy] at hq
      simp only [Option.some.injEq, Prod.mk.injEq] at hq
      exact absurd hq.2 (hshut y hy q)
  · rw [lineModel_file (k2 y hy)]
    cases hg : y.gives with
    | file f => exact absurd hg (hshut y hy f)
    | elem e => rfl
    | nothing => rfl

theorem texts_laid {κ : Type} {fs : FS} (fs' : FS) {path : Str} {P : κ → List Told → Prop} (hP : ∀ k, Placeless (P k)) :
    ∀ {secs : List (κ × Bytes)}, (∀ x ∈ secs, TextIs fs path x.2 (P x.1)) →
    ∀ n, ∃ ts : List (κ × List Told), Laid fs fs' path n (secs.flatMap (·.2)) (flatLines ts) ∧
      (∀ x ∈ ts, P x.1 x.2) ∧
      (ts.map fun x => (x.1, x.2.map (reTold textOnly))) = secs.map fun x => (x.1, sayings fs path (P x.1) x.2)
  | [], _, n => ⟨[], ⟨rfl, by simp [flatLines], by simp [flatLines], by simp [flatLines]⟩, by simp, rfl⟩
  | x :: secs, h, n => by
    have hx := h x List.mem_cons_self
    obtain ⟨told, a1, a2, a3⟩ := text_laid fs' (hP x.1) hx n
    obtain ⟨ts, b1, b2, b3⟩ := texts_laid fs' hP (fun y hy => h y (List.mem_cons_of_mem _ hy)) (n + (physLines x.2).length)
    have hf : flatLines ((x.1, told) :: ts) = told ++ flatLines ts := by simp [flatLines]
    have both : ∀ {P : Told → Prop}, (∀ y ∈ told, P y) → (∀ y ∈ flatLines ts, P y) → ∀ y ∈ told ++ flatLines ts, P y := by
      intro P p q y hy
      rcases List.mem_append.1 hy with hy | hy
      · exact p y hy
      · exact q y hy
    refine ⟨(x.1, told) :: ts, ?_, ?_, ?_⟩
    · rw [hf]
      refine ⟨?_, both a1.here b1.here, both a1.there b1.there, both a1.shut b1.shut⟩
      rw [List.flatMap_cons, physLines_more _ _ hx.1, linesFrom_append, List.map_append, a1.lines, b1.lines]
    · intro y hy
      rcases List.mem_cons.1 hy with rfl | hy
      · exact a2
      · exact b2 y hy
    · rw [List.map_cons, List.map_cons, a3, b3]

theorem laid_expand {fs fs' fs'' : FS} {path : Str} {n : Nat} {b : Bytes} {told : List Told} (h : Laid fs fs' path n b told) :
    ∃ t, Expand fs'' opens path n (physLines b) t ∧ t.flatten = told.map (·.line) := by
  rw [h.lines]
  refine expand_linesFrom fun w hw => ?_
  rw [← h.lines] at hw
  obtain ⟨y, hy, rfl⟩ := List.mem_map.1 hw
  exact h.shut y hy

theorem perm_lifted {α β : Type} (f : α → β) {m m' : List β} (hp : m.Perm m') : ∀ {l : List α}, l.map f = m →
    ∃ l', l.Perm l' ∧ l'.map f = m' := by
  induction hp with
  | nil => intro l h; exact ⟨l, .refl _, h⟩
  | cons x _ ih =>
    intro l h
    cases l with
    | nil => cases h
    | cons a l =>
      simp only [List.map_cons, List.cons.injEq] at h
      obtain ⟨l', h1, h2⟩ := ih h.2
      exact ⟨a :: l', h1.cons a, by rw [List.map_cons, h2, h.1]⟩
  | swap x y m =>
    intro l h
    cases l with
    | nil => cases h
    | cons a l =>
      cases l with
      | nil => simp at h
      | cons b l =>
        simp only [List.map_cons, List.cons.injEq] at h
        exact ⟨b :: a :: l, .swap _ _ _, by simp [h.1, h.2.1, h.2.2]⟩
  | trans _ _ ih1 ih2 =>
    intro l h
    obtain ⟨l1, h1, h2⟩ := ih1 h
    obtain ⟨l2, h3, h4⟩ := ih2 h2
    exact ⟨l2, h1.trans h3, h4⟩

theorem flatLines_re {κ : Type} {ts ts' : List (κ × List Told)}
    (h : (ts.map fun x => (x.1, x.2.map (reTold textOnly))) = ts'.map fun x => (x.1, x.2.map (reTold textOnly))) :
    (flatLines ts).map (reTold textOnly) = (flatLines ts').map (reTold textOnly) := by
  have key : ∀ l : List (κ × List Told), (flatLines l).map (reTold textOnly) =
      (l.map fun x => (x.1, x.2.map (reTold textOnly))).flatMap (·.2) := by
    intro l
    simp only [flatLines, List.map_flatMap, List.flatMap_map]
  rw [key, key, h]

theorem wholeTell_re {env : DEnv} {sp : Option Str} {a b : List Told} (h : b.map (reTold textOnly) = a.map (reTold textOnly))
    {st : DState} (hv : (wholeTell env sp a).val = .ok st) :
    ∃ st', (wholeTell env sp b).val = .ok st' ∧ reSt textOnly st' = reSt textOnly st ∧
      (substance (wholeTell env sp a).log).map (reM textOnly) = (substance (wholeTell env sp b).log).map (reM textOnly) := by
  have h1 := wholeTell_bare (φ := textOnly) (fun _ => rfl) env sp a
  have h2 := wholeTell_bare (φ := textOnly) (fun _ => rfl) env sp b
  rw [h] at h2
  have h3 := h1.symm.trans h2
  simp only [Res.mk.injEq] at h3
  obtain ⟨h4, h5⟩ := h3
  rw [hv] at h5
  cases hb : (wholeTell env sp b).val with
  | error e => rw [hb] at h5; cases h5
  | ok st' =>
    rw [hb] at h5
    simp only [Except.map, Except.ok.injEq] at h5
    exact ⟨st', rfl, h5.symm, by rw [← substance_map, ← substance_map, h4]⟩

/-- Lines in another order. -/
theorem moved_tolds {κ : Type} {secs secs' : List (κ × Bytes)} (hp : secs.Perm secs') (F : κ → Bytes → List Told) (ts : List (κ × List Told))
    (h : (ts.map fun x => (x.1, x.2.map (reTold textOnly))) = secs.map fun x => (x.1, F x.1 x.2)) :
    ∃ ts', ts.Perm ts' ∧ (ts'.map fun x => (x.1, x.2.map (reTold textOnly))) = secs'.map fun x => (x.1, F x.1 x.2) :=
  perm_lifted _ (hp.map _) h

theorem regrouped_tolds {secs secs' : List (Str × Bytes)} (hp : Regrouped secs secs') (F : Str → Bytes → List Told) (ts : List (Str × List Told))
    (h : (ts.map fun x => (x.1, x.2.map (reTold textOnly))) = secs.map fun x => (x.1, F x.1 x.2)) :
    ∃ ts', Regrouped ts ts' ∧ (ts'.map fun x => (x.1, x.2.map (reTold textOnly))) = secs'.map fun x => (x.1, F x.1 x.2) :=
  regrouped_lifted (f := fun x : Str × List Told => (x.1, x.2.map (reTold textOnly))) (fun _ => rfl)
    (regrouped_map (f := fun x : Str × Bytes => (x.1, F x.1 x.2)) (fun _ => rfl) hp) h

/-- Parts of a file in another order, if the lines with their places in the file they came from may be put in that order. -/
theorem parts_moved {κ : Type} {P : κ → List Told → Prop} (hP : ∀ k, Placeless (P k)) {fs fs' : FS} {env : DEnv} {sp : Option Str}
    {n n0 : Nat} {path : Str} {pre : Bytes} {secs secs' : List (κ × Bytes)} (hp : secs.Perm secs')
    {R : List (κ × List Told) → List (κ × List Told) → Prop}
    (hR : ∀ (F : κ → Bytes → List Told) (ts : List (κ × List Told)),
      (ts.map fun x => (x.1, x.2.map (reTold textOnly))) = (secs.map fun x => (x.1, F x.1 x.2)) →
      ∃ ts', R ts ts' ∧ (ts'.map fun x => (x.1, x.2.map (reTold textOnly))) = secs'.map fun x => (x.1, F x.1 x.2))
    (hsec : ∀ x ∈ secs, TextIs fs path x.2 (P x.1)) (hpre : WholeLines pre) (hb : fs path = some (pre ++ secs.flatMap (·.2)))
    (ho : ∀ q, q ≠ path → fs' q = fs q)
    {log0 log : List Msg} {st0 st : DState} (h0 : checkDialplan fs env sp n0 path pre = ⟨log0, .ok (some st0)⟩)
    (h : checkDialplan fs env sp n path (pre ++ secs.flatMap (·.2)) = ⟨log, .ok (some st)⟩) {Q : DState → Prop}
    (core : ∀ (ta : List Told) (l l' : List (κ × List Told)), R l l' → (∀ x ∈ l, P x.1 x.2) → l.map (·.1) = secs.map (·.1) →
      (tellAll env (.init sp) ta).val = .ok st0 → (wholeTell env sp (ta ++ flatLines l)).val = .ok st →
      ∃ t, (wholeTell env sp (ta ++ flatLines l')).val = .ok t ∧ Q t ∧
        ((wholeTell env sp (ta ++ flatLines l)).log.map (reM textOnly)).Perm ((wholeTell env sp (ta ++ flatLines l')).log.map (reM textOnly))) :
    ∃ k log' st' t, (∀ n', k ≤ n' → checkDialplan fs' env sp n' path (pre ++ secs'.flatMap (·.2)) = ⟨log', .ok (some st')⟩) ∧
      SameInSomeOrder (substance log) (substance log') ∧ Q t ∧ reSt textOnly st' = reSt textOnly t := by
  obtain ⟨t0, ta0, hread0, hv0, -⟩ := check_tells h0
  obtain ⟨t, told, hread, hv, hs⟩ := check_tells h
  obtain ⟨hown, hagree, hmod⟩ := replaced_agree hb ho hread
  have hsec' : ∀ x ∈ secs', TextIs fs path x.2 (P x.1) := fun x hx => hsec x (hp.mem_iff.2 hx)
  have hexp := hread.expand
  rw [physLines_more _ pre hpre] at hexp
  obtain ⟨tA, tB, hA, hB, hfl⟩ := expand_parts _ _ hexp
  have inA : ∀ w ∈ tA.flatten, w ∈ t.flatten := fun w hw => by rw [hfl]; exact List.mem_append_left _ hw
  have hA0 := expand_same hA hread0.expand
  subst hA0
  have hA' := expand_agree hA fun w hw => hagree w (inA w hw)
  obtain ⟨ta, tb, rfl, ha1, hb1⟩ := told_split (hread.lines.trans hfl)
  have hta : ta = ta0 := told_eq (by rw [ha1, hread0.lines]) (fun y hy => hread.models y (List.mem_append_left _ hy)) hread0.models
  subst hta
  obtain ⟨ts, g1, g2, g3⟩ := texts_laid fs' hP hsec (0 + (physLines pre).length)
  obtain ⟨ts', g1', g2', g3'⟩ := texts_laid fs' hP hsec' (0 + (physLines pre).length)
  obtain ⟨tB1, e1, e2⟩ := laid_expand (fs'' := fs) g1
  have hB1 := expand_same hB e1
  subst hB1
  have htb : tb = flatLines ts := told_eq (by rw [hb1, e2]) (fun y hy => hread.models y (List.mem_append_right _ hy)) g1.here
  subst htb
  obtain ⟨ts2, q1, q2⟩ := hR (fun k b => sayings fs path (P k) b) ts g3
  have q2 := q2.trans g3'.symm
  have hnames : ts.map (·.1) = secs.map (·.1) := by
    have := congrArg (List.map (·.1)) g3
    simpa [List.map_map, Function.comp_def] using this
  obtain ⟨t1, w1, w2, w3⟩ := core ta ts ts2 q1 g2 hnames (wholeTell_end hv0) hv
  have hre : (ta ++ flatLines ts').map (reTold textOnly) = (ta ++ flatLines ts2).map (reTold textOnly) := by
    rw [List.map_append, List.map_append, flatLines_re q2.symm]
  obtain ⟨st', v1, v2, v3⟩ := wholeTell_re hre w1
  obtain ⟨tB', e1', e2'⟩ := laid_expand (fs'' := fs') g1'
  obtain ⟨t', j1, j2⟩ := expand_join hA' e1'
  rw [← physLines_more _ pre hpre] at j1
  have hread' : ReadTold fs' path (pre ++ secs'.flatMap (·.2)) t' (ta ++ flatLines ts') := by
    refine ⟨j1, ?_, fun x hx => ?_⟩
    · rw [List.map_append, ha1, j2, e2']
    · rcases List.mem_append.1 hx with hx | hx
      · exact hmod x (List.mem_append_left _ hx)
      · exact g1'.there x hx
  obtain ⟨log', l1, l2⟩ := check_of_tells hread' v1
  have hperm : ((substance log).map (reM textOnly)).Perm ((substance log').map (reM textOnly)) := by
    rw [hs, l1, ← v3, ← substance_map, ← substance_map]
    exact w3.filter _
  obtain ⟨l, p1, p2⟩ := perm_lifted _ hperm rfl
  exact ⟨_, log', st', t1, l2, ⟨l, p1, zips_words p2⟩, w2, v2⟩

theorem sectionShape_placeless (name : Str) : Placeless (SectionShape name) where
  re := fun _ => sectionShape_re textOnly
  shut := by
    intro told hsec y hy f
    obtain ⟨c, hc, -⟩ := hsec.header
    have hb := hsec.body
    cases told with
    | nil => cases hy
    | cons z told =>
      simp only [List.head?_cons, Option.map_some, Option.some.injEq] at hc
      rcases List.mem_cons.1 hy with rfl | hy
      · rw [hc]; intro q; cases q
      · exact (hb y hy).2 f

theorem sectionLines_placeless (name : Str) : Placeless (SectionLines name) where
  re := fun _ => sectionLines_re textOnly
  shut := fun told hsec => (sectionShape_placeless name).shut told hsec.toSectionShape

theorem sections_regrouped {fs fs' : FS} {env : DEnv} {sp : Option Str} {n n0 : Nat} {path : Str} {pre : Bytes} {secs secs' : List (Str × Bytes)}
    (hp : Regrouped secs secs') (hw : WholeLines pre) (hb : fs path = some (withSections pre secs)) (ho : ∀ q, q ≠ path → fs' q = fs q)
    (hsec : ∀ x ∈ secs, SectionOf fs path x.1 x.2)
    {log0 log : List Msg} {st0 st : DState} (h0 : checkDialplan fs env sp n0 path pre = ⟨log0, .ok (some st0)⟩)
    (h : checkDialplan fs env sp n path (withSections pre secs) = ⟨log, .ok (some st)⟩) (hsp : st.sp = st0.sp) :
    ∃ k log' st', (∀ n', k ≤ n' → checkDialplan fs' env sp n' path (withSections pre secs') = ⟨log', .ok (some st')⟩) ∧
      SameInSomeOrder (substance log) (substance log') ∧ (dialplanText st.dp).Perm (dialplanText st'.dp) := by
  obtain ⟨k, log', st', t, h1, h2, h3, h4⟩ := parts_moved sectionLines_placeless (regrouped_perm hp) (regrouped_tolds hp) hsec hw hb ho h0 h
    (Q := fun t => Shuffled st t) fun ta l l' hp hl hn ht0 ht => wholeTell_shuffled hp hl ht0 ht hsp
  refine ⟨k, log', st', h1, h2, ?_⟩
  have : reDp textOnly st'.dp = reDp textOnly t.dp := congrArg DState.dp h4
  rw [← dialplanText_re textOnly st'.dp, this, dialplanText_re]
  exact (shuffled_contexts h3).map _

theorem sections_moved {fs fs' : FS} {env : DEnv} {sp : Option Str} {n n0 : Nat} {path : Str} {pre : Bytes} {secs secs' : List (Str × Bytes)}
    (hm : SectionsMoved fs fs' path pre secs secs') (hsec : ∀ x ∈ secs, SectionOf fs path x.1 x.2)
    {log0 log : List Msg} {st0 st : DState} (h0 : checkDialplan fs env sp n0 path pre = ⟨log0, .ok (some st0)⟩)
    (h : checkDialplan fs env sp n path (withSections pre secs) = ⟨log, .ok (some st)⟩) (hsp : st.sp = st0.sp) :
    ∃ k log' st', (∀ n', k ≤ n' → checkDialplan fs' env sp n' path (withSections pre secs') = ⟨log', .ok (some st')⟩) ∧
      SameInSomeOrder (substance log) (substance log') ∧ (dialplanText st.dp).Perm (dialplanText st'.dp) :=
  sections_regrouped (regrouped_names hm.same hm.names) hm.whole hm.before hm.others hsec h0 h hsp

end ALint.Proofs
