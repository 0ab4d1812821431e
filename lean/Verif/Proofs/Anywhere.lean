import Verif.Spec.Anywhere
import Verif.Proofs.Pieces

/-!
# Where the includes of a context stand (proofs)
-/

namespace ALint.Proofs
open ALint Spec Props

/-! ## More includes -/

/-- The context with more includes, if it is the one named. -/
def moreIncl (a : Str) (is : List (Str × Where)) (c : DCtx) : DCtx :=
  if c.name = a then { c with includes := c.includes ++ is } else c

/-- The context `a` has more includes. -/
def inclIn (a : Str) (is : List (Str × Where)) (s : DState) : DState :=
  { s with dp := { s.dp with contexts := s.dp.contexts.map (moreIncl a is) } }

theorem moreIncl_name (a : Str) (is : List (Str × Where)) (c : DCtx) : (moreIncl a is c).name = c.name := by
  unfold moreIncl
  split <;> rfl

theorem inclIn_get (a : Str) (is : List (Str × Where)) (s : DState) (n : Str) :
    (inclIn a is s).dp.get n = (s.dp.get n).map (moreIncl a is) := by
  unfold Dialplan.get inclIn
  dsimp only
  induction s.dp.contexts with
  | nil => rfl
  | cons c l ih =>
    rw [List.map_cons, List.find?_cons, List.find?_cons, moreIncl_name]
    split
    · rfl
    · exact ih

theorem putCtx_more (a : Str) (is : List (Str × Where)) (c : DCtx) (l : List DCtx) :
    putCtx (moreIncl a is c) (l.map (moreIncl a is)) = (putCtx c l).map (moreIncl a is) := by
  induction l with
  | nil => rfl
  | cons x l ih =>
    simp only [List.map_cons, putCtx, moreIncl_name]
    split
    · rfl
    · rw [List.map_cons, ih]

theorem putCtx_incl (a : Str) (is : List (Str × Where)) {c : DCtx} (hc : c.name = a) : ∀ {l : List DCtx}, (l.map (·.name)).Nodup → c ∈ l →
    putCtx { c with includes := c.includes ++ is } l = l.map (moreIncl a is)
  | [], _, h => by cases h
  | x :: l, hnd, h => by
    simp only [List.map_cons, List.nodup_cons] at hnd
    rw [putCtx, List.map_cons]
    rcases List.mem_cons.1 h with rfl | h
    · rw [if_pos rfl]
      have h1 : moreIncl a is c = { c with includes := c.includes ++ is } := by simp [moreIncl, hc]
      have h2 : l.map (moreIncl a is) = l := by
        rw [List.map_congr_left (g := id), List.map_id]
        intro y hy
        have : y.name ≠ a := fun e => hnd.1 (List.mem_map.2 ⟨y, hy, by rw [e, hc]⟩)
        simp [moreIncl, this]
      rw [h1, h2]
    · have hx : x.name ≠ c.name := fun e => hnd.1 (List.mem_map.2 ⟨c, h, e.symm⟩)
      rw [if_neg hx, putCtx_incl a is hc hnd.2 h]
      have : moreIncl a is x = x := by simp [moreIncl, hc ▸ hx]
      rw [this]

theorem inclIn_nil (a : Str) (s : DState) : inclIn a [] s = s := by
  have : s.dp.contexts.map (moreIncl a []) = s.dp.contexts := by
    rw [List.map_congr_left (g := id), List.map_id]
    intro c _
    unfold moreIncl
    split <;> simp
  unfold inclIn
  rw [this]

theorem inclIn_two (a : Str) (is js : List (Str × Where)) (s : DState) : inclIn a js (inclIn a is s) = inclIn a (is ++ js) s := by
  unfold inclIn
  simp only [List.map_map]
  congr 2
  refine List.map_congr_left fun c _ => ?_
  simp only [Function.comp_apply]
  by_cases h : c.name = a <;> simp [moreIncl, h]

/-- Adding a step does not depend on the includes. -/
theorem addExt_incl (last : Option Nat) (c : DCtx) (I : List (Str × Where)) (e : ExtLine) :
    addExt last { c with includes := I } e = .bind (addExt last c e) fun a => .pure { a with ctx := { a.ctx with includes := I } } := by
  unfold addExt
  have hres : resolvePat { c with includes := I, sorted := none } e = resolvePat { c with sorted := none } e := rfl
  dsimp only
  rw [hres]
  cases hp : resolvePat { c with sorted := none } e with
  | none => rfl
  | some rp =>
    dsimp only
    have hprio : resolvePrio last { c with includes := I, sorted := none } rp.1 rp.2 e =
        resolvePrio last { c with sorted := none } rp.1 rp.2 e := rfl
    rw [hprio, Res.bind_assoc]
    congr 1
    funext r
    cases r with
    | none => rfl
    | some n =>
      dsimp only
      unfold storeStep
      dsimp only
      have hc : cacheCheck { c with includes := I, lastPrio := some n, sorted := none } (Pattern.canonical rp.2) n e.label e.at_ =
        cacheCheck { c with lastPrio := some n, sorted := none } (Pattern.canonical rp.2) n e.label e.at_ := rfl
      rw [hc, Res.bind_assoc]
      congr 1
      funext r
      cases r with
      | none => rfl
      | some r =>
        dsimp only
        rw [Res.bind_assoc]
        rfl

theorem addExt_more (last : Option Nat) (a : Str) (is : List (Str × Where)) (c : DCtx) (e : ExtLine) :
    addExt last (moreIncl a is c) e = .bind (addExt last c e) fun x => .pure { x with ctx := moreIncl a is x.ctx } := by
  have same : ∀ {f g : Added → Res Added}, (∀ x, (addExt last c e).val = .ok x → f x = g x) →
      Res.bind (addExt last c e) f = Res.bind (addExt last c e) g := by
    intro f g h
    cases hv : (addExt last c e).val with
    | error x => rw [Res.bind_of_error hv, Res.bind_of_error hv]
    | ok x => rw [Res.bind_of_ok hv, Res.bind_of_ok hv, h x hv]
  by_cases hc : c.name = a
  · have h1 : moreIncl a is c = { c with includes := c.includes ++ is } := by simp [moreIncl, hc]
    rw [h1, addExt_incl]
    refine same fun x hx => ?_
    obtain ⟨hn, hi, -⟩ := addCase_frame (addExt_cases hx)
    simp [moreIncl, hn, hc, hi]
  · have h1 : moreIncl a is c = c := by simp [moreIncl, hc]
    rw [h1]
    have : addExt last c e = .bind (addExt last c e) fun x => .pure x := by
      cases hv : (addExt last c e).val with
      | error x => rw [Res.bind_of_error hv]; cases h : addExt last c e; rw [h] at hv; simp_all
      | ok x => rw [Res.bind_of_ok hv]; cases h : addExt last c e; rw [h] at hv; simp_all
    rw [this, Res.bind_assoc]
    refine same fun x hx => ?_
    obtain ⟨hn, -, -⟩ := addCase_frame (addExt_cases hx)
    simp [moreIncl, hn, hc]

theorem fromVarset_include {env : DEnv} {sp : Option Str} {v : VarE} (h : v.key = c! "include") :
    fromVarset env sp v = .bind (expectArrow v) fun _ => .pure (sp, [], .include_ v.value v.at_) := by
  unfold fromVarset
  rw [if_neg (by rw [h]; decide), if_pos h]

/-- A line without include, when there are more includes. -/
theorem step_incl {env : DEnv} {a : Str} (is : List (Str × Where)) {s : DState} (hcur : s.cur = .ctx a) {v : VarE} (hv : v.key ≠ c! "include") :
    dialplanStep env (inclIn a is s) (.var v) = .bind (dialplanStep env s (.var v)) fun s' => .pure (inclIn a is s') := by
  simp only [dialplanStep, onVarset]
  have hcur' : (inclIn a is s).cur = .ctx a := hcur
  rw [hcur, hcur']
  dsimp only
  rw [inclIn_get]
  cases hg : s.dp.get a with
  | none => rfl
  | some c =>
    simp only [Option.map_some]
    have hsp : (inclIn a is s).sp = s.sp := rfl
    rw [hsp, Res.bind_assoc]
    cases hr : (fromVarset env s.sp v).val with
    | error x => rw [Res.bind_of_error hr, Res.bind_of_error hr]
    | ok r =>
      rw [Res.bind_of_ok hr, Res.bind_of_ok hr]
      have key : (Res.bind (onDVar (inclIn a is s).dp (moreIncl a is c) r.2.2) fun dp => .pure ⟨dp, .ctx a, r.1, (inclIn a is s).uses ++ r.2.1⟩) =
          Res.bind (Res.bind (onDVar s.dp c r.2.2) fun dp => .pure ⟨dp, .ctx a, r.1, s.uses ++ r.2.1⟩) fun s' => .pure (inclIn a is s') := by
        have hcase := fromVarset_cases hr
        cases hrv : r.2.2 with
        | nothing => rfl
        | include_ n w =>
          exfalso
          generalize (fromVarset env s.sp v).log = lg at hcase
          cases hcase with
          | line _ ms hk h => cases h <;> cases hrv
          | incl hk => exact hv hk
          | other => cases hrv
        | ext e =>
          simp only [onDVar, Res.bind_assoc, Res.pure_bind]
          congr 1
          funext _
          have hl : (inclIn a is s).dp.lastPrio = s.dp.lastPrio := rfl
          rw [hl, addExt_more, Res.bind_assoc]
          congr 1
          funext x
          simp only [Res.pure_bind, Dialplan.withAdded]
          congr 1
          simp only [inclIn, putCtx_more]
      rw [key]

theorem step_cur {env : DEnv} {a : Str} {s s' : DState} (hcur : s.cur = .ctx a) {v : VarE} (h : (dialplanStep env s (.var v)).val = .ok s') :
    s'.cur = .ctx a := by
  simp only [dialplanStep, onVarset] at h
  rw [hcur] at h
  dsimp only at h
  cases hg : s.dp.get a with
  | none => rw [hg] at h; cases h
  | some c =>
    rw [hg] at h
    dsimp only at h
    obtain ⟨r, -, h2, -⟩ := Res.bind_ok h
    obtain ⟨dp, -, h4, -⟩ := Res.bind_ok h2
    simp only [Res.pure_val, Except.ok.injEq] at h4
    subst h4
    rfl

theorem wrapExc_bind {α β : Type} (x : Res α) (f : α → β) :
    wrapExc (Res.bind x fun a => .pure (f a)) = Res.bind (wrapExc x) fun a => .pure (f a) := by
  cases hx : x.val with
  | error e => rw [Res.bind_of_error hx]; simp [wrapExc, Res.bind, hx]
  | ok a => rw [Res.bind_of_ok hx]; simp [wrapExc, Res.bind, hx]

/-- An `include` line. -/
theorem step_include {env : DEnv} {a : Str} {s : DState} (hi : DpInv s) (hcur : s.cur = .ctx a) {v : VarE} (hv : v.key = c! "include") :
    dialplanStep env s (.var v) = .bind (expectArrow v) fun _ => .pure (inclIn a [(v.value, v.at_)] s) := by
  obtain ⟨c, hc⟩ := hi.cur a hcur
  simp only [dialplanStep, onVarset]
  rw [hcur]
  dsimp only
  rw [hc]
  dsimp only
  rw [fromVarset_include hv, Res.bind_assoc]
  congr 1
  funext _
  simp only [Res.pure_bind, onDVar, List.append_nil]
  rw [putCtx_incl a _ (get_mem hc).2 hi.names (get_mem hc).1, ← hcur]
  rfl

/-! ## Lines -/

theorem includes_tell {env : DEnv} {a : Str} : ∀ {x : List Told}, IncludeLines x →
    ∃ ms is, ∀ s, DpInv s → s.cur = .ctx a → tellAll env s x = ⟨ms, .ok (inclIn a is s)⟩
  | [], _ => ⟨[], [], fun s _ _ => by rw [inclIn_nil]; rfl⟩
  | y :: ys, h => by
    obtain ⟨ms, is, ih⟩ := includes_tell (env := env) (a := a) fun z hz => h z (List.mem_cons_of_mem _ hz)
    have quiet : y.gives.elem?.toList = [] ∨ (∃ b w, y.gives = .elem (.empty b w)) → ∃ ms is, ∀ s, DpInv s → s.cur = .ctx a →
        tellAll env s (y :: ys) = ⟨ms, .ok (inclIn a is s)⟩ := by
      intro hq
      refine ⟨y.msgs ++ ms, is, fun s hi hcur => ?_⟩
      have hf : feed (dialplanStep env) s y.gives.elem?.toList = .pure s := by
        rcases hq with hq | ⟨b, w, hq⟩
        · rw [hq]; rfl
        · rw [hq]; rfl
      simp only [tellAll, hf, Res.pure_bind]
      rw [ih s hi hcur]
      rfl
    rcases h y List.mem_cons_self with hg | hg | ⟨v, hg, hv⟩
    · exact quiet (.inl (by rw [hg]; rfl))
    · exact quiet (.inr hg)
    · refine ⟨y.msgs ++ ((expectArrow v).log ++ ms), [(v.value, v.at_)] ++ is, fun s hi hcur => ?_⟩
      have hstep := step_include (env := env) hi hcur hv
      have harrow : (expectArrow v).val = .ok () := by unfold expectArrow; split <;> rfl
      rw [Res.bind_of_ok harrow] at hstep
      have hf : feed (dialplanStep env) s y.gives.elem?.toList = ⟨(expectArrow v).log, .ok (inclIn a [(v.value, v.at_)] s)⟩ := by
        rw [hg]
        simp only [Gives.elem?, Option.toList, feed, hstep]
        simp [wrapExc, Res.bind, Res.pure]
      have hi' := feed_inv DpInv (fun _ _ _ a b => step_inv a b) _ _ _ hi (congrArg Res.val hf)
      have := ih _ hi' hcur
      simp only [tellAll, hf, this, Res.bind, inclIn_two]

theorem others_tell {env : DEnv} {a : Str} (is : List (Str × Where)) : ∀ {b : List Told}, OtherLines b → ∀ {s : DState}, s.cur = .ctx a →
    (tellAll env (inclIn a is s) b = .bind (tellAll env s b) fun s' => .pure (inclIn a is s')) ∧
    ∀ s', (tellAll env s b).val = .ok s' → s'.cur = .ctx a
  | [], _, s, hcur => by
    refine ⟨rfl, fun s' h => ?_⟩
    simp only [tellAll, Res.pure_val, Except.ok.injEq] at h
    exact h ▸ hcur
  | y :: ys, h, s, hcur => by
    have hys : OtherLines ys := fun z hz => h z (List.mem_cons_of_mem _ hz)
    have hfeed : (feed (dialplanStep env) (inclIn a is s) y.gives.elem?.toList =
          .bind (feed (dialplanStep env) s y.gives.elem?.toList) fun s' => .pure (inclIn a is s')) ∧
        ∀ s', (feed (dialplanStep env) s y.gives.elem?.toList).val = .ok s' → s'.cur = .ctx a := by
      rcases h y List.mem_cons_self with hg | ⟨b, w, hg⟩ | ⟨v, hg, hv⟩
      · rw [hg]
        refine ⟨rfl, fun s' h => ?_⟩
        cases h
        exact hcur
      · rw [hg]
        refine ⟨rfl, fun s' h => ?_⟩
        cases h
        exact hcur
      · rw [hg]
        simp only [Gives.elem?, Option.toList, feed]
        constructor
        · rw [step_incl is hcur hv, wrapExc_bind, Res.bind_assoc, Res.bind_assoc]
          simp only [Res.pure_bind]
        · intro s' h
          obtain ⟨m, h1, h2, -⟩ := Res.bind_ok h
          simp only [Res.pure_val, Except.ok.injEq] at h2
          subst h2
          exact step_cur hcur (wrapExc_ok.1 h1)
    simp only [tellAll]
    constructor
    · rw [hfeed.1]
      simp only [Res.bind_assoc, Res.pure_bind]
      congr 1
      funext _
      cases hv : (feed (dialplanStep env) s y.gives.elem?.toList).val with
      | error e => rw [Res.bind_of_error hv, Res.bind_of_error hv]
      | ok m =>
        rw [Res.bind_of_ok hv, Res.bind_of_ok hv, (others_tell is hys (hfeed.2 m hv)).1]
    · intro s' h
      obtain ⟨_, -, h2, -⟩ := Res.bind_ok h
      obtain ⟨m, h3, h4, -⟩ := Res.bind_ok h2
      exact (others_tell is hys (hfeed.2 m h3)).2 s' h4

/-- It does not matter which comes first. -/
theorem swap_tell {env : DEnv} {a : Str} {x b : List Told} (hx : IncludeLines x) (hb : OtherLines b) {s : DState} (hi : DpInv s)
    (hcur : s.cur = .ctx a) : (tellAll env s (x ++ b)).val = (tellAll env s (b ++ x)).val ∧
      ∀ s', (tellAll env s (x ++ b)).val = .ok s' → (tellAll env s (x ++ b)).log.Perm (tellAll env s (b ++ x)).log := by
  obtain ⟨ms, is, h⟩ := includes_tell (env := env) (a := a) hx
  have h1 : (tellAll env s x).val = .ok (inclIn a is s) := by rw [h s hi hcur]
  obtain ⟨h2, h3⟩ := others_tell (env := env) is hb hcur
  rw [tellAll_two h1, tellAll_append, h2, h s hi hcur]
  cases hv : (tellAll env s b).val with
  | error e =>
    rw [Res.bind_of_error hv, Res.bind_of_error hv]
    exact ⟨rfl, fun _ h => by cases h⟩
  | ok m =>
    have hm := tellAll_dpInv b hi hv
    rw [Res.bind_of_ok hv, Res.bind_of_ok hv, h m hm (h3 m hv)]
    refine ⟨rfl, fun _ _ => ?_⟩
    simp only [Res.pure_log, List.append_nil]
    exact List.perm_append_comm

/-- Lines that can change places, in a file. -/
theorem whole_swapped {env : DEnv} {sp : Option Str} {ta one two r : List Told} {s0 : DState} (h0 : (tellAll env (.init sp) ta).val = .ok s0)
    (hswap : (tellAll env s0 (one ++ two)).val = (tellAll env s0 (two ++ one)).val ∧
      ∀ s', (tellAll env s0 (one ++ two)).val = .ok s' → (tellAll env s0 (one ++ two)).log.Perm (tellAll env s0 (two ++ one)).log)
    {st : DState} (h : (wholeTell env sp (ta ++ (one ++ (two ++ r)))).val = .ok st) :
    (wholeTell env sp (ta ++ (two ++ (one ++ r)))).val = .ok st ∧
      ((wholeTell env sp (ta ++ (one ++ (two ++ r)))).log).Perm ((wholeTell env sp (ta ++ (two ++ (one ++ r)))).log) := by
  have hs := wholeTell_end h
  rw [← List.append_assoc one, tellAll_two h0, tellAll_append] at hs
  obtain ⟨m, h1, h2, -⟩ := Res.bind_ok hs
  have h1' := h1
  rw [hswap.1] at h1'
  have e1 : tellAll env (.init sp) (ta ++ (one ++ (two ++ r))) =
      ⟨(tellAll env (.init sp) ta).log ++ ((tellAll env s0 (one ++ two)).log ++ (tellAll env m r).log), .ok st⟩ := by
    rw [← List.append_assoc one, tellAll_two h0, tellAll_two h1, ← h2]
  have e2 : tellAll env (.init sp) (ta ++ (two ++ (one ++ r))) =
      ⟨(tellAll env (.init sp) ta).log ++ ((tellAll env s0 (two ++ one)).log ++ (tellAll env m r).log), .ok st⟩ := by
    rw [← List.append_assoc two, tellAll_two h0, tellAll_two h1', ← h2]
  unfold wholeTell at h ⊢
  rw [e1] at h ⊢
  rw [e2]
  refine ⟨h, ?_⟩
  rw [Res.bind_of_ok (a := st) rfl, Res.bind_of_ok (a := st) rfl]
  exact (((hswap.2 m h1).append_right _).append_left _).append_right _

/-! ## Parts of a file -/

theorem kinds_placeless {K : VarE → Prop} (hK : ∀ v, K (reV textOnly v) ↔ K v) :
    Placeless fun told => ∀ x ∈ told, x.gives = .nothing ∨ (∃ b w, x.gives = .elem (.empty b w)) ∨ ∃ v : VarE, x.gives = .elem (.var v) ∧ K v where
  re := by
    intro l
    have one : ∀ x : Told, ((reTold textOnly x).gives = .nothing ∨ (∃ b w, (reTold textOnly x).gives = .elem (.empty b w)) ∨
          ∃ v : VarE, (reTold textOnly x).gives = .elem (.var v) ∧ K v) ↔
        (x.gives = .nothing ∨ (∃ b w, x.gives = .elem (.empty b w)) ∨ ∃ v : VarE, x.gives = .elem (.var v) ∧ K v) := by
      rintro ⟨w, ms, g⟩
      cases g with
      | file p => simp [reTold, reG]
      | nothing => simp [reTold, reG]
      | elem e => cases e <;> simp [reTold, reG, reE, hK]
    simp only [List.mem_map, forall_exists_index, and_imp, forall_apply_eq_imp_iff₂, one]
  shut := by
    intro l h x hx f hf
    rcases h x hx with h | ⟨b, w, h⟩ | ⟨v, h, -⟩ <;> (rw [hf] at h; cases h)

theorem includeLines_placeless : Placeless IncludeLines := kinds_placeless (K := fun v => v.key = c! "include") fun _ => Iff.rfl

theorem otherLines_placeless : Placeless OtherLines := kinds_placeless (K := fun v => v.key ≠ c! "include") fun _ => Iff.rfl

/-- Two parts of a file change places. -/
theorem part_swapped {P1 P2 : List Told → Prop} (hP1 : Placeless P1) (hP2 : Placeless P2) {fs fs' : FS} {env : DEnv} {sp : Option Str} {n n0 : Nat}
    {path : Str} {above one two rest : Bytes} (hs : PartsSwapped fs fs' path above one two rest) (h1 : TextIs fs path one P1) (h2 : TextIs fs path two P2)
    {log0 log : List Msg} {st0 st : DState} (h0 : checkDialplan fs env sp n0 path above = ⟨log0, .ok (some st0)⟩)
    (h : checkDialplan fs env sp n path (above ++ (one ++ (two ++ rest))) = ⟨log, .ok (some st)⟩)
    (core : ∀ (x y : List Told), P1 x → P2 y → DpInv st0 → (tellAll env st0 (x ++ y)).val = (tellAll env st0 (y ++ x)).val ∧
      ∀ s', (tellAll env st0 (x ++ y)).val = .ok s' → (tellAll env st0 (x ++ y)).log.Perm (tellAll env st0 (y ++ x)).log) :
    ∃ k log' st', (∀ n', k ≤ n' → checkDialplan fs' env sp n' path (above ++ (two ++ (one ++ rest))) = ⟨log', .ok (some st')⟩) ∧
      SameInSomeOrder (substance log) (substance log') ∧ reSt textOnly st' = reSt textOnly st := by
  obtain ⟨t0, ta0, hread0, hv0, -⟩ := check_tells h0
  obtain ⟨t, told, hread, hv, hlog⟩ := check_tells h
  obtain ⟨-, hagree, hmod⟩ := replaced_agree hs.before hs.others hread
  have hexp := hread.expand
  rw [physLines_more _ above hs.whole, physLines_more _ one h1.1, physLines_more _ two h2.1] at hexp
  obtain ⟨tA, t1, hA, e1, f1⟩ := expand_parts _ _ hexp
  obtain ⟨tX, t2, hX1, e2, f2⟩ := expand_parts _ _ e1
  obtain ⟨tY, tR, hY1, hR1, f3⟩ := expand_parts _ _ e2
  have hA0 := expand_same hA hread0.expand
  subst hA0
  have hlines := hread.lines
  rw [f1, f2, f3] at hlines
  obtain ⟨ta, m1, rfl, ea, hlines⟩ := told_split hlines
  obtain ⟨x, m2, rfl, ex, hlines⟩ := told_split hlines
  obtain ⟨y, r, rfl, ey, er⟩ := told_split hlines
  have hta : ta = ta0 := told_eq (by rw [ea, hread0.lines]) (fun z hz => hread.models z (List.mem_append_left _ hz)) hread0.models
  subst hta
  obtain ⟨x', gx1, gx2, gx3⟩ := text_laid fs' hP1 h1 (0 + (physLines above).length)
  obtain ⟨tX', ix1, ix2⟩ := laid_expand (fs'' := fs) gx1
  have := expand_same hX1 ix1
  subst this
  have := told_eq (fs := fs) (a := x) (b := x') (by rw [ex, ix2]) (fun z hz => hread.models z (by simp [hz])) gx1.here
  subst this
  obtain ⟨y', gy1, gy2, gy3⟩ := text_laid fs' hP2 h2 (0 + (physLines above).length + (physLines one).length)
  obtain ⟨tY', iy1, iy2⟩ := laid_expand (fs'' := fs) gy1
  have := expand_same hY1 iy1
  subst this
  have := told_eq (fs := fs) (a := y) (b := y') (by rw [ey, iy2]) (fun z hz => hread.models z (by simp [hz])) gy1.here
  subst this
  -- the new file
  obtain ⟨yn, ny1, -, ny3⟩ := text_laid fs' hP2 h2 (0 + (physLines above).length)
  obtain ⟨tYn, jy1, jy2⟩ := laid_expand (fs'' := fs') ny1
  obtain ⟨xn, nx1, -, nx3⟩ := text_laid fs' hP1 h1 (0 + (physLines above).length + (physLines two).length)
  obtain ⟨tXn, jx1, jx2⟩ := laid_expand (fs'' := fs') nx1
  have hR2 := expand_agree hR1 fun w hw => hagree w (by rw [f1, f2, f3]; simp [hw])
  obtain ⟨tRn, jr1, jr2⟩ := expand_elsewhere (f' := path) (fun _ => rfl)
    (0 + (physLines above).length + (physLines two).length + (physLines one).length) hR2
  obtain ⟨rn, kr1, kr2, kr3⟩ := tolds_elsewhere (fs := fs') textOnly_of (told := r) (fun z hz => hmod z (by simp [hz])) (by rw [er]; exact jr2)
  have hA' := expand_agree hA fun w hw => hagree w (by rw [f1]; simp [hw])
  obtain ⟨u1, v1, v2⟩ := expand_join jx1 jr1
  obtain ⟨u2, v3, v4⟩ := expand_join jy1 v1
  obtain ⟨u3, v5, v6⟩ := expand_join hA' v3
  rw [← physLines_more _ one h1.1, ← physLines_more _ two h2.1, ← physLines_more _ above hs.whole] at v5
  have hread' : ReadTold fs' path (above ++ (two ++ (one ++ rest))) u3 (ta ++ (yn ++ (xn ++ rn))) := by
    refine ⟨v5, ?_, fun z hz => ?_⟩
    · rw [v6, v4, v2]
      simp only [List.map_append, ea, kr1, jx2, jy2]
    · simp only [List.mem_append] at hz
      rcases hz with hz | hz | hz | hz
      · exact hmod z (by simp [hz])
      · exact ny1.there z hz
      · exact nx1.there z hz
      · exact kr2 z hz
  have hi0 := tellAll_dpInv ta (DpInv.init sp) (wholeTell_end hv0)
  obtain ⟨c1, c2⟩ := whole_swapped (wholeTell_end hv0) (core x y gx2 gy2 hi0) hv
  have hre : (ta ++ (yn ++ (xn ++ rn))).map (reTold textOnly) = (ta ++ (y ++ (x ++ r))).map (reTold textOnly) := by
    simp only [List.map_append, kr3, nx3, gx3, ny3, gy3]
  obtain ⟨st', d1, d2, d3⟩ := wholeTell_re hre c1
  obtain ⟨log', l1, l2⟩ := check_of_tells hread' d1
  have hperm : ((substance log).map (reM textOnly)).Perm ((substance log').map (reM textOnly)) := by
    rw [hlog, l1, ← d3]
    exact (c2.filter _).map _
  obtain ⟨l, p1, p2⟩ := perm_lifted _ hperm rfl
  exact ⟨_, log', st', l2, ⟨l, p1, zips_words p2⟩, d2⟩

theorem text_of_re {s t : DState} (h : reSt textOnly s = reSt textOnly t) : dialplanText s.dp = dialplanText t.dp := by
  have : reDp textOnly s.dp = reDp textOnly t.dp := congrArg DState.dp h
  rw [← dialplanText_re textOnly s.dp, this, dialplanText_re]

theorem includes_down {fs fs' : FS} {env : DEnv} {sp : Option Str} {n n0 : Nat} {path a : Str} {above one two rest : Bytes}
    (hs : PartsSwapped fs fs' path above one two rest) (h1 : TextIs fs path one IncludeLines) (h2 : TextIs fs path two OtherLines)
    {log0 log : List Msg} {st0 st : DState} (h0 : checkDialplan fs env sp n0 path above = ⟨log0, .ok (some st0)⟩) (hcur : st0.cur = .ctx a)
    (h : checkDialplan fs env sp n path (above ++ (one ++ (two ++ rest))) = ⟨log, .ok (some st)⟩) :
    ∃ k log' st', (∀ n', k ≤ n' → checkDialplan fs' env sp n' path (above ++ (two ++ (one ++ rest))) = ⟨log', .ok (some st')⟩) ∧
      SameInSomeOrder (substance log) (substance log') ∧ dialplanText st'.dp = dialplanText st.dp := by
  obtain ⟨k, log', st', e1, e2, e3⟩ := part_swapped includeLines_placeless otherLines_placeless hs h1 h2 h0 h fun x y hx hy hi => swap_tell hx hy hi hcur
  exact ⟨k, log', st', e1, e2, text_of_re e3⟩

theorem includes_up {fs fs' : FS} {env : DEnv} {sp : Option Str} {n n0 : Nat} {path a : Str} {above one two rest : Bytes}
    (hs : PartsSwapped fs fs' path above one two rest) (h1 : TextIs fs path one OtherLines) (h2 : TextIs fs path two IncludeLines)
    {log0 log : List Msg} {st0 st : DState} (h0 : checkDialplan fs env sp n0 path above = ⟨log0, .ok (some st0)⟩) (hcur : st0.cur = .ctx a)
    (h : checkDialplan fs env sp n path (above ++ (one ++ (two ++ rest))) = ⟨log, .ok (some st)⟩) :
    ∃ k log' st', (∀ n', k ≤ n' → checkDialplan fs' env sp n' path (above ++ (two ++ (one ++ rest))) = ⟨log', .ok (some st')⟩) ∧
      SameInSomeOrder (substance log) (substance log') ∧ dialplanText st'.dp = dialplanText st.dp := by
  obtain ⟨k, log', st', e1, e2, e3⟩ := part_swapped otherLines_placeless includeLines_placeless hs h1 h2 h0 h fun x y hx hy hi => by
    obtain ⟨g1, g2⟩ := swap_tell (env := env) hy hx hi hcur
    exact ⟨g1.symm, fun s' hs' => (g2 s' (g1 ▸ hs')).symm⟩
  exact ⟨k, log', st', e1, e2, text_of_re e3⟩

end ALint.Proofs
