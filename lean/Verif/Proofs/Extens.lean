import Verif.Spec.Extens
import Verif.Proofs.Sections
import Verif.Proofs.DialplanList
import Verif.Model.Show

/-!
# The extensions of a context in another order (proofs)
-/

namespace ALint.Proofs
open ALint Spec Props
open ALint.Pattern (Values canonical)

/-! ## A step on top of other steps -/

/-- A context with the steps of another one at the end. -/
def overCtx (c d : DCtx) : DCtx :=
  { c with steps := c.steps ++ d.steps, cache := c.cache ++ d.cache, lastPrio := d.lastPrio, sorted := none }

/-- There is nothing of this extension in the context. -/
structure NewTo (pat : Values) (c : DCtx) : Prop where
  steps : ∀ x ∈ c.steps, x.pat ≠ pat
  cache : ∀ kv ∈ c.cache, kv.1 ≠ canonical pat

/-- There is only something of this extension in the context. -/
structure OnlyOf (pat : Values) (d : DCtx) : Prop where
  steps : ∀ x ∈ d.steps, x.pat = pat
  cache : ∀ kv ∈ d.cache, kv.1 = canonical pat

theorem lookup_skip {β : Type} {k : Str} : ∀ {l m : List (Str × β)}, (∀ kv ∈ l, kv.1 ≠ k) → (l ++ m).lookup k = m.lookup k
  | [], _, _ => rfl
  | (a, b) :: l, m, h => by
    have : (k == a) = false := by
      have := h (a, b) List.mem_cons_self
      simp only [beq_eq_false_iff_ne, ne_eq]
      exact fun e => this e.symm
    rw [List.cons_append, List.lookup_cons, this]
    exact lookup_skip fun kv hkv => h kv (List.mem_cons_of_mem _ hkv)

theorem putCache_skip {k : Str} {pc : PCache} : ∀ {l m : List (Str × PCache)}, (∀ kv ∈ l, kv.1 ≠ k) →
    putCache k pc (l ++ m) = l ++ putCache k pc m
  | [], _, _ => rfl
  | (a, b) :: l, m, h => by
    rw [List.cons_append, putCache, if_neg (h (a, b) List.mem_cons_self), List.cons_append,
      putCache_skip fun kv hkv => h kv (List.mem_cons_of_mem _ hkv)]

theorem addExt_over {pat : Values} {c d : DCtx} (hc : NewTo pat c) (hd : OnlyOf pat d) (hn : d.name = c.name) {e : ExtLine}
    (he : ∀ q, e.pat = some q → q.2 = pat) (h1 : d.steps = [] → e.pat.isSome = true ∧ e.prio.isSome = true) (last : Option Nat) :
    addExt last (overCtx c d) e = .bind (addExt last d e) fun a => .pure ⟨overCtx c a.ctx, a.last, a.labels, a.dests⟩ := by
  have hlast : d.steps ≠ [] → (c.steps ++ d.steps).getLast? = d.steps.getLast? := by
    intro hne
    cases hx : d.steps.getLast? with
    | none => exact absurd (List.getLast?_eq_none_iff.1 hx) hne
    | some x => simp [List.getLast?_append, hx]
  have hres : resolvePat { overCtx c d with sorted := none } e = resolvePat { d with sorted := none } e := by
    unfold resolvePat
    cases hp : e.pat with
    | some q => rfl
    | none =>
      have hne : d.steps ≠ [] := fun h => by have := (h1 h).1; rw [hp] at this; cases this
      dsimp only [overCtx]
      rw [hlast hne]
  unfold addExt
  dsimp only
  rw [hres]
  cases hp : resolvePat { d with sorted := none } e with
  | none =>
    dsimp only
    rw [Res.bind_assoc]
    rfl
  | some q =>
    obtain ⟨raw, pat'⟩ := q
    have hpat : pat' = pat := by
      unfold resolvePat at hp
      cases hq : e.pat with
      | some q =>
        rw [hq] at hp
        simp only [Option.some.injEq] at hp
        have := he q hq
        rw [hp] at this
        exact this
      | none =>
        rw [hq] at hp
        simp only [Option.map_eq_some_iff] at hp
        obtain ⟨s, hs, hs2⟩ := hp
        simp only [Prod.mk.injEq] at hs2
        rw [← hs2.2]
        exact hd.steps s (List.mem_of_getLast? hs)
    subst hpat
    dsimp only
    have hprio : resolvePrio last { overCtx c d with sorted := none } raw pat' e = resolvePrio last { d with sorted := none } raw pat' e := by
      unfold resolvePrio
      cases hq : e.prio with
      | none =>
        have hne : d.steps ≠ [] := fun h => by have := (h1 h).2; rw [hq] at this; cases this
        have : outOfOrder { overCtx c d with sorted := none } pat' = outOfOrder { d with sorted := none } pat' := by
          unfold outOfOrder
          dsimp only [overCtx]
          rw [hlast hne]
          rfl
        dsimp only
        rw [this]
      | some n =>
        have : lastOf (c.steps ++ d.steps) pat' = lastOf d.steps pat' := by
          unfold lastOf
          have hf : c.steps.filter (·.pat = pat') = [] := by
            rw [List.filter_eq_nil_iff]
            intro x hx
            simpa using hc.steps x hx
          rw [List.filter_append, hf, List.nil_append]
        dsimp only [overCtx]
        rw [this]
    rw [hprio, Res.bind_assoc]
    congr 1
    funext r
    cases r with
    | none => rfl
    | some n =>
      dsimp only
      unfold storeStep
      dsimp only
      have hcc : cacheCheck { overCtx c d with sorted := none, lastPrio := some n } (canonical pat') n e.label e.at_ =
          cacheCheck { d with sorted := none, lastPrio := some n } (canonical pat') n e.label e.at_ := by
        unfold cacheCheck
        dsimp only [overCtx]
        rw [lookup_skip hc.cache]
      rw [hcc, Res.bind_assoc]
      congr 1
      funext r
      cases r with
      | none => rfl
      | some x =>
        obtain ⟨pc, label, labels⟩ := x
        dsimp only [overCtx]
        rw [hn, Res.bind_assoc]
        congr 1
        funext ds
        rw [Res.pure_bind, putCache_skip hc.cache]
        simp

/-- The first line of an extension: nothing is looked up. -/
theorem addExt_first {last last' lp : Option Nat} {c : DCtx} {e : ExtLine} {n : Nat} (hp : e.pat.isSome = true) (hn : e.prio = some n)
    (h1 : 1 ≤ n) : addExt last c e = addExt last' { c with lastPrio := lp, sorted := none } e := by
  rw [addExt_own hp hn h1 (last' := last')]
  unfold addExt
  dsimp only
  cases he : e.pat with
  | none => rw [he] at hp; cases hp
  | some q =>
    obtain ⟨raw, pat⟩ := q
    have r1 : resolvePat { c with sorted := none } e = some (raw, pat) := by simp [resolvePat, he]
    have r2 : resolvePat { c with lastPrio := lp, sorted := none } e = some (raw, pat) := by simp [resolvePat, he]
    rw [r1, r2]
    dsimp only
    have h0 : ¬ n < 1 := by omega
    have r3 : resolvePrio last' { c with sorted := none } raw pat e = resolvePrio last' { c with lastPrio := lp, sorted := none } raw pat e := by
      unfold resolvePrio
      rw [hn]
    rw [r3]
    cases hv : (resolvePrio last' { c with lastPrio := lp, sorted := none } raw pat e).val with
    | error x => rw [Res.bind_of_error hv, Res.bind_of_error hv]
    | ok r =>
      rw [Res.bind_of_ok hv, Res.bind_of_ok hv]
      cases r with
      | none =>
        have := resolvePrio_none hv
        generalize (resolvePrio last' { c with lastPrio := lp, sorted := none } raw pat e).log = lg at this
        cases this with
        | next h => rw [hn] at h; cases h
        | zero h => rw [hn] at h; cases h; omega
      | some m => rfl

theorem onlyOf_added {pat : Values} {last : Option Nat} {d : DCtx} {e : ExtLine} {a : Added} (hd : OnlyOf pat d)
    (he : ∀ q, e.pat = some q → q.2 = pat) (h : (addExt last d e).val = .ok a) :
    OnlyOf pat a.ctx ∧ (d.steps ≠ [] → a.ctx.steps ≠ []) := by
  have hpat : ∀ raw p, resolvePat d e = some (raw, p) → p = pat := by
    intro raw p hp
    unfold resolvePat at hp
    cases hq : e.pat with
    | some q =>
      rw [hq] at hp
      simp only [Option.some.injEq] at hp
      have := he q hq
      rw [hp] at this
      exact this
    | none =>
      rw [hq] at hp
      simp only [Option.map_eq_some_iff] at hp
      obtain ⟨s, hs, hs2⟩ := hp
      simp only [Prod.mk.injEq] at hs2
      rw [← hs2.2]
      exact hd.steps s (List.mem_of_getLast? hs)
  have := addExt_cases h
  generalize (addExt last d e).log = lg at this
  cases this with
  | noPat _ => exact ⟨⟨hd.steps, hd.cache⟩, id⟩
  | noPrio _ _ _ _ _ => exact ⟨⟨hd.steps, hd.cache⟩, id⟩
  | dupe _ _ _ _ _ _ _ _ => exact ⟨⟨hd.steps, hd.cache⟩, id⟩
  | stored raw p ms n label' ls ds pc lms hp hr hdd hpc hlc hl hj =>
    have := hpat raw p hp
    subst this
    refine ⟨⟨fun x hx => ?_, fun kv hkv => ?_⟩, fun _ => by simp⟩
    · rcases List.mem_append.1 hx with hx | hx
      · exact hd.steps x hx
      · rw [List.mem_singleton.1 hx]
    · rcases putCache_mem hkv with hkv | rfl
      · exact hd.cache kv hkv
      · rfl

theorem first_added {last : Option Nat} {d : DCtx} {e : ExtLine} {n : Nat} {a : Added} (hd : d.cache = [])
    (hp : e.pat.isSome = true) (hn : e.prio = some n) (h1 : 1 ≤ n) (h : (addExt last d e).val = .ok a) : a.ctx.steps ≠ [] := by
  have := addExt_cases h
  generalize (addExt last d e).log = lg at this
  cases this with
  | noPat hq =>
    unfold resolvePat at hq
    cases hx : e.pat with
    | none => rw [hx] at hp; cases hp
    | some q => rw [hx] at hq; cases hq
  | noPrio raw pat _ hq hr =>
    have := resolvePrio_none (congrArg Res.val hr)
    generalize (resolvePrio last { d with sorted := none } raw pat e).log = lg at this
    cases this with
    | next h => rw [hn] at h; cases h
    | zero h => rw [hn] at h; cases h; omega
  | dupe raw p _ m prev _ _ hdd => simp [cachedPrio, hd] at hdd
  | stored raw p ms n label' ls ds pc lms hp hr hdd hpc hlc hl hj => simp

/-! ## The lines of an extension -/

/-- The lines of an extension alone, in an empty context. -/
def blk0 (a : Str) (sp : Option Str) : DState :=
  ⟨{ Dialplan.init with contexts := [⟨a, ⟨[], 0, []⟩, [], [], none, [], none⟩] }, .ctx a, sp, []⟩

def blkOf (b : DState) : DCtx := b.dp.contexts.headD ⟨[], ⟨[], 0, []⟩, [], [], none, [], none⟩

/-- A state with what the lines of an extension have brought about. -/
def overS (s : DState) (c : DCtx) (b : DState) : DState :=
  ⟨{ s.dp with
      contexts := putCtx (overCtx c (blkOf b)) s.dp.contexts,
      lastPrio := b.dp.lastPrio,
      allLabels := s.dp.allLabels ++ b.dp.allLabels,
      dests := s.dp.dests ++ b.dp.dests }, s.cur, b.sp, s.uses ++ b.uses⟩

/-- Some lines of the extension have been read. -/
structure IsBlk (a : Str) (pat : Values) (b : DState) : Prop where
  ctxs : b.dp.contexts = [blkOf b]
  name : (blkOf b).name = a
  only : OnlyOf pat (blkOf b)
  cur : b.cur = .ctx a
  some : (blkOf b).steps ≠ []

theorem putCtx_twice {c d : DCtx} (h : d.name = c.name) (l : List DCtx) : putCtx d (putCtx c l) = putCtx d l := by
  induction l with
  | nil => rfl
  | cons x l ih =>
    simp only [putCtx]
    by_cases hx : x.name = c.name
    · rw [if_pos hx, if_pos (hx.trans h.symm), putCtx, if_pos h.symm]
    · rw [if_neg hx, if_neg (fun e => hx (e.trans h)), putCtx, if_neg (fun e => hx (e.trans h)), ih]

theorem over_get {s : DState} {a : Str} {c : DCtx} (hc : s.dp.get a = some c) (b : DState) :
    (overS s c b).dp.get a = some (overCtx c (blkOf b)) :=
  (get_putted hc (d := overCtx c (blkOf b)) (get_mem hc).2 (overS s c b).dp rfl).1

/-- What a step gives. -/
theorem fromVarset_step {env : DEnv} {sp : Option Str} {v : VarE} {p : Parts} (ht : StepText v p) {r : Option Str × List Ev × DVar}
    (hr : (fromVarset env sp v).val = .ok r) : ∃ e, r.2.2 = .ext e ∧ e.prio = p.prio ∧ readPattern p.exten = .ok e.pat := by
  have hk : v.key = c! "exten" ∨ v.key = c! "same" := by
    obtain ⟨_, hkey, _⟩ := ht
    cases hx : p.exten with
    | none => rw [hx] at hkey; exact .inr hkey
    | some raw => rw [hx] at hkey; exact .inl hkey
  unfold fromVarset at hr
  rw [if_pos hk, readExten_text env sp ht] at hr
  obtain ⟨_, -, hr, -⟩ := Res.bind_ok hr
  obtain ⟨pat, hpat, hr, -⟩ := Res.bind_ok hr
  obtain ⟨x, -, hr, -⟩ := Res.bind_ok hr
  simp only [Res.pure_val, Except.ok.injEq] at hr
  subst hr
  exact ⟨_, rfl, rfl, hpat⟩

theorem readPattern_only {x : Option Str} {q : Option (Str × Values)} {pat : Values} (h : readPattern x = .ok q)
    (hx : ∀ raw, x = some raw → Pattern.parse raw = .ok pat) : ∀ y, q = some y → y.2 = pat := by
  intro y hy
  subst hy
  obtain ⟨raw, pat'⟩ := y
  obtain ⟨h1, h2⟩ := readPattern_some h
  rw [hx raw h1] at h2
  cases h2
  rfl

theorem readPattern_isSome {raw : Str} {q : Option (Str × Values)} (h : readPattern (some raw) = .ok q) : q.isSome = true := by
  simp only [readPattern] at h
  split at h
  · simp only [Except.ok.injEq] at h; subst h; rfl
  · cases h

/-- A line on top of other ones. -/
theorem over_step {env : DEnv} {a : Str} {s b : DState} {c d c' : DCtx} {v : VarE} {p : Parts} (ht : StepText v p)
    (hcur : s.cur = .ctx a) (hc : s.dp.get a = some c') (hbc : b.dp.contexts = [d]) (hbn : d.name = a) (hbcur : b.cur = .ctx a) {t : DState}
    (hname : c.name = a) (hs : s.sp = b.sp) (hput : ∀ x, x.name = a → putCtx x s.dp.contexts = putCtx x t.dp.contexts)
    (hlab : s.dp.allLabels = t.dp.allLabels ++ b.dp.allLabels) (hdest : s.dp.dests = t.dp.dests ++ b.dp.dests)
    (huse : s.uses = t.uses ++ b.uses) (hg : s.dp.general = t.dp.general) (hg' : s.dp.globals = t.dp.globals) (htc : t.cur = .ctx a)
    (hadd : ∀ e : ExtLine, e.prio = p.prio → readPattern p.exten = .ok e.pat → addExt s.dp.lastPrio c' e =
      .bind (addExt b.dp.lastPrio d e) fun x => .pure ⟨overCtx c x.ctx, x.last, x.labels, x.dests⟩) :
    dialplanStep env s (.var v) = .bind (dialplanStep env b (.var v)) (fun b' => .pure (overS t c b')) ∧
    ∀ b', (dialplanStep env b (.var v)).val = .ok b' → ∃ e x, e.prio = p.prio ∧ readPattern p.exten = .ok e.pat ∧
      (addExt b.dp.lastPrio d e).val = .ok x ∧ b'.dp.contexts = [x.ctx] ∧ x.ctx.name = a ∧ b'.cur = .ctx a := by
  have hbget : b.dp.get a = some d := by simp [Dialplan.get, hbc, hbn]
  simp only [dialplanStep, onVarset, hcur, hc, hbcur, hbget, hs]
  cases hr : (fromVarset env b.sp v).val with
  | error e => rw [Res.bind_of_error hr, Res.bind_of_error hr]; exact ⟨rfl, fun b' h => by cases h⟩
  | ok r =>
    obtain ⟨e, he, hep, hpat⟩ := fromVarset_step ht hr
    obtain ⟨sp', us, dv⟩ := r
    dsimp only at he
    subst he
    have hA := hadd e hep hpat
    have shape : ∀ x, (addExt b.dp.lastPrio d e).val = .ok x → x.ctx.name = a ∧ (b.dp.withAdded x).contexts = [x.ctx] := by
      intro x hx
      have hxn : x.ctx.name = a := (addCase_frame (addExt_cases hx)).1.trans hbn
      refine ⟨hxn, ?_⟩
      show putCtx x.ctx b.dp.contexts = _
      rw [hbc, putCtx, if_pos (hbn.trans hxn.symm)]
    constructor
    · rw [Res.bind_assoc, Res.bind_of_ok hr, Res.bind_of_ok hr]
      simp only [onDVar, hA, Res.bind_assoc, Res.pure_bind]
      simp only [Res.mk.injEq]
      cases hcan : (canonCheck e).val with
      | error x => rw [Res.bind_of_error hcan, Res.bind_of_error hcan]; exact ⟨rfl, rfl⟩
      | ok _ =>
        rw [Res.bind_of_ok hcan, Res.bind_of_ok hcan]
        cases hx : (addExt b.dp.lastPrio d e).val with
        | error x => rw [Res.bind_of_error hx, Res.bind_of_error hx]; exact ⟨rfl, rfl⟩
        | ok x =>
          rw [Res.bind_of_ok hx, Res.bind_of_ok hx]
          obtain ⟨hxn, hxc⟩ := shape x hx
          have hblk : ∀ cur' sp' us', blkOf ⟨b.dp.withAdded x, cur', sp', us'⟩ = x.ctx := by
            intro cur' sp' us'
            unfold blkOf
            rw [hxc]
            rfl
          have : (⟨s.dp.withAdded ⟨overCtx c x.ctx, x.last, x.labels, x.dests⟩, .ctx a, sp', s.uses ++ us⟩ : DState) =
              overS t c ⟨b.dp.withAdded x, .ctx a, sp', b.uses ++ us⟩ := by
            unfold overS
            rw [hblk]
            simp only [Dialplan.withAdded, hput (overCtx c x.ctx) hname, hlab, hdest, huse, List.append_assoc, htc, hg, hg']
          simp only [this]
          exact ⟨trivial, trivial⟩
    · intro b' hb'
      rw [Res.bind_of_ok hr] at hb'
      obtain ⟨dp, h1, h2, -⟩ := Res.bind_ok hb'
      simp only [Res.pure_val, Except.ok.injEq] at h2
      subst h2
      simp only [onDVar] at h1
      obtain ⟨_, -, h3, -⟩ := Res.bind_ok h1
      obtain ⟨x, h4, h5, -⟩ := Res.bind_ok h3
      simp only [Res.pure_val, Except.ok.injEq] at h5
      subst h5
      exact ⟨e, x, hep, hpat, h4, (shape x h4).2, (shape x h4).1, rfl⟩

theorem tellAll_var {env : DEnv} {s : DState} {x : Told} {xs : List Told} {v : VarE} (h : x.gives = .elem (.var v)) :
    tellAll env s (x :: xs) = .bind ⟨x.msgs, .ok ()⟩ fun _ => .bind (wrapExc (dialplanStep env s (.var v))) fun s' => tellAll env s' xs := by
  have e : x.gives.elem?.toList = [.var v] := by rw [h]; rfl
  simp only [tellAll, e, feed, Res.bind_assoc, Res.pure_bind]

theorem tellAll_still {env : DEnv} {s : DState} {x : Told} {xs : List Told} (h : x.gives = .nothing ∨ ∃ b w, x.gives = .elem (.empty b w)) :
    tellAll env s (x :: xs) = .bind ⟨x.msgs, .ok ()⟩ fun _ => tellAll env s xs := by
  have : feed (dialplanStep env) s x.gives.elem?.toList = .pure s := by
    rcases h with h | ⟨b, w, h⟩ <;> rw [h] <;> rfl
  simp only [tellAll, this, Res.pure_bind]

theorem wrapExc_map {α β : Type} (r : Res α) (f : α → β) : wrapExc (.bind r fun a => .pure (f a)) = .bind (wrapExc r) fun a => .pure (f a) := by
  obtain ⟨lg, v⟩ := r
  cases v with
  | error e => rfl
  | ok a => rfl

theorem blkOf_eq {b : DState} {d : DCtx} (h : b.dp.contexts = [d]) : blkOf b = d := by
  unfold blkOf
  rw [h]
  rfl

/-- The lines below the first one. -/
theorem over_rest {env : DEnv} {a : Str} {pat : Values} {s : DState} {c : DCtx} (hcur : s.cur = .ctx a) (hc : s.dp.get a = some c)
    (hnew : NewTo pat c) : ∀ (told : List Told) {b : DState}, IsBlk a pat b →
    (∀ x ∈ told, x.gives = .nothing ∨ (∃ b w, x.gives = .elem (.empty b w)) ∨
      ∃ (v : VarE) (p : Parts), x.gives = .elem (.var v) ∧ StepText v p ∧ ∀ raw, p.exten = some raw → Pattern.parse raw = .ok pat) →
    tellAll env (overS s c b) told = .bind (tellAll env b told) (fun b' => .pure (overS s c b')) ∧
    ∀ b', (tellAll env b told).val = .ok b' → IsBlk a pat b'
  | [], b, hb, _ => ⟨rfl, fun b' h => by simp only [tellAll, Res.pure_val, Except.ok.injEq] at h; exact h ▸ hb⟩
  | x :: xs, b, hb, h => by
    have hxs := fun y hy => h y (List.mem_cons_of_mem _ hy)
    have hcn : c.name = a := (get_mem hc).2
    have skip : (x.gives = .nothing ∨ ∃ b w, x.gives = .elem (.empty b w)) → _ := fun hx => by
      obtain ⟨i1, i2⟩ := over_rest hcur hc hnew xs hb hxs (env := env)
      refine (?_ : tellAll env (overS s c b) (x :: xs) = .bind (tellAll env b (x :: xs)) (fun b' => .pure (overS s c b')) ∧
        ∀ b', (tellAll env b (x :: xs)).val = .ok b' → IsBlk a pat b')
      rw [tellAll_still hx, tellAll_still hx, i1, Res.bind_assoc]
      refine ⟨rfl, fun b' hb' => ?_⟩
      obtain ⟨_, -, h2, -⟩ := Res.bind_ok hb'
      exact i2 b' h2
    rcases h x List.mem_cons_self with hx | hx | ⟨v, p, hx, ht, hp⟩
    · exact skip (.inl hx)
    · exact skip (.inr hx)
    · obtain ⟨k1, k2⟩ := over_step (env := env) (t := s) (s := overS s c b) (b := b) (c := c) (d := blkOf b) ht hcur (over_get hc b) hb.ctxs hb.name hb.cur hcn rfl
        (fun y hy => putCtx_twice (c := overCtx c (blkOf b)) (hy.trans hcn.symm) _) rfl rfl rfl rfl rfl hcur
        (fun e he1 he2 => addExt_over hnew hb.only (hb.name.trans hcn.symm) (readPattern_only he2 hp) (fun h0 => absurd h0 hb.some) _)
      rw [tellAll_var hx, tellAll_var hx, k1, wrapExc_map, Res.bind_assoc]
      have next : ∀ b1, (dialplanStep env b (.var v)).val = .ok b1 → IsBlk a pat b1 := by
        intro b1 h1
        obtain ⟨e, ad, g1, g2, g3, g4, g5, g6⟩ := k2 b1 h1
        have hblk := blkOf_eq g4
        obtain ⟨o1, o2⟩ := onlyOf_added hb.only (readPattern_only g2 hp) g3
        exact ⟨by rw [hblk]; exact g4, by rw [hblk]; exact g5, by rw [hblk]; exact o1, g6, by rw [hblk]; exact o2 hb.some⟩
      rw [Res.bind_of_ok (a := ()) rfl, Res.bind_of_ok (a := ()) rfl]
      cases hv : (dialplanStep env b (.var v)).val with
      | error e =>
        have hw : (wrapExc (dialplanStep env b (.var v))).val = .error (.programmingError e) := by simp [wrapExc, hv]
        rw [Res.bind_of_error hw, Res.bind_of_error hw]
        exact ⟨rfl, fun b' h => by cases h⟩
      | ok b1 =>
        have hw : (wrapExc (dialplanStep env b (.var v))).val = .ok b1 := wrapExc_ok.2 hv
        obtain ⟨i1, i2⟩ := over_rest hcur hc hnew xs (next b1 hv) hxs (env := env)
        rw [Res.bind_of_ok hw, Res.bind_of_ok hw]
        simp only [Res.pure_bind, i1]
        refine ⟨?_, fun b' hb' => i2 b' hb'⟩
        cases hr : (tellAll env b1 xs).val with
        | error e => rw [Res.bind_of_error hr, Res.bind_of_error rfl]
        | ok b2 => rw [Res.bind_of_ok hr, Res.bind_of_ok rfl]; simp

/-- The lines of an extension, below lines that have nothing to do with it. -/
theorem over_block {env : DEnv} {a : Str} {pat : Values} {s : DState} {c : DCtx} (hcur : s.cur = .ctx a) (hc : s.dp.get a = some c)
    (hnew : NewTo pat c) {told : List Told} (h : BlockLines pat told) :
    tellAll env s told = .bind (tellAll env (blk0 a s.sp) told) (fun b' => .pure (overS s c b')) ∧
    ∀ b', (tellAll env (blk0 a s.sp) told).val = .ok b' → IsBlk a pat b' := by
  obtain ⟨v, p, raw, n, hx, ht, hraw, hparse, hn, h1⟩ := h.starts
  cases told with
  | nil => cases hx
  | cons x xs =>
    simp only [List.head?_cons, Option.map_some, Option.some.injEq] at hx
    have hcn : c.name = a := (get_mem hc).2
    have hp : ∀ raw, p.exten = some raw → Pattern.parse raw = .ok pat := by
      intro r hr
      rw [hraw] at hr
      cases hr
      exact hparse
    let d0 : DCtx := ⟨a, ⟨[], 0, []⟩, [], [], none, [], none⟩
    have only0 : OnlyOf pat d0 := ⟨by simp [d0], by simp [d0]⟩
    have over0 : overCtx c d0 = { c with lastPrio := none, sorted := none } := by simp [overCtx, d0]
    obtain ⟨k1, k2⟩ := over_step (env := env) (t := s) (s := s) (b := blk0 a s.sp) (c := c) (d := d0) ht hcur hc rfl rfl rfl hcn rfl
        (fun y hy => rfl) (by simp [blk0, Dialplan.init]) (by simp [blk0, Dialplan.init]) (by simp [blk0]) rfl rfl hcur
        (fun e he1 he2 => by
          have hs : e.pat.isSome = true := readPattern_isSome (hraw ▸ he2)
          rw [addExt_first (last' := none) (lp := none) hs (he1.trans hn) h1, ← over0]
          exact addExt_over hnew only0 hcn.symm (readPattern_only he2 hp) (fun _ => ⟨hs, by rw [he1, hn]; rfl⟩) none)
    have next : ∀ b1, (dialplanStep env (blk0 a s.sp) (.var v)).val = .ok b1 → IsBlk a pat b1 := by
      intro b1 h1'
      obtain ⟨e, ad, g1, g2, g3, g4, g5, g6⟩ := k2 b1 h1'
      have hblk := blkOf_eq g4
      obtain ⟨o1, -⟩ := onlyOf_added only0 (readPattern_only g2 hp) g3
      have o2 := first_added rfl (readPattern_isSome (hraw ▸ g2)) (g1.trans hn) h1 g3
      exact ⟨by rw [hblk]; exact g4, by rw [hblk]; exact g5, by rw [hblk]; exact o1, g6, by rw [hblk]; exact o2⟩
    rw [tellAll_var hx, tellAll_var hx, k1, wrapExc_map, Res.bind_assoc]
    rw [Res.bind_of_ok (a := ()) rfl, Res.bind_of_ok (a := ()) rfl]
    cases hv : (dialplanStep env (blk0 a s.sp) (.var v)).val with
    | error e =>
      have hw : (wrapExc (dialplanStep env (blk0 a s.sp) (.var v))).val = .error (.programmingError e) := by simp [wrapExc, hv]
      rw [Res.bind_of_error hw, Res.bind_of_error hw]
      exact ⟨rfl, fun b' h => by cases h⟩
    | ok b1 =>
      have hw : (wrapExc (dialplanStep env (blk0 a s.sp) (.var v))).val = .ok b1 := wrapExc_ok.2 hv
      obtain ⟨i1, i2⟩ := over_rest hcur hc hnew xs (next b1 hv) (fun y hy => h.lines y (List.mem_cons_of_mem _ hy)) (env := env)
      rw [Res.bind_of_ok hw, Res.bind_of_ok hw]
      simp only [Res.pure_bind, i1]
      refine ⟨?_, fun b' hb' => i2 b' hb'⟩
      cases hr : (tellAll env b1 xs).val with
      | error e => rw [Res.bind_of_error hr, Res.bind_of_error rfl]
      | ok b2 => rw [Res.bind_of_ok hr, Res.bind_of_ok rfl]; simp

/-! ## Several extensions -/

/-- What the lines of an extension alone bring about. -/
def runOf (env : DEnv) (a : Str) (sp : Option Str) (told : List Told) : DState :=
  match (tellAll env (blk0 a sp) told).val with
  | .ok b => b
  | .error _ => blk0 a sp

/-- The lines of an extension alone are read to the end. -/
def RunsOk (env : DEnv) (a : Str) (sp : Option Str) (told : List Told) : Prop :=
  (tellAll env (blk0 a sp) told).val = .ok (runOf env a sp told) ∧ (runOf env a sp told).sp = sp

/-- The state `s'` is `s` and the extensions `bs`. -/
structure Made (a : Str) (s : DState) (c : DCtx) (bs : List DState) (s' : DState) (c' : DCtx) : Prop where
  cur : s'.cur = .ctx a
  sp : s'.sp = s.sp
  general : s'.dp.general = s.dp.general
  globals : s'.dp.globals = s.dp.globals
  ctxs : s'.dp.contexts = putCtx c' s.dp.contexts
  name : c'.name = a
  at_ : c'.at_ = c.at_
  includes : c'.includes = c.includes
  steps : c'.steps = c.steps ++ bs.flatMap fun b => (blkOf b).steps
  cache : c'.cache = c.cache ++ bs.flatMap fun b => (blkOf b).cache
  labels : s'.dp.allLabels = s.dp.allLabels ++ bs.flatMap fun b => b.dp.allLabels
  dests : s'.dp.dests = s.dp.dests ++ bs.flatMap fun b => b.dp.dests

theorem putCtx_self {c : DCtx} : ∀ {l : List DCtx}, l.find? (·.name = c.name) = some c → putCtx c l = l
  | [], h => rfl
  | d :: l, h => by
    rw [putCtx]
    by_cases hd : d.name = c.name
    · rw [if_pos hd]
      simp only [List.find?_cons, hd, decide_true, Option.some.injEq] at h
      rw [h]
    · rw [if_neg hd]
      simp only [List.find?_cons, hd, decide_false] at h
      rw [putCtx_self h]

/-- Nothing of another extension is added. -/
theorem newTo_over {pat pat' : Values} (hne : canonical pat ≠ canonical pat') {c d : DCtx} (hc : NewTo pat' c) (hd : OnlyOf pat d) :
    NewTo pat' (overCtx c d) := by
  constructor
  · intro x hx
    rcases List.mem_append.1 hx with hx | hx
    · exact hc.steps x hx
    · intro e
      rw [hd.steps x hx] at e
      exact hne (by rw [e])
  · intro kv hkv
    rcases List.mem_append.1 hkv with hkv | hkv
    · exact hc.cache kv hkv
    · rw [hd.cache kv hkv]
      exact hne

theorem flatLines_cons {κ : Type} (x : κ × List Told) (l : List (κ × List Told)) : flatLines (x :: l) = x.2 ++ flatLines l := by
  simp [flatLines]

theorem blocks_run {env : DEnv} {a : Str} : ∀ (l : List (Values × List Told)) {s : DState} {c : DCtx}, s.cur = .ctx a → s.dp.get a = some c →
    (∀ x ∈ l, BlockLines x.1 x.2) → (l.map fun x => canonical x.1).Nodup → (∀ x ∈ l, NewTo x.1 c) →
    (∀ x ∈ l, RunsOk env a s.sp x.2) →
    ∃ s' c', (tellAll env s (flatLines l)).val = .ok s' ∧
      (tellAll env s (flatLines l)).log = l.flatMap (fun x => (tellAll env (blk0 a s.sp) x.2).log) ∧
      Made a s c (l.map fun x => runOf env a s.sp x.2) s' c'
  | [], s, c, hcur, hc, _, _, _, _ => by
    have hn : c.name = a := (get_mem hc).2
    refine ⟨s, c, rfl, rfl, hcur, rfl, rfl, rfl, ?_, hn, rfl, rfl, by simp, by simp, by simp, by simp⟩
    rw [putCtx_self]
    rw [hn]
    exact hc
  | x :: l, s, c, hcur, hc, hb, hnd, hnew, hok => by
    have hcn : c.name = a := (get_mem hc).2
    obtain ⟨k1, k2⟩ := over_block (env := env) hcur hc (hnew x List.mem_cons_self) (hb x List.mem_cons_self)
    obtain ⟨r1, r2⟩ := hok x List.mem_cons_self
    have hblk := k2 _ r1
    have hrun : tellAll env s x.2 = ⟨(tellAll env (blk0 a s.sp) x.2).log, .ok (overS s c (runOf env a s.sp x.2))⟩ := by
      rw [k1, Res.bind_of_ok r1]
      simp
    have hv : (tellAll env s x.2).val = .ok (overS s c (runOf env a s.sp x.2)) := by rw [hrun]
    have hsp : (overS s c (runOf env a s.sp x.2)).sp = s.sp := r2
    simp only [List.map_cons, List.nodup_cons, List.mem_map, not_exists, not_and] at hnd
    obtain ⟨s', c', i1, i2, i3⟩ := blocks_run (env := env) l (s := overS s c (runOf env a s.sp x.2)) hcur (over_get hc _)
      (fun y hy => hb y (List.mem_cons_of_mem _ hy)) hnd.2
      (fun y hy => newTo_over (fun e => hnd.1 y hy e.symm) (hnew y (List.mem_cons_of_mem _ hy)) hblk.only)
      (fun y hy => by rw [hsp]; exact hok y (List.mem_cons_of_mem _ hy))
    rw [hsp] at i2 i3
    refine ⟨s', c', ?_, ?_, ?_⟩
    · rw [flatLines_cons, tellAll_two hv]; exact i1
    · rw [flatLines_cons, tellAll_two hv, List.flatMap_cons, ← i2, hrun]
    · obtain ⟨m1, m2, m3, m4, m5, m6, m7, m8, m9, m10, m11, m12⟩ := i3
      refine ⟨m1, m2.trans hsp, m3, m4, ?_, m6, m7, m8, ?_, ?_, ?_, ?_⟩
      · rw [m5]
        exact putCtx_twice (c := overCtx c _) (m6.trans hcn.symm) _
      · rw [m9]; simp [overCtx]
      · rw [m10]; simp [overCtx]
      · rw [m11]; simp [overS]
      · rw [m12]; simp [overS]

theorem blocks_good {env : DEnv} {a : Str} : ∀ (l : List (Values × List Told)) {s s' : DState} {c : DCtx}, s.cur = .ctx a → s.dp.get a = some c →
    (∀ x ∈ l, BlockLines x.1 x.2) → (l.map fun x => canonical x.1).Nodup → (∀ x ∈ l, NewTo x.1 c) →
    (tellAll env s (flatLines l)).val = .ok s' → s'.sp = s.sp → ∀ x ∈ l, RunsOk env a s.sp x.2
  | [], _, _, _, _, _, _, _, _, _, _ => by intro x hx; cases hx
  | x :: l, s, s', c, hcur, hc, hb, hnd, hnew, h, hsp => by
    obtain ⟨k1, k2⟩ := over_block (env := env) hcur hc (hnew x List.mem_cons_self) (hb x List.mem_cons_self)
    rw [flatLines_cons] at h
    have h1 : ∃ m, (tellAll env s x.2).val = .ok m := by
      rw [tellAll_append] at h
      obtain ⟨m, g, -, -⟩ := Res.bind_ok h
      exact ⟨m, g⟩
    obtain ⟨m, h1⟩ := h1
    rw [tellAll_two h1] at h
    have hm : m.sp = s.sp := tellAll_between h1 h hsp
    have h1' := h1
    rw [k1] at h1'
    obtain ⟨b, g1, g2, -⟩ := Res.bind_ok h1'
    simp only [Res.pure_val, Except.ok.injEq] at g2
    subst g2
    have hr : runOf env a s.sp x.2 = b := by unfold runOf; rw [g1]
    have hblk := k2 b g1
    simp only [List.map_cons, List.nodup_cons, List.mem_map, not_exists, not_and] at hnd
    have ih := blocks_good (env := env) l (s := overS s c b) hcur (over_get hc b) (fun y hy => hb y (List.mem_cons_of_mem _ hy)) hnd.2
      (fun y hy => newTo_over (fun e => hnd.1 y hy e.symm) (hnew y (List.mem_cons_of_mem _ hy)) hblk.only) h (hsp.trans hm.symm)
    rw [hm] at ih
    intro y hy
    rcases List.mem_cons.1 hy with rfl | hy
    · exact ⟨by rw [hr]; exact g1, by rw [hr]; exact hm⟩
    · exact ih y hy

/-! ## What is remembered of an extension comes from its steps -/

def PriosIn (st : DState) : Prop := ∀ c ∈ st.dp.contexts, ∀ kv ∈ c.cache, kv.2.prios ≠ []

theorem priosIn_step {env : DEnv} {st st' : DState} {e : Elem} (hi : DpInv st) (hp : PriosIn st)
    (h : (dialplanStep env st e).val = .ok st') : PriosIn st' := by
  have put : ∀ {d : DCtx}, (∀ kv ∈ d.cache, kv.2.prios ≠ []) → ∀ x ∈ putCtx d st.dp.contexts, ∀ kv ∈ x.cache, kv.2.prios ≠ [] := by
    intro d hd x hx
    rcases putCtx_mem hx with hx | rfl
    · exact hp x hx
    · exact hd
  cases e with
  | empty b w =>
    simp only [dialplanStep, Res.pure_val, Except.ok.injEq] at h
    exact h ▸ hp
  | ctx c =>
    have := onContext_cases h
    generalize (onContext st c).log = lg at this
    cases this with
    | general | globals | detached => exact hp
    | fresh ms hn hg hm =>
      intro x hx
      rcases List.mem_append.1 hx with hx | hx
      · exact hp x hx
      · rw [List.mem_singleton.1 hx]
        intro kv hkv
        cases hkv
    | again ms d hn hg hc hm => exact put (hp d (get_mem hg).1)
  | var v =>
    cases hcur : st.cur with
    | ctx n =>
      obtain ⟨c, hc, hl⟩ := onVarset_cases hi hcur h
      have hcc := hp c (get_mem hc).1
      generalize (onVarset env st v).log = lg at hl
      cases hl with
      | nothing => exact hp
      | incl hk => exact put hcc
      | ext sp' us e a ms cs as hk hr hcs ha =>
        refine put ?_
        cases ha with
        | noPat | noPrio | dupe => exact hcc
        | stored raw pat ms n label' ls ds pc lms hp2 hr hd hpc hlc hl hj =>
          intro kv hkv
          rcases putCache_mem hkv with hkv | rfl
          · exact hcc kv hkv
          · intro e0
            have := hpc n
            rw [e0, hd] at this
            simp at this
    | none =>
      simp only [dialplanStep, onVarset, hcur] at h
      obtain ⟨_, _, h2, _⟩ := Res.bind_ok h
      simp only [Res.pure_val, Except.ok.injEq] at h2
      exact h2 ▸ hp
    | general =>
      simp only [dialplanStep, onVarset, hcur, Res.pure_val, Except.ok.injEq] at h
      subst h
      exact hp
    | globals =>
      simp only [dialplanStep, onVarset, hcur, Res.pure_val, Except.ok.injEq] at h
      subst h
      exact hp
    | detached =>
      simp only [dialplanStep, onVarset, hcur, Res.pure_val, Except.ok.injEq] at h
      exact h ▸ hp

theorem tellAll_priosIn {env : DEnv} {told : List Told} {s s' : DState} (hi : DpInv s) (hp : PriosIn s)
    (h : (tellAll env s told).val = .ok s') : DpInv s' ∧ PriosIn s' := by
  induction told generalizing s with
  | nil =>
    simp only [tellAll, Res.pure_val, Except.ok.injEq] at h
    exact h ▸ ⟨hi, hp⟩
  | cons x xs ih =>
    simp only [tellAll] at h
    obtain ⟨_, -, h3, -⟩ := Res.bind_ok h
    obtain ⟨m, h4, h5, -⟩ := Res.bind_ok h3
    have := feed_inv (fun s => DpInv s ∧ PriosIn s) (fun _ _ _ a b => ⟨step_inv a.1 b, priosIn_step a.1 a.2 b⟩) _ _ _ ⟨hi, hp⟩ h4
    exact ih this.1 this.2 h5

/-- An extension without steps is new. -/
theorem newTo_of {st : DState} (hi : DpInv st) (hp : PriosIn st) {a : Str} {c : DCtx} (hc : st.dp.get a = some c) {pat : Values}
    (h : ∀ s ∈ c.steps, canonical s.pat ≠ canonical pat) : NewTo pat c := by
  have hcm := (get_mem hc).1
  refine ⟨fun x hx e => h x hx (by rw [e]), fun kv hkv e => ?_⟩
  have hci := hi.ctxs c hcm
  have hne := hp c hcm kv hkv
  obtain ⟨k, pc⟩ := kv
  dsimp only at e hne
  subst e
  have hl : c.cache.lookup (canonical pat) = some pc := by
    have : ∀ (l : List (Str × PCache)), (l.map (·.1)).Nodup → (canonical pat, pc) ∈ l → l.lookup (canonical pat) = some pc := by
      intro l
      induction l with
      | nil => intro _ h; cases h
      | cons x l ih =>
        intro hnd hm
        obtain ⟨k, q⟩ := x
        simp only [List.map_cons, List.nodup_cons, List.mem_map, not_exists, not_and] at hnd
        rw [List.lookup_cons]
        rcases List.mem_cons.1 hm with hm | hm
        · cases hm
          simp
        · have : (canonical pat == k) = false := by
            simp only [beq_eq_false_iff_ne, ne_eq]
            exact fun e => hnd.1 _ hm e
          rw [this]
          exact ih hnd.2 hm
    exact this _ hci.keys hkv
  cases hpr : pc.prios with
  | nil => exact hne hpr
  | cons y ys =>
    obtain ⟨n, w⟩ := y
    have : cachedPrio c (canonical pat) n = some w := by simp [cachedPrio, hl, hpr]
    obtain ⟨s, hs, h1, -, -⟩ := (hci.prios _ _ _).1 this
    exact h s hs h1

/-! ## In another order -/

theorem sorted_unique {lt : Values → Values → Bool} (ho : Pattern.STO lt) : ∀ {l m : List Values}, l.Pairwise (fun a b => lt a b = true) →
    m.Pairwise (fun a b => lt a b = true) → (∀ p, p ∈ l ↔ p ∈ m) → l = m
  | [], [], _, _, _ => rfl
  | [], b :: m, _, _, h => absurd ((h b).2 List.mem_cons_self) (by simp)
  | a :: l, [], _, _, h => absurd ((h a).1 List.mem_cons_self) (by simp)
  | a :: l, b :: m, hl, hm, h => by
    rw [List.pairwise_cons] at hl hm
    have hab : a = b := by
      rcases List.mem_cons.1 ((h a).1 List.mem_cons_self) with e | e
      · exact e
      · rcases List.mem_cons.1 ((h b).2 List.mem_cons_self) with e' | e'
        · exact e'.symm
        · have := ho.asymm (hm.1 a e)
          rw [hl.1 b e'] at this
          cases this
    subst hab
    rw [sorted_unique ho hl.2 hm.2 fun p => ?_]
    constructor
    · intro hp
      rcases List.mem_cons.1 ((h p).1 (List.mem_cons_of_mem _ hp)) with e | e
      · rw [e] at hp
        have := hl.1 a hp
        rw [ho.irrefl] at this
        cases this
      · exact e
    · intro hp
      rcases List.mem_cons.1 ((h p).2 (List.mem_cons_of_mem _ hp)) with e | e
      · rw [e] at hp
        have := hm.1 a hp
        rw [ho.irrefl] at this
        cases this
      · exact e

theorem sortedPatterns_perm {l m : List Step} (h : l.Perm m) : sortedPatterns l = sortedPatterns m :=
  sorted_unique Pattern.patLt_STO (sortedPatterns_sorted l) (sortedPatterns_sorted m) fun p => by
    rw [sortedPatterns_mem, sortedPatterns_mem]
    exact ⟨fun ⟨s, h1, h2⟩ => ⟨s, h.mem_iff.1 h1, h2⟩, fun ⟨s, h1, h2⟩ => ⟨s, h.mem_iff.2 h1, h2⟩⟩

theorem filter_shuffled {l l' : List (Values × List Told)} (hp : l.Perm l') (f : List Told → List Step) (p : Values) :
    (l.map fun x => canonical x.1).Nodup → (∀ x ∈ l, ∀ s ∈ f x.2, s.pat = x.1) →
    (l.flatMap fun x => (f x.2).filter (·.pat = p)) = l'.flatMap fun x => (f x.2).filter (·.pat = p) := by
  induction hp with
  | nil => intros; rfl
  | cons x _ ih =>
    intro hnd hf
    rw [List.flatMap_cons, List.flatMap_cons, ih (List.nodup_cons.1 hnd).2 fun y hy => hf y (List.mem_cons_of_mem _ hy)]
  | swap x y l =>
    intro hnd hf
    simp only [List.flatMap_cons]
    have none : ∀ z : Values × List Told, (∀ s ∈ f z.2, s.pat = z.1) → z.1 ≠ p → (f z.2).filter (·.pat = p) = [] := by
      intro z hz hne
      rw [List.filter_eq_nil_iff]
      intro s hs
      rw [hz s hs]
      simpa using hne
    by_cases hx : x.1 = p
    · have hy : y.1 ≠ p := by
        intro hy
        rw [List.map_cons, List.nodup_cons] at hnd
        exact hnd.1 (by rw [hy, ← hx]; exact List.mem_cons_self)
      rw [none y (hf y List.mem_cons_self) hy]
      simp
    · rw [none x (hf x (List.mem_cons_of_mem _ List.mem_cons_self)) hx]
      simp
  | trans h1 _ ih1 ih2 =>
    intro hnd hf
    rw [ih1 hnd hf]
    exact ih2 ((h1.map _).nodup_iff.1 hnd) fun x hx => hf x (h1.mem_iff.2 hx)

/-- Two contexts that differ in the order of extensions. -/
structure CtxLike (c d : DCtx) : Prop where
  name : c.name = d.name
  includes : c.includes = d.includes
  steps : c.steps.Perm d.steps
  each : ∀ p, c.steps.filter (·.pat = p) = d.steps.filter (·.pat = p)
  cache : c.cache.Perm d.cache

theorem ctxLike_refl (c : DCtx) : CtxLike c c := ⟨rfl, rfl, .refl _, fun _ => rfl, .refl _⟩

/-- Two dialplans that differ in the order of extensions. -/
structure DpLike (s t : Dialplan) : Prop where
  general : s.general = t.general
  globals : s.globals = t.globals
  ctxs : Zips CtxLike s.contexts t.contexts
  labels : s.allLabels.Perm t.allLabels
  dests : s.dests.Perm t.dests

theorem zips_put {c d : DCtx} (h : CtxLike c d) : ∀ l : List DCtx, Zips CtxLike (putCtx c l) (putCtx d l)
  | [] => .nil
  | x :: l => by
    have hl : ∀ l : List DCtx, Zips CtxLike l l := fun l => by
      induction l with
      | nil => exact .nil
      | cons y l ih => exact .cons (ctxLike_refl y) ih
    rw [putCtx, putCtx, h.name]
    split
    · exact .cons h (hl l)
    · exact .cons (ctxLike_refl x) (zips_put h l)

theorem made_like {env : DEnv} {a : Str} {sp : Option Str} {l l' : List (Values × List Told)} (hp : l.Perm l')
    (hnd : (l.map fun x => canonical x.1).Nodup) (hblk : ∀ x ∈ l, IsBlk a x.1 (runOf env a sp x.2)) {s t t' : DState} {c d d' : DCtx}
    (h : Made a s c (l.map fun x => runOf env a sp x.2) t d) (h' : Made a s c (l'.map fun x => runOf env a sp x.2) t' d') : DpLike t.dp t'.dp := by
  have perm : ∀ {β : Type} (f : DState → List β), ((l.map fun x => runOf env a sp x.2).flatMap f).Perm ((l'.map fun x => runOf env a sp x.2).flatMap f) :=
    fun f => (hp.map _).flatMap_right _
  refine ⟨h.general.trans h'.general.symm, h.globals.trans h'.globals.symm, ?_, ?_, ?_⟩
  · rw [h.ctxs, h'.ctxs]
    refine zips_put ⟨h.name.trans h'.name.symm, h.includes.trans h'.includes.symm, ?_, fun p => ?_, ?_⟩ _
    · rw [h.steps, h'.steps]
      exact (perm _).append_left _
    · rw [h.steps, h'.steps, List.filter_append, List.filter_append]
      congr 1
      rw [List.filter_flatMap, List.filter_flatMap, List.flatMap_map, List.flatMap_map]
      exact filter_shuffled hp (fun told => (blkOf (runOf env a sp told)).steps) p hnd fun x hx => (hblk x hx).only.steps
    · rw [h.cache, h'.cache]
      exact (perm _).append_left _
  · rw [h.labels, h'.labels]
    exact (perm _).append_left _
  · rw [h.dests, h'.dests]
    exact (perm _).append_left _

/-! ## The jumps and the listing -/

theorem like_get {s t : Dialplan} (h : Zips CtxLike s.contexts t.contexts) (n : Str) :
    (s.get n = none ∧ t.get n = none) ∨ ∃ c d, s.get n = some c ∧ t.get n = some d ∧ CtxLike c d := by
  unfold Dialplan.get
  generalize s.contexts = l at h
  generalize t.contexts = m at h
  induction h with
  | nil => exact .inl ⟨rfl, rfl⟩
  | @cons c d l m h1 _ ih =>
    rw [List.find?_cons, List.find?_cons, h1.name]
    by_cases hd : d.name = n
    · simp only [hd, decide_true]
      exact .inr ⟨c, d, rfl, rfl, h1⟩
    · simp only [hd, decide_false]
      exact ih

theorem matchHere_each {l m : List Step} (h : ∀ p, l.filter (·.pat = p) = m.filter (·.pat = p)) (exten : Str) (prio : Arg) :
    ∀ ps, matchHere l exten prio ps = matchHere m exten prio ps
  | [] => rfl
  | p :: ps => by simp only [matchHere, h p, matchHere_each h exten prio ps]

theorem like_match {dp dp' : Dialplan} (h : Zips CtxLike dp.contexts dp'.contexts) : ∀ (depth : Nat) (ctx exten : Str) (prio : Arg),
    matchPattern dp depth ctx exten prio = matchPattern dp' depth ctx exten prio
  | 0, _, _, _ => rfl
  | depth + 1, ctx, exten, prio => by
    have ih := like_match h depth
    have e : (fun i : Str × Where => matchIf (dp.get i.1).isSome (matchPattern dp depth i.1 exten prio)) =
        fun i => matchIf (dp'.get i.1).isSome (matchPattern dp' depth i.1 exten prio) := by
      funext i
      rw [ih]
      rcases like_get h i.1 with ⟨h1, h2⟩ | ⟨c, d, h1, h2, -⟩ <;> rw [h1, h2]
      rfl
    rw [matchPattern.eq_def dp, matchPattern.eq_def dp']
    dsimp only
    rw [e]
    rcases like_get h ctx with ⟨h1, h2⟩ | ⟨c, d, h1, h2, hcd⟩
    · rw [h1, h2]
    · rw [h1, h2]
      dsimp only
      rw [sortedPatterns_perm hcd.steps, matchHere_each hcd.each, hcd.includes]
      cases matchHere d.steps exten prio (sortedPatterns d.steps) with
      | error e => rfl
      | ok r =>
        cases r with
        | some s => rfl
        | none =>
          dsimp only
          rw [ih]

theorem like_walk {s t : Dialplan} (h : DpLike s t) (depth : Nat) (d : Dest) : walkDest s depth d = walkDest t depth d := by
  have h1 : ∀ l, s.hasLabel l = t.hasLabel l := by
    intro l
    unfold Dialplan.hasLabel
    rw [Bool.eq_iff_iff, List.contains_iff_mem, List.contains_iff_mem, h.labels.mem_iff]
  have h2 : ∀ {c e : DCtx}, CtxLike c e → ∀ l, c.hasLabel l = e.hasLabel l := by
    intro c e hce l
    unfold DCtx.hasLabel
    rw [Bool.eq_iff_iff, List.any_eq_true, List.any_eq_true]
    exact ⟨fun ⟨x, a, b⟩ => ⟨x, hce.cache.mem_iff.1 a, b⟩, fun ⟨x, a, b⟩ => ⟨x, hce.cache.mem_iff.2 a, b⟩⟩
  unfold walkDest
  rw [funext h1]
  cases d.context with
  | str n =>
    dsimp only
    rcases like_get h.ctxs n with ⟨g1, g2⟩ | ⟨c, e, g1, g2, hce⟩
    · rw [g1, g2]
    · rw [g1, g2]
      simp only [h2 hce, like_match h.ctxs, hce.name]
  | _ => rfl

theorem like_complete {s t : Dialplan} (h : DpLike s t) : (onComplete s).val = .ok () ∧ (onComplete t).val = .ok () ∧
    (onComplete s).log.map (reM textOnly) = (onComplete t).log.map (reM textOnly) := by
  unfold onComplete
  rw [h.general, h.globals]
  have := h.ctxs
  generalize s.contexts = l at this
  generalize t.contexts = m at this
  cases this with
  | nil => exact ⟨rfl, rfl, rfl⟩
  | cons h1 _ => cases t.general <;> cases t.globals <;> exact ⟨rfl, rfl, rfl⟩

theorem like_show {s t : Dialplan} (h : DpLike s t) (hs : ∀ c ∈ s.contexts, CtxInv c) (ht : ∀ c ∈ t.contexts, CtxInv c)
    (repr : Str → Str) (reverse : Bool) : showDialplan repr reverse s = showDialplan repr reverse t := by
  have key : s.contexts.map (showCtx repr) = t.contexts.map (showCtx repr) := by
    have h := h.ctxs
    generalize s.contexts = l at h hs
    generalize t.contexts = m at h ht
    induction h with
    | nil => rfl
    | @cons c d l m h1 _ ih =>
      rw [List.map_cons, List.map_cons, ih (fun x hx => hs x (List.mem_cons_of_mem _ hx)) fun x hx => ht x (List.mem_cons_of_mem _ hx)]
      congr 1
      unfold showCtx
      rw [byPattern_fresh (hs c List.mem_cons_self).sorted, byPattern_fresh (ht d List.mem_cons_self).sorted, h1.name, h1.includes,
        sortedPatterns_perm h1.steps]
      simp only [h1.each]
  unfold showDialplan showLines
  cases reverse with
  | true =>
    simp only [if_true, List.flatMap_def, List.map_reverse, key]
  | false =>
    simp only [Bool.false_eq_true, if_false, List.flatMap_def, key]

theorem showDialplan_re (φ : Where → Where) (repr : Str → Str) (reverse : Bool) (dp : Dialplan) (h : ∀ c ∈ dp.contexts, CtxInv c) :
    showDialplan repr reverse (reDp φ dp) = showDialplan repr reverse dp := by
  have steps : ∀ (l : List Step) (o : Option Values), showSteps o (l.map (reStep φ)) = showSteps o l := by
    intro l
    induction l with
    | nil => intro o; rfl
    | cons s l ih =>
      intro o
      simp only [List.map_cons, showSteps, ih]
      rfl
  have one : ∀ c, CtxInv c → showCtx repr (reCtx φ c) = showCtx repr c := by
    intro c hc
    have e : (reCtx φ c).byPattern.1 = c.byPattern.1.map (reStep φ) := by
      rw [byPattern_fresh hc.sorted, byPattern_fresh]
      · show (sortedPatterns (c.steps.map (reStep φ))).flatMap _ = _
        rw [sortedPatterns_bare, List.map_flatMap]
        congr 1
        funext p
        exact List.filter_map ..
      · show c.sorted = none ∨ c.sorted = some (sortedPatterns (c.steps.map (reStep φ)))
        rw [sortedPatterns_bare]
        exact hc.sorted
    unfold showCtx
    rw [e, steps]
    have : (reCtx φ c).includes.map showInclude = c.includes.map showInclude := by
      show (c.includes.map (reAt φ)).map showInclude = _
      rw [List.map_map]
      rfl
    rw [this]
    rfl
  have key : (reDp φ dp).contexts.map (showCtx repr) = dp.contexts.map (showCtx repr) := by
    show (dp.contexts.map (reCtx φ)).map (showCtx repr) = _
    rw [List.map_map]
    exact List.map_congr_left fun c hc => one c (h c hc)
  unfold showDialplan showLines
  cases reverse with
  | true => simp only [if_true, List.flatMap_def, List.map_reverse, key]
  | false => simp only [Bool.false_eq_true, if_false, List.flatMap_def, key]

/-- The extensions in another order, every line with its place in the file it came from. -/
theorem wholeTell_blocks {env : DEnv} {sp : Option Str} {a : Str} {ta : List Told} {l l' : List (Values × List Told)} (hp : l.Perm l')
    (hb : ∀ x ∈ l, BlockLines x.1 x.2) (hnd : (l.map fun x => canonical x.1).Nodup) {s0 s : DState} {c : DCtx}
    (h0 : (tellAll env (.init sp) ta).val = .ok s0) (hcur : s0.cur = .ctx a) (hc : s0.dp.get a = some c)
    (hnew : ∀ x ∈ l, ∀ s ∈ c.steps, canonical s.pat ≠ canonical x.1)
    (h : (wholeTell env sp (ta ++ flatLines l)).val = .ok s) (hsp : s.sp = s0.sp) :
    ∃ t, (wholeTell env sp (ta ++ flatLines l')).val = .ok t ∧ (DpLike s.dp t.dp ∧ DpInv s ∧ DpInv t) ∧
      ((wholeTell env sp (ta ++ flatLines l)).log.map (reM textOnly)).Perm ((wholeTell env sp (ta ++ flatLines l')).log.map (reM textOnly)) := by
  have hs := wholeTell_end h
  rw [tellAll_two h0] at hs
  obtain ⟨hi, hpi⟩ := tellAll_priosIn (DpInv.init sp) (by intro c hc; cases hc) h0
  have hnew' : ∀ x ∈ l, NewTo x.1 c := fun x hx => newTo_of hi hpi hc (hnew x hx)
  have good := blocks_good l hcur hc hb hnd hnew' hs hsp
  have hblk : ∀ x ∈ l, IsBlk a x.1 (runOf env a s0.sp x.2) := fun x hx =>
    (over_block (env := env) hcur hc (hnew' x hx) (hb x hx)).2 _ (good x hx).1
  obtain ⟨s1, d, a1, a2, a3⟩ := blocks_run l hcur hc hb hnd hnew' good
  have : s1 = s := by
    rw [hs] at a1
    cases a1
    rfl
  subst this
  obtain ⟨t, d', b1, b2, b3⟩ := blocks_run l' hcur hc (fun x hx => hb x (hp.mem_iff.2 hx)) ((hp.map _).nodup_iff.1 hnd)
    (fun x hx => hnew' x (hp.mem_iff.2 hx)) (fun x hx => good x (hp.mem_iff.2 hx))
  have hlike := made_like hp hnd hblk a3 b3
  have e1 : (tellAll env (.init sp) (ta ++ flatLines l)).val = .ok s1 := by rw [tellAll_two h0]; exact hs
  have e2 : (tellAll env (.init sp) (ta ++ flatLines l')).val = .ok t := by rw [tellAll_two h0]; exact b1
  have i1 := (tellAll_inv _ (DpInv.init sp) (MoreInv.init sp) e1).1
  have i2 := (tellAll_inv _ (DpInv.init sp) (MoreInv.init sp) e2).1
  unfold wholeTell at h ⊢
  rw [Res.bind_of_ok e1] at h
  obtain ⟨c1, c2, c3⟩ := like_complete hlike
  rw [Res.bind_of_ok c1] at h
  obtain ⟨_, w1, -, -⟩ := Res.bind_ok h
  obtain ⟨w2, w3⟩ := walkDests_perm (fun d => like_walk hlike env.depth d) hlike.dests w1
  rw [Res.bind_of_ok e1, Res.bind_of_ok c1, Res.bind_of_ok w1, Res.bind_of_ok e2, Res.bind_of_ok c2, Res.bind_of_ok w2]
  refine ⟨t, rfl, ⟨hlike, i1, i2⟩, ?_⟩
  rw [tellAll_two h0, tellAll_two h0]
  simp only [List.map_append, Res.pure_log, List.append_nil, c3, a2, b2]
  exact (((hp.flatMap_right _).map _).append_left _).append ((w3.map _).append_left _)

/-! ## Extensions in a file -/

theorem stepText_re {φ : Where → Where} {v : VarE} {p : Parts} : StepText (reV φ v) p ↔ StepText v p :=
  ⟨fun ⟨ps, a, b, c, d, e⟩ => ⟨ps, a, b, c, d, e⟩, fun ⟨ps, a, b, c, d, e⟩ => ⟨ps, a, b, c, d, e⟩⟩

theorem blockLines_placeless (pat : Values) : Placeless (BlockLines pat) where
  re := by
    intro l
    have hvar : ∀ (x : Told) v, (reTold textOnly x).gives = .elem (.var v) ↔ ∃ v', x.gives = .elem (.var v') ∧ v = reV textOnly v' := by
      rintro ⟨w, ms, g⟩ v
      cases g with
      | file p => simp [reTold, reG]
      | nothing => simp [reTold, reG]
      | elem e => cases e <;> simp [reTold, reG, reE, eq_comm]
    have hrest : ∀ x : Told, ((reTold textOnly x).gives = .nothing ↔ x.gives = .nothing) ∧
        ((∃ b w, (reTold textOnly x).gives = .elem (.empty b w)) ↔ ∃ b w, x.gives = .elem (.empty b w)) := by
      rintro ⟨w, ms, g⟩
      cases g with
      | file p => simp [reTold, reG]
      | nothing => simp [reTold, reG]
      | elem e => cases e <;> simp [reTold, reG, reE]
    have first : ∀ (l : List Told) (Q : Parts → Str → Prop),
        (∃ v p raw, (l.map (reTold textOnly)).head?.map (·.gives) = some (.elem (.var v)) ∧ StepText v p ∧ Q p raw) ↔
        ∃ v p raw, l.head?.map (·.gives) = some (.elem (.var v)) ∧ StepText v p ∧ Q p raw := by
      intro l Q
      cases l with
      | nil => simp
      | cons x l =>
        simp only [List.map_cons, List.head?_cons, Option.map_some, Option.some.injEq]
        constructor
        · rintro ⟨v, p, raw, h1, h2, h3⟩
          obtain ⟨v', g1, rfl⟩ := (hvar x v).1 h1
          exact ⟨v', p, raw, g1, stepText_re.1 h2, h3⟩
        · rintro ⟨v, p, raw, h1, h2, h3⟩
          exact ⟨_, p, raw, (hvar x _).2 ⟨v, h1, rfl⟩, stepText_re.2 h2, h3⟩
    have starts : ∀ l : List Told, (∃ (v : VarE) (p : Parts) (raw : Str) (n : Nat), l.head?.map (·.gives) = some (.elem (.var v)) ∧
        StepText v p ∧ p.exten = some raw ∧ Pattern.parse raw = .ok pat ∧ p.prio = some n ∧ 1 ≤ n) ↔
        ∃ v p raw, l.head?.map (·.gives) = some (.elem (.var v)) ∧ StepText v p ∧
          (p.exten = some raw ∧ Pattern.parse raw = .ok pat ∧ ∃ n, p.prio = some n ∧ 1 ≤ n) := by
      intro l
      exact ⟨fun ⟨v, p, raw, n, h1, h2, h3, h4, h5⟩ => ⟨v, p, raw, h1, h2, h3, h4, n, h5⟩,
        fun ⟨v, p, raw, h1, h2, h3, h4, n, h5⟩ => ⟨v, p, raw, n, h1, h2, h3, h4, h5⟩⟩
    constructor
    · intro h
      refine ⟨⟨(first l _).1 h.named, fun x hx => ?_⟩, (starts l).2 ((first l _).1 ((starts _).1 h.starts))⟩
      rcases h.lines _ (List.mem_map_of_mem hx) with h1 | h1 | ⟨v, p, h1, h2, h3⟩
      · exact .inl ((hrest x).1.1 h1)
      · exact .inr (.inl ((hrest x).2.1 h1))
      · obtain ⟨v', g1, rfl⟩ := (hvar x v).1 h1
        exact .inr (.inr ⟨v', p, g1, stepText_re.1 h2, h3⟩)
    · intro h
      refine ⟨⟨(first l _).2 h.named, fun y hy => ?_⟩, (starts _).2 ((first l _).2 ((starts l).1 h.starts))⟩
      obtain ⟨x, hx, rfl⟩ := List.mem_map.1 hy
      rcases h.lines _ hx with h1 | h1 | ⟨v, p, h1, h2, h3⟩
      · exact .inl ((hrest x).1.2 h1)
      · exact .inr (.inl ((hrest x).2.2 h1))
      · exact .inr (.inr ⟨_, p, (hvar x _).2 ⟨v, h1, rfl⟩, stepText_re.2 h2, h3⟩)
  shut := by
    intro l h x hx f e
    rcases h.lines x hx with h1 | ⟨_, _, h1⟩ | ⟨_, _, h1, -⟩ <;> rw [e] at h1 <;> cases h1

/-- The context of a section is the current one at its end. -/
theorem section_cur {env : DEnv} {a : Str} : ∀ {told : List Told}, SectionShape a told → ∀ {s s' : DState},
    (tellAll env s told).val = .ok s' → s'.cur = .ctx a := by
  intro told hsec s s' h
  obtain ⟨c, hc, hname⟩ := hsec.header
  cases told with
  | nil => cases hc
  | cons x xs =>
    simp only [List.head?_cons, Option.map_some, Option.some.injEq] at hc
    have e : x.gives.elem?.toList = [.ctx c] := by rw [hc]; rfl
    simp only [tellAll, e, feed, Res.bind_assoc, Res.pure_bind] at h
    obtain ⟨_, -, h3, -⟩ := Res.bind_ok h
    obtain ⟨s1, h4, h5, -⟩ := Res.bind_ok h3
    have h4' := wrapExc_ok.1 h4
    have hs1 : s1.cur = .ctx a := by
      have := onContext_cases h4'
      generalize (onContext s c).log = lg at this
      cases this with
      | general ms hn => rw [hname] at hn; exact absurd hn hsec.named.1
      | globals ms hn => rw [hname] at hn; exact absurd hn hsec.named.2
      | detached g hn => rw [hname] at hn; exact absurd hn hsec.named.2
      | fresh => rw [← hname]
      | again => rw [← hname]
    have stay : ∀ (told : List Told) {s s' : DState}, (∀ x ∈ told, ∀ c, x.gives ≠ .elem (.ctx c)) → s.cur = .ctx a →
        (tellAll env s told).val = .ok s' → s'.cur = .ctx a := by
      intro told
      induction told with
      | nil =>
        intro s s' _ hs h
        simp only [tellAll, Res.pure_val, Except.ok.injEq] at h
        exact h ▸ hs
      | cons x xs ih =>
        intro s s' hb hs h
        simp only [tellAll] at h
        obtain ⟨_, -, h3, -⟩ := Res.bind_ok h
        obtain ⟨m, h4, h5, -⟩ := Res.bind_ok h3
        refine ih (fun y hy => hb y (List.mem_cons_of_mem _ hy)) ?_ h5
        cases hg : x.gives with
        | file f => rw [hg] at h4; cases h4; exact hs
        | nothing => rw [hg] at h4; cases h4; exact hs
        | elem e =>
          cases e with
          | ctx c => exact absurd hg (hb x List.mem_cons_self c)
          | empty b w => rw [hg] at h4; cases h4; exact hs
          | var v =>
            rw [hg] at h4
            simp only [Gives.elem?, Option.toList, feed] at h4
            obtain ⟨m', h6, h7, -⟩ := Res.bind_ok h4
            simp only [Res.pure_val, Except.ok.injEq] at h7
            subst h7
            have h6' := wrapExc_ok.1 h6
            simp only [dialplanStep, onVarset, hs] at h6'
            cases hget : s.dp.get a with
            | none => rw [hget] at h6'; cases h6'
            | some d =>
              rw [hget] at h6'
              obtain ⟨_, -, h8, -⟩ := Res.bind_ok h6'
              obtain ⟨_, -, h9, -⟩ := Res.bind_ok h8
              simp only [Res.pure_val, Except.ok.injEq] at h9
              rw [← h9]
    exact stay xs (fun y hy => (hsec.body y hy).1) hs1 h5

/-- The context at the end of a file. -/
theorem file_cur {fs : FS} {env : DEnv} {sp : Option Str} {n : Nat} {path : Str} {above sec : Bytes} {a : Str} (hw : WholeLines above)
    (hsec : TextIs fs path sec (SectionShape a)) {log : List Msg} {st : DState}
    (h : checkDialplan fs env sp n path (above ++ sec) = ⟨log, .ok (some st)⟩) : st.cur = .ctx a := by
  obtain ⟨t, told, hread, hv, -⟩ := check_tells h
  have hexp := hread.expand
  rw [physLines_more _ above hw] at hexp
  obtain ⟨tA, tB, hA, hB, hfl⟩ := expand_parts _ _ hexp
  obtain ⟨ta, tb, rfl, ha1, hb1⟩ := told_split (hread.lines.trans hfl)
  obtain ⟨ts, g1, g2, -⟩ := text_laid fs (sectionShape_placeless a) hsec (0 + (physLines above).length)
  obtain ⟨tB1, e1, e2⟩ := laid_expand (fs'' := fs) g1
  have hB1 := expand_same hB e1
  subst hB1
  have htb : tb = ts := told_eq (by rw [hb1, e2]) (fun y hy => hread.models y (List.mem_append_right _ hy)) g1.here
  subst htb
  have hend := wholeTell_end hv
  rw [tellAll_append] at hend
  obtain ⟨m, -, h2, -⟩ := Res.bind_ok hend
  exact section_cur g2 h2

theorem blocks_moved {fs fs' : FS} {env : DEnv} {sp : Option Str} {n n0 : Nat} {path : Str} {pre : Bytes} {a : Str}
    {blocks blocks' : List (Values × Bytes)} (hm : BlocksMoved fs fs' path pre blocks blocks') (hb : ∀ x ∈ blocks, BlockOf fs path x.1 x.2)
    {log0 log : List Msg} {st0 st : DState} (h0 : checkDialplan fs env sp n0 path pre = ⟨log0, .ok (some st0)⟩) (hcur : st0.cur = .ctx a)
    (hnew : NoneOf st0.dp a blocks) (h : checkDialplan fs env sp n path (withBlocks pre blocks) = ⟨log, .ok (some st)⟩) (hsp : st.sp = st0.sp) :
    ∃ k log' st', (∀ n', k ≤ n' → checkDialplan fs' env sp n' path (withBlocks pre blocks') = ⟨log', .ok (some st')⟩) ∧
      SameInSomeOrder (substance log) (substance log') ∧ ∀ repr reverse, showDialplan repr reverse st'.dp = showDialplan repr reverse st.dp := by
  obtain ⟨k, log', st', t, h1, h2, ⟨h3, h4, h5⟩, h6⟩ := parts_moved blockLines_placeless hm.same (moved_tolds hm.same) hb hm.whole hm.before hm.others h0 h
    (Q := fun t => DpLike st.dp t.dp ∧ DpInv st ∧ DpInv t) fun ta l l' hp hl hn ht0 ht => by
      obtain ⟨hi, -⟩ := tellAll_inv ta (DpInv.init sp) (MoreInv.init sp) ht0
      obtain ⟨c, hc⟩ := hi.cur a hcur
      have hcan : (l.map fun x => canonical x.1) = blocks.map fun x => canonical x.1 := by
        have := congrArg (List.map canonical) hn
        simpa [List.map_map, Function.comp_def] using this
      refine wholeTell_blocks hp hl (by rw [hcan]; exact hm.names) ht0 hcur hc (fun x hx s hs => ?_) ht hsp
      have : x.1 ∈ blocks.map (·.1) := by rw [← hn]; exact List.mem_map_of_mem hx
      obtain ⟨y, hy, hy2⟩ := List.mem_map.1 this
      rw [← hy2]
      exact hnew c hc s hs y hy
  refine ⟨k, log', st', h1, h2, fun repr reverse => ?_⟩
  have hdp : reDp textOnly st'.dp = reDp textOnly t.dp := congrArg DState.dp h6
  have hi' : DpInv st' := by
    have hk := h1 k (Nat.le_refl _)
    obtain ⟨_, told, -, hv, -⟩ := check_tells hk
    exact (tellAll_inv _ (DpInv.init sp) (MoreInv.init sp) (wholeTell_end hv)).1
  rw [← showDialplan_re textOnly repr reverse st'.dp hi'.ctxs, hdp, showDialplan_re textOnly _ _ _ h5.ctxs,
    like_show h3 h4.ctxs h5.ctxs]

end ALint.Proofs
