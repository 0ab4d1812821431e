import Verif.Proofs.Clean

/-!
# The dialplan of a clean file
-/

namespace ALint
open Spec
open Pattern (Values)

theorem Res.bind_quiet {α β : Type} {x : Res α} {a : α} (h : x = ⟨[], .ok a⟩) (f : α → Res β) :
    Res.bind x f = f a := by subst h; simp [Res.bind]

/-- The destination is a step of the dialplan meant. -/
def DestOk (cs : List CCtx) (d : Dest) : Prop :=
  ∃ ctx ext, d.context = .str ctx ∧ d.exten = .str ext ∧
    ∃ c ∈ cs, c.name = ctx ∧ ∃ e ∈ c.exts, Dials e.pat ext ∧ ∃ i s, e.steps[i]? = some s ∧
      (d.prio = .one (.int (i + 1 : Nat)) ∨ ∃ l, d.prio = .one (.str l) ∧ s.label = some l)

theorem isDigitS_ascii {p : Str} (h1 : p ≠ []) (h2 : ∀ d ∈ p, d.isDigit = true) : isDigitS p = true := by
  simp only [isDigitS, Bool.and_eq_true, List.all_eq_true]
  refine ⟨by cases p <;> simp at h1 ⊢, fun d h => ?_⟩
  simp [isDigitC, decVal_ascii (h2 d h)]

theorem completeDest_lands {cs : List CCtx} {name x : Str} {j : Jump} (h : Lands cs name x j) (w : Where) :
    ∃ d, completeDest name x w j = .ok d ∧ DestOk cs d := by
  obtain ⟨ctx, ext, p, ⟨h1, h2, h3⟩, c, hc, hn, e, he, hd, i, s, hi, hnm⟩ := h
  have hctx : (if j.context.truthy then j.context else .str name) = .str ctx := by
    rcases h1 with ⟨h, rfl⟩ | ⟨h, hne⟩
    · rw [h]; rfl
    · rw [h]; cases ctx <;> simp [V.truthy] at hne ⊢
  have hext : (j.exten = .none ∧ ext = x) ∨ (j.exten = .str ext ∧ (V.str ext).truthy = true) := by
    rcases h2 with h | ⟨h, hne⟩
    · exact .inl h
    · refine .inr ⟨h, ?_⟩
      cases ext <;> simp [V.truthy] at hne ⊢
  rcases hnm with ⟨hp1, hp2, hp3⟩ | ⟨hp1, hp2⟩
  · refine ⟨⟨.str ctx, .str ext, .one (.int (i + 1 : Nat)), w⟩, ?_, ctx, ext, rfl, rfl, c, hc, hn, e, he, hd, i, s, hi, .inl rfl⟩
    unfold completeDest
    have : p.foldl (fun a d => 10 * a + (d.toNat - 48)) 0 = i + 1 := hp3
    simp only [hctx, h3, isDigitS_ascii hp1 hp2, if_true, decNat_decimal p hp2 0, this]
    rcases hext with ⟨h, rfl⟩ | ⟨h, ht⟩
    · rw [h]; rfl
    · rw [h]; simp [ht, V.isVar]
  · refine ⟨⟨.str ctx, .str ext, .one (.str p), w⟩, ?_, ctx, ext, rfl, rfl, c, hc, hn, e, he, hd, i, s, hi, .inr ⟨p, rfl, hp2⟩⟩
    have hnd : isDigitS p = false := by
      obtain ⟨ch, hc1, hc2⟩ := hp1
      cases hh : isDigitS p with
      | false => rfl
      | true =>
        simp only [isDigitS, Bool.and_eq_true, List.all_eq_true] at hh
        rw [hh.2 ch hc1] at hc2; cases hc2
    unfold completeDest
    simp only [hctx, h3, hnd]
    rcases hext with ⟨h, rfl⟩ | ⟨h, ht⟩
    · rw [h]; rfl
    · rw [h]; simp [ht, V.isVar]

theorem completeDests_lands {cs : List CCtx} {name x : Str} {js : List Jump} (h : ∀ j ∈ js, Lands cs name x j) (w : Where) :
    ∃ ds, completeDests name x w js = .ok ds ∧ ∀ d ∈ ds, DestOk cs d := by
  induction js with
  | nil => exact ⟨[], rfl, by simp⟩
  | cons j js ih =>
    obtain ⟨d, h1, h2⟩ := completeDest_lands (h j (by simp)) w
    obtain ⟨ds, h3, h4⟩ := ih fun j hj => h j (by simp [hj])
    refine ⟨d :: ds, by simp [completeDests, h1, h3, Except.map], ?_⟩
    simp only [List.mem_cons, forall_eq_or_imp]
    exact ⟨h2, h4⟩

/-! ## The state within a context -/

/-- General part: the settings are read, the jumps so far land. -/
structure Base (f : CFile) (s : DState) : Prop where
  general : s.dp.general.map viewSettings = some f.general
  globals : s.dp.globals.map viewSettings = some f.globals
  dests : ∀ d ∈ s.dp.dests, DestOk f.contexts d

/-- `c` is the last context and the current one. -/
structure InCtx (s : DState) (pre : List DCtx) (c : DCtx) : Prop where
  cur : s.cur = .ctx c.name
  contexts : s.dp.contexts = pre ++ [c]
  pre : ∀ d ∈ pre, d.name ≠ c.name
  parses : ∀ st ∈ c.steps, Pattern.parse st.raw = .ok st.pat

theorem find_last {pre : List DCtx} {c : DCtx} (h : ∀ d ∈ pre, d.name ≠ c.name) :
    (pre ++ [c]).find? (·.name = c.name) = some c := by
  rw [List.find?_append]
  have : pre.find? (·.name = c.name) = none := by
    rw [List.find?_eq_none]; intro d hd; simpa using h d hd
  rw [this]; simp

theorem InCtx.get {s : DState} {pre : List DCtx} {c : DCtx} (h : InCtx s pre c) : s.dp.get c.name = some c := by
  unfold Dialplan.get
  rw [h.contexts]
  exact find_last h.pre

theorem putCtx_last {pre : List DCtx} {c c' : DCtx} (h : ∀ d ∈ pre, d.name ≠ c.name) (hn : c'.name = c.name) :
    putCtx c' (pre ++ [c]) = pre ++ [c'] := by
  induction pre with
  | nil => simp [putCtx, hn]
  | cons d ds ih =>
    have hd : d.name ≠ c'.name := by rw [hn]; exact h d (by simp)
    simp only [List.cons_append, putCtx, if_neg hd]
    rw [ih fun x hx => h x (by simp [hx])]

theorem putCache_lookup (key k : Str) (p : PCache) (l : List (Str × PCache)) :
    (putCache key p l).lookup k = if k = key then some p else l.lookup k := by
  induction l with
  | nil =>
    by_cases hk : k = key
    · simp [putCache, hk]
    · simp [putCache, List.lookup, hk, beq_eq_false_iff_ne.2 hk]
  | cons x l ih =>
    obtain ⟨k', q⟩ := x
    simp only [putCache]
    by_cases h : k' = key
    · subst h
      by_cases hk : k = k'
      · simp [hk]
      · simp [List.lookup, hk, beq_eq_false_iff_ne.2 hk]
    · rw [if_neg h]
      by_cases hk : k = k'
      · subst hk; simp [List.lookup, h]
      · simp only [List.lookup, beq_eq_false_iff_ne.2 hk]
        exact ih

/-! ## Includes -/

theorem step_include {env : DEnv} {f : CFile} {s : DState} {pre : List DCtx} {c : DCtx} (hb : Base f s) (h : InCtx s pre c)
    (name : Str) (w : Where) :
    ∃ s', dialplanStep env s (CE.elem w (.set (c! "include") name true)) = ⟨[], .ok s'⟩ ∧ Base f s' ∧
      InCtx s' pre { c with includes := c.includes ++ [(name, w)] } := by
  refine ⟨⟨{ s.dp with contexts := putCtx { c with includes := c.includes ++ [(name, w)] } s.dp.contexts }, s.cur, s.sp,
    s.uses ++ []⟩, ?_, ⟨hb.general, hb.globals, hb.dests⟩, h.cur, ?_, h.pre, h.parses⟩
  · show onVarset env s _ = _
    simp only [onVarset, h.cur, h.get]
    have : fromVarset env s.sp ⟨c! "include", name, true, false, w⟩ = ⟨[], .ok (s.sp, [], .include_ name w)⟩ := by
      simp [fromVarset, expectArrow, Res.bind, Res.pure]
    rw [Res.bind_quiet this]
    simp [onDVar, Res.bind, Res.pure]
  · show putCtx _ s.dp.contexts = _
    rw [h.contexts]
    exact putCtx_last h.pre rfl

theorem runs_includes {env : DEnv} {f : CFile} (pre : List DCtx) (incs : List Str) :
    ∀ (s : DState) (c : DCtx), Base f s → InCtx s pre c →
      Runs env s (incs.map fun i => .set (c! "include") i true) fun s' => Base f s' ∧ ∃ c', InCtx s' pre c' ∧
        c'.name = c.name ∧ c'.includes.map (·.1) = c.includes.map (·.1) ++ incs ∧ c'.steps = c.steps ∧ c'.cache = c.cache := by
  induction incs with
  | nil => intro s c hb h; exact ⟨hb, c, h, rfl, by simp, rfl, rfl⟩
  | cons i incs ih =>
    intro s c hb h w
    obtain ⟨s', h1, h2, h3⟩ := step_include hb h i w
    refine ⟨s', h1, (ih s' _ h2 h3).mono ?_⟩
    rintro s'' ⟨h4, c', h5, h6, h7, h8, h9⟩
    exact ⟨h4, c', h5, h6, by rw [h7]; simp, h8, h9⟩

/-! ## Steps -/

/-- Storing a step when nothing stands against it. -/
theorem storeStep_quiet {c : DCtx} {raw : Str} {pat : Values} {prio : Nat} {e : ExtLine} {ds : List Dest}
    (hl : ∀ l, e.label = some l → l ≠ [])
    (hp : ∀ pc, c.cache.lookup (Pattern.canonical pat) = some pc → (∀ q ∈ pc.prios, q.1 < prio) ∧
      ∀ l, e.label = some l → ∀ q ∈ pc.labels, q.1 ≠ l)
    (hd : completeDests c.name (Pattern.exampleOf pat) e.at_ e.jumps = .ok ds) :
    ∃ pc labels, storeStep c raw pat prio e = ⟨[], .ok ⟨{ c with
        lastPrio := some prio
        cache := putCache (Pattern.canonical pat) pc c.cache
        steps := c.steps ++ [⟨raw, pat, prio, e.label, e.app, e.comment, e.at_⟩] }, some prio, labels, ds⟩⟩ ∧
      (∀ q ∈ pc.prios, q.1 ≤ prio) ∧
      ∀ q ∈ pc.labels, e.label = some q.1 ∨ ∃ pc', c.cache.lookup (Pattern.canonical pat) = some pc' ∧ q ∈ pc'.labels := by
  have hreal : realLabel e.label = e.label := by
    cases he : e.label with
    | none => rfl
    | some l => cases l with
      | nil => exact absurd rfl (hl [] he)
      | cons a b => rfl
  have hlk : ∀ {β : Type} (l : List (Str × β)) (k : Str), (∀ q ∈ l, q.1 ≠ k) → l.lookup k = none := by
    intro β l k h
    induction l with
    | nil => rfl
    | cons x l ih =>
      have : (k == x.1) = false := beq_eq_false_iff_ne.2 (Ne.symm (h x (by simp)))
      simp only [List.lookup, this]
      exact ih fun q hq => h q (by simp [hq])
  have hlkn : ∀ (l : List (Nat × Where)) (k : Nat), (∀ q ∈ l, q.1 < k) → l.lookup k = none := by
    intro l k h
    induction l with
    | nil => rfl
    | cons x l ih =>
      have : (k == x.1) = false := beq_eq_false_iff_ne.2 (by have := h x (by simp); omega)
      simp only [List.lookup, this]
      exact ih fun q hq => h q (by simp [hq])
  obtain ⟨pc, labels, hcc, h1, h2⟩ : ∃ pc labels,
      cacheCheck { c with lastPrio := some prio } (Pattern.canonical pat) prio e.label e.at_ =
        ⟨[], .ok (some (pc, e.label, labels))⟩ ∧ (∀ q ∈ pc.prios, q.1 ≤ prio) ∧
      ∀ q ∈ pc.labels, e.label = some q.1 ∨ ∃ pc', c.cache.lookup (Pattern.canonical pat) = some pc' ∧ q ∈ pc'.labels := by
    unfold cacheCheck
    simp only [hreal]
    cases hc : c.cache.lookup (Pattern.canonical pat) with
    | none =>
      simp only
      cases he : e.label with
      | none => exact ⟨_, _, rfl, by simp, by simp⟩
      | some l => exact ⟨_, _, rfl, by simp, by simp⟩
    | some pc =>
      obtain ⟨hp1, hp2⟩ := hp pc hc
      simp only [hlkn _ _ hp1]
      have hpr : ∀ q ∈ pc.prios ++ [(prio, e.at_)], q.1 ≤ prio := by
        intro q hq
        simp only [List.mem_append, List.mem_singleton] at hq
        rcases hq with hq | rfl
        · exact Nat.le_of_lt (hp1 q hq)
        · exact Nat.le_refl _
      cases he : e.label with
      | none => exact ⟨_, _, rfl, hpr, fun q hq => .inr ⟨pc, rfl, hq⟩⟩
      | some l =>
        simp only [hlk _ _ (hp2 l he)]
        refine ⟨_, _, rfl, hpr, fun q hq => ?_⟩
        simp only [List.mem_append, List.mem_singleton] at hq
        rcases hq with hq | rfl
        · exact .inr ⟨pc, rfl, hq⟩
        · exact .inl rfl
  refine ⟨pc, labels, ?_, h1, h2⟩
  unfold storeStep
  simp only
  rw [Res.bind_quiet hcc]
  simp only
  have : Res.lift (completeDests c.name (Pattern.exampleOf pat) e.at_ e.jumps) = ⟨[], .ok ds⟩ := by rw [hd]; rfl
  rw [Res.bind_quiet this]
  rfl

/-- The value of an `exten` or `same` line. -/
def stepValue (ext : Option Str) (prio : Str) (s : CStep) : Str := extenText ext ++ (prio ++ behindPrio s)

def stepCE (ext : Option Str) (prio : Str) (s : CStep) : CE :=
  .set (if ext.isSome then c! "exten" else c! "same") (stepValue ext prio s) true

/-- How a line is read. -/
theorem fromVarset_step {env : DEnv} {sp : Option Str} {ext : Option Str} {prio : Option Nat} {ptxt : Str} {s : CStep}
    {js : List Jump} {w : Where} {pat : Option (Str × Values)}
    (hext : ∀ raw, ext = some raw → raw ≠ [] ∧ ',' ∉ raw) (hprio : PrioText prio ptxt)
    (hlabel : ∀ l, s.label = some l → ',' ∉ l) (hq : QuietApp env s.app js) (hpat : readPattern ext = .ok pat) :
    ∃ sp' us, fromVarset env sp ⟨if ext.isSome then c! "exten" else c! "same", stepValue ext ptxt s, true, false, w⟩ =
      ⟨[], .ok (sp', us, .ext ⟨pat, prio, s.label, s.app, js, false, w⟩)⟩ := by
  have hk : (if ext.isSome then c! "exten" else c! "same") = c! "exten" ∨
      (if ext.isSome then c! "exten" else c! "same") = c! "same" := by
    cases ext.isSome
    · exact .inr rfl
    · exact .inl rfl
  have ht : StepText ⟨if ext.isSome then c! "exten" else c! "same", stepValue ext ptxt s, true, false, w⟩
      ⟨ext, prio, s.label, s.app⟩ :=
    ⟨ptxt, rfl, hext, hprio, hlabel, .inl (by simp [stepValue, behindPrio])⟩
  obtain ⟨ev, sp', h1, h2⟩ := hq sp w
  refine ⟨sp', evUses ev, ?_⟩
  unfold fromVarset
  rw [if_pos hk]
  have hx : expectArrow ⟨if ext.isSome then c! "exten" else c! "same", stepValue ext ptxt s, true, false, w⟩ = ⟨[], .ok ()⟩ := rfl
  rw [Res.bind_quiet hx, readExten_text env sp ht]
  simp only
  have hy : Res.lift (readPattern ext) = ⟨[], .ok pat⟩ := by rw [hpat]; rfl
  rw [Res.bind_quiet hy]
  have hz : (runApp env.toAEnv env.depth sp w (strV s.app)).toRes = ⟨[], .ok ((sp', js), evUses ev)⟩ := by
    rw [h1]; simp [Tr.toRes, h2, Except.map]
  rw [Res.bind_quiet hz]
  rfl

/-- Common part of the two kinds of lines: how the state changes. -/
theorem step_line {env : DEnv} {f : CFile} {st : DState} {pre : List DCtx} {c : DCtx} (hb : Base f st) (h : InCtx st pre c)
    {ext : Option Str} {prio : Option Nat} {ptxt : Str} {s : CStep} {js : List Jump} {pat : Option (Str × Values)}
    {raw : Str} {v : Values} {n : Nat} (w : Where)
    (hext : ∀ raw, ext = some raw → raw ≠ [] ∧ ',' ∉ raw) (hprio : PrioText prio ptxt)
    (hlabel : ∀ l, s.label = some l → l ≠ [] ∧ ',' ∉ l) (hq : QuietApp env s.app js) (hpat : readPattern ext = .ok pat)
    (hcanon : ∀ p, pat = some p → Pattern.isCanonical p.1 p.2 = true)
    (hv : Pattern.parse raw = .ok v)
    (hj : ∀ j ∈ js, Lands f.contexts c.name (Pattern.exampleOf v) j)
    (hres : resolvePat { c with sorted := none } ⟨pat, prio, s.label, s.app, js, false, w⟩ = some (raw, v))
    (hrp : resolvePrio st.dp.lastPrio { c with sorted := none } raw v ⟨pat, prio, s.label, s.app, js, false, w⟩ =
      ⟨[], .ok (some n)⟩)
    (hp : ∀ pc, c.cache.lookup (Pattern.canonical v) = some pc → (∀ q ∈ pc.prios, q.1 < n) ∧
      ∀ l, s.label = some l → ∀ q ∈ pc.labels, q.1 ≠ l) :
    ∃ st' c' pc, dialplanStep env st ((stepCE ext ptxt s).elem w) = ⟨[], .ok st'⟩ ∧ Base f st' ∧ InCtx st' pre c' ∧
      c'.name = c.name ∧ c'.includes = c.includes ∧ c'.lastPrio = some n ∧ st'.dp.lastPrio = some n ∧
      c'.steps = c.steps ++ [⟨raw, v, n, s.label, s.app, false, w⟩] ∧
      c'.cache = putCache (Pattern.canonical v) pc c.cache ∧ (∀ q ∈ pc.prios, q.1 ≤ n) ∧
      ∀ q ∈ pc.labels, s.label = some q.1 ∨ ∃ pc', c.cache.lookup (Pattern.canonical v) = some pc' ∧ q ∈ pc'.labels := by
  obtain ⟨sp', us, hfv⟩ := fromVarset_step (sp := st.sp) (w := w) hext hprio (fun l hl => (hlabel l hl).2) hq hpat
  obtain ⟨ds, hds, hdok⟩ := completeDests_lands hj w
  obtain ⟨pc, labels, hst, hp1, hp2⟩ := storeStep_quiet (c := { c with sorted := none }) (raw := raw) (pat := v) (prio := n)
    (e := ⟨pat, prio, s.label, s.app, js, false, w⟩) (ds := ds) (fun l hl => (hlabel l hl).1) hp hds
  obtain ⟨c', hc'⟩ : ∃ c' : DCtx, c' = { c with
        sorted := none
        lastPrio := some n
        cache := putCache (Pattern.canonical v) pc c.cache
        steps := c.steps ++ [⟨raw, v, n, s.label, s.app, false, w⟩] } := ⟨_, rfl⟩
  have hadd : addExt st.dp.lastPrio c ⟨pat, prio, s.label, s.app, js, false, w⟩ = ⟨[], .ok ⟨c', some n, labels, ds⟩⟩ := by
    unfold addExt
    simp only [hres]
    rw [Res.bind_quiet hrp]
    simp only [hst, hc']
  have hcc : canonCheck ⟨pat, prio, s.label, s.app, js, false, w⟩ = ⟨[], .ok ()⟩ := by
    cases hpe : pat with
    | none => rfl
    | some p =>
      obtain ⟨r, x⟩ := p
      have := hcanon _ hpe
      simp only at this
      simp only [canonCheck, this, if_true]
      rfl
  refine ⟨⟨st.dp.withAdded ⟨c', some n, labels, ds⟩, st.cur, sp', st.uses ++ us⟩, c', pc, ?_,
    ⟨hb.general, hb.globals, ?_⟩, ⟨?_, ?_, ?_, ?_⟩, ?_, ?_, ?_, rfl, ?_, ?_, hp1, hp2⟩
  · show onVarset env st _ = _
    simp only [onVarset, h.cur, h.get]
    rw [Res.bind_quiet hfv]
    simp only [onDVar]
    rw [Res.bind_quiet hcc, Res.bind_quiet hadd]
    rfl
  · intro d hd
    simp only [Dialplan.withAdded, List.mem_append] at hd
    rcases hd with hd | hd
    · exact hb.dests d hd
    · exact hdok d hd
  · rw [hc']; exact h.cur
  · show putCtx c' st.dp.contexts = _
    rw [h.contexts]; exact putCtx_last h.pre (by rw [hc'])
  · rw [hc']; exact h.pre
  · rw [hc']
    intro t ht
    simp only [List.mem_append, List.mem_singleton] at ht
    rcases ht with ht | rfl
    · exact h.parses t ht
    · exact hv
  all_goals rw [hc']

/-- Within the extension `raw`: `k` steps are read, with these labels. -/
structure InExt (st : DState) (c : DCtx) (raw : Str) (v : Values) (k : Nat) (used : List Str) (Old : Str → Prop) : Prop where
  pos : 0 < k
  ctxLast : c.lastPrio = some k
  dpLast : st.dp.lastPrio = some k
  last : ∃ t, c.steps.getLast? = some t ∧ t.raw = raw ∧ t.pat = v
  mine : ∀ pc, c.cache.lookup (Pattern.canonical v) = some pc → (∀ q ∈ pc.prios, q.1 ≤ k) ∧ ∀ q ∈ pc.labels, q.1 ∈ used
  others : ∀ key pc, key ≠ Pattern.canonical v → c.cache.lookup key = some pc → Old key

def viewAt (raw : Str) (p : CStep × Nat) : StepView := (raw, p.2 + 1, p.1.label, p.1.app)

theorem runs_more {env : DEnv} {f : CFile} {pre : List DCtx} {raw : Str} {v : Values} {Old : Str → Prop} {name : Str}
    (hv : Pattern.parse raw = .ok v) :
    ∀ (more : List CStep) (k : Nat) (used : List Str) (st : DState) (c : DCtx)
      (_ : ∀ s ∈ more, GoodStep env f.contexts name (Pattern.exampleOf v) s)
      (_ : (more.filterMap (·.label)).Nodup) (_ : ∀ l ∈ more.filterMap (·.label), l ∉ used)
      (_ : Base f st) (_ : InCtx st pre c) (_ : c.name = name) (_ : InExt st c raw v k used Old),
      Runs env st (more.map (stepCE none (c! "n"))) fun st' => Base f st' ∧ ∃ c' k' used', InCtx st' pre c' ∧ c'.name = name ∧
        c'.includes = c.includes ∧ c'.steps.map viewStep = c.steps.map viewStep ++ (more.zipIdx k).map (viewAt raw) ∧
        InExt st' c' raw v k' used' Old
  | [], k, used, st, c, _, _, _, hb, hc, hn, he => ⟨hb, c, k, used, hc, hn, rfl, by simp, he⟩
  | s :: more, k, used, st, c, hg, hnd, hfr, hb, hc, hn, he => by
    intro w
    obtain ⟨hlab, js, hq, hj⟩ := hg s (by simp)
    obtain ⟨t, ht1, ht2, ht3⟩ := he.last
    have hkne : k ≠ 0 := by have := he.pos; omega
    have hrp : resolvePrio st.dp.lastPrio { c with sorted := none } raw v ⟨none, none, s.label, s.app, js, false, w⟩ =
        ⟨[], .ok (some (k + 1))⟩ := by
      simp [resolvePrio, he.dpLast, hkne, outOfOrder, he.ctxLast, ht1, ht3, Res.lift, Res.bind, Res.pure]
    obtain ⟨st', c', pc, h1, h2, h3, h4, h5, h6, h7, h8, h9, h10, h11⟩ := step_line hb hc (ext := none) (prio := none)
      (ptxt := c! "n") (s := s) (js := js) (pat := none) (raw := raw) (v := v) (n := k + 1) w (by simp) .next hlab hq rfl
      (by simp) hv (fun j hjj => by rw [hn]; exact hj j hjj)
      (by simp [resolvePat, ht1, ht2, ht3]) hrp (by
        intro pc hpc
        obtain ⟨m1, m2⟩ := he.mine pc hpc
        refine ⟨fun q hq => Nat.lt_succ_of_le (m1 q hq), fun l hl q hq hql => ?_⟩
        exact hfr l (by simp [hl]) (hql ▸ m2 q hq))
    refine ⟨st', h1, ?_⟩
    have hnd' : (more.filterMap (·.label)).Nodup := by
      rw [List.filterMap_cons] at hnd
      cases hl : s.label with
      | none => rw [hl] at hnd; exact hnd
      | some l => rw [hl] at hnd; exact (List.nodup_cons.1 hnd).2
    have hfr' : ∀ l ∈ more.filterMap (·.label), l ∉ used ++ s.label.toList := by
      intro l hl hu
      rcases List.mem_append.1 hu with hu | hu
      · refine hfr l ?_ hu
        rw [List.filterMap_cons]
        cases s.label with
        | none => exact hl
        | some l' => exact List.mem_cons_of_mem _ hl
      · have hsl : s.label = some l := by simpa using hu
        rw [List.filterMap_cons, hsl] at hnd
        exact (List.nodup_cons.1 hnd).1 hl
    have hext : InExt st' c' raw v (k + 1) (used ++ s.label.toList) Old := by
      refine ⟨by omega, h6, h7, ⟨_, by rw [h8, List.getLast?_append]; rfl, rfl, rfl⟩, ?_, ?_⟩
      · intro pc' hpc
        rw [h9, putCache_lookup, if_pos rfl] at hpc
        cases hpc
        refine ⟨h10, fun q hq => ?_⟩
        rcases h11 q hq with h | ⟨pc', hp1, hp2⟩
        · simp [h]
        · simp [(he.mine pc' hp1).2 q hp2]
      · intro key pc' hne hpc
        rw [h9, putCache_lookup, if_neg hne] at hpc
        exact he.others key pc' hne hpc
    refine (runs_more hv more (k + 1) (used ++ s.label.toList) st' c' (fun x hx => hg x (by simp [hx])) hnd' hfr' h2 h3
      (by rw [h4, hn]) hext).mono ?_
    rintro st'' ⟨g1, c'', k', used', g2, g3, g4, g5, g6⟩
    refine ⟨g1, c'', k', used', g2, g3, by rw [g4, h5], ?_, g6⟩
    rw [g5, h8]
    simp [viewStep, viewAt, List.zipIdx_cons]

def extCEs (e : CExt) : List CE := stepCE (some e.pat) (c! "1") e.first :: e.more.map (stepCE none (c! "n"))

/-- The keys of the extensions. -/
def KeyOf (done : List CExt) (key : Str) : Prop := ∃ e ∈ done, ∃ v, Pattern.parse e.pat = .ok v ∧ Pattern.canonical v = key

theorem runs_ext {env : DEnv} {f : CFile} {pre : List DCtx} {name : Str} {done : List CExt} {e : CExt} {st : DState} {c : DCtx}
    (hg : GoodExt env f.contexts name e) (hdiff : ∀ d ∈ done, Different d e) (hb : Base f st) (hc : InCtx st pre c)
    (hn : c.name = name) (hk : ∀ key pc, c.cache.lookup key = some pc → KeyOf done key) :
    Runs env st (extCEs e) fun st' => Base f st' ∧ ∃ c', InCtx st' pre c' ∧ c'.name = name ∧ c'.includes = c.includes ∧
      c'.steps.map viewStep = c.steps.map viewStep ++ meantSteps e ∧
      ∀ key pc, c'.cache.lookup key = some pc → KeyOf (done ++ [e]) key := by
  obtain ⟨hcomma, hlead, ⟨v, hv, hcan, hsteps⟩, hlabels⟩ := hg
  have hne : e.pat ≠ [] := by rintro h; rw [h] at hv; simp [Pattern.parse] at hv
  intro w
  obtain ⟨hlab, js, hq, hj⟩ := hsteps e.first (by simp [CExt.steps])
  have hnew : ∀ pc, c.cache.lookup (Pattern.canonical v) ≠ some pc := by
    intro pc hpc
    obtain ⟨d, hd, v', hv', hkey⟩ := hk _ _ hpc
    exact hdiff d hd v' v hv' hv hkey
  obtain ⟨st', c', pc, h1, h2, h3, h4, h5, h6, h7, h8, h9, h10, h11⟩ := step_line hb hc (ext := some e.pat) (prio := some 1)
    (ptxt := c! "1") (s := e.first) (js := js) (pat := some (e.pat, v)) (raw := e.pat) (v := v) (n := 1) w
    (by rintro raw h; cases h; exact ⟨hne, hcomma⟩) (.num (c! "1") (by decide) (by decide)) hlab hq
    (by simp [readPattern, hv]) (by rintro p h; cases h; exact hcan) hv (fun j hjj => by rw [hn]; exact hj j hjj)
    rfl (by simp [resolvePrio, Res.pure]) (fun pc hpc => absurd hpc (hnew pc))
  refine ⟨st', h1, ?_⟩
  have hext : InExt st' c' e.pat v 1 e.first.label.toList (KeyOf done) := by
    refine ⟨by omega, h6, h7, ⟨_, by rw [h8, List.getLast?_append]; rfl, rfl, rfl⟩, ?_, ?_⟩
    · intro pc' hpc
      rw [h9, putCache_lookup, if_pos rfl] at hpc
      cases hpc
      refine ⟨h10, fun q hq => ?_⟩
      rcases h11 q hq with h | ⟨pc', hp1, hp2⟩
      · simp [h]
      · exact absurd hp1 (hnew pc')
    · intro key pc' hne hpc
      rw [h9, putCache_lookup, if_neg hne] at hpc
      exact hk key pc' hpc
  have hnd : (e.more.filterMap (·.label)).Nodup ∧ ∀ l ∈ e.more.filterMap (·.label), l ∉ e.first.label.toList := by
    simp only [CExt.steps, List.filterMap_cons] at hlabels
    cases hl : e.first.label with
    | none => rw [hl] at hlabels; exact ⟨hlabels, by simp⟩
    | some l =>
      rw [hl] at hlabels
      obtain ⟨a, b⟩ := List.nodup_cons.1 hlabels
      refine ⟨b, fun x hx hm => ?_⟩
      simp only [Option.toList, List.mem_singleton] at hm
      exact a (hm ▸ hx)
  refine (runs_more hv e.more 1 e.first.label.toList st' c' (fun s hs => hsteps s (by simp [CExt.steps, hs])) hnd.1 hnd.2 h2 h3
    (by rw [h4, hn]) hext).mono ?_
  rintro st'' ⟨g1, c'', k', used', g2, g3, g4, g5, g6⟩
  refine ⟨g1, c'', g2, g3, by rw [g4, h5], ?_, ?_⟩
  · rw [g5, h8]
    simp only [List.map_append, List.map_cons, List.map_nil, List.append_assoc]
    congr 1
  · intro key pc' hpc
    by_cases hkey : key = Pattern.canonical v
    · exact ⟨e, by simp, v, hv, hkey.symm⟩
    · obtain ⟨d, hd, x⟩ := g6.others key pc' hkey hpc
      exact ⟨d, by simp [hd], x⟩

theorem runs_exts {env : DEnv} {f : CFile} {pre : List DCtx} {name : Str} :
    ∀ (exts done : List CExt) (st : DState) (c : DCtx) (_ : ∀ e ∈ exts, GoodExt env f.contexts name e)
      (_ : (done ++ exts).Pairwise Different) (_ : Base f st) (_ : InCtx st pre c) (_ : c.name = name)
      (_ : ∀ key pc, c.cache.lookup key = some pc → KeyOf done key),
      Runs env st (exts.flatMap extCEs) fun st' => Base f st' ∧ ∃ c', InCtx st' pre c' ∧ c'.name = name ∧
        c'.includes = c.includes ∧ c'.steps.map viewStep = c.steps.map viewStep ++ exts.flatMap meantSteps
  | [], _, st, c, _, _, hb, hc, hn, _ => ⟨hb, c, hc, hn, rfl, by simp⟩
  | e :: exts, done, st, c, hg, hd, hb, hc, hn, hk => by
    rw [List.flatMap_cons]
    refine Runs.append ((runs_ext (hg e (by simp)) (fun d hdd => ?_) hb hc hn hk).mono ?_)
    · exact (List.pairwise_append.1 hd).2.2 d hdd e (by simp)
    · rintro st' ⟨h1, c', h2, h3, h4, h5, h6⟩
      refine (runs_exts exts (done ++ [e]) st' c' (fun x hx => hg x (by simp [hx])) (by simpa using hd) h1 h2 h3 h6).mono ?_
      rintro st'' ⟨g1, c'', g2, g3, g4, g5⟩
      exact ⟨g1, c'', g2, g3, by rw [g4, h4], by rw [g5, h5]; simp⟩

def ctxCEs (c : CCtx) : List CE :=
  .hdr c.name :: ((c.includes.map fun i => .set (c! "include") i true) ++ c.exts.flatMap extCEs)

/-- All steps of a context are of readable extensions. -/
def Parses (c : DCtx) : Prop := ∀ st ∈ c.steps, Pattern.parse st.raw = .ok st.pat

theorem runs_ctx {env : DEnv} {f : CFile} {cc : CCtx} (hg : GoodCtx env f.contexts cc) {st : DState} (hb : Base f st)
    (hpre : ∀ d ∈ st.dp.contexts, d.name ≠ cc.name) :
    Runs env st (ctxCEs cc) fun st' => Base f st' ∧ ∃ c, st'.dp.contexts = st.dp.contexts ++ [c] ∧ viewCtx c = meantCtx cc ∧
      Parses c := by
  obtain ⟨⟨hs1, hs2⟩, hbr, hinc, hexts, hdiff⟩ := hg
  intro w
  have hget : st.dp.get cc.name = none := by
    unfold Dialplan.get
    rw [List.find?_eq_none]; intro d hd; simpa using hpre d hd
  obtain ⟨c0, hc0⟩ : ∃ c0 : DCtx, c0 = ⟨cc.name, w, [], [], none, [], none⟩ := ⟨_, rfl⟩
  obtain ⟨st0, hst0⟩ : ∃ st0 : DState, st0 = ⟨{ st.dp with contexts := st.dp.contexts ++ [c0] }, .ctx cc.name, st.sp, st.uses⟩ :=
    ⟨_, rfl⟩
  refine ⟨st0, ?_, ?_⟩
  · rw [hst0]
    show onContext st _ = _
    simp [onContext, hs1, hs2, onDialplanContext, hget, Res.bind, Res.pure, Res.lift, hc0]
  refine Runs.append ((runs_includes st.dp.contexts cc.includes st0 c0 (by rw [hst0]; exact ⟨hb.general, hb.globals, hb.dests⟩)
    ⟨by rw [hst0, hc0], by rw [hst0], by rw [hc0]; exact hpre, by rw [hc0]; simp⟩).mono ?_)
  rintro st1 ⟨h1, c1, h2, h3, h4, h5, h6⟩
  refine (runs_exts cc.exts [] st1 c1 hexts (by simpa using hdiff) h1 h2 (by rw [h3, hc0])
    (by intro key pc h; rw [h6, hc0] at h; simp at h)).mono ?_
  rintro st2 ⟨g1, c2, g2, g3, g4, g5⟩
  refine ⟨g1, c2, g2.contexts, ?_, g2.parses⟩
  have e1 : c2.includes.map (·.1) = cc.includes := by rw [g4, h4, hc0]; simp
  have e2 : c2.steps.map viewStep = cc.exts.flatMap meantSteps := by rw [g5, h5, hc0]; simp
  simp only [viewCtx, meantCtx, g3, e1, e2]

theorem runs_ctxs {env : DEnv} {f : CFile} :
    ∀ (cs : List CCtx) (st : DState) (_ : ∀ c ∈ cs, GoodCtx env f.contexts c) (_ : (cs.map (·.name)).Nodup) (_ : Base f st)
      (_ : ∀ d ∈ st.dp.contexts, d.name ∉ cs.map (·.name)),
      Runs env st (cs.flatMap ctxCEs) fun st' => Base f st' ∧ ∃ ds, st'.dp.contexts = st.dp.contexts ++ ds ∧
        ds.map viewCtx = cs.map meantCtx ∧ ∀ d ∈ ds, Parses d
  | [], st, _, _, hb, _ => ⟨hb, [], by simp, rfl, by simp⟩
  | c :: cs, st, hg, hnd, hb, hpre => by
    rw [List.flatMap_cons]
    rw [List.map_cons, List.nodup_cons] at hnd
    refine Runs.append ((runs_ctx (hg c (by simp)) hb (fun d hd h => hpre d hd (by simp [h]))).mono ?_)
    rintro st' ⟨h1, c', h2, h3, h4⟩
    have hname : c'.name = c.name := congrArg (·.1) h3
    refine (runs_ctxs cs st' (fun x hx => hg x (by simp [hx])) hnd.2 h1 ?_).mono ?_
    · intro d hd
      rw [h2] at hd
      rcases List.mem_append.1 hd with hd | hd
      · exact fun hm => hpre d hd (by rw [List.map_cons]; exact List.mem_cons_of_mem _ hm)
      · simp only [List.mem_singleton] at hd
        rw [hd, hname]; exact hnd.1
    · rintro st'' ⟨g1, ds, g2, g3, g4⟩
      refine ⟨g1, c' :: ds, by rw [g2, h2]; simp, by simp [h3, g3], ?_⟩
      simp only [List.mem_cons, forall_eq_or_imp]
      exact ⟨h4, g4⟩

def setCE (kv : Str × Str) : CE := .set kv.1 kv.2 false

theorem runs_general {env : DEnv} (kvs : List (Str × Str)) :
    ∀ (st : DState) (old : List (Str × Str)), st.cur = .general → st.dp.general.map viewSettings = some old →
      Runs env st (kvs.map setCE) fun st' => st'.dp.general.map viewSettings = some (old ++ kvs) ∧
        st'.dp.globals = st.dp.globals ∧ st'.dp.contexts = st.dp.contexts ∧ st'.dp.dests = st.dp.dests := by
  induction kvs with
  | nil => intro st old h1 h2; exact ⟨by simpa using h2, rfl, rfl, rfl⟩
  | cons kv kvs ih =>
    intro st old h1 h2 w
    obtain ⟨st1, hst1⟩ : ∃ st1 : DState, st1 =
        { st with dp := { st.dp with general := st.dp.general.map (addVar ⟨kv.1, kv.2, false, false, w⟩) } } := ⟨_, rfl⟩
    refine ⟨st1, ?_, ?_⟩
    · rw [hst1]
      show onVarset env st _ = _
      simp [onVarset, h1, Res.pure]
    · refine (ih st1 (old ++ [kv]) (by rw [hst1]; exact h1) ?_).mono ?_
      · rw [hst1]
        cases hg : st.dp.general with
        | none => rw [hg] at h2; cases h2
        | some g =>
          rw [hg] at h2
          simp only [Option.map_some, Option.some.injEq] at h2
          simp [viewSettings, addVar, ← h2]
      · rintro st' ⟨a, b, c, d⟩
        rw [hst1] at b c d
        exact ⟨by simpa using a, b, c, d⟩

theorem runs_globals {env : DEnv} (kvs : List (Str × Str)) :
    ∀ (st : DState) (old : List (Str × Str)), st.cur = .globals → st.dp.globals.map viewSettings = some old →
      Runs env st (kvs.map setCE) fun st' => st'.dp.globals.map viewSettings = some (old ++ kvs) ∧
        st'.dp.general = st.dp.general ∧ st'.dp.contexts = st.dp.contexts ∧ st'.dp.dests = st.dp.dests := by
  induction kvs with
  | nil => intro st old h1 h2; exact ⟨by simpa using h2, rfl, rfl, rfl⟩
  | cons kv kvs ih =>
    intro st old h1 h2 w
    obtain ⟨st1, hst1⟩ : ∃ st1 : DState, st1 =
        { st with dp := { st.dp with globals := st.dp.globals.map (addVar ⟨kv.1, kv.2, false, false, w⟩) } } := ⟨_, rfl⟩
    refine ⟨st1, ?_, ?_⟩
    · rw [hst1]
      show onVarset env st _ = _
      simp [onVarset, h1, Res.pure]
    · refine (ih st1 (old ++ [kv]) (by rw [hst1]; exact h1) ?_).mono ?_
      · rw [hst1]
        cases hg : st.dp.globals with
        | none => rw [hg] at h2; cases h2
        | some g =>
          rw [hg] at h2
          simp only [Option.map_some, Option.some.injEq] at h2
          simp [viewSettings, addVar, ← h2]
      · rintro st' ⟨a, b, c, d⟩
        rw [hst1] at b c d
        exact ⟨by simpa using a, b, c, d⟩

/-- What the lines of a file are read as. -/
def restCEs (f : CFile) : List CE :=
  f.general.map setCE ++ (.hdr (c! "globals") :: (f.globals.map setCE ++ f.contexts.flatMap ctxCEs))

theorem runs_file {env : DEnv} {f : CFile} (hg : GoodFile env f) (sp : Option Str) :
    Runs env (.init sp) (.hdr (c! "general") :: restCEs f) fun st => AsMeant f st.dp ∧
      (∀ d ∈ st.dp.dests, DestOk f.contexts d) ∧ ∀ c ∈ st.dp.contexts, Parses c := by
  intro w
  refine ⟨⟨{ Dialplan.init with general := some (⟨c! "general", [], false, w⟩, []) }, .general, sp, []⟩, ?_, ?_⟩
  · show onContext (.init sp) _ = _
    simp [onContext, addGeneral, DState.init, Dialplan.init, Res.bind, Res.pure]
  refine Runs.append ((runs_general f.general _ [] rfl rfl).mono ?_)
  rintro st1 ⟨h1, h2, h3, h4⟩ w1
  have hgs : st1.dp.general.isNone = false := by
    cases hh : st1.dp.general with
    | none => rw [hh] at h1; cases h1
    | some g => rfl
  simp only [Dialplan.init] at h2 h3 h4
  refine ⟨⟨{ st1.dp with globals := some (⟨c! "globals", [], false, w1⟩, []) }, .globals, st1.sp, st1.uses⟩, ?_, ?_⟩
  · show onContext st1 _ = _
    simp [onContext, addGlobals, h2, h3, hgs, Res.bind, Res.pure]
  refine Runs.append ((runs_globals f.globals _ [] rfl rfl).mono ?_)
  rintro st2 ⟨g1, g2, g3, g4⟩
  have hb : Base f st2 := ⟨by rw [g2]; simpa using h1, by simpa using g1, by rw [g4]; simp [h4]⟩
  have hc0 : st2.dp.contexts = [] := by rw [g3]; exact h3
  refine (runs_ctxs f.contexts st2 hg.contexts hg.names hb (by rw [hc0]; simp)).mono ?_
  rintro st3 ⟨k1, ds, k2, k3, k4⟩
  rw [hc0, List.nil_append] at k2
  exact ⟨⟨k1.general, k1.globals, by rw [k2, k3]⟩, k1.dests, by rw [k2]; exact k4⟩

/-! ## The jumps -/

theorem meantSteps_mem {e : CExt} {i : Nat} {s : CStep} (h : e.steps[i]? = some s) :
    (e.pat, i + 1, s.label, s.app) ∈ meantSteps e := by
  unfold meantSteps
  rw [List.mem_map]
  refine ⟨(s, i), ?_, rfl⟩
  rw [List.mem_zipIdx_iff_getElem?]
  exact h

theorem walkDest_quiet {f : CFile} {dp : Dialplan} (hm : AsMeant f dp) (hnd : (f.contexts.map (·.name)).Nodup)
    (hp : ∀ c ∈ dp.contexts, Parses c) {depth : Nat} (hdepth : 0 < depth) {d : Dest} (hd : DestOk f.contexts d) :
    walkDest dp depth d = ⟨[], .ok ()⟩ := by
  obtain ⟨ctx, ext, h1, h2, cc, hcc, hn, e, he, hdial, i, s, hi, hpr⟩ := hd
  have hmem : meantCtx cc ∈ dp.contexts.map viewCtx := by rw [hm.contexts]; exact List.mem_map_of_mem hcc
  obtain ⟨c, hc, hcv⟩ := List.mem_map.1 hmem
  simp only [viewCtx, meantCtx, Prod.mk.injEq] at hcv
  obtain ⟨hv1, hv2, hv3⟩ := hcv
  have hnames : (dp.contexts.map (·.name)).Nodup := by
    have : dp.contexts.map (·.name) = (dp.contexts.map viewCtx).map (·.1) := by simp [viewCtx]
    rw [this, hm.contexts]
    rw [List.map_map]
    exact hnd
  have hget : dp.get ctx = some c := by
    unfold Dialplan.get
    rw [← hn, ← hv1]
    clear hmem hm
    generalize dp.contexts = l at hc hnames
    induction l with
    | nil => simp at hc
    | cons x l ih =>
      rw [List.map_cons, List.nodup_cons] at hnames
      rcases List.mem_cons.1 hc with rfl | hc
      · simp
      · have : x.name ≠ c.name := fun h => hnames.1 (h ▸ List.mem_map_of_mem hc)
        rw [List.find?_cons_of_neg (by simpa using this)]
        exact ih hc hnames.2
  have hstep : (e.pat, i + 1, s.label, s.app) ∈ c.steps.map viewStep := by
    rw [hv3, List.mem_flatMap]
    exact ⟨e, he, meantSteps_mem hi⟩
  obtain ⟨t, ht, htv⟩ := List.mem_map.1 hstep
  simp only [viewStep, Prod.mk.injEq] at htv
  obtain ⟨t1, t2, t3, t4⟩ := htv
  have hparse := hp c hc t ht
  rw [t1] at hparse
  have hmatch : Pattern.matchesExtension t.pat ext = some true := (dials_iff hparse ext).2 hdial
  have hprio : Prio d.prio := by
    rcases hpr with h | ⟨l, h, _⟩
    · exact .inl ⟨_, h⟩
    · exact .inr (.inl ⟨l, h⟩)
  have hfit : prioFits d.prio t = .ok true := by
    rcases hpr with h | ⟨l, h, hl⟩
    · simp [h, prioFits, t2]
    · simp [h, prioFits, t3, hl]
  obtain ⟨b, hb⟩ : ∃ b, latin1? (ext.filter (· ≠ '-')) = some b := by obtain ⟨b, hb, _⟩ := hdial; exact ⟨b, hb⟩
  have hsorted : t.pat ∈ sortedPatterns c.steps := (sortedPatterns_mem _ _).2 ⟨t, ht, rfl⟩
  obtain ⟨r, hr⟩ := matchHere_ok hprio hb c.steps (sortedPatterns c.steps)
  have hsome : ∃ t', r = some t' := by
    cases r with
    | some t' => exact ⟨t', rfl⟩
    | none => exact absurd hfit (matchHere_none hr t ht hsorted hmatch)
  obtain ⟨t', rfl⟩ := hsome
  obtain ⟨k, rfl⟩ : ∃ k, depth = k + 1 := ⟨depth - 1, by omega⟩
  have hmp : matchPattern dp (k + 1) c.name ext d.prio = .ok (some t') := by
    unfold matchPattern
    rw [hv1, hn, hget]
    simp only [hr]
  unfold walkDest
  simp only [h1, hget, h2, hmp]
  simp [V.isVar, Res.lift, Res.bind, Res.pure]

theorem walkDests_quiet {f : CFile} {dp : Dialplan} (hm : AsMeant f dp) (hnd : (f.contexts.map (·.name)).Nodup)
    (hp : ∀ c ∈ dp.contexts, Parses c) {depth : Nat} (hdepth : 0 < depth) :
    ∀ (ds : List Dest), (∀ d ∈ ds, DestOk f.contexts d) → walkDests dp depth ds = ⟨[], .ok ()⟩
  | [], _ => rfl
  | d :: ds, h => by
    rw [walkDests, Res.bind_quiet (walkDest_quiet hm hnd hp hdepth (h d (by simp)))]
    exact walkDests_quiet hm hnd hp hdepth ds fun x hx => h x (by simp [hx])

/-! ## The lines -/

def extChunks (e : CExt) : List Chunk :=
  ⟨false, c! "exten => " ++ (e.pat ++ (c! ",1" ++ behindPrio e.first)), stepCE (some e.pat) (c! "1") e.first⟩ ::
    e.more.map fun s => ⟨false, c! " same => n" ++ behindPrio s, stepCE none (c! "n") s⟩

def ctxChunks (c : CCtx) : List Chunk :=
  ⟨true, headerLine c.name, .hdr c.name⟩ ::
    ((c.includes.map fun i => ⟨false, includeLine i, .set (c! "include") i true⟩) ++ c.exts.flatMap extChunks)

def setChunk (kv : Str × Str) : Chunk := ⟨false, setLine kv, setCE kv⟩

def restChunks (f : CFile) : List Chunk :=
  f.general.map setChunk ++ (⟨true, headerLine (c! "globals"), .hdr (c! "globals")⟩ ::
    (f.globals.map setChunk ++ f.contexts.flatMap ctxChunks))

theorem flatten_single {α β : Type} (g : α → β) (l : List α) : (l.map fun a => [g a]).flatten = l.map g := by
  induction l with
  | nil => rfl
  | cons a l ih => simp [ih]

theorem extChunks_lines (e : CExt) : (extChunks e).flatMap Chunk.lines = extLines e := by
  simp only [extChunks, extLines, List.flatMap_cons, Chunk.lines, List.flatMap_map]
  simp [List.flatMap_def, flatten_single]

theorem flatMap_congr' {α β : Type} {f g : α → List β} (h : ∀ a, f a = g a) (l : List α) : l.flatMap f = l.flatMap g := by
  rw [funext h]

theorem ctxChunks_lines (c : CCtx) : (ctxChunks c).flatMap Chunk.lines = ctxLines c := by
  simp only [ctxChunks, ctxLines, List.flatMap_cons, List.flatMap_append, List.flatMap_assoc, flatMap_congr' extChunks_lines,
    List.flatMap_map]
  simp [Chunk.lines, List.flatMap_def, flatten_single]

theorem restChunks_lines (f : CFile) : headerLine (c! "general") :: (restChunks f).flatMap Chunk.lines = fileLines f := by
  simp only [restChunks, fileLines, List.flatMap_append, List.flatMap_cons, List.flatMap_assoc, flatMap_congr' ctxChunks_lines,
    List.flatMap_map]
  simp [Chunk.lines, setChunk, List.flatMap_def, flatten_single]

theorem restChunks_ces (f : CFile) : (restChunks f).map (·.ce) = restCEs f := by
  have he : ∀ e : CExt, (extChunks e).map (·.ce) = extCEs e := by intro e; simp [extChunks, extCEs]
  have hc : ∀ c : CCtx, (ctxChunks c).map (·.ce) = ctxCEs c := by
    intro c
    simp only [ctxChunks, ctxCEs, List.map_cons, List.map_append, List.map_flatMap, flatMap_congr' he]
    simp
  simp only [restChunks, restCEs, List.map_append, List.map_cons, List.map_flatMap, flatMap_congr' hc, List.map_map]
  rfl

theorem reads_exten (e : CExt) (h : NoLead e.pat) (hne : e.pat ≠ []) :
    ReadsAs (c! "exten => " ++ (e.pat ++ (c! ",1" ++ behindPrio e.first))) (stepCE (some e.pat) (c! "1") e.first) := by
  have := readsAs_arrow [] (c! "exten") (stepValue (some e.pat) (c! "1") e.first) (.inl rfl) ⟨'e', c! "xten", rfl, by decide, by decide⟩
    (by decide) (by
      intro r x hx
      have := congrArg List.getLast? hx
      simp at this
      subst this
      decide) (by
      intro x r hx
      cases hp : e.pat with
      | nil => exact absurd hp hne
      | cons y ys =>
        have h2 := h y ys hp
        simp [stepValue, extenText, hp] at hx
        rw [← hx.1]; exact h2)
  simpa [stepCE, stepValue, extenText] using this

theorem reads_same (s : CStep) : ReadsAs (c! " same => n" ++ behindPrio s) (stepCE none (c! "n") s) := by
  have := readsAs_arrow [' '] (c! "same") (stepValue none (c! "n") s) (.inr ⟨rfl, rfl⟩) ⟨'s', c! "ame", rfl, by decide, by decide⟩
    (by decide) (by
      intro r x hx
      have := congrArg List.getLast? hx
      simp at this
      subst this
      decide) (by
      intro x r hx
      simp [stepValue, extenText] at hx
      rw [← hx.1]; decide)
  simpa [stepCE, stepValue, extenText] using this

theorem reads_include (i : Str) (h : NoLead i) : ReadsAs (includeLine i) (.set (c! "include") i true) := by
  have := readsAs_arrow [] (c! "include") i (.inl rfl) ⟨'i', c! "nclude", rfl, by decide, by decide⟩
    (by decide) (by
      intro r x hx
      have := congrArg List.getLast? hx
      simp at this
      subst this
      decide) h
  simpa [includeLine] using this

theorem restChunks_ok {env : DEnv} {f : CFile} (hg : GoodFile env f) : ∀ c ∈ restChunks f, c.Ok := by
  have hline : ∀ c ∈ restChunks f, GoodLine c.text := by
    intro c hc
    refine hg.lines _ ?_
    rw [← restChunks_lines]
    refine List.mem_cons_of_mem _ (List.mem_flatMap.2 ⟨c, hc, ?_⟩)
    unfold Chunk.lines
    split <;> simp
  intro c hc
  suffices h : ReadsAs c.text c.ce ∧ ∀ name, c.ce = .hdr name → c.blank = true from ⟨hline c hc, h.1, h.2⟩
  simp only [restChunks, List.mem_append, List.mem_cons, List.mem_map, List.mem_flatMap] at hc
  have hset : ∀ kv ∈ f.general ++ f.globals, ReadsAs (setChunk kv).text (setChunk kv).ce ∧
      ∀ name, (setChunk kv).ce = .hdr name → (setChunk kv).blank = true :=
    fun kv hkv => ⟨readsAs_set kv (hg.settings kv hkv), fun name h => by simp [setChunk, setCE] at h⟩
  rcases hc with ⟨kv, hkv, rfl⟩ | rfl | ⟨kv, hkv, rfl⟩ | ⟨cc, hcc, hc⟩
  · obtain ⟨a, b⟩ := hset kv (by simp [hkv]); exact ⟨a, b⟩
  · exact ⟨readsAs_header _ (by decide), fun _ _ => rfl⟩
  · obtain ⟨a, b⟩ := hset kv (by simp [hkv]); exact ⟨a, b⟩
  · obtain ⟨hsp, hbr, hinc, hexts, hdiff⟩ := hg.contexts cc hcc
    simp only [ctxChunks, List.mem_cons, List.mem_append, List.mem_map, List.mem_flatMap] at hc
    rcases hc with rfl | ⟨i, hi, rfl⟩ | ⟨e, he, hc⟩
    · exact ⟨readsAs_header _ hbr, fun _ _ => rfl⟩
    · exact ⟨reads_include i (hinc i hi), fun _ h => by cases h⟩
    · obtain ⟨_, hlead, ⟨v, hv, _⟩, _⟩ := hexts e he
      have hne : e.pat ≠ [] := by rintro h; rw [h] at hv; simp [Pattern.parse] at hv
      simp only [extChunks, List.mem_cons, List.mem_map] at hc
      rcases hc with rfl | ⟨s, hs, rfl⟩
      · exact ⟨reads_exten e hlead hne, fun _ h => by cases h⟩
      · exact ⟨reads_same s, fun _ h => by cases h⟩

end ALint
