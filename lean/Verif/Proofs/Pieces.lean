import Verif.Spec.Pieces
import Verif.Proofs.Extens

/-!
# Contexts written in pieces (proofs)
-/

namespace ALint.Proofs
open ALint Spec Props

/-! ## A header once more -/

/-- Contexts with the same content; the last priorities are the same if `K`. -/
structure NearCtx (K : Prop) (c d : DCtx) : Prop where
  name : c.name = d.name
  steps : c.steps = d.steps
  includes : c.includes = d.includes
  cache : c.cache = d.cache
  prio : K → c.lastPrio = d.lastPrio

/-- States with the same content; if `full`, the current contexts have the same last priority. -/
structure Near (full : Prop) (s t : DState) : Prop where
  cur : s.cur = t.cur
  sp : s.sp = t.sp
  uses : s.uses = t.uses
  general : s.dp.general = t.dp.general
  globals : s.dp.globals = t.dp.globals
  last : s.dp.lastPrio = t.dp.lastPrio
  labels : s.dp.allLabels = t.dp.allLabels
  dests : s.dp.dests = t.dp.dests
  ctxs : Zips (fun c d => NearCtx (full ∧ s.cur = .ctx c.name) c d) s.dp.contexts t.dp.contexts

theorem zips_weaker {α β : Type} {R S : α → β → Prop} (h : ∀ a b, R a b → S a b) : ∀ {l : List α} {m : List β}, Zips R l m → Zips S l m
  | _, _, .nil => .nil
  | _, _, .cons h1 h2 => .cons (h _ _ h1) (zips_weaker h h2)

theorem zips_swapped {α β : Type} {R : α → β → Prop} {S : β → α → Prop} (h : ∀ a b, R a b → S b a) :
    ∀ {l : List α} {m : List β}, Zips R l m → Zips S m l
  | _, _, .nil => .nil
  | _, _, .cons h1 h2 => .cons (h _ _ h1) (zips_swapped h h2)

theorem near_loose {full : Prop} {s t : DState} (h : Near full s t) : Near False s t :=
  { h with ctxs := zips_weaker (fun _ _ h => { h with prio := fun k => k.1.elim }) h.ctxs }

theorem near_symm {full : Prop} {s t : DState} (h : Near full s t) : Near full t s where
  cur := h.cur.symm
  sp := h.sp.symm
  uses := h.uses.symm
  general := h.general.symm
  globals := h.globals.symm
  last := h.last.symm
  labels := h.labels.symm
  dests := h.dests.symm
  ctxs := zips_swapped (fun c d k => ⟨k.name.symm, k.steps.symm, k.includes.symm, k.cache.symm, fun ⟨a, b⟩ =>
    (k.prio ⟨a, by rw [h.cur, b, k.name]⟩).symm⟩) h.ctxs

theorem near_get {P : DCtx → Prop} {s t : Dialplan} (h : Zips (fun c d => NearCtx (P c) c d) s.contexts t.contexts) (n : Str) :
    (s.get n = none ∧ t.get n = none) ∨ ∃ c d, s.get n = some c ∧ t.get n = some d ∧ NearCtx (P c) c d := by
  unfold Dialplan.get
  generalize s.contexts = l at h
  generalize t.contexts = m at h
  induction h with
  | nil => exact .inl ⟨rfl, rfl⟩
  | @cons c d l m h1 _ ih =>
    rw [List.find?_cons, List.find?_cons, h1.name]
    by_cases hd : d.name = n
    · simp only [hd, decide_true]
      exact .inr ⟨c, d, rfl, rfl, h1⟩
    · simp only [hd, decide_false]
      exact ih

theorem near_put {P Q : DCtx → Prop} {c d : DCtx} (h : NearCtx (Q c) c d) (hPQ : ∀ x, x.name ≠ c.name → Q x → P x) :
    ∀ {l m : List DCtx}, Zips (fun c d => NearCtx (P c) c d) l m → (l.map (·.name)).Nodup →
      (c.name ∈ l.map (·.name)) → Zips (fun c d => NearCtx (Q c) c d) (putCtx c l) (putCtx d m)
  | _, _, .nil, _, _ => .nil
  | _, _, @Zips.cons _ _ _ x y l m h1 h2, hnd, hin => by
    simp only [List.map_cons, List.nodup_cons] at hnd
    rw [putCtx, putCtx]
    by_cases hx : x.name = c.name
    · rw [if_pos hx, if_pos (by rw [← h1.name, hx, h.name])]
      refine .cons h ?_
      have hl : ∀ z ∈ l, z.name ≠ c.name := fun z hz e => hnd.1 (List.mem_map.2 ⟨z, hz, by rw [e, hx]⟩)
      clear hin hnd h1 hx
      induction h2 with
      | nil => exact .nil
      | @cons a b l m k1 _ ih =>
        exact .cons { k1 with prio := fun k => k1.prio (hPQ a (hl a List.mem_cons_self) k) } (ih fun z hz => hl z (List.mem_cons_of_mem _ hz))
    · rw [if_neg hx, if_neg (by rw [← h1.name, ← h.name]; exact hx)]
      refine .cons { h1 with prio := fun k => h1.prio (hPQ x hx k) } (near_put h hPQ h2 hnd.2 ?_)
      rcases List.mem_cons.1 hin with e | e
      · exact absurd e.symm hx
      · exact e

/-- Adding a step does not depend on the place of the header, nor on the last priority if the step has its own. -/
theorem addExt_near (last : Option Nat) (c : DCtx) (w : Where) (l : Option Nat) (q : Option (List Pattern.Values)) (e : ExtLine)
    (h : l = c.lastPrio ∨ e.pat.isSome = true ∧ ∃ n, e.prio = some n ∧ 1 ≤ n) :
    addExt last { c with at_ := w, lastPrio := l, sorted := q } e =
      .bind (addExt last c e) fun a => .pure { a with ctx := { a.ctx with at_ := w } } := by
  unfold addExt
  have hres : resolvePat { c with at_ := w, lastPrio := l, sorted := none } e = resolvePat { c with sorted := none } e := rfl
  dsimp only
  rw [hres]
  cases hp : resolvePat { c with sorted := none } e with
  | none =>
    dsimp only
    rcases h with rfl | ⟨h, -⟩
    · rfl
    · obtain ⟨x, hx⟩ := Option.isSome_iff_exists.1 h
      simp [resolvePat, hx] at hp
  | some rp =>
    dsimp only
    have hprio : resolvePrio last { c with at_ := w, lastPrio := l, sorted := none } rp.1 rp.2 e =
        resolvePrio last { c with sorted := none } rp.1 rp.2 e := by
      rcases h with rfl | ⟨-, n, hn, h1⟩
      · rfl
      · simp only [resolvePrio, hn]
    rw [hprio, Res.bind_assoc]
    have hok : l = c.lastPrio ∨ ∀ r, (resolvePrio last { c with sorted := none } rp.1 rp.2 e).val = .ok r → r ≠ none := by
      rcases h with h | ⟨-, n, hn, h1⟩
      · exact .inl h
      · refine .inr fun r hr => ?_
        have h2 : ¬ n < 1 := by omega
        simp only [resolvePrio, hn, h2, if_false] at hr
        intro e0
        subst e0
        split at hr
        · split at hr
          · cases hr
          · split at hr <;> cases hr
        · cases hr
    cases hr : (resolvePrio last { c with sorted := none } rp.1 rp.2 e).val with
    | error x => rw [Res.bind_of_error hr, Res.bind_of_error hr]
    | ok r =>
      have store : ∀ n, storeStep { c with at_ := w, lastPrio := l, sorted := none } rp.1 rp.2 n e =
          .bind (storeStep { c with sorted := none } rp.1 rp.2 n e) fun a => .pure { a with ctx := { a.ctx with at_ := w } } := by
        intro n
        unfold storeStep
        dsimp only
        have hc : cacheCheck { c with at_ := w, lastPrio := some n, sorted := none } (Pattern.canonical rp.2) n e.label e.at_ =
          cacheCheck { c with lastPrio := some n, sorted := none } (Pattern.canonical rp.2) n e.label e.at_ := rfl
        rw [hc, Res.bind_assoc]
        congr 1
        funext r
        cases r with
        | none => rfl
        | some r =>
          dsimp only
          rw [Res.bind_assoc]
          rfl
      rw [Res.bind_of_ok hr, Res.bind_of_ok hr]
      cases r with
      | none =>
        rcases hok with rfl | hok
        · rfl
        · exact absurd rfl (hok _ hr)
      | some n =>
        dsimp only
        rw [store]

theorem near_eq {K : Prop} {c d : DCtx} (h : NearCtx K c d) : d = { c with at_ := d.at_, lastPrio := d.lastPrio, sorted := d.sorted } := by
  obtain ⟨h1, h2, h3, h4, -⟩ := h
  cases c; cases d
  simp only at h1 h2 h3 h4
  subst h1 h2 h3 h4
  rfl

/-- What an own step is read as. -/
theorem own_read {env : DEnv} {sp : Option Str} {v : VarE} {p : Parts} {raw : Str} {n : Nat} (ht : StepText v p) (he : p.exten = some raw)
    (hp : p.prio = some n) {r : Option Str × List Ev × DVar} (hr : (fromVarset env sp v).val = .ok r) :
    ∃ e, r.2.2 = .ext e ∧ e.pat.isSome = true ∧ e.prio = some n := by
  have hk : v.key = c! "exten" ∨ v.key = c! "same" := by
    obtain ⟨_, hkey, _⟩ := ht
    rw [he] at hkey
    exact .inl hkey
  unfold fromVarset at hr
  rw [if_pos hk, readExten_text env sp ht, he] at hr
  obtain ⟨_, -, hr, -⟩ := Res.bind_ok hr
  obtain ⟨pat, hpat, hr, -⟩ := Res.bind_ok hr
  obtain ⟨x, -, hr, -⟩ := Res.bind_ok hr
  simp only [Res.pure_val, Except.ok.injEq] at hr
  subst hr
  refine ⟨_, rfl, ?_, hp⟩
  simp only [Res.lift_val, readPattern] at hpat
  split at hpat
  · simp only [Except.ok.injEq] at hpat; subst hpat; rfl
  · cases hpat

/-- Something is added to the current context. -/
theorem near_added {full : Prop} {s t : DState} (h : Near full s t) (hnd : (s.dp.contexts.map (·.name)).Nodup) {name : Str} {c d : DCtx}
    (hcur : s.cur = .ctx name) (hs : s.dp.get name = some c) (ht : t.dp.get name = some d)
    (hcd : NearCtx full c d) {r : Option Str × List Ev × DVar} {full' : Prop}
    (hown : (full ∧ full' = full) ∨ (∃ e, r.2.2 = .ext e ∧ e.pat.isSome = true ∧ ∃ n, e.prio = some n ∧ 1 ≤ n) ∨
      (full' = full ∧ ∀ e, r.2.2 ≠ .ext e)) {dp : Dialplan}
    (hv : (onDVar s.dp c r.2.2).val = .ok dp) :
    ∃ dp', (onDVar t.dp d r.2.2).val = .ok dp' ∧ (onDVar s.dp c r.2.2).log = (onDVar t.dp d r.2.2).log ∧
      Near full' ⟨dp, s.cur, r.1, s.uses ++ r.2.1⟩ ⟨dp', t.cur, r.1, t.uses ++ r.2.1⟩ := by
  have hname := (get_mem hs).2
  have hin : c.name ∈ s.dp.contexts.map (·.name) := List.mem_map_of_mem (get_mem hs).1
  have hput : ∀ {c' d' : DCtx}, c'.name = c.name → NearCtx full' c' d' →
      Zips (fun x y => NearCtx (full' ∧ s.cur = .ctx x.name) x y) (putCtx c' s.dp.contexts) (putCtx d' t.dp.contexts) := by
    intro c' d' hn hcd'
    refine near_put (P := fun x => full ∧ s.cur = .ctx x.name) { hcd' with prio := fun k => hcd'.prio k.1 } ?_ h.ctxs hnd (hn ▸ hin)
    intro x hx ⟨_, hk⟩
    rw [hcur] at hk
    cases hk
    exact absurd (hn.trans hname).symm hx
  generalize hrv : r.2.2 = rv at hv hown
  cases rv with
  | nothing =>
    have hf : full' = full := by
      rcases hown with h | ⟨_, h, _⟩ | h
      · exact h.2
      · cases h
      · exact h.1
    subst hf
    simp only [onDVar, Res.pure_val, Except.ok.injEq] at hv
    subst hv
    exact ⟨t.dp, rfl, rfl, { h with uses := by rw [h.uses], sp := rfl }⟩
  | include_ n w =>
    have hf : full' = full := by
      rcases hown with h | ⟨_, h, _⟩ | h
      · exact h.2
      · cases h
      · exact h.1
    subst hf
    simp only [onDVar, Res.pure_val, Except.ok.injEq] at hv
    subst hv
    refine ⟨_, rfl, rfl, { h with uses := by rw [h.uses], sp := rfl, ctxs := ?_ }⟩
    exact hput rfl { hcd with includes := by rw [hcd.includes] }
  | ext e =>
    simp only [onDVar] at hv ⊢
    obtain ⟨_, h1, h2, -⟩ := Res.bind_ok hv
    obtain ⟨a, h3, h4, -⟩ := Res.bind_ok h2
    simp only [Res.pure_val, Except.ok.injEq] at h4
    subst h4
    have hadd := addExt_near s.dp.lastPrio c d.at_ d.lastPrio d.sorted e (by
      rcases hown with k | ⟨e', he, hp⟩ | k
      · exact .inl (hcd.prio k.1).symm
      · cases he
        exact .inr hp
      · exact absurd rfl (k.2 e))
    rw [← near_eq hcd, h.last] at hadd
    rw [h.last] at h3
    have hadd' : (addExt t.dp.lastPrio d e).val = .ok { a with ctx := { a.ctx with at_ := d.at_ } } := by
      rw [hadd, Res.bind_of_ok h3]; rfl
    rw [Res.bind_of_ok h1, Res.bind_of_ok h1, h.last, Res.bind_of_ok h3, Res.bind_of_ok hadd']
    have hlog : (addExt t.dp.lastPrio d e).log = (addExt t.dp.lastPrio c e).log := by
      rw [hadd, Res.bind_of_ok h3]; simp
    have hn : a.ctx.name = c.name := (addCase_frame (addExt_cases h3)).1
    refine ⟨_, rfl, by simp [hlog], ?_⟩
    exact { h with
      uses := by rw [h.uses]
      sp := rfl
      last := rfl
      labels := by simp [Dialplan.withAdded, h.labels]
      dests := by simp [Dialplan.withAdded, h.dests]
      ctxs := hput hn ⟨rfl, rfl, rfl, rfl, fun _ => rfl⟩ }

/-- Outside of dialplan contexts, there is no priority to compare. -/
theorem near_outside {full full' : Prop} {s t : DState} (h : Near full s t) (ho : ∀ n, s.cur ≠ .ctx n) : Near full' s t :=
  { h with ctxs := zips_weaker (fun _ _ k => { k with prio := fun x => absurd x.2 (ho _) }) h.ctxs }

theorem near_var {env : DEnv} {full full' : Prop} {s t : DState} (h : Near full s t) (hnd : (s.dp.contexts.map (·.name)).Nodup) {v : VarE}
    (hown : ∀ r, (fromVarset env s.sp v).val = .ok r → (full ∧ full' = full) ∨
      (∃ e, r.2.2 = .ext e ∧ e.pat.isSome = true ∧ ∃ n, e.prio = some n ∧ 1 ≤ n) ∨ (full' = full ∧ ∀ e, r.2.2 ≠ .ext e))
    {s' : DState} (hs : (dialplanStep env s (.var v)).val = .ok s') :
    ∃ t', (dialplanStep env t (.var v)).val = .ok t' ∧ (dialplanStep env s (.var v)).log = (dialplanStep env t (.var v)).log ∧ Near full' s' t' := by
  simp only [dialplanStep, onVarset] at hs ⊢
  rw [← h.cur, ← h.sp]
  cases hc : s.cur with
  | none =>
    rw [hc] at hs
    dsimp only at hs ⊢
    cases hs
    exact ⟨t, rfl, rfl, near_outside h fun n e => by rw [hc] at e; cases e⟩
  | detached =>
    rw [hc] at hs
    dsimp only at hs ⊢
    cases hs
    exact ⟨t, rfl, rfl, near_outside h fun n e => by rw [hc] at e; cases e⟩
  | general =>
    rw [hc] at hs
    dsimp only at hs ⊢
    cases hs
    exact ⟨_, rfl, rfl, { h with
      general := by simp only [h.general]
      cur := rfl
      sp := rfl
      ctxs := zips_weaker (fun _ _ k => { k with prio := fun x => by cases x.2 }) h.ctxs }⟩
  | globals =>
    rw [hc] at hs
    dsimp only at hs ⊢
    cases hs
    exact ⟨_, rfl, rfl, { h with
      globals := by simp only [h.globals]
      cur := rfl
      sp := rfl
      ctxs := zips_weaker (fun _ _ k => { k with prio := fun x => by cases x.2 }) h.ctxs }⟩
  | ctx name =>
    rw [hc] at hs
    dsimp only at hs ⊢
    rcases near_get h.ctxs name with ⟨g1, g2⟩ | ⟨c, d, g1, g2, hcd⟩
    · rw [g1] at hs
      cases hs
    · rw [g1] at hs
      rw [g1, g2]
      dsimp only at hs ⊢
      obtain ⟨r, h1, h2, -⟩ := Res.bind_ok hs
      obtain ⟨dp, h3, h4, -⟩ := Res.bind_ok h2
      simp only [Res.pure_val, Except.ok.injEq] at h4
      subst h4
      obtain ⟨dp', k1, k2, k3⟩ := near_added h hnd hc g1 g2
        { hcd with prio := fun k => hcd.prio ⟨k, by rw [hc, (get_mem g1).2]⟩ } (hown r h1) h3
      rw [Res.bind_of_ok h1, Res.bind_of_ok h1, Res.bind_of_ok h3, Res.bind_of_ok k1]
      refine ⟨_, rfl, by simp [k2], ?_⟩
      rw [← hc]
      rw [← h.cur] at k3
      exact k3

/-- A header: the last priority of its context is forgotten. -/
theorem near_header {env : DEnv} {full : Prop} {s t : DState} (h : Near full s t) (hnd : (s.dp.contexts.map (·.name)).Nodup) {c : CtxE}
    {s' : DState} (hs : (dialplanStep env s (.ctx c)).val = .ok s') :
    ∃ t', (dialplanStep env t (.ctx c)).val = .ok t' ∧ (dialplanStep env s (.ctx c)).log = (dialplanStep env t (.ctx c)).log ∧ Near True s' t' := by
  have hempty : s.dp.contexts.isEmpty = t.dp.contexts.isEmpty := by
    have := h.ctxs
    generalize s.dp.contexts = l at this
    generalize t.dp.contexts = m at this
    cases this <;> rfl
  have loose : ∀ {cur : Cur}, (∀ n, cur ≠ .ctx n) → Zips (fun c d => NearCtx (True ∧ cur = .ctx c.name) c d) s.dp.contexts t.dp.contexts :=
    fun ho => zips_weaker (fun _ _ k => { k with prio := fun x => absurd x.2 (ho _) }) h.ctxs
  simp only [dialplanStep, onContext] at hs ⊢
  split at hs
  · rename_i hg
    rw [if_pos hg, if_pos hg]
    simp only [addGeneral] at hs ⊢
    rw [← h.general]
    cases hsg : s.dp.general with
    | some g =>
      rw [hsg] at hs
      cases hs
    | none =>
      rw [hsg] at hs
      dsimp only at hs ⊢
      rw [← h.globals, ← hempty]
      obtain ⟨dp, h1, h2, -⟩ := Res.bind_ok hs
      simp only [Res.pure_val, Except.ok.injEq] at h2
      subst h2
      obtain ⟨_, h3, h4, -⟩ := Res.bind_ok h1
      simp only [Res.pure_val, Except.ok.injEq] at h4
      subst h4
      rw [Res.bind_assoc, Res.bind_assoc, Res.bind_of_ok h3, Res.bind_of_ok h3]
      exact ⟨_, rfl, rfl, { h with cur := rfl, general := rfl, globals := rfl, ctxs := loose fun _ e => by cases e }⟩
  · rename_i hg
    rw [if_neg hg, if_neg hg]
    split at hs
    · rename_i hgl
      rw [if_pos hgl, if_pos hgl]
      simp only [addGlobals] at hs ⊢
      rw [← h.globals]
      cases hsg : s.dp.globals with
      | some g =>
        rw [hsg] at hs
        dsimp only at hs ⊢
        simp only [Res.bind_assoc, Res.pure_bind] at hs ⊢
        obtain ⟨_, h1, h2, -⟩ := Res.bind_ok hs
        simp only [Res.pure_val, Except.ok.injEq] at h2
        subst h2
        exact ⟨_, rfl, rfl, { h with cur := rfl, ctxs := loose fun _ e => by cases e }⟩
      | none =>
        rw [hsg] at hs
        dsimp only at hs ⊢
        rw [← h.general, ← hempty]
        simp only [Res.bind_assoc, Res.pure_bind] at hs ⊢
        obtain ⟨_, h3, h4, -⟩ := Res.bind_ok hs
        simp only [Res.pure_val, Except.ok.injEq] at h4
        subst h4
        rw [Res.bind_of_ok h3, Res.bind_of_ok h3]
        exact ⟨_, rfl, rfl, { h with cur := rfl, globals := rfl, general := rfl, ctxs := loose fun _ e => by cases e }⟩
    · rename_i hgl
      rw [if_neg hgl, if_neg hgl]
      obtain ⟨_, h3, h4, -⟩ := Res.bind_ok hs
      obtain ⟨dp, h5, h6, -⟩ := Res.bind_ok h4
      simp only [Res.pure_val, Except.ok.injEq] at h6
      subst h6
      simp only [Res.lift_val, onDialplanContext] at h5
      rw [Res.bind_of_ok h3, Res.bind_of_ok h3]
      simp only [onDialplanContext]
      rcases near_get h.ctxs c.name with ⟨g1, g2⟩ | ⟨d, d', g1, g2, hcd⟩
      · rw [g1] at h5
        rw [g1, g2]
        simp only [Except.ok.injEq] at h5
        subst h5
        refine ⟨_, rfl, rfl, { h with cur := rfl, ctxs := ?_ }⟩
        have hno : ∀ x ∈ s.dp.contexts, x.name ≠ c.name := by
          unfold Dialplan.get at g1
          rw [List.find?_eq_none] at g1
          exact fun x hx e => g1 x hx (by simp [e])
        have := h.ctxs
        show Zips _ (s.dp.contexts ++ _) (t.dp.contexts ++ _)
        generalize s.dp.contexts = l at this hno
        generalize t.dp.contexts = m at this
        induction this with
        | nil => exact .cons ⟨rfl, rfl, rfl, rfl, fun _ => rfl⟩ .nil
        | @cons x y l m k _ ih =>
          refine .cons { k with prio := fun e => ?_ } (ih fun z hz => hno z (List.mem_cons_of_mem _ hz))
          have := e.2
          simp only [Cur.ctx.injEq] at this
          exact absurd this.symm (hno x List.mem_cons_self)
      · rw [g1] at h5
        rw [g1, g2]
        dsimp only at h5 ⊢
        by_cases hcom : c.comment = true
        · simp [updateCtx, hcom] at h5
        · by_cases htem : (!c.templates.isEmpty) = true
          · simp only [updateCtx, hcom, htem, if_true] at h5
            cases h5
          · simp only [updateCtx, hcom, htem] at h5 ⊢
            cases h5
            refine ⟨_, rfl, rfl, { h with cur := rfl, ctxs := ?_ }⟩
            refine near_put (P := fun x => full ∧ s.cur = .ctx x.name) (c := { d with lastPrio := none, sorted := none, at_ := c.at_ })
              (d := { d' with lastPrio := none, sorted := none, at_ := c.at_ }) ⟨hcd.name, hcd.steps, hcd.includes, hcd.cache, fun _ => rfl⟩ ?_ h.ctxs hnd
              (List.mem_map.2 ⟨d, (get_mem g1).1, rfl⟩)
            intro x hx hk
            have := hk.2
            simp only [Cur.ctx.injEq] at this
            exact absurd (this.symm.trans (get_mem g1).2.symm) hx

/-- Any element, if the priorities are the same. -/
theorem near_step {env : DEnv} {s t : DState} (h : Near True s t) (hnd : (s.dp.contexts.map (·.name)).Nodup) {e : Elem}
    {s' : DState} (hs : (dialplanStep env s e).val = .ok s') :
    ∃ t', (dialplanStep env t e).val = .ok t' ∧ (dialplanStep env s e).log = (dialplanStep env t e).log ∧ Near True s' t' := by
  cases e with
  | ctx c => exact near_header h hnd hs
  | var v => exact near_var h hnd (fun _ _ => .inl ⟨trivial, rfl⟩) hs
  | empty b w =>
    simp only [dialplanStep, Res.pure_val, Except.ok.injEq] at hs
    subst hs
    exact ⟨t, rfl, rfl, h⟩

/-- One line. -/
theorem near_line {env : DEnv} {full' : Prop} {x : Told} {xs : List Told} {s t : DState}
    (hstep : ∀ e, x.gives.elem? = some e → ∀ s', (dialplanStep env s e).val = .ok s' →
      ∃ t', (dialplanStep env t e).val = .ok t' ∧ (dialplanStep env s e).log = (dialplanStep env t e).log ∧ Near full' s' t')
    (hnone : x.gives.elem? = none → Near full' s t) (hi : DpInv s) {s' : DState} (hs : (tellAll env s (x :: xs)).val = .ok s') :
    ∃ m m' ms, (tellAll env m xs).val = .ok s' ∧ Near full' m m' ∧ DpInv m ∧
      tellAll env s (x :: xs) = ⟨ms ++ (tellAll env m xs).log, (tellAll env m xs).val⟩ ∧
      tellAll env t (x :: xs) = ⟨ms ++ (tellAll env m' xs).log, (tellAll env m' xs).val⟩ := by
  simp only [tellAll] at hs ⊢
  obtain ⟨_, -, h3, -⟩ := Res.bind_ok hs
  obtain ⟨m, h4, h5, -⟩ := Res.bind_ok h3
  have hm := feed_inv DpInv (fun _ _ _ a b => step_inv a b) _ _ _ hi h4
  rw [Res.bind_of_ok (a := ()) rfl, Res.bind_of_ok (a := ()) rfl, Res.bind_of_ok h4]
  cases hx : x.gives.elem? with
  | none =>
    rw [hx] at h4
    simp only [Option.toList, feed, Res.pure_val, Except.ok.injEq] at h4
    subst h4
    refine ⟨s, t, x.msgs, h5, hnone hx, hm, ?_, ?_⟩ <;> simp [Option.toList, feed]
  | some e =>
    rw [hx] at h4
    simp only [Option.toList, feed] at h4 ⊢
    obtain ⟨m1, h6, h7, -⟩ := Res.bind_ok h4
    simp only [Res.pure_val, Except.ok.injEq] at h7
    subst h7
    obtain ⟨t', k1, k2, k3⟩ := hstep e hx m1 (wrapExc_ok.1 h6)
    refine ⟨m1, t', x.msgs ++ (dialplanStep env s e).log, h5, k3, hm, ?_, ?_⟩
    · rw [Res.bind_of_ok h6]
      simp [wrapExc_log]
    · rw [Res.bind_assoc, Res.bind_of_ok (wrapExc_ok.2 k1), k2]
      simp [wrapExc_log]

theorem near_tell {env : DEnv} : ∀ (told : List Told) {s t : DState}, Near True s t → DpInv s → ∀ {s' : DState},
    (tellAll env s told).val = .ok s' →
    ∃ t', (tellAll env t told).val = .ok t' ∧ (tellAll env s told).log = (tellAll env t told).log ∧ Near True s' t'
  | [], s, t, h, _, s', hs => by
    simp only [tellAll, Res.pure_val, Except.ok.injEq] at hs
    subst hs
    exact ⟨t, rfl, rfl, h⟩
  | x :: xs, s, t, h, hi, s', hs => by
    obtain ⟨m, m', ms, h1, h2, h3, h4, h5⟩ := near_line (fun e _ s' hs' => near_step h hi.names hs') (fun _ => h) hi hs
    obtain ⟨t', k1, k2, k3⟩ := near_tell xs h2 h3 h1
    rw [h4, h5]
    exact ⟨t', k1, by simp only [k2], k3⟩

/-- Lines the first step of which has its own extension and priority. -/
theorem near_body {env : DEnv} : ∀ (told : List Told), OwnLines told → ∀ {s t : DState}, Near False s t → DpInv s → ∀ {s' : DState},
    (tellAll env s told).val = .ok s' →
    ∃ t', (tellAll env t told).val = .ok t' ∧ (tellAll env s told).log = (tellAll env t told).log ∧ Near False s' t'
  | [], _, s, t, h, _, s', hs => by
    simp only [tellAll, Res.pure_val, Except.ok.injEq] at hs
    subst hs
    exact ⟨t, rfl, rfl, h⟩
  | x :: xs, hb, s, t, h, hi, s', hs => by
    have hbody : ∀ y ∈ xs, (∀ c, y.gives ≠ .elem (.ctx c)) ∧ ∀ f, y.gives ≠ .file f := fun y hy => hb.body y (List.mem_cons_of_mem _ hy)
    have hown := hb.own
    have skip : ∀ {s2 t2 : DState} {ms : List Msg}, OwnLines xs → Near False s2 t2 → DpInv s2 → (tellAll env s2 xs).val = .ok s' →
        tellAll env s (x :: xs) = ⟨ms ++ (tellAll env s2 xs).log, (tellAll env s2 xs).val⟩ →
        tellAll env t (x :: xs) = ⟨ms ++ (tellAll env t2 xs).log, (tellAll env t2 xs).val⟩ →
        ∃ t', (tellAll env t (x :: xs)).val = .ok t' ∧ (tellAll env s (x :: xs)).log = (tellAll env t (x :: xs)).log ∧ Near False s' t' := by
      intro s2 t2 ms h0 h2 h3 h1 h4 h5
      obtain ⟨t', k1, k2, k3⟩ := near_body xs h0 h2 h3 h1
      rw [h4, h5]
      exact ⟨t', k1, by simp only [k2], k3⟩
    have quiet : (∀ v, x.gives ≠ .elem (.var v)) → ∃ t', (tellAll env t (x :: xs)).val = .ok t' ∧
        (tellAll env s (x :: xs)).log = (tellAll env t (x :: xs)).log ∧ Near False s' t' := by
      intro hv
      have hvs : varsOf (elemsOf (x :: xs)) = varsOf (elemsOf xs) := by
        cases hg : x.gives with
        | file f => exact absurd hg ((hb.body x List.mem_cons_self).2 f)
        | nothing => simp [elemsOf, hg, Gives.elem?]
        | elem e =>
          cases e with
          | ctx c => exact absurd hg ((hb.body x List.mem_cons_self).1 c)
          | var v => exact absurd hg (hv v)
          | empty b w => simp [elemsOf, hg, Gives.elem?, varsOf]
      obtain ⟨m, m', ms, h1, h2, h3, h4, h5⟩ := near_line (env := env) (full' := False) (x := x) (t := t) (fun e he s1 hs1 => by
        cases e with
        | ctx c => 
          cases hg : x.gives with
          | file f => rw [hg] at he; cases he
          | nothing => rw [hg] at he; cases he
          | elem e' =>
            rw [hg] at he
            simp only [Gives.elem?, Option.some.injEq] at he
            subst he
            exact absurd hg ((hb.body x List.mem_cons_self).1 c)
        | var v =>
          cases hg : x.gives with
          | file f => rw [hg] at he; cases he
          | nothing => rw [hg] at he; cases he
          | elem e' =>
            rw [hg] at he
            simp only [Gives.elem?, Option.some.injEq] at he
            subst he
            exact absurd hg (hv v)
        | empty b w =>
          simp only [dialplanStep, Res.pure_val, Except.ok.injEq] at hs1
          subst hs1
          exact ⟨t, rfl, rfl, h⟩) (fun _ => h) hi hs
      exact skip ⟨hbody, hvs ▸ hown⟩ h2 h3 h1 h4 h5
    cases hg : x.gives with
    | file f => exact absurd hg ((hb.body x List.mem_cons_self).2 f)
    | nothing => exact quiet fun v e => by rw [hg] at e; cases e
    | elem e =>
      cases e with
      | ctx c => exact absurd hg ((hb.body x List.mem_cons_self).1 c)
      | empty b w => exact quiet fun v e => by rw [hg] at e; cases e
      | var v =>
        have hvs : varsOf (elemsOf (x :: xs)) = v :: varsOf (elemsOf xs) := by simp [elemsOf, hg, Gives.elem?, varsOf]
        rw [hvs] at hown
        have he0 : ∀ e, x.gives.elem? = some e → e = .var v := by
          intro e he
          rw [hg] at he
          simp only [Gives.elem?, Option.some.injEq] at he
          exact he.symm
        have hn0 : x.gives.elem? ≠ none := by rw [hg]; simp [Gives.elem?]
        cases hown with
        | other k1 k2 hv =>
          obtain ⟨m, m', ms, h1, h2, h3, h4, h5⟩ := near_line (env := env) (full' := False) (x := x) (t := t) (fun e he s1 hs1 => by
            have := he0 e he
            subst this
            refine near_var h hi.names (fun r hr => .inr (.inr ⟨rfl, fun e he => ?_⟩)) hs1
            have hcase := fromVarset_cases hr
            generalize (fromVarset env s.sp v).log = lg at hcase
            cases hcase with
            | line _ ms hk _ => exact absurd hk (by simp [k1, k2])
            | incl _ => cases he
            | other ms _ _ => cases he) (fun e => absurd e hn0) hi hs
          exact skip ⟨hbody, hv⟩ h2 h3 h1 h4 h5
        | @step _ _ p raw n ht he hp hn1 =>
          obtain ⟨m, m', ms, h1, h2, h3, h4, h5⟩ := near_line (env := env) (full' := True) (x := x) (t := t) (fun e' he' s1 hs1 => by
            have := he0 e' he'
            subst this
            refine near_var h hi.names (fun r hr => .inr (.inl ?_)) hs1
            obtain ⟨e, a, b, c⟩ := own_read ht he hp hr
            exact ⟨e, a, b, n, c, hn1⟩) (fun e => absurd e hn0) hi hs
          obtain ⟨t', j1, j2, j3⟩ := near_tell xs h2 h3 h1
          rw [h4, h5]
          exact ⟨t', j1, by simp only [j2], near_loose j3⟩

theorem tellAll_dpInv {env : DEnv} : ∀ (told : List Told) {s s' : DState}, DpInv s → (tellAll env s told).val = .ok s' → DpInv s'
  | [], s, s', h1, h => by
    simp only [tellAll, Res.pure_val, Except.ok.injEq] at h
    exact h ▸ h1
  | x :: xs, s, s', h1, h => by
    simp only [tellAll] at h
    obtain ⟨_, -, h3, -⟩ := Res.bind_ok h
    obtain ⟨m, h4, h5, -⟩ := Res.bind_ok h3
    exact tellAll_dpInv xs (feed_inv DpInv (fun _ _ _ a b => step_inv a b) _ _ _ h1 h4) h5

/-- Lines of such a kind, and then nothing or a header and anything. -/
theorem near_rest {env : DEnv} {body post : List Told} (hb : OwnLines body) (hp : HeadedLines post) {s t : DState} (h : Near False s t)
    (hi : DpInv s) {s' : DState} (hs : (tellAll env s (body ++ post)).val = .ok s') :
    ∃ t', (tellAll env t (body ++ post)).val = .ok t' ∧ (tellAll env s (body ++ post)).log = (tellAll env t (body ++ post)).log ∧ Near False s' t' := by
  rw [tellAll_append] at hs
  obtain ⟨m, h1, h2, -⟩ := Res.bind_ok hs
  obtain ⟨m', k1, k2, k3⟩ := near_body body hb h hi h1
  rw [tellAll_two h1, tellAll_two k1, k2]
  cases post with
  | nil =>
    simp only [tellAll, Res.pure_val, Except.ok.injEq] at h2
    subst h2
    exact ⟨m', rfl, rfl, k3⟩
  | cons x xs =>
    obtain ⟨c, hc⟩ := hp x rfl
    have him : DpInv m := tellAll_dpInv body hi h1
    obtain ⟨u, u', ms, j1, j2, j3, j4, j5⟩ := near_line (env := env) (full' := True) (x := x) (t := m') (fun e he s1 hs1 => by
      rw [hc] at he
      simp only [Gives.elem?, Option.some.injEq] at he
      subst he
      exact near_header k3 him.names hs1) (fun e => by rw [hc] at e; cases e) him h2
    obtain ⟨t', l1, l2, l3⟩ := near_tell xs j2 j3 j1
    rw [j4, j5]
    exact ⟨t', l1, by simp only [l2], near_loose l3⟩

/-- The header of the current context once more. -/
theorem near_again {env : DEnv} {a : Str} {s : DState} (hi : DpInv s) (hcur : s.cur = .ctx a) {d : DCtx} (hd : s.dp.get a = some d)
    {c : CtxE} (hn : c.name = a) (hg : a ≠ c! "general" ∧ a ≠ c! "globals") (hc : c.comment = false) (ht : c.templates = []) :
    ∃ t, dialplanStep env s (.ctx c) = .pure t ∧ Near False s t := by
  have h1 : ¬ c.name = c! "general" := by rw [hn]; exact hg.1
  have h2 : ¬ c.name = c! "globals" := by rw [hn]; exact hg.2
  have hup : updateCtx d c = .ok { d with lastPrio := none, sorted := none, at_ := c.at_ } := by simp [updateCtx, hc, ht]
  have hstep : dialplanStep env s (.ctx c) =
      .pure { s with dp := { s.dp with contexts := putCtx { d with lastPrio := none, sorted := none, at_ := c.at_ } s.dp.contexts }, cur := .ctx c.name } := by
    subst hn
    simp only [dialplanStep, onContext, h1, h2, if_false, ht, List.isEmpty_nil, if_true, onDialplanContext, hd, hup]
    rfl
  refine ⟨_, hstep, ⟨by rw [hcur, hn], rfl, rfl, rfl, rfl, rfl, rfl, rfl, ?_⟩⟩
  have self : Zips (fun x y => NearCtx (False ∧ s.cur = .ctx x.name) x y) (putCtx d s.dp.contexts)
      (putCtx { d with lastPrio := none, sorted := none, at_ := c.at_ } s.dp.contexts) := by
    refine near_put (P := fun x => False ∧ s.cur = .ctx x.name) (c := d) (d := { d with lastPrio := none, sorted := none, at_ := c.at_ }) ⟨rfl, rfl, rfl, rfl, fun k => k.1.elim⟩ (fun _ _ k => k) ?_ hi.names
      (List.mem_map_of_mem (get_mem hd).1)
    generalize s.dp.contexts = l
    induction l with
    | nil => exact .nil
    | cons x l ih => exact .cons ⟨rfl, rfl, rfl, rfl, fun k => k.1.elim⟩ ih
  have hput : ∀ l : List DCtx, (l.map (·.name)).Nodup → d ∈ l → putCtx d l = l := by
    intro l hnd hin
    induction l with
    | nil => cases hin
    | cons x l ih =>
      simp only [List.map_cons, List.nodup_cons] at hnd
      rw [putCtx]
      rcases List.mem_cons.1 hin with rfl | hin
      · rw [if_pos rfl]
      · rw [if_neg (fun e => hnd.1 (List.mem_map.2 ⟨d, hin, e.symm⟩)), ih hnd.2 hin]
  rw [hput _ hi.names (get_mem hd).1] at self
  exact self

theorem near_like {s t : DState} (h : Near False s t) : DpLike s.dp t.dp where
  general := h.general
  globals := h.globals
  ctxs := zips_weaker (fun _ _ k => ⟨k.name, k.includes, by rw [k.steps], fun _ => by rw [k.steps], by rw [k.cache]⟩) h.ctxs
  labels := by rw [h.labels]
  dests := by rw [h.dests]

/-- The end of the check. -/
theorem wholeTell_near {env : DEnv} {sp : Option Str} {a b : List Told} {s t : DState} (h1 : (tellAll env (.init sp) a).val = .ok s)
    (h2 : (tellAll env (.init sp) b).val = .ok t) (hl : (tellAll env (.init sp) a).log = (tellAll env (.init sp) b).log)
    (h : Near False s t) {s' : DState} (hw : (wholeTell env sp a).val = .ok s') :
    (wholeTell env sp b).val = .ok t ∧ (wholeTell env sp a).log.map (reM textOnly) = (wholeTell env sp b).log.map (reM textOnly) := by
  have hlike := near_like h
  obtain ⟨c1, c2, c3⟩ := like_complete hlike
  unfold wholeTell at hw ⊢
  rw [Res.bind_of_ok h1, Res.bind_of_ok c1] at hw
  obtain ⟨_, w1, -, -⟩ := Res.bind_ok hw
  have hwalk : ∀ l, walkDests s.dp env.depth l = walkDests t.dp env.depth l := by
    intro l
    induction l with
    | nil => rfl
    | cons d l ih => simp only [walkDests, ih, like_walk hlike]
  have w2 := w1
  rw [hwalk, h.dests] at w2
  rw [Res.bind_of_ok h1, Res.bind_of_ok c1, Res.bind_of_ok w1, Res.bind_of_ok h2, Res.bind_of_ok c2, Res.bind_of_ok w2]
  refine ⟨rfl, ?_⟩
  simp only [List.map_append, c3, hl, hwalk, h.dests]
  rfl

/-! ## Lines of a file -/

theorem gives_plain (φ : Where → Where) (x : Told) : ((∀ c, (reTold φ x).gives ≠ .elem (.ctx c)) ∧ ∀ f, (reTold φ x).gives ≠ .file f) ↔
    (∀ c, x.gives ≠ .elem (.ctx c)) ∧ ∀ f, x.gives ≠ .file f := by
  obtain ⟨w, ms, g⟩ := x
  cases g with
  | file p => simp [reTold, reG]
  | nothing => simp [reTold, reG]
  | elem e => cases e <;> simp [reTold, reG, reE]

theorem ownLines_placeless : Placeless OwnLines where
  re := by
    intro l
    constructor
    · intro h
      refine ⟨fun x hx => (gives_plain textOnly x).1 (h.body _ (List.mem_map.2 ⟨x, hx, rfl⟩)), ?_⟩
      have := h.own
      rw [varsOf_re] at this
      exact own_reV this
    · intro h
      refine ⟨fun x hx => ?_, by rw [varsOf_re]; exact reV_own h.own⟩
      obtain ⟨y, hy, rfl⟩ := List.mem_map.1 hx
      exact (gives_plain textOnly y).2 (h.body y hy)
  shut := fun _ h x hx => (h.body x hx).2

theorem headerLine_placeless (a : Str) : Placeless (HeaderLine a) where
  re := by
    intro l
    constructor
    · rintro ⟨w, c, h1, h2, h3, h4⟩
      cases l with
      | nil => cases h1
      | cons x l =>
        cases l with
        | cons y l => simp at h1
        | nil =>
          obtain ⟨w', ms, g⟩ := x
          simp only [List.map_cons, List.map_nil, reTold, List.cons.injEq, Told.mk.injEq, and_true, List.map_eq_nil_iff] at h1
          obtain ⟨-, rfl, h1⟩ := h1
          cases g with
          | file p => cases h1
          | nothing => cases h1
          | elem e =>
            cases e with
            | ctx d =>
              simp only [reG, reE, Gives.elem.injEq, Elem.ctx.injEq] at h1
              subst h1
              exact ⟨w', d, rfl, h2, h3, h4⟩
            | var v => cases h1
            | empty b w => cases h1
    · rintro ⟨w, c, rfl, h2, h3, h4⟩
      exact ⟨textOnly w, reC textOnly c, rfl, h2, h3, h4⟩
  shut := by
    rintro l ⟨w, c, rfl, -⟩ x hx f
    simp only [List.mem_cons, List.not_mem_nil, or_false] at hx
    subst hx
    intro h
    cases h

theorem nil_placeless : Placeless (· = []) where
  re := by intro l; simp
  shut := by rintro _ rfl x hx; cases hx

theorem headed_lines {fs : FS} {path : Str} {rest : Bytes} (h : HeadedText fs path rest) {n : Nat} {t : Items} (ht : Expand fs opens path n (physLines rest) t)
    {r : List Told} (h1 : r.map (·.line) = t.flatten) (h2 : ∀ x ∈ r, lineModel fs x.line = some (x.msgs, x.gives)) : HeadedLines r := by
  intro x hx
  unfold HeadedText at h
  generalize physLines rest = ls at ht h
  obtain ⟨l, hl, hw⟩ : ∃ l, ls.head? = some l ∧ x.line = ⟨path, (n : Int) + 1, l⟩ := by
    cases r with
    | nil => cases hx
    | cons y r =>
      simp only [List.head?_cons, Option.mem_def, Option.some.injEq] at hx
      subst hx
      cases ht with
      | nil => cases h1
      | line hp _ =>
        simp only [List.map_cons, Items.flatten, List.cons.injEq] at h1
        exact ⟨_, rfl, h1.1⟩
      | incl hp _ _ =>
        simp only [List.map_cons, Items.flatten, List.cons.injEq] at h1
        exact ⟨_, rfl, h1.1⟩
  obtain ⟨k, ms, c, hc⟩ := h l hl
  obtain ⟨told', e1, e2, e3⟩ := tolds_elsewhere (fs := fs) textOnly_of (told := [⟨⟨path, k, l⟩, ms, .elem (.ctx c)⟩]) (ws := [x.line])
    (by
      intro y hy
      simp only [List.mem_cons, List.not_mem_nil, or_false] at hy
      subst hy
      exact lineTells_model hc)
    (.cons ⟨by rw [hw], fun _ => by rw [hw]⟩ .nil)
  cases told' with
  | nil => cases e3
  | cons y told' =>
    simp only [List.map_cons, List.cons.injEq] at e1 e3
    have hy := e2 y List.mem_cons_self
    have hxm := h2 x (List.mem_of_mem_head? hx)
    rw [e1.1, hxm] at hy
    simp only [Option.some.injEq, Prod.mk.injEq] at hy
    obtain ⟨w', ms', g'⟩ := y
    have hg := congrArg Told.gives e3.1
    simp only [reTold] at hg
    simp only at hy
    rw [← hy.2] at hg
    cases hgx : x.gives with
    | file p => rw [hgx] at hg; cases hg
    | nothing => rw [hgx] at hg; cases hg
    | elem e =>
      cases e with
      | ctx d => exact ⟨d, rfl⟩
      | var v => rw [hgx] at hg; cases hg
      | empty b w => rw [hgx] at hg; cases hg

/-- Some lines in place of others, within a section. -/
theorem part_replaced {Px Py : List Told → Prop} (hPx : Placeless Px) (hPy : Placeless Py) {fs fs' : FS} {env : DEnv} {sp : Option Str} {n : Nat}
    {path : Str} {a : Str} {above sec X Y body rest : Bytes} (hw : WholeLines above) (hS : TextIs fs path sec (SectionShape a))
    (hX : TextIs fs path X Px) (hY : TextIs fs' path Y Py) (hB : TextIs fs path body OwnLines) (hR : HeadedText fs path rest)
    (hb : fs path = some (above ++ (sec ++ (X ++ (body ++ rest))))) (ho : ∀ q, q ≠ path → fs' q = fs q)
    {log : List Msg} {st : DState} (h : checkDialplan fs env sp n path (above ++ (sec ++ (X ++ (body ++ rest)))) = ⟨log, .ok (some st)⟩)
    {Q : DState → Prop}
    (core : ∀ (ta s x y b r : List Told), SectionShape a s → Px x → Py y → OwnLines b → HeadedLines r →
      (wholeTell env sp ((ta ++ s) ++ (x ++ (b ++ r)))).val = .ok st →
      ∃ t, (wholeTell env sp ((ta ++ s) ++ (y ++ (b ++ r)))).val = .ok t ∧ Q t ∧
        (wholeTell env sp ((ta ++ s) ++ (x ++ (b ++ r)))).log.map (reM textOnly) =
          (wholeTell env sp ((ta ++ s) ++ (y ++ (b ++ r)))).log.map (reM textOnly)) :
    ∃ k log' st' t, (∀ n', k ≤ n' → checkDialplan fs' env sp n' path (above ++ (sec ++ (Y ++ (body ++ rest)))) = ⟨log', .ok (some st')⟩) ∧
      Zips SameWords (substance log) (substance log') ∧ Q t ∧ reSt textOnly st' = reSt textOnly t := by
  obtain ⟨t, told, hread, hv, hs⟩ := check_tells h
  obtain ⟨-, hagree, hmod⟩ := replaced_agree hb ho hread
  have hexp := hread.expand
  rw [physLines_more _ above hw, physLines_more _ sec hS.1, physLines_more _ X hX.1, physLines_more _ body hB.1] at hexp
  obtain ⟨tA, t1, hA, h1, f1⟩ := expand_parts _ _ hexp
  obtain ⟨tS, t2, hS1, h2, f2⟩ := expand_parts _ _ h1
  obtain ⟨tX, t3, hX1, h3, f3⟩ := expand_parts _ _ h2
  obtain ⟨tB, tR, hB1, hR1, f4⟩ := expand_parts _ _ h3
  have hlines := hread.lines
  rw [f1, f2, f3, f4] at hlines
  obtain ⟨ta, m1, rfl, ea, hlines⟩ := told_split hlines
  obtain ⟨s, m2, rfl, es, hlines⟩ := told_split hlines
  obtain ⟨x, m3, rfl, ex, hlines⟩ := told_split hlines
  obtain ⟨b, r, rfl, eb, er⟩ := told_split hlines
  obtain ⟨s', gs1, gs2, -⟩ := text_laid fs' (sectionShape_placeless a) hS (0 + (physLines above).length)
  obtain ⟨tS', is1, is2⟩ := laid_expand (fs'' := fs) gs1
  have := expand_same hS1 is1
  subst this
  have := told_eq (fs := fs) (a := s) (b := s') (by rw [es, is2]) (fun y hy => hread.models y (by simp [hy])) gs1.here
  subst this
  obtain ⟨x', gx1, gx2, -⟩ := text_laid fs' hPx hX (0 + (physLines above).length + (physLines sec).length)
  obtain ⟨tX', ix1, ix2⟩ := laid_expand (fs'' := fs) gx1
  have := expand_same hX1 ix1
  subst this
  have := told_eq (fs := fs) (a := x) (b := x') (by rw [ex, ix2]) (fun y hy => hread.models y (by simp [hy])) gx1.here
  subst this
  obtain ⟨b', gb1, gb2, gb3⟩ := text_laid fs' ownLines_placeless hB (0 + (physLines above).length + (physLines sec).length + (physLines X).length)
  obtain ⟨tB', ib1, ib2⟩ := laid_expand (fs'' := fs) gb1
  have := expand_same hB1 ib1
  subst this
  have := told_eq (fs := fs) (a := b) (b := b') (by rw [eb, ib2]) (fun y hy => hread.models y (by simp [hy])) gb1.here
  subst this
  have hr := headed_lines hR hR1 er fun y hy => hread.models y (by simp [hy])
  -- the new file
  obtain ⟨y, gy1, gy2, -⟩ := text_laid fs' hPy hY (0 + (physLines above).length + (physLines sec).length)
  obtain ⟨tY, iy1, w3⟩ := laid_expand (fs'' := fs') gy1
  obtain ⟨bn, hn1, hn2, hn3⟩ := text_laid fs' ownLines_placeless hB (0 + (physLines above).length + (physLines sec).length + (physLines Y).length)
  obtain ⟨tBn, jb1, jb2⟩ := laid_expand (fs'' := fs') hn1
  have hR2 := expand_agree hR1 fun w hw => hagree w (by rw [f1, f2, f3, f4]; simp [hw])
  obtain ⟨tRn, jr1, jr2⟩ := expand_elsewhere (f' := path) (fun _ => rfl)
    (0 + (physLines above).length + (physLines sec).length + (physLines Y).length + (physLines body).length) hR2
  obtain ⟨rn, kr1, kr2, kr3⟩ := tolds_elsewhere (fs := fs') textOnly_of (told := r) (fun y hy => hmod y (by simp [hy])) (by rw [er]; exact jr2)
  obtain ⟨tS2, ls1, ls2⟩ := laid_expand (fs'' := fs') gs1
  have hA' := expand_agree hA fun w hw => hagree w (by rw [f1]; simp [hw])
  obtain ⟨u1, v1, v2⟩ := expand_join jb1 jr1
  obtain ⟨u2, v3, v4⟩ := expand_join iy1 v1
  obtain ⟨u3, v5, v6⟩ := expand_join ls1 v3
  obtain ⟨u4, v7, v8⟩ := expand_join hA' v5
  rw [← physLines_more _ body hB.1, ← physLines_more _ Y hY.1, ← physLines_more _ sec hS.1, ← physLines_more _ above hw] at v7
  have hread' : ReadTold fs' path (above ++ (sec ++ (Y ++ (body ++ rest)))) u4 (ta ++ (s ++ (y ++ (bn ++ rn)))) := by
    refine ⟨v7, ?_, fun z hz => ?_⟩
    · rw [v8, v6, v4, v2]
      simp only [List.map_append, ea, kr1, jb2, w3, ls2]
    · simp only [List.mem_append] at hz
      rcases hz with hz | hz | hz | hz | hz
      · exact hmod z (by simp [hz])
      · exact gs1.there z hz
      · exact gy1.there z hz
      · exact hn1.there z hz
      · exact kr2 z hz
  rw [← List.append_assoc] at hv
  obtain ⟨t', c1, c2, c3⟩ := core ta s x y b r gs2 gx2 gy2 gb2 hr hv
  have hre : (ta ++ (s ++ (y ++ (bn ++ rn)))).map (reTold textOnly) = ((ta ++ s) ++ (y ++ (b ++ r))).map (reTold textOnly) := by
    simp only [List.map_append, kr3, hn3, gb3, List.append_assoc]
  obtain ⟨st', d1, d2, d3⟩ := wholeTell_re hre c1
  obtain ⟨log', l1, l2⟩ := check_of_tells hread' d1
  refine ⟨_, log', st', t', l2, ?_, c2, d2⟩
  refine zips_words ?_
  rw [hs, l1, ← d3, ← substance_map, ← substance_map, ← List.append_assoc, c3]

/-! ## The header of the current context once more -/

theorem near_text {s t : DState} (h : Near False s t) : dialplanText t.dp = dialplanText s.dp := by
  unfold dialplanText
  have := h.ctxs
  revert this
  generalize s.dp.contexts = l
  generalize t.dp.contexts = m
  intro hz
  induction hz with
  | nil => rfl
  | cons h1 _ ih => rw [List.map_cons, List.map_cons, ih, h1.name, h1.includes, h1.steps]

theorem tell_again {env : DEnv} {a : Str} {ta s : List Told} (hs : SectionShape a s) {y : List Told} (hy : HeaderLine a y) {sp : Option Str} {s0 : DState}
    (h0 : (tellAll env (.init sp) (ta ++ s)).val = .ok s0) :
    ∃ t0, Near False s0 t0 ∧ ∀ l, tellAll env s0 (y ++ l) = tellAll env t0 l := by
  have hi := tellAll_dpInv _ (DpInv.init sp) h0
  rw [tellAll_append] at h0
  obtain ⟨m, -, h2, -⟩ := Res.bind_ok h0
  have hcur := section_cur hs h2
  obtain ⟨d, hd⟩ := hi.cur a hcur
  obtain ⟨w, c, rfl, hn, hc, ht⟩ := hy
  obtain ⟨t0, k1, k2⟩ := near_again (env := env) hi hcur hd hn hs.named hc ht
  refine ⟨t0, k2, fun l => ?_⟩
  simp only [List.cons_append, List.nil_append, tellAll, Gives.elem?, Option.toList, feed, k1]
  rfl

theorem header_added {fs fs' : FS} {env : DEnv} {sp : Option Str} {n : Nat} {path a : Str} {above sec header body rest : Bytes}
    (hr : Reopened fs fs' path a above sec header body rest) {log : List Msg} {st : DState}
    (h : checkDialplan fs env sp n path (above ++ (sec ++ (body ++ rest))) = ⟨log, .ok (some st)⟩) :
    ∃ k log' st', (∀ n', k ≤ n' → checkDialplan fs' env sp n' path (above ++ (sec ++ (header ++ (body ++ rest)))) = ⟨log', .ok (some st')⟩) ∧
      Zips SameWords (substance log) (substance log') ∧ dialplanText st'.dp = dialplanText st.dp := by
  have hnil : TextIs fs path [] (· = []) := ⟨fun h => absurd rfl h, 0, [], rfl, by simp, rfl⟩
  obtain ⟨k, log', st', t, h1, h2, h3, h4⟩ := part_replaced (X := []) (Y := header) nil_placeless (headerLine_placeless a) hr.whole hr.sec hnil hr.header
    hr.body hr.rest hr.before hr.others h (Q := fun t => Near False st t) (by
      rintro ta s _ y b r hs rfl hy hb hr hv
      have hend := wholeTell_end hv
      rw [tellAll_append] at hend
      obtain ⟨s0, k1, k2, -⟩ := Res.bind_ok hend
      obtain ⟨t0, k3, k4⟩ := tell_again hs hy k1
      obtain ⟨t, j1, j2, j3⟩ := near_rest hb hr k3 (tellAll_dpInv _ (DpInv.init sp) k1) k2
      have e1 := wholeTell_end hv
      have e2 : (tellAll env (.init sp) ((ta ++ s) ++ (y ++ (b ++ r)))).val = .ok t := by rw [tellAll_two k1, k4]; exact j1
      obtain ⟨c1, c2⟩ := wholeTell_near e1 e2 (by rw [tellAll_two k1, tellAll_two k1, k4]; simp only [List.nil_append, j2]) j3 hv
      exact ⟨t, c1, j3, c2⟩)
  refine ⟨k, log', st', h1, h2, ?_⟩
  have : reDp textOnly st'.dp = reDp textOnly t.dp := congrArg DState.dp h4
  rw [← dialplanText_re textOnly st'.dp, this, dialplanText_re, near_text h3]

theorem textIs_elsewhere {fs fs' : FS} {path : Str} {b : Bytes} {P : List Told → Prop} (hP : Placeless P) (h : TextIs fs path b P) :
    TextIs fs' path b P := by
  obtain ⟨told, h1, h2, -⟩ := text_laid fs' hP h 0
  exact ⟨h.1, 0, told, h1.lines, fun x hx => lineTells_exists (h1.there x hx), h2⟩

theorem header_taken {fs fs' : FS} {env : DEnv} {sp : Option Str} {n : Nat} {path a : Str} {above sec header body rest : Bytes}
    (hr : Reopened fs fs' path a above sec header body rest) {log : List Msg} {st : DState}
    (h : checkDialplan fs' env sp n path (above ++ (sec ++ (header ++ (body ++ rest)))) = ⟨log, .ok (some st)⟩) :
    ∃ k log' st', (∀ n', k ≤ n' → checkDialplan fs env sp n' path (above ++ (sec ++ (body ++ rest))) = ⟨log', .ok (some st')⟩) ∧
      Zips SameWords (substance log) (substance log') ∧ dialplanText st'.dp = dialplanText st.dp := by
  have hnil : TextIs fs path [] (· = []) := ⟨fun h => absurd rfl h, 0, [], rfl, by simp, rfl⟩
  have hrest : HeadedText fs' path rest := by
    intro l hl
    obtain ⟨k, ms, c, hc⟩ := hr.rest l hl
    refine ⟨k, ms, c, lineTells_exists (r := (ms, .elem (.ctx c))) ?_⟩
    rw [lineModel_asks (fs := fs) fun ms' q hq => ?_]
    · exact lineTells_model hc
    · rw [lineTells_model hc] at hq
      cases hq
  obtain ⟨k, log', st', t, h1, h2, h3, h4⟩ := part_replaced (Y := []) (X := header) (headerLine_placeless a) nil_placeless hr.whole
    (textIs_elsewhere (sectionShape_placeless a) hr.sec) hr.header hnil
    (textIs_elsewhere ownLines_placeless hr.body) hrest hr.after (fun q hq => (hr.others q hq).symm) h (Q := fun t => Near False st t) (by
      rintro ta s y _ b r hs hy rfl hb hr hv
      have hend := wholeTell_end hv
      rw [tellAll_append] at hend
      obtain ⟨s0, k1, k2, -⟩ := Res.bind_ok hend
      obtain ⟨t0, k3, k4⟩ := tell_again hs hy k1
      rw [k4] at k2
      have hi0 : DpInv t0 := by
        have := k4 []
        rw [List.append_nil] at this
        exact tellAll_dpInv y (tellAll_dpInv _ (DpInv.init sp) k1) (by rw [this]; rfl)
      obtain ⟨t, j1, j2, j3⟩ := near_rest hb hr (near_symm k3) hi0 k2
      have e1 := wholeTell_end hv
      have e2 : (tellAll env (.init sp) ((ta ++ s) ++ ([] ++ (b ++ r)))).val = .ok t := by rw [tellAll_two k1]; exact j1
      obtain ⟨c1, c2⟩ := wholeTell_near e1 e2 (by rw [tellAll_two k1, tellAll_two k1, k4]; simp only [List.nil_append, j2]) j3 hv
      exact ⟨t, c1, j3, c2⟩)
  refine ⟨k, log', st', h1, h2, ?_⟩
  have : reDp textOnly st'.dp = reDp textOnly t.dp := congrArg DState.dp h4
  rw [← dialplanText_re textOnly st'.dp, this, dialplanText_re, near_text h3]

end ALint.Proofs
