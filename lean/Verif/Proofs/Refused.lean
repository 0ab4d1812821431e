import Verif.Spec.Refused
import Verif.Proofs.Disregarded

/-!
# Steps that are refused (proofs)
-/

namespace ALint.Proofs
open ALint Spec Props

theorem assignmentLines_placeless : Placeless AssignmentLines := by
  have := kinds_placeless (K := fun _ => True) fun _ => Iff.rfl
  simp only [and_true] at this
  exact this

/-! ## Messages -/

theorem addExt_place {last : Option Nat} {c : DCtx} {e : ExtLine} : LogAll (fun m => m.at_ = e.at_) (addExt last c e) := by
  have one : ∀ {m : Msg}, m.at_ = e.at_ → LogAll (fun m => m.at_ = e.at_) (Res.emit m) := fun h => LogAll.emit h
  unfold addExt
  dsimp only
  split
  · exact .bind (one rfl) fun _ => .pure _
  · refine .bind ?_ fun r => ?_
    · unfold resolvePrio
      split
      · split
        · exact .bind (one rfl) fun _ => .pure _
        · exact .bind (.lift _) fun _ => .bind (.ite (one rfl) (.pure _)) fun _ => .pure _
      · split
        · exact .bind (one rfl) fun _ => .pure _
        · refine .ite ?_ (.pure _)
          split
          · exact .bind (one rfl) fun _ => .pure _
          · exact .ite (.bind (one rfl) fun _ => .pure _) (.pure _)
    · cases r with
      | none => exact .pure _
      | some prio =>
        unfold storeStep
        dsimp only
        refine .bind ?_ fun r => ?_
        · unfold cacheCheck
          split
          · split <;> exact .pure _
          · split
            · exact .bind (one rfl) fun _ => .pure _
            · dsimp only
              split
              · exact .pure _
              · split
                · exact .bind (one rfl) fun _ => .pure _
                · exact .pure _
        · cases r with
          | none => exact .pure _
          | some r => exact .bind (.lift _) fun _ => .pure _

/-- The messages of an assignment are about its line. -/
theorem var_place {env : DEnv} {s s' : DState} {v : VarE} (h : (dialplanStep env s (.var v)).val = .ok s') :
    ∀ m ∈ (dialplanStep env s (.var v)).log, m.at_ = v.at_ := by
  simp only [dialplanStep, onVarset] at h ⊢
  cases hc : s.cur with
  | none => exact fun m hm => by rw [List.mem_singleton.1 hm]; rfl
  | general => exact fun m hm => by cases hm
  | globals => exact fun m hm => by cases hm
  | detached => exact fun m hm => by cases hm
  | ctx name =>
    rw [hc] at h
    dsimp only at h ⊢
    cases hg : s.dp.get name with
    | none => exact fun m hm => by cases hm
    | some c =>
      rw [hg] at h
      dsimp only at h ⊢
      obtain ⟨r, h1, h2, -⟩ := Res.bind_ok h
      obtain ⟨dp, h3, -, -⟩ := Res.bind_ok h2
      rw [Res.bind_of_ok h1, Res.bind_of_ok h3]
      intro m hm
      simp only [Res.pure_log, List.append_nil] at hm
      rcases List.mem_append.1 hm with hm | hm
      · exact (placed_fromVarset (S := (· = v.at_)) rfl env s.sp m hm).2.1
      · obtain ⟨sp', us, dv⟩ := r
        cases dv with
        | nothing => cases hm
        | include_ _ _ => cases hm
        | ext e =>
          have he := fromVarset_at h1
          simp only [onDVar] at h3 hm
          obtain ⟨_, k1, k2, -⟩ := Res.bind_ok h3
          obtain ⟨_, k3, -, -⟩ := Res.bind_ok k2
          rw [Res.bind_of_ok k1, Res.bind_of_ok k3] at hm
          simp only [Res.pure_log, List.append_nil] at hm
          rw [← he]
          rcases List.mem_append.1 hm with hm | hm
          · unfold canonCheck at hm
            split at hm
            · cases hm
            · split at hm
              · cases hm
              · rw [List.mem_singleton.1 hm]; rfl
          · exact addExt_place m hm

/-! ## What is not part of the dialplan -/

/-- States with the same content, but for what has been used, the spelling of `Background` and the last priorities. -/
structure Alongside (s t : DState) : Prop where
  cur : s.cur = t.cur
  general : s.dp.general = t.dp.general
  globals : s.dp.globals = t.dp.globals
  labels : s.dp.allLabels = t.dp.allLabels
  dests : s.dp.dests = t.dp.dests
  ctxs : Zips (NearCtx False) s.dp.contexts t.dp.contexts

theorem nearCtx_refl {K : Prop} (c : DCtx) : NearCtx K c c := ⟨rfl, rfl, rfl, rfl, fun _ => rfl⟩

theorem zips_same {α : Type} {R : α → α → Prop} (h : ∀ a, R a a) : ∀ l : List α, Zips R l l
  | [] => .nil
  | _ :: l => .cons (h _) (zips_same h l)

theorem zips_chain {α : Type} {R : α → α → Prop} (h : ∀ a b c, R a b → R b c → R a c) :
    ∀ {l m k : List α}, Zips R l m → Zips R m k → Zips R l k
  | _, _, _, .nil, .nil => .nil
  | _, _, _, .cons h1 h2, .cons k1 k2 => .cons (h _ _ _ h1 k1) (zips_chain h h2 k2)

theorem alongside_refl (s : DState) : Alongside s s := ⟨rfl, rfl, rfl, rfl, rfl, zips_same nearCtx_refl _⟩

theorem alongside_trans {s t u : DState} (h : Alongside s t) (k : Alongside t u) : Alongside s u :=
  ⟨h.cur.trans k.cur, h.general.trans k.general, h.globals.trans k.globals, h.labels.trans k.labels, h.dests.trans k.dests,
    zips_chain (fun _ _ _ a b => ⟨a.name.trans b.name, a.steps.trans b.steps, a.includes.trans b.includes, a.cache.trans b.cache, fun h => h.elim⟩)
      h.ctxs k.ctxs⟩

/-- The number of includes and steps. -/
def sizeOfCtx (c : DCtx) : Nat := c.includes.length + c.steps.length

def sizeOfAll (l : List DCtx) : Nat := (l.map sizeOfCtx).sum

theorem size_of_text {a b : Dialplan} (h : dialplanText a = dialplanText b) : sizeOfAll a.contexts = sizeOfAll b.contexts := by
  have : ∀ d : Dialplan, sizeOfAll d.contexts = ((dialplanText d).map fun x => x.2.1.length + x.2.2.length).sum := by
    intro d
    simp only [sizeOfAll, dialplanText, List.map_map]
    congr 1
    refine List.map_congr_left fun c _ => ?_
    simp [sizeOfCtx]
  rw [this, this, h]

theorem size_put {c d : DCtx} (hn : d.name = c.name) : ∀ {l : List DCtx}, c ∈ l → (l.map (·.name)).Nodup →
    sizeOfAll (putCtx d l) + sizeOfCtx c = sizeOfAll l + sizeOfCtx d
  | x :: l, hin, hnd => by
    simp only [List.map_cons, List.nodup_cons] at hnd
    rw [putCtx]
    rcases List.mem_cons.1 hin with rfl | hin
    · rw [if_pos hn.symm]
      simp only [sizeOfAll, List.map_cons, List.sum_cons]
      omega
    · have hx : ¬ x.name = d.name := fun e => hnd.1 (List.mem_map.2 ⟨c, hin, by rw [e, hn]⟩)
      rw [if_neg hx]
      have := size_put hn hin hnd.2
      simp only [sizeOfAll, List.map_cons, List.sum_cons] at this ⊢
      omega

theorem zips_placed {c d : DCtx} (h : NearCtx False c d) : ∀ {l : List DCtx}, c ∈ l → (l.map (·.name)).Nodup → Zips (NearCtx False) l (putCtx d l)
  | x :: l, hin, hnd => by
    simp only [List.map_cons, List.nodup_cons] at hnd
    rw [putCtx]
    rcases List.mem_cons.1 hin with rfl | hin
    · rw [if_pos h.name]
      exact .cons h (zips_same nearCtx_refl _)
    · have hx : ¬ x.name = d.name := fun e => hnd.1 (List.mem_map.2 ⟨c, hin, by rw [e, h.name]⟩)
      rw [if_neg hx]
      exact .cons (nearCtx_refl _) (zips_placed h hin hnd.2)

/-- An assignment in a context adds something to the dialplan, or it does not. -/
theorem var_sizes {env : DEnv} {s s' : DState} (hi : DpInv s) {a : Str} (hc : s.cur = .ctx a) {v : VarE}
    (h : (dialplanStep env s (.var v)).val = .ok s') :
    sizeOfAll s.dp.contexts < sizeOfAll s'.dp.contexts ∧ s'.cur = s.cur ∨ sizeOfAll s'.dp.contexts = sizeOfAll s.dp.contexts ∧ Alongside s s' := by
  simp only [dialplanStep, onVarset] at h
  obtain ⟨c, hg⟩ := hi.cur a hc
  rw [hc] at h
  dsimp only at h
  rw [hg] at h
  dsimp only at h
  obtain ⟨⟨sp', us, dv⟩, h1, h2, -⟩ := Res.bind_ok h
  obtain ⟨dp, h3, h4, -⟩ := Res.bind_ok h2
  simp only [Res.pure_val, Except.ok.injEq] at h4
  subst h4
  have hm := (get_mem hg).1
  dsimp only at h3
  cases dv with
  | nothing =>
    simp only [onDVar, Res.pure_val, Except.ok.injEq] at h3
    subst h3
    exact .inr ⟨rfl, ⟨hc, rfl, rfl, rfl, rfl, zips_same nearCtx_refl _⟩⟩
  | include_ x w =>
    simp only [onDVar, Res.pure_val, Except.ok.injEq] at h3
    subst h3
    refine .inl ⟨?_, hc.symm⟩
    have := size_put (c := c) (d := { c with includes := c.includes ++ [(x, w)] }) rfl hm hi.names
    simp only [sizeOfCtx, List.length_append, List.length_cons, List.length_nil] at this
    dsimp only
    omega
  | ext e =>
    simp only [onDVar] at h3
    obtain ⟨_, -, k2, -⟩ := Res.bind_ok h3
    obtain ⟨ad, k3, k4, -⟩ := Res.bind_ok k2
    simp only [Res.pure_val, Except.ok.injEq] at k4
    subst k4
    have hcase := addExt_cases k3
    generalize (addExt s.dp.lastPrio c e).log = lg at hcase
    have away : ∀ {d : DCtx} {l : Option Nat}, ad = ⟨d, l, [], []⟩ → NearCtx False c d →
        sizeOfAll (s.dp.withAdded ad).contexts = sizeOfAll s.dp.contexts ∧ Alongside s ⟨s.dp.withAdded ad, .ctx a, sp', s.uses ++ us⟩ := by
      rintro d l rfl hd
      refine ⟨?_, ⟨hc, rfl, rfl, by simp [Dialplan.withAdded], by simp [Dialplan.withAdded], zips_placed hd hm hi.names⟩⟩
      have := size_put hd.name.symm hm hi.names
      simp only [sizeOfCtx, hd.steps, hd.includes] at this
      simp only [Dialplan.withAdded]
      omega
    cases hcase with
    | noPat hp => exact .inr (away rfl ⟨rfl, rfl, rfl, rfl, fun h => h.elim⟩)
    | noPrio raw pat ms hp hr => exact .inr (away rfl ⟨rfl, rfl, rfl, rfl, fun h => h.elim⟩)
    | dupe raw pat ms n prev hp hr hd => exact .inr (away rfl ⟨rfl, rfl, rfl, rfl, fun h => h.elim⟩)
    | stored raw pat ms n label' ls ds pc lms hp hr hd hpc hlc hl hj =>
      refine .inl ⟨?_, hc.symm⟩
      have := size_put (c := c) (d := { c with
          sorted := none, lastPrio := some n,
          cache := putCache (Pattern.canonical pat) pc c.cache,
          steps := c.steps ++ [⟨raw, pat, n, label', e.app, e.comment, e.at_⟩] }) rfl hm hi.names
      simp only [sizeOfCtx, List.length_append, List.length_cons, List.length_nil] at this
      simp only [Dialplan.withAdded]
      omega

/-- Several lines. -/
theorem lines_sizes {fs : FS} {env : DEnv} {a : Str} : ∀ {x : List Told}, AssignmentLines x → (∀ z ∈ x, lineModel fs z.line = some (z.msgs, z.gives)) →
    ∀ {s s' : DState}, DpInv s → s.cur = .ctx a → (tellAll env s x).val = .ok s' →
    (∀ m ∈ (tellAll env s x).log, m.at_ ∈ x.map (·.line)) ∧
    (sizeOfAll s.dp.contexts < sizeOfAll s'.dp.contexts ∨ sizeOfAll s'.dp.contexts = sizeOfAll s.dp.contexts ∧ Alongside s s')
  | [], _, _, s, s', _, _, hs => by
    simp only [tellAll, Res.pure_val, Except.ok.injEq] at hs
    subst hs
    refine ⟨fun m hm => (by cases hm), .inr ⟨rfl, alongside_refl _⟩⟩
  | y :: ys, h, hx, s, s', hi, hc, hs => by
    have hy := lineTells_exists (hx y List.mem_cons_self)
    simp only [tellAll] at hs ⊢
    obtain ⟨_, -, h3, -⟩ := Res.bind_ok hs
    obtain ⟨m, h4, h5, -⟩ := Res.bind_ok h3
    rw [Res.bind_of_ok (a := ()) rfl, Res.bind_of_ok h4]
    have him := feed_inv DpInv (fun _ _ _ a b => step_inv a b) _ _ _ hi h4
    have step : (∀ k ∈ (feed (dialplanStep env) s y.gives.elem?.toList).log, k.at_ = y.line) ∧
        (sizeOfAll s.dp.contexts < sizeOfAll m.dp.contexts ∧ m.cur = s.cur ∨ sizeOfAll m.dp.contexts = sizeOfAll s.dp.contexts ∧ Alongside s m) := by
      rcases h y List.mem_cons_self with hg | ⟨b, w, hg⟩ | ⟨v, hg⟩
      · rw [hg] at h4 ⊢
        simp only [Gives.elem?, Option.toList, feed, Res.pure_val, Except.ok.injEq] at h4
        subst h4
        refine ⟨fun k hk => (by cases hk), .inr ⟨rfl, alongside_refl _⟩⟩
      · rw [hg] at h4 ⊢
        simp only [Gives.elem?, Option.toList, feed, dialplanStep, wrapExc, Res.bind, Res.pure, Except.ok.injEq] at h4
        subst h4
        refine ⟨fun k hk => (by cases hk), .inr ⟨rfl, alongside_refl _⟩⟩
      · rw [hg] at h4 ⊢
        simp only [Gives.elem?, Option.toList, feed] at h4 ⊢
        obtain ⟨m1, h6, h7, -⟩ := Res.bind_ok h4
        simp only [Res.pure_val, Except.ok.injEq] at h7
        subst h7
        have h8 := wrapExc_ok.1 h6
        have hat : v.at_ = y.line := lineTells_at hy (e := .var v) (by rw [hg]; rfl)
        refine ⟨fun k hk => ?_, var_sizes hi hc h8⟩
        rw [Res.bind_of_ok h6] at hk
        simp only [Res.pure_log, List.append_nil, wrapExc_log] at hk
        rw [← hat]
        exact var_place h8 k hk
    obtain ⟨s1, s2⟩ := step
    have hcm : m.cur = .ctx a := by
      rcases s2 with ⟨-, e⟩ | ⟨-, e⟩
      · rw [e, hc]
      · rw [← e.cur, hc]
    obtain ⟨r1, r2⟩ := lines_sizes (fun z hz => h z (List.mem_cons_of_mem _ hz)) (fun z hz => hx z (List.mem_cons_of_mem _ hz)) him hcm h5
    refine ⟨fun k hk => ?_, ?_⟩
    · simp only [List.map_cons, List.mem_cons]
      rcases List.mem_append.1 hk with hk | hk
      · exact .inl (lineTells_place hy k hk)
      · rcases List.mem_append.1 hk with hk | hk
        · exact .inl (s1 k hk)
        · exact .inr (r1 k hk)
    · rcases s2 with ⟨e, -⟩ | ⟨e, f⟩
      · rcases r2 with g | ⟨g, -⟩
        · exact .inl (by omega)
        · exact .inl (by omega)
      · rcases r2 with g | ⟨g, k⟩
        · exact .inl (by omega)
        · exact .inr ⟨by omega, alongside_trans f k⟩

/-! ## What has been used -/

theorem step_uses {env : DEnv} {s s' : DState} (u : List Ev) {e : Elem} (h : (dialplanStep env s e).val = .ok s') :
    ∃ u', (dialplanStep env { s with uses := u } e).val = .ok { s' with uses := u' } ∧
      (dialplanStep env { s with uses := u } e).log = (dialplanStep env s e).log := by
  cases e with
  | empty b w =>
    simp only [dialplanStep, Res.pure_val, Except.ok.injEq] at h
    subst h
    exact ⟨u, rfl, rfl⟩
  | ctx c =>
    simp only [dialplanStep, onContext] at h ⊢
    split at h
    · rename_i h1
      rw [if_pos h1, if_pos h1]
      obtain ⟨dp, h2, h3, -⟩ := Res.bind_ok h
      simp only [Res.pure_val, Except.ok.injEq] at h3
      subst h3
      rw [Res.bind_of_ok h2, Res.bind_of_ok h2]
      exact ⟨u, rfl, rfl⟩
    · rename_i h1
      rw [if_neg h1, if_neg h1]
      split at h
      · rename_i h1
        rw [if_pos h1, if_pos h1]
        obtain ⟨dp, h2, h3, -⟩ := Res.bind_ok h
        simp only [Res.pure_val, Except.ok.injEq] at h3
        subst h3
        rw [Res.bind_of_ok h2, Res.bind_of_ok h2]
        exact ⟨u, rfl, rfl⟩
      · rename_i h1
        rw [if_neg h1, if_neg h1]
        obtain ⟨_, h2, h3, -⟩ := Res.bind_ok h
        obtain ⟨dp, h4, h5, -⟩ := Res.bind_ok h3
        simp only [Res.pure_val, Except.ok.injEq] at h5
        subst h5
        rw [Res.bind_of_ok h2, Res.bind_of_ok h4, Res.bind_of_ok h2, Res.bind_of_ok h4]
        exact ⟨u, rfl, rfl⟩
  | var v =>
    simp only [dialplanStep, onVarset] at h ⊢
    cases hc : s.cur with
    | none =>
      rw [hc] at h; dsimp only at h ⊢
      cases h; exact ⟨u, by rw [hc]; rfl, rfl⟩
    | general =>
      rw [hc] at h; dsimp only at h ⊢
      cases h; exact ⟨u, rfl, rfl⟩
    | globals =>
      rw [hc] at h; dsimp only at h ⊢
      cases h; exact ⟨u, rfl, rfl⟩
    | detached =>
      rw [hc] at h; dsimp only at h ⊢
      cases h; exact ⟨u, by rw [hc]; rfl, rfl⟩
    | ctx name =>
      rw [hc] at h; dsimp only at h ⊢
      cases hg : s.dp.get name with
      | none => rw [hg] at h; cases h
      | some c =>
        rw [hg] at h
        dsimp only at h ⊢
        obtain ⟨r, h1, h2, -⟩ := Res.bind_ok h
        obtain ⟨dp, h3, h4, -⟩ := Res.bind_ok h2
        simp only [Res.pure_val, Except.ok.injEq] at h4
        subst h4
        rw [Res.bind_of_ok h1, Res.bind_of_ok h3, Res.bind_of_ok h1, Res.bind_of_ok h3]
        exact ⟨u ++ r.2.1, rfl, rfl⟩

theorem tell_uses {env : DEnv} : ∀ (told : List Told) {s s' : DState} (u : List Ev), (tellAll env s told).val = .ok s' →
    ∃ u', (tellAll env { s with uses := u } told).val = .ok { s' with uses := u' } ∧
      (tellAll env { s with uses := u } told).log = (tellAll env s told).log
  | [], s, s', u, h => by
    simp only [tellAll, Res.pure_val, Except.ok.injEq] at h
    subst h
    exact ⟨u, rfl, rfl⟩
  | x :: xs, s, s', u, h => by
    simp only [tellAll] at h ⊢
    obtain ⟨_, -, h3, -⟩ := Res.bind_ok h
    obtain ⟨m, h4, h5, -⟩ := Res.bind_ok h3
    obtain ⟨u1, k1, k2⟩ : ∃ u1, (feed (dialplanStep env) { s with uses := u } x.gives.elem?.toList).val = .ok { m with uses := u1 } ∧
        (feed (dialplanStep env) { s with uses := u } x.gives.elem?.toList).log = (feed (dialplanStep env) s x.gives.elem?.toList).log := by
      cases hx : x.gives.elem? with
      | none =>
        rw [hx] at h4
        simp only [Option.toList, feed, Res.pure_val, Except.ok.injEq] at h4
        subst h4
        exact ⟨u, rfl, rfl⟩
      | some e =>
        rw [hx] at h4
        simp only [Option.toList, feed] at h4 ⊢
        obtain ⟨m1, h6, h7, -⟩ := Res.bind_ok h4
        simp only [Res.pure_val, Except.ok.injEq] at h7
        subst h7
        obtain ⟨u1, k1, k2⟩ := step_uses u (wrapExc_ok.1 h6)
        rw [Res.bind_of_ok h6, Res.bind_of_ok (wrapExc_ok.2 k1)]
        exact ⟨u1, rfl, by simp [wrapExc_log, k2]⟩
    obtain ⟨u2, k3, k4⟩ := tell_uses xs u1 h5
    rw [Res.bind_of_ok (a := ()) rfl, Res.bind_of_ok (a := ()) rfl, Res.bind_of_ok h4, Res.bind_of_ok k1]
    exact ⟨u2, k3, by rw [k2, k4]⟩

/-! ## The rest of the files -/

theorem near_of {a : Str} {s t : DState} (hi : DpInv s) (ht : DpInv t) (hc : s.cur = .ctx a) (h : Alongside s t) (hn : SameForNext a s t) :
    Near True { s with uses := t.uses } t where
  cur := h.cur
  sp := hn.spelling.symm
  uses := rfl
  general := h.general
  globals := h.globals
  last := hn.last.symm
  labels := h.labels
  dests := h.dests
  ctxs := by
    have key : ∀ {l m : List DCtx}, Zips (NearCtx False) l m → (∀ c ∈ l, c ∈ s.dp.contexts) → (∀ c ∈ m, c ∈ t.dp.contexts) →
        Zips (fun c d => NearCtx (True ∧ s.cur = .ctx c.name) c d) l m := by
      intro l m hz
      induction hz with
      | nil => exact fun _ _ => .nil
      | @cons x y l m h1 _ ih =>
        intro hl hm
        refine .cons { h1 with prio := fun k => ?_ } (ih (fun c hc => hl c (List.mem_cons_of_mem _ hc)) fun c hc => hm c (List.mem_cons_of_mem _ hc))
        have e1 := get_of_mem hi.names (hl x List.mem_cons_self)
        have e2 := get_of_mem ht.names (hm y List.mem_cons_self)
        have hx : x.name = a := by
          have := k.2
          rw [hc] at this
          exact (Cur.ctx.inj this).symm
        have := hn.here
        rw [← hx, e1, h1.name, e2] at this
        simpa using this.symm
    exact key h.ctxs (fun _ h => h) fun _ h => h

theorem alongside_of_near {full : Prop} {s t : DState} (h : Near full s t) : Alongside s t :=
  ⟨h.cur, h.general, h.globals, h.labels, h.dests, zips_weaker (fun _ _ k => { k with prio := fun h => h.elim }) h.ctxs⟩

theorem alongside_symm {s t : DState} (h : Alongside s t) : Alongside t s :=
  ⟨h.cur.symm, h.general.symm, h.globals.symm, h.labels.symm, h.dests.symm,
    zips_swapped (fun _ _ k => ⟨k.name.symm, k.steps.symm, k.includes.symm, k.cache.symm, fun h => h.elim⟩) h.ctxs⟩

theorem alongside_like {s t : DState} (h : Alongside s t) : DpLike s.dp t.dp where
  general := h.general
  globals := h.globals
  ctxs := zips_weaker (fun _ _ k => ⟨k.name, k.includes, by rw [k.steps], fun _ => by rw [k.steps], by rw [k.cache]⟩) h.ctxs
  labels := by rw [h.labels]
  dests := by rw [h.dests]

theorem alongside_text {s t : DState} (h : Alongside s t) : dialplanText t.dp = dialplanText s.dp := by
  unfold dialplanText
  have := h.ctxs
  revert this
  generalize s.dp.contexts = l
  generalize t.dp.contexts = m
  intro hz
  induction hz with
  | nil => rfl
  | cons h1 _ ih => rw [List.map_cons, List.map_cons, ih, h1.name, h1.includes, h1.steps]

/-- The lines `r` are read in the same way from `s` as from `t`. -/
def ContinuesAs (env : DEnv) (r : List Told) (s t : DState) : Prop :=
  ∀ s', (tellAll env s r).val = .ok s' → ∃ t', (tellAll env t r).val = .ok t' ∧ (tellAll env s r).log = (tellAll env t r).log ∧ Alongside s' t'

/-- The end of the check, from states with the same content. -/
theorem whole_beside {env : DEnv} {sp : Option Str} {ta x y r : List Told} {s0 s t : DState} (h0 : (tellAll env (.init sp) ta).val = .ok s0)
    {ms ms' : List Msg} (hx : tellAll env s0 x = ⟨ms, .ok s⟩) (hy : tellAll env s0 y = ⟨ms', .ok t⟩)
    (hn : ContinuesAs env r s t) {s' : DState} (hw : (wholeTell env sp (ta ++ (x ++ r))).val = .ok s') :
    ∃ t', (wholeTell env sp (ta ++ (y ++ r))).val = .ok t' ∧ dialplanText t'.dp = dialplanText s'.dp ∧
      ∃ l l', (wholeTell env sp (ta ++ (x ++ r))).log = (tellAll env (.init sp) ta).log ++ (ms ++ l) ∧
        (wholeTell env sp (ta ++ (y ++ r))).log = (tellAll env (.init sp) ta).log ++ (ms' ++ l') ∧ l.map (reM textOnly) = l'.map (reM textOnly) := by
  have hx' : (tellAll env s0 x).val = .ok s := by rw [hx]
  have hy' : (tellAll env s0 y).val = .ok t := by rw [hy]
  have e1 : tellAll env (.init sp) (ta ++ (x ++ r)) = ⟨(tellAll env (.init sp) ta).log ++ (ms ++ (tellAll env s r).log), (tellAll env s r).val⟩ := by
    rw [tellAll_two h0, tellAll_two hx', hx]
  have e2 : tellAll env (.init sp) (ta ++ (y ++ r)) = ⟨(tellAll env (.init sp) ta).log ++ (ms' ++ (tellAll env t r).log), (tellAll env t r).val⟩ := by
    rw [tellAll_two h0, tellAll_two hy', hy]
  have q1 := wholeTell_end hw
  have hr' : (tellAll env s r).val = .ok s' := by rw [e1] at q1; exact q1
  obtain ⟨t1, g6, g4, g5⟩ := hn s' hr'
  have hlike := alongside_like g5
  obtain ⟨c1, c2, c3⟩ := like_complete hlike
  have hdests : s'.dp.dests = t1.dp.dests := g5.dests
  have hwalk : ∀ l, walkDests s'.dp env.depth l = walkDests t1.dp env.depth l := by
    intro l
    induction l with
    | nil => rfl
    | cons d l ih => simp only [walkDests, ih, like_walk hlike]
  have htext := alongside_text g5
  have q2 : (tellAll env (.init sp) (ta ++ (y ++ r))).val = .ok t1 := by rw [e2]; exact g6
  unfold wholeTell at hw ⊢
  rw [Res.bind_of_ok q1, Res.bind_of_ok (a := ()) c1] at hw
  obtain ⟨_, w1, -, -⟩ := Res.bind_ok hw
  have w2 := w1
  rw [hwalk, hdests] at w2
  rw [Res.bind_of_ok q1, Res.bind_of_ok (a := ()) c1, Res.bind_of_ok w1, Res.bind_of_ok q2, Res.bind_of_ok (a := ()) c2, Res.bind_of_ok (a := ()) w2, e1, e2]
  refine ⟨_, rfl, htext, (tellAll env s r).log ++ ((onComplete s'.dp).log ++ (walkDests s'.dp env.depth s'.dp.dests).log),
    (tellAll env t r).log ++ ((onComplete t1.dp).log ++ (walkDests t1.dp env.depth t1.dp.dests).log), ?_, ?_, ?_⟩
  · simp
  · simp
  · rw [g4]
    simp only [List.map_append]
    rw [hwalk, hdests]
    exact congrArg _ (congrArg (· ++ _) c3)

/-- States that differ only in what has been used and are otherwise `Near`. -/
theorem goes_near {env : DEnv} {r : List Told} {s t : DState} (hi : DpInv s) {u u' : List Ev}
    (hn : Near True { s with uses := u } { t with uses := u' }) : ContinuesAs env r s t := by
  intro s' hr'
  obtain ⟨u1, g1, g2⟩ := tell_uses r u hr'
  obtain ⟨t1, g3, g4, g5⟩ := near_tell r hn ⟨hi.names, hi.ctxs, hi.labels, hi.cur⟩ g1
  obtain ⟨u2, g6, g7⟩ := tell_uses r t.uses g3
  have := alongside_of_near g5
  exact ⟨_, g6, by rw [← g2, g4]; exact g7.symm, ⟨this.cur, this.general, this.globals, this.labels, this.dests, this.ctxs⟩⟩

/-! ## A step with its own extension and priority -/

/-- The lines, if there are any, begin with a step that has an extension and a priority of its own. -/
def OwnFirst (r : List Told) : Prop :=
  ∀ x ∈ r.head?, ∃ v p raw k, x.gives = .elem (.var v) ∧ StepText v p ∧ p.exten = some raw ∧ p.prio = some k ∧ 1 ≤ k

theorem own_first {fs : FS} {path : Str} {rest : Bytes} (h : OwnStepText fs path rest) {n : Nat} {t : Items} (ht : Expand fs opens path n (physLines rest) t)
    {r : List Told} (h1 : r.map (·.line) = t.flatten) (h2 : ∀ x ∈ r, lineModel fs x.line = some (x.msgs, x.gives)) : OwnFirst r := by
  intro x hx
  unfold OwnStepText at h
  generalize physLines rest = ls at ht h
  obtain ⟨l, hl, hw⟩ : ∃ l, ls.head? = some l ∧ x.line = ⟨path, (n : Int) + 1, l⟩ := by
    cases r with
    | nil => cases hx
    | cons y r =>
      simp only [List.head?_cons, Option.mem_def, Option.some.injEq] at hx
      subst hx
      cases ht with
      | nil => cases h1
      | line hp _ =>
        simp only [List.map_cons, Items.flatten, List.cons.injEq] at h1
        exact ⟨_, rfl, h1.1⟩
      | incl hp _ _ =>
        simp only [List.map_cons, Items.flatten, List.cons.injEq] at h1
        exact ⟨_, rfl, h1.1⟩
  obtain ⟨k, ms, v, p, raw, j, hc, hs1, hs2, hs3, hs4⟩ := h l hl
  obtain ⟨told', e1, e2, e3⟩ := tolds_elsewhere (fs := fs) textOnly_of (told := [⟨⟨path, k, l⟩, ms, .elem (.var v)⟩]) (ws := [x.line])
    (by
      intro y hy
      simp only [List.mem_cons, List.not_mem_nil, or_false] at hy
      subst hy
      exact lineTells_model hc)
    (.cons ⟨by rw [hw], fun _ => by rw [hw]⟩ .nil)
  cases told' with
  | nil => cases e3
  | cons y told' =>
    simp only [List.map_cons, List.cons.injEq] at e1 e3
    have hy := e2 y List.mem_cons_self
    have hxm := h2 x (List.mem_of_mem_head? hx)
    rw [e1.1, hxm] at hy
    simp only [Option.some.injEq, Prod.mk.injEq] at hy
    obtain ⟨w', ms', g'⟩ := y
    have hg := congrArg Told.gives e3.1
    simp only [reTold] at hg
    simp only at hy
    rw [← hy.2] at hg
    cases hgx : x.gives with
    | file p => rw [hgx] at hg; cases hg
    | nothing => rw [hgx] at hg; cases hg
    | elem e =>
      cases e with
      | ctx d => rw [hgx] at hg; cases hg
      | empty b w => rw [hgx] at hg; cases hg
      | var v' =>
        rw [hgx] at hg
        simp only [reG, reE, Gives.elem.injEq, Elem.var.injEq] at hg
        have hkey : v'.key = v.key := by have := congrArg VarE.key hg; exact this
        have hval : v'.value = v.value := by have := congrArg VarE.value hg; exact this
        obtain ⟨ps, a1, a2, a3, a4, a5⟩ := hs1
        exact ⟨v', p, raw, j, rfl, ⟨ps, by rw [hkey]; exact a1, a2, a3, a4, by rw [hval]; exact a5⟩, hs2, hs3, hs4⟩

/-- Such a step does not depend on the last priority. -/
theorem own_last {env : DEnv} {s : DState} {a : Str} (hc : s.cur = .ctx a) {v : VarE} {p : Parts} {raw : Str} {k : Nat} (ht : StepText v p)
    (he : p.exten = some raw) (hp : p.prio = some k) (h1 : 1 ≤ k) (L : Option Nat) {s' : DState} (hs : (dialplanStep env s (.var v)).val = .ok s') :
    dialplanStep env { s with dp := { s.dp with lastPrio := L } } (.var v) = dialplanStep env s (.var v) := by
  simp only [dialplanStep, onVarset] at hs ⊢
  rw [hc] at hs ⊢
  dsimp only at hs ⊢
  have hget : Dialplan.get { s.dp with lastPrio := L } a = s.dp.get a := rfl
  rw [hget]
  cases hg : s.dp.get a with
  | none => rfl
  | some c =>
    rw [hg] at hs
    dsimp only at hs ⊢
    obtain ⟨r, k1, k2, -⟩ := Res.bind_ok hs
    rw [Res.bind_of_ok k1, Res.bind_of_ok k1]
    obtain ⟨e, e1, e2, e3⟩ := own_read ht he hp k1
    rw [e1]
    have hadd : ∀ last, addExt L c e = addExt last c e := by
      intro last
      obtain ⟨q, hq⟩ := Option.isSome_iff_exists.1 e2
      have hz : (k < 1) = False := by simp; omega
      simp only [addExt, resolvePat, hq, resolvePrio, e3, hz, if_false]
      split
      · cases lastOf c.steps q.2 with
        | none => rfl
        | some prev =>
          dsimp only
          split <;> rfl
      · rfl
    have hon : onDVar { s.dp with lastPrio := L } c (.ext e) = onDVar s.dp c (.ext e) := by
      simp only [onDVar]
      rw [hadd s.dp.lastPrio]
      rfl
    rw [hon]

theorem own_lines {env : DEnv} {s : DState} {x : Told} {xs : List Told} {v : VarE} (hg : x.gives = .elem (.var v)) {L : Option Nat}
    (h : dialplanStep env { s with dp := { s.dp with lastPrio := L } } (.var v) = dialplanStep env s (.var v)) :
    tellAll env { s with dp := { s.dp with lastPrio := L } } (x :: xs) = tellAll env s (x :: xs) := by
  simp only [tellAll, hg, Gives.elem?, Option.toList, feed, h]

theorem goes_own {env : DEnv} {r : List Told} (hr : OwnFirst r) {a : Str} {s t : DState} (hi : DpInv s) (hc : s.cur = .ctx a) (h : Alongside s t)
    (hsp : s.sp = t.sp) : ContinuesAs env r s t := by
  cases r with
  | nil =>
    intro s' hs
    simp only [tellAll, Res.pure_val, Except.ok.injEq] at hs
    subst hs
    exact ⟨t, rfl, rfl, h⟩
  | cons x xs =>
    obtain ⟨v, p, raw, k, hg, h1, h2, h3, h4⟩ := hr x rfl
    intro s' hs
    obtain ⟨u1, g1, g2⟩ := tell_uses (x :: xs) t.uses hs
    -- the last priorities do not matter
    have hstep : ∃ m, (dialplanStep env { s with uses := t.uses } (.var v)).val = .ok m := by
      simp only [tellAll, hg, Gives.elem?, Option.toList, feed] at g1
      obtain ⟨_, -, b1, -⟩ := Res.bind_ok g1
      obtain ⟨_, b2, -, -⟩ := Res.bind_ok b1
      obtain ⟨m, b3, -, -⟩ := Res.bind_ok b2
      exact ⟨m, wrapExc_ok.1 b3⟩
    obtain ⟨m, hm⟩ := hstep
    have hL := own_last (s := { s with uses := t.uses }) hc h1 h2 h3 h4 t.dp.lastPrio hm
    have hT := own_lines (xs := xs) (s := { s with uses := t.uses }) hg hL
    have hnear : Near False { s with uses := t.uses, dp := { s.dp with lastPrio := t.dp.lastPrio } } t :=
      ⟨h.cur, hsp, rfl, h.general, h.globals, rfl, h.labels, h.dests, zips_weaker (fun _ _ k => { k with prio := fun q => q.1.elim }) h.ctxs⟩
    have hi' : DpInv { s with uses := t.uses, dp := { s.dp with lastPrio := t.dp.lastPrio } } := ⟨hi.names, hi.ctxs, hi.labels, hi.cur⟩
    rw [← hT] at g1
    obtain ⟨m1, m2, ms, f1, f2, f3, f4, f5⟩ := near_line (env := env) (full' := True) (x := x) (t := t) (fun e' he' s1 hs1 => by
      rw [hg] at he'
      simp only [Gives.elem?, Option.some.injEq] at he'
      subst he'
      refine near_var hnear hi'.names (fun r hr => .inr (.inl ?_)) hs1
      obtain ⟨e, b1, b2, b3⟩ := own_read h1 h2 h3 hr
      exact ⟨e, b1, b2, k, b3, h4⟩) (fun e => by rw [hg] at e; cases e) hi' g1
    obtain ⟨t', j1, j2, j3⟩ := near_tell xs f2 f3 f1
    have hlog : (tellAll env s (x :: xs)).log = (tellAll env t (x :: xs)).log := by
      rw [← g2, ← hT, f4, f5, j2]
    refine ⟨t', by rw [f5]; exact j1, hlog, ?_⟩
    have := alongside_of_near j3
    exact ⟨this.cur, this.general, this.globals, this.labels, this.dests, this.ctxs⟩

theorem refused_beside {fs : FS} {env : DEnv} {sp : Option Str} {a : Str} {ta x : List Told} (hx : AssignmentLines x)
    (hm : ∀ z ∈ x, lineModel fs z.line = some (z.msgs, z.gives)) {s0 s1 : DState} (h0 : (tellAll env (.init sp) ta).val = .ok s0)
    (h1 : (tellAll env (.init sp) (ta ++ x)).val = .ok s1) (hn : NotTaken a s0 s1) :
    ∃ ms, tellAll env s0 x = ⟨ms, .ok s1⟩ ∧ (∀ m ∈ ms, m.at_ ∈ x.map (·.line)) ∧ Alongside s0 s1 ∧ DpInv s0 ∧ DpInv s1 := by
  have hi := tellAll_dpInv _ (DpInv.init sp) h0
  have hi1 := tellAll_dpInv _ (DpInv.init sp) h1
  rw [tellAll_two h0] at h1
  have h1' : (tellAll env s0 x).val = .ok s1 := h1
  obtain ⟨k1, k2⟩ := lines_sizes hx hm hi hn.within h1'
  have hz := size_of_text hn.same
  rcases k2 with k2 | ⟨-, k2⟩
  · omega
  · exact ⟨_, by rw [← h1'], k1, k2, hi, hi1⟩

/-- What is needed of the lines below. -/
def Unaffected (a : Str) (fs : FS) (path : Str) (rest : Bytes) (s t : DState) : Prop :=
  SameForNext a s t ∨ t.sp = s.sp ∧ OwnStepText fs path rest

theorem unaffected_goes {a : Str} {fs : FS} {path : Str} {rest : Bytes} {s t : DState} (h : Unaffected a fs path rest s t) (hc : s.cur = .ctx a) (hi : DpInv s)
    (ht : DpInv t) (hb : Alongside s t) {env : DEnv} {r : List Told} (hr : ∃ n t, Expand fs opens path n (physLines rest) t ∧ r.map (·.line) = t.flatten)
    (hm : ∀ z ∈ r, lineModel fs z.line = some (z.msgs, z.gives)) : ContinuesAs env r s t ∧ ContinuesAs env r t s := by
  rcases h with h | ⟨h1, h2⟩
  · have := near_of hi ht hc hb h
    exact ⟨goes_near hi (u := t.uses) (u' := t.uses) this, goes_near ht (u := t.uses) (u' := t.uses) (near_symm this)⟩
  · obtain ⟨n, t, e1, e2⟩ := hr
    have hf := own_first h2 e1 e2 hm
    exact ⟨goes_own hf hi hc hb h1.symm, goes_own hf ht (by rw [← hb.cur, hc]) (alongside_symm hb) h1⟩

theorem ownStep_elsewhere {fs fs' : FS} {path : Str} {rest : Bytes} (h : OwnStepText fs path rest) : OwnStepText fs' path rest := by
  intro l hl
  obtain ⟨n, ms, v, p, raw, k, h1, h2⟩ := h l hl
  obtain ⟨ms', h3⟩ := tells_elsewhere fs' h1
  exact ⟨n, ms', v, p, raw, k, h3, h2⟩

theorem refused_taken {fs fs' : FS} {env : DEnv} {sp : Option Str} {n n0 n1 : Nat} {path a : Str} {above part rest : Bytes}
    (hp : PartAbsent fs fs' path above part rest) {log0 log1 log : List Msg} {st0 st1 st : DState}
    (h0 : checkDialplan fs env sp n0 path above = ⟨log0, .ok (some st0)⟩) (h1 : checkDialplan fs env sp n1 path (above ++ part) = ⟨log1, .ok (some st1)⟩)
    (hd : TextIs fs path part AssignmentLines) (hn : NotTaken a st0 st1) (hs : Unaffected a fs path rest st0 st1)
    (h : checkDialplan fs env sp n path (above ++ (part ++ rest)) = ⟨log, .ok (some st)⟩) :
    ∃ k log' st', (∀ n', k ≤ n' → checkDialplan fs' env sp n' path (above ++ rest) = ⟨log', .ok (some st')⟩) ∧
      LinesLess (linesFrom path (physLines above).length (physLines part)) (substance log) (substance log') ∧
      dialplanText st'.dp = dialplanText st.dp := by
  obtain ⟨k, log', st', t, lg, e1, ⟨e2, e5⟩, e3, e4, -⟩ := part_exchanged (Y := []) assignmentLines_placeless nil_placeless hp.whole hd
    (nil_text fs' path) hp.present hp.others h0 h
    (Q := fun x y t => (∃ p l q q', x = p ++ (l ++ q) ∧ (∀ m ∈ l, m.at_ ∈ linesFrom path (physLines above).length (physLines part)) ∧ y = p ++ q' ∧
      q.map (reM textOnly) = q'.map (reM textOnly)) ∧ dialplanText t.dp = dialplanText st.dp) (by
      rintro ta x _ r hx rfl hl hm - ht0 ht hx1 - hr hrm
      obtain ⟨ms, f1, f2, f3, f4, f5⟩ := refused_beside hx hm ht0 (hx1 _ _ _ h1) hn
      obtain ⟨t', g1, g2, l, l', g3, g4, g5⟩ := whole_beside (y := []) (r := r) ht0 f1 rfl (unaffected_goes hs hn.within f4 f5 f3 hr hrm).2 ht
      refine ⟨t', g1, ⟨substance (tellAll env (.init sp) ta).log, substance ms, substance l, substance l', ?_, ?_, ?_, ?_⟩, g2⟩
      · rw [g3, substance_append, substance_append]
      · intro m hm
        rw [← hl]
        exact f2 m (List.mem_filter.1 hm).1
      · rw [g4, List.nil_append, substance_append]
      · rw [← substance_map, ← substance_map, g5])
  obtain ⟨p, l, q, q', i1, i2, i3, i4⟩ := e2
  refine ⟨k, log', st', e1, ⟨p, l, q, i1, i2, zips_words ?_⟩, by rw [text_of_re e4, e5]⟩
  rw [← e3, i3, List.map_append, List.map_append, i4]

theorem refused_added {fs fs' : FS} {env : DEnv} {sp : Option Str} {n n0 n1 : Nat} {path a : Str} {above part rest : Bytes}
    (hp : PartAbsent fs fs' path above part rest) {log0 log1 log' : List Msg} {st0 st1 st' : DState}
    (h0 : checkDialplan fs' env sp n0 path above = ⟨log0, .ok (some st0)⟩) (h1 : checkDialplan fs env sp n1 path (above ++ part) = ⟨log1, .ok (some st1)⟩)
    (hd : TextIs fs path part AssignmentLines) (hn : NotTaken a st0 st1) (hs : Unaffected a fs path rest st0 st1)
    (h : checkDialplan fs' env sp n path (above ++ rest) = ⟨log', .ok (some st')⟩) :
    ∃ k log st, (∀ n', k ≤ n' → checkDialplan fs env sp n' path (above ++ (part ++ rest)) = ⟨log, .ok (some st)⟩) ∧
      LinesLess (linesFrom path (physLines above).length (physLines part)) (substance log) (substance log') ∧
      dialplanText st.dp = dialplanText st'.dp := by
  have hs' : Unaffected a fs' path rest st0 st1 := hs.imp id fun h => ⟨h.1, ownStep_elsewhere h.2⟩
  obtain ⟨k, log, st, t, lg, e1, -, -, -, n2, log2, hab⟩ := part_exchanged (X := []) nil_placeless assignmentLines_placeless hp.whole (nil_text fs' path) hd
    (by rw [List.nil_append]; exact hp.absent) (fun q hq => (hp.others q hq).symm) h0 (by rw [List.nil_append]; exact h) (Q := fun _ _ _ => True) (by
      rintro ta _ y r rfl hy - - hm ht0 ht - hy1 hr hrm
      obtain ⟨ms, f1, f2, f3, f4, f5⟩ := refused_beside hy hm ht0 (hy1 _ _ _ h1) hn
      obtain ⟨t', g1, -⟩ := whole_beside (x := []) (r := r) ht0 rfl f1 (unaffected_goes hs' hn.within f4 f5 f3 hr hrm).1 ht
      exact ⟨t', g1, trivial⟩)
  obtain ⟨k2, log2, st2, g1, g2, g3⟩ := refused_taken hp hab h1 hd hn hs (e1 k (Nat.le_refl _))
  obtain ⟨c1, c2⟩ := check_twice h (g1 k2 (Nat.le_refl _))
  exact ⟨k, log, st, e1, c1 ▸ g2, by rw [← g3, c2]⟩

end ALint.Proofs
