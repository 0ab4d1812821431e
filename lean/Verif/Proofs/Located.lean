import Verif.Proofs.Supplies
import Verif.Proofs.DialplanMore
import Verif.Spec.Located

/-!
# Values and places of the messages of a check
-/

namespace ALint
open ALint.Spec
open Pattern (Values)

section
variable {S : Where → Prop} {E : AEnv}

/-- Has its values, apart from two kinds, and is about a line of `S`; what is reported about
the text of an application is reported by running one. -/
def Placed (E : AEnv) (S : Where → Prop) (m : Msg) : Prop :=
  (m.kind = .E_DP_LABEL_INVALID ∨ m.kind = .W_FUNC_DYNAMIC ∨ Supplies m) ∧ S m.at_ ∧
    (∀ w, m.previous = some w → S w) ∧
    (appKind m.kind = true → ∃ depth sp raw, m ∈ evMsgs (runApp E depth sp m.at_ raw).ev) ∧ Addressless m

theorem Fine.placed {m : Msg} (h : Fine S m) : Placed E S m := 
  ⟨.inr (.inr h.supplies), h.at_, by simp [h.prev], by simp [fileKind_app h.kind], h.addressless⟩

macro "placed" h:term : tactic => `(tactic| exact LogAll.emit ⟨.inr (.inr (supplies_of_covers rfl)), $h, (fun _ h => nomatch h), fun h => (nomatch (show false = true from h)), rfl⟩)

def suppliesInv : EvInv where
  P := fun evs => ∀ m, Ev.msg m ∈ evs → (m.kind = .W_FUNC_DYNAMIC ∨ Supplies m) ∧ m.previous = none ∧ Addressless m
  nil := by simp
  append := by
    intro a b ha hb m hm
    rcases List.mem_append.1 hm with hm | hm
    · exact ha m hm
    · exact hb m hm

theorem supplies_runApp (env : AEnv) (depth : Nat) (sp : Option Str) (w : Where) (raw : Arg) (m : Msg)
    (h : m ∈ evMsgs (runApp env depth sp w raw).ev) :
    (m.kind = .W_FUNC_DYNAMIC ∨ Supplies m) ∧ m.previous = none ∧ Addressless m := by
  have ha : Allows suppliesInv w env.toFEnv :=
    ⟨by intro m _ _ _ h2 m' h; simp at h; subst h; exact h2,
      keeps_get _ (by intro f m h; simp at h) (by
        intro m _ _ h2 m' h; simp at h; subst h; exact ⟨.inr h2.1, h2.2⟩),
      by intro f m h; simp at h⟩
  have hc : ∀ n, Keeps suppliesInv (countVar w n) := by
    intro n
    rw [countVar_eq]
    intro m hm
    by_cases hl : legalName n = true
    · simp [hl] at hm
    · simp [hl] at hm; subst hm; exact ⟨.inr (supplies_of_covers rfl), rfl, rfl⟩
  refine keeps_runApp ha hc depth sp raw m ?_
  unfold evMsgs at h
  obtain ⟨e, he, h'⟩ := List.mem_filterMap.1 h
  cases e <;> simp at h'
  exact h' ▸ he

theorem placed_runApp {w : Where} (hw : S w) (env : AEnv) (depth : Nat) (sp : Option Str) (raw : Arg) :
    LogAll (Placed env S) (runApp env depth sp w raw).toRes := by
  intro m hm
  refine ⟨.inr (supplies_runApp env depth sp w raw m hm).1, ?_, ?_, fun _ => ⟨depth, sp, raw, ?_⟩, (supplies_runApp env depth sp w raw m hm).2.2⟩
  · rw [(here_runApp env depth sp w raw m hm).1]
    exact hw
  · rw [(supplies_runApp env depth sp w raw m hm).2.1]
    simp
  · rw [(here_runApp env depth sp w raw m hm).1]
    exact hm

theorem placed_arrow {v : VarE} (hw : S v.at_) : LogAll (Placed E S) (expectArrow v) := by
  unfold expectArrow
  exact .ite (.pure _) (by placed hw)

theorem placed_prio {w : Where} (hw : S w) (p : Str) : LogAll (Placed E S) (readPrio w p) := by
  unfold readPrio
  refine .ite (.pure _) (.ite ?_ (.ite ?_ ?_))
  · split
    · exact .pure _
    · exact .raise _
  · exact .bind (by placed hw) fun _ => .pure _
  · exact .bind (by placed hw) fun _ => .pure _

theorem placed_label {w : Where} (hw : S w) (l : Option Str) : LogAll (Placed E S) (readLabel w l) := by
  unfold readLabel
  split
  · exact .pure _
  · exact .ite (.pure _) (.bind (.emit ⟨.inl rfl, hw, (fun _ h => nomatch h), fun h => (nomatch (show false = true from h)), rfl⟩) fun _ => .pure _)

theorem placed_readExten {v : VarE} (hw : S v.at_) (env : DEnv) (sp : Option Str) :
    LogAll (Placed env.toAEnv S) (readExten env sp v) := by
  unfold readExten
  refine .bind (.lift _) fun pr => ?_
  refine .bind (placed_prio hw _) fun prio => ?_
  cases prio with
  | none => exact .pure _
  | some prio =>
    refine .bind (placed_label hw _) fun label => ?_
    cases label with
    | none => exact .pure _
    | some label =>
      exact .bind (.lift _) fun pat => .bind (placed_runApp hw _ _ _ _) fun r => .pure _

theorem placed_fromVarset {v : VarE} (hw : S v.at_) (env : DEnv) (sp : Option Str) :
    LogAll (Placed env.toAEnv S) (fromVarset env sp v) := by
  unfold fromVarset
  refine .ite (.bind (placed_arrow hw) fun _ => placed_readExten hw _ _) ?_
  refine .ite (.bind (placed_arrow hw) fun _ => .pure _) ?_
  refine .ite (.bind (placed_arrow hw) fun _ => .bind (by placed hw) fun _ => .pure _) ?_
  refine .ite (.bind (placed_arrow hw) fun _ => .bind (by placed hw) fun _ => .pure _) ?_
  exact .bind (by placed hw) fun _ => .pure _

theorem placed_resolvePrio {e : ExtLine} (hw : S e.at_) (last : Option Nat) (c : DCtx) (raw : Str) (pat : Values) :
    LogAll (Placed E S) (resolvePrio last c raw pat e) := by
  unfold resolvePrio
  split
  · split
    · exact .bind (by placed hw) fun _ => .pure _
    · exact .bind (.lift _) fun _ => .bind (.ite (by placed hw) (.pure _)) fun _ => .pure _
  · split
    · exact .bind (by placed hw) fun _ => .pure _
    · have hb : ∀ v, LogAll (Placed E S) (Res.emit (badOrder e.at_ raw (.one v))) := fun v => by placed hw
      refine .ite ?_ (.pure _)
      split
      · exact .bind (hb _) fun _ => .pure _
      · exact .ite (.bind (hb _) fun _ => .pure _) (.pure _)

/-- The places a context remembers are in `S`. -/
structure CtxIn (S : Where → Prop) (c : DCtx) : Prop where
  at_ : S c.at_
  prios : ∀ kv ∈ c.cache, ∀ p ∈ kv.2.prios, S p.2
  labels : ∀ kv ∈ c.cache, ∀ p ∈ kv.2.labels, S p.2

theorem lookup_mem {α β : Type} [BEq α] [LawfulBEq α] {l : List (α × β)} {a : α} {b : β} (h : l.lookup a = some b) :
    (a, b) ∈ l := by
  induction l with
  | nil => simp at h
  | cons p l ih =>
    obtain ⟨x, y⟩ := p
    rw [List.lookup] at h
    split at h
    · rename_i hx
      simp only [Option.some.injEq] at h
      rw [h, eq_of_beq hx]
      simp
    · exact List.mem_cons_of_mem _ (ih h)

theorem placed_cacheCheck {w : Where} (hw : S w) {c : DCtx} (hc : CtxIn S c) (key : Str) (prio : Nat)
    (label : Option Str) :
    LogAll (Placed E S) (cacheCheck c key prio label w) ∧
    ∀ pc l ls, (cacheCheck c key prio label w).val = .ok (some (pc, l, ls)) →
      (∀ p ∈ pc.prios, S p.2) ∧ ∀ p ∈ pc.labels, S p.2 := by
  unfold cacheCheck
  split
  · split
    · refine ⟨.pure _, ?_⟩
      intro pc l ls h
      simp only [Res.pure_val, Except.ok.injEq, Option.some.injEq, Prod.mk.injEq] at h
      rw [← h.1]
      simp [hw]
    · refine ⟨.pure _, ?_⟩
      intro pc l ls h
      simp only [Res.pure_val, Except.ok.injEq, Option.some.injEq, Prod.mk.injEq] at h
      rw [← h.1]
      simp [hw]
  · rename_i pc hpc
    have hp := hc.prios _ (lookup_mem hpc)
    have hl := hc.labels _ (lookup_mem hpc)
    have hp' : ∀ p ∈ pc.prios ++ [(prio, w)], S p.2 := by
      intro p h
      rcases List.mem_append.1 h with h | h
      · exact hp p h
      · simp at h; subst h; exact hw
    split
    · rename_i prev hprev
      refine ⟨.bind (.emit ⟨.inr (.inr (supplies_of_covers rfl)), hw, ?_, fun h => (nomatch (show false = true from h)), rfl⟩) fun _ => .pure _, ?_⟩
      · intro x hx
        simp only [Option.some.injEq] at hx
        exact hx ▸ hp _ (lookup_mem hprev)
      · intro pc l ls h
        obtain ⟨_, _, h, _⟩ := Res.bind_ok h
        simp at h
    · dsimp only
      split
      · refine ⟨.pure _, ?_⟩
        intro pc l ls h
        simp only [Res.pure_val, Except.ok.injEq, Option.some.injEq, Prod.mk.injEq] at h
        rw [← h.1]
        exact ⟨hp', hl⟩
      · split
        · rename_i prev hprev
          refine ⟨.bind (.emit ⟨.inr (.inr (supplies_of_covers rfl)), hw, ?_, fun h => (nomatch (show false = true from h)), rfl⟩) fun _ => .pure _, ?_⟩
          · intro x hx
            simp only [Option.some.injEq] at hx
            exact hx ▸ hl _ (lookup_mem hprev)
          · intro pc l ls h
            obtain ⟨_, _, h, _⟩ := Res.bind_ok h
            simp only [Res.pure_val, Except.ok.injEq, Option.some.injEq, Prod.mk.injEq] at h
            rw [← h.1]
            exact ⟨hp', hl⟩
        · refine ⟨.pure _, ?_⟩
          intro pc l ls h
          simp only [Res.pure_val, Except.ok.injEq, Option.some.injEq, Prod.mk.injEq] at h
          rw [← h.1]
          refine ⟨hp', ?_⟩
          intro p h
          rcases List.mem_append.1 h with h | h
          · exact hl p h
          · simp at h; subst h; exact hw

theorem putCache_mem {key : Str} {p : PCache} {l : List (Str × PCache)} {kv : Str × PCache}
    (h : kv ∈ putCache key p l) : kv ∈ l ∨ kv = (key, p) := by
  induction l with
  | nil => exact .inr (by simpa [putCache] using h)
  | cons q l ih =>
    obtain ⟨k, q⟩ := q
    rw [putCache] at h
    split at h
    · rename_i hk
      rcases List.mem_cons.1 h with h | h
      · exact .inr (by rw [h, hk])
      · exact .inl (by simp [h])
    · rcases List.mem_cons.1 h with h | h
      · exact .inl (by simp [h])
      · rcases ih h with h | h
        · exact .inl (by simp [h])
        · exact .inr h

theorem completeDests_at {ctx ex : Str} {w : Where} {js : List Jump} {ds : List Dest}
    (h : completeDests ctx ex w js = .ok ds) : ∀ d ∈ ds, d.at_ = w := by
  induction js generalizing ds with
  | nil =>
    simp only [completeDests, Except.ok.injEq] at h
    subst h; simp
  | cons j js ih =>
    rw [completeDests] at h
    cases hd : completeDest ctx ex w j with
    | error e => simp [hd] at h
    | ok d =>
      simp only [hd] at h
      cases hr : completeDests ctx ex w js with
      | error e => simp [hr, Except.map] at h
      | ok ds' =>
        simp only [hr, Except.map, Except.ok.injEq] at h
        subst h
        intro x hx
        rcases List.mem_cons.1 hx with rfl | hx
        · unfold completeDest at hd
          dsimp only at hd
          split at hd <;> simp at hd
          rw [← hd]
        · exact ih hr x hx

/-- What `add` returns is in `S`. -/
structure AddedIn (S : Where → Prop) (a : Added) : Prop where
  ctx : CtxIn S a.ctx
  dests : ∀ d ∈ a.dests, S d.at_

theorem placed_storeStep {e : ExtLine} (hw : S e.at_) {c : DCtx} (hc : CtxIn S c) (raw : Str) (pat : Values)
    (prio : Nat) : LogAll (Placed E S) (storeStep c raw pat prio e) ∧
    ∀ a, (storeStep c raw pat prio e).val = .ok a → AddedIn S a := by
  unfold storeStep
  dsimp only
  have hc' : CtxIn S { c with lastPrio := some prio } := ⟨hc.at_, hc.prios, hc.labels⟩
  obtain ⟨h1, h2⟩ := placed_cacheCheck hw hc' (Pattern.canonical pat) prio e.label
  constructor
  · refine .bind h1 fun r => ?_
    cases r with
    | none => exact .pure _
    | some r => exact .bind (.lift _) fun _ => .pure _
  · intro a ha
    obtain ⟨r, h3, h4, _⟩ := Res.bind_ok ha
    cases r with
    | none =>
      simp only [Res.pure_val, Except.ok.injEq] at h4
      subst h4
      exact ⟨hc', by simp⟩
    | some r =>
      obtain ⟨pc, l, ls⟩ := r
      obtain ⟨q1, q2⟩ := h2 pc l ls h3
      dsimp only at h4
      obtain ⟨ds, h5, h6, _⟩ := Res.bind_ok h4
      simp only [Res.pure_val, Except.ok.injEq] at h6
      subst h6
      refine ⟨⟨hc.at_, ?_, ?_⟩, fun d hd => by rw [completeDests_at h5 d hd]; exact hw⟩
      · intro kv hkv
        rcases putCache_mem hkv with h | h
        · exact hc.prios kv h
        · subst h; exact q1
      · intro kv hkv
        rcases putCache_mem hkv with h | h
        · exact hc.labels kv h
        · subst h; exact q2

theorem placed_addExt {e : ExtLine} (hw : S e.at_) {c : DCtx} (hc : CtxIn S c) (last : Option Nat) :
    LogAll (Placed E S) (addExt last c e) ∧ ∀ a, (addExt last c e).val = .ok a → AddedIn S a := by
  have hc' : CtxIn S { c with sorted := none } := ⟨hc.at_, hc.prios, hc.labels⟩
  unfold addExt
  dsimp only
  split
  · refine ⟨.bind (by placed hw) fun _ => .pure _, ?_⟩
    intro a ha
    obtain ⟨_, _, h, _⟩ := Res.bind_ok ha
    simp only [Res.pure_val, Except.ok.injEq] at h
    subst h
    exact ⟨hc', by simp⟩
  · rename_i raw pat _
    constructor
    · refine .bind (placed_resolvePrio hw _ _ _ _) fun r => ?_
      cases r with
      | none => exact .pure _
      | some prio => exact (placed_storeStep hw hc' _ _ _).1
    · intro a ha
      obtain ⟨r, _, h, _⟩ := Res.bind_ok ha
      cases r with
      | none =>
        simp only [Res.pure_val, Except.ok.injEq] at h
        subst h
        exact ⟨hc', by simp⟩
      | some prio => exact (placed_storeStep (E := E) hw hc' _ _ _).2 a h

/-- The places a dialplan remembers are in `S`. -/
structure DpIn (S : Where → Prop) (dp : Dialplan) : Prop where
  general : ∀ g, dp.general = some g → S g.1.at_
  globals : ∀ g, dp.globals = some g → S g.1.at_
  contexts : ∀ c ∈ dp.contexts, CtxIn S c
  dests : ∀ d ∈ dp.dests, S d.at_

theorem DpIn.init : DpIn S .init := ⟨by simp [Dialplan.init], by simp [Dialplan.init], by simp [Dialplan.init], by simp [Dialplan.init]⟩

theorem putCtx_mem {c d : DCtx} {cs : List DCtx} (h : d ∈ putCtx c cs) : d ∈ cs ∨ d = c := by
  induction cs with
  | nil => simp [putCtx] at h
  | cons x cs ih =>
    rw [putCtx] at h
    split at h
    · rcases List.mem_cons.1 h with h | h
      · exact .inr h
      · exact .inl (by simp [h])
    · rcases List.mem_cons.1 h with h | h
      · exact .inl (by simp [h])
      · rcases ih h with h | h
        · exact .inl (by simp [h])
        · exact .inr h

theorem DpIn.put {dp : Dialplan} (h : DpIn S dp) {c : DCtx} (hc : CtxIn S c) :
    ∀ d ∈ putCtx c dp.contexts, CtxIn S d := by
  intro d hd
  rcases putCtx_mem hd with hd | hd
  · exact h.contexts d hd
  · exact hd ▸ hc

theorem placed_general {dp : Dialplan} (h : DpIn S dp) {c : CtxE} (hw : S c.at_) :
    LogAll (Placed E S) (addGeneral dp c) ∧ ∀ dp', (addGeneral dp c).val = .ok dp' → DpIn S dp' := by
  unfold addGeneral
  split
  · rename_i g hg
    refine ⟨.bind (.emit ⟨.inr (.inr (supplies_of_covers rfl)), hw, ?_, fun h => (nomatch (show false = true from h)), rfl⟩) fun _ => .raise _, ?_⟩
    · intro x hx
      simp only [Option.some.injEq] at hx
      exact hx ▸ h.general g hg
    · intro dp' hd
      obtain ⟨_, _, h, _⟩ := Res.bind_ok hd
      simp at h
  · refine ⟨.bind (.ite (by placed hw) (.pure _)) fun _ => .pure _, ?_⟩
    intro dp' hd
    obtain ⟨_, _, h', _⟩ := Res.bind_ok hd
    simp only [Res.pure_val, Except.ok.injEq] at h'
    subst h'
    refine ⟨?_, h.globals, h.contexts, h.dests⟩
    intro g hg
    simp only [Option.some.injEq] at hg
    exact hg ▸ hw

theorem placed_globals {dp : Dialplan} (h : DpIn S dp) {c : CtxE} (hw : S c.at_) :
    LogAll (Placed E S) (addGlobals dp c) ∧ ∀ r, (addGlobals dp c).val = .ok r → DpIn S r.1 := by
  unfold addGlobals
  split
  · rename_i g hg
    refine ⟨.bind (.emit ⟨.inr (.inr (supplies_of_covers rfl)), hw, ?_, fun h => (nomatch (show false = true from h)), rfl⟩) fun _ => .pure _, ?_⟩
    · intro x hx
      simp only [Option.some.injEq] at hx
      exact hx ▸ h.globals g hg
    · intro r hd
      obtain ⟨_, _, h', _⟩ := Res.bind_ok hd
      simp only [Res.pure_val, Except.ok.injEq] at h'
      subst h'
      exact h
  · refine ⟨.bind (.ite (by placed hw) (.pure _)) fun _ => .pure _, ?_⟩
    intro r hd
    obtain ⟨_, _, h', _⟩ := Res.bind_ok hd
    simp only [Res.pure_val, Except.ok.injEq] at h'
    subst h'
    refine ⟨h.general, ?_, h.contexts, h.dests⟩
    intro g hg
    simp only [Option.some.injEq] at hg
    exact hg ▸ hw

theorem get_in {dp : Dialplan} {n : Str} {c : DCtx} (h : dp.get n = some c) : c ∈ dp.contexts :=
  List.mem_of_find?_eq_some h

theorem in_onDialplanContext {dp dp' : Dialplan} (h : DpIn S dp) {c : CtxE} (hw : S c.at_)
    (hd : onDialplanContext dp c = .ok dp') : DpIn S dp' := by
  unfold onDialplanContext at hd
  split at hd
  · rename_i old ho
    have hold := h.contexts old (get_in ho)
    unfold updateCtx at hd
    split at hd
    · rename_i new hn
      split at hn
      · simp at hn
      · split at hn
        · simp at hn
        · simp only [Except.ok.injEq] at hn hd
          subst hn hd
          exact ⟨h.general, h.globals, h.put ⟨hw, hold.prios, hold.labels⟩, h.dests⟩
    · simp at hd
  · simp only [Except.ok.injEq] at hd
    subst hd
    refine ⟨h.general, h.globals, ?_, h.dests⟩
    intro d hd
    rcases List.mem_append.1 hd with hd | hd
    · exact h.contexts d hd
    · simp at hd; subst hd
      exact ⟨hw, by simp, by simp⟩

theorem placed_onContext {st : DState} (h : DpIn S st.dp) {c : CtxE} (hw : S c.at_) :
    LogAll (Placed E S) (onContext st c) ∧ ∀ st', (onContext st c).val = .ok st' → DpIn S st'.dp := by
  unfold onContext
  split
  · obtain ⟨h1, h2⟩ := placed_general h hw
    refine ⟨.bind h1 fun _ => .pure _, ?_⟩
    intro st' hs
    obtain ⟨dp, h3, h4, _⟩ := Res.bind_ok hs
    simp only [Res.pure_val, Except.ok.injEq] at h4
    subst h4
    exact h2 dp h3
  · split
    · obtain ⟨h1, h2⟩ := placed_globals h hw
      refine ⟨.bind h1 fun _ => .pure _, ?_⟩
      intro st' hs
      obtain ⟨dp, h3, h4, _⟩ := Res.bind_ok hs
      simp only [Res.pure_val, Except.ok.injEq] at h4
      subst h4
      exact h2 dp h3
    · refine ⟨.bind (.ite (.pure _) (by placed hw)) fun _ => .bind (.lift _) fun _ => .pure _, ?_⟩
      intro st' hs
      obtain ⟨_, _, hs, _⟩ := Res.bind_ok hs
      obtain ⟨dp, h3, h4, _⟩ := Res.bind_ok hs
      simp only [Res.pure_val, Except.ok.injEq] at h4
      subst h4
      exact in_onDialplanContext h hw h3

theorem placed_canon {e : ExtLine} (hw : S e.at_) : LogAll (Placed E S) (canonCheck e) := by
  unfold canonCheck
  split
  · exact .pure _
  · exact .ite (.pure _) (by placed hw)

/-- The extension read is about the line. -/
theorem fromVarset_at {env : DEnv} {sp sp' : Option Str} {v : VarE} {us : List Ev} {e : ExtLine}
    (h : (fromVarset env sp v).val = .ok (sp', us, .ext e)) : e.at_ = v.at_ := by
  have hf := fromVarset_cases h
  generalize (fromVarset env sp v).log = lg at hf
  generalize hr : (sp', us, DVar.ext e) = r at hf
  cases hf with
  | line r ms hk h =>
    cases h with
    | hint => cases hr
    | badPrio => cases hr
    | ext => cases hr; rfl
  | incl => cases hr
  | other => cases hr

theorem placed_onVarset {env : DEnv} {st : DState} (h : DpIn S st.dp) {v : VarE} (hw : S v.at_) :
    LogAll (Placed env.toAEnv S) (onVarset env st v) ∧ ∀ st', (onVarset env st v).val = .ok st' → DpIn S st'.dp := by
  have hadd : ∀ o : Option (CtxE × List VarE), (∀ g, o = some g → S g.1.at_) →
      ∀ g, o.map (addVar v) = some g → S g.1.at_ := by
    intro o ho g hg
    cases o with
    | none => simp at hg
    | some x =>
      simp only [Option.map_some, Option.some.injEq] at hg
      subst hg
      exact ho x rfl
  unfold onVarset
  split
  · refine ⟨.bind (by placed hw) fun _ => .pure _, ?_⟩
    intro st' hs
    obtain ⟨_, _, h', _⟩ := Res.bind_ok hs
    simp only [Res.pure_val, Except.ok.injEq] at h'
    subst h'
    exact h
  · refine ⟨.pure _, ?_⟩
    intro st' hs
    simp only [Res.pure_val, Except.ok.injEq] at hs
    subst hs
    exact ⟨hadd _ h.general, h.globals, h.contexts, h.dests⟩
  · refine ⟨.pure _, ?_⟩
    intro st' hs
    simp only [Res.pure_val, Except.ok.injEq] at hs
    subst hs
    exact ⟨h.general, hadd _ h.globals, h.contexts, h.dests⟩
  · refine ⟨.pure _, ?_⟩
    intro st' hs
    simp only [Res.pure_val, Except.ok.injEq] at hs
    subst hs
    exact h
  · split
    · exact ⟨.raise _, by simp⟩
    · rename_i n c hc
      have hcin := h.contexts c (get_in hc)
      have hdv : ∀ dv, (∀ e, dv = .ext e → e.at_ = v.at_) → LogAll (Placed env.toAEnv S) (onDVar st.dp c dv) ∧
          ∀ dp, (onDVar st.dp c dv).val = .ok dp → DpIn S dp := by
        intro dv hdv
        cases dv with
        | nothing =>
          refine ⟨.pure _, ?_⟩
          intro dp hd
          simp only [onDVar, Res.pure_val, Except.ok.injEq] at hd
          exact hd ▸ h
        | include_ name w =>
          refine ⟨.pure _, ?_⟩
          intro dp hd
          simp only [onDVar, Res.pure_val, Except.ok.injEq] at hd
          subst hd
          exact ⟨h.general, h.globals, h.put ⟨hcin.at_, hcin.prios, hcin.labels⟩, h.dests⟩
        | ext e =>
          have he : S e.at_ := by rw [hdv e rfl]; exact hw
          obtain ⟨a1, a2⟩ := placed_addExt he hcin st.dp.lastPrio
          refine ⟨.bind (placed_canon he) fun _ => .bind a1 fun _ => .pure _, ?_⟩
          intro dp hd
          simp only [onDVar] at hd
          obtain ⟨_, _, hd, _⟩ := Res.bind_ok hd
          obtain ⟨a, h1, h2, _⟩ := Res.bind_ok hd
          simp only [Res.pure_val, Except.ok.injEq] at h2
          subst h2
          refine ⟨h.general, h.globals, h.put (a2 a h1).ctx, ?_⟩
          intro d hd
          rcases List.mem_append.1 hd with hd | hd
          · exact h.dests d hd
          · exact (a2 a h1).dests d hd
      have hat : ∀ r, (fromVarset env st.sp v).val = .ok r → ∀ e, r.2.2 = .ext e → e.at_ = v.at_ := by
        rintro ⟨sp', us, dv⟩ hr e he
        simp only at he
        subst he
        exact fromVarset_at hr
      constructor
      · refine LogAll.bind_ok (placed_fromVarset hw _ _) fun r hr => ?_
        exact .bind (hdv _ (hat r hr)).1 fun _ => .pure _
      · intro st' hs
        obtain ⟨r, h1, h2, _⟩ := Res.bind_ok hs
        obtain ⟨dp, h3, h4, _⟩ := Res.bind_ok h2
        simp only [Res.pure_val, Except.ok.injEq] at h4
        subst h4
        exact (hdv _ (hat r h1)).2 dp h3

theorem placed_step (env : DEnv) :
    Consumes S (Placed env.toAEnv S) (fun st : DState => DpIn S st.dp) (dialplanStep env) := by
  intro st e hst he
  cases e with
  | ctx c => exact placed_onContext hst he
  | var v => exact placed_onVarset hst he
  | empty c w =>
    refine ⟨.pure _, ?_⟩
    intro t ht
    simp only [dialplanStep, Res.pure_val, Except.ok.injEq] at ht
    subst ht
    exact hst

theorem prioText_some {d : Dest} {l : Str} (h : prioText d.prio = some l) (x : Str) :
    destArgs d x = [(c! "context", .one d.context), (c! "exten", .one d.exten), (x, .one (.str l))] := by
  unfold prioText at h
  split at h
  · rename_i hp
    simp only [Option.some.injEq] at h
    subst h
    simp [destArgs, hp]
  · cases h

theorem placed_walkDest {dp : Dialplan} {d : Dest} (hd : S d.at_) (depth : Nat) :
    LogAll (Placed E S) (walkDest dp depth d) := by
  unfold walkDest
  refine .ite ?_ ?_
  · split
    · rename_i l hl
      rw [prioText_some hl]
      exact .ite (.pure _) (by placed hd)
    · exact .pure _
  · split
    · placed hd
    · refine .ite ?_ ?_
      · split
        · rename_i l hl
          rw [prioText_some hl]
          exact .ite (.pure _) (by placed hd)
        · exact .pure _
      · split
        · refine .bind (.lift _) fun r => ?_
          cases r with
          | none => placed hd
          | some s => exact .pure _
        · exact .raise _

theorem placed_walkDests {dp : Dialplan} {ds : List Dest} (hd : ∀ d ∈ ds, S d.at_) (depth : Nat) :
    LogAll (Placed E S) (walkDests dp depth ds) := by
  induction ds with
  | nil => exact .pure _
  | cons d ds ih =>
    exact .bind (placed_walkDest (hd d (by simp)) depth) fun _ => ih fun d h => hd d (by simp [h])

/-- The report that a section is missing is about line 0 of a file with a line of `S`. -/
def AtTop (S : Where → Prop) (m : Msg) : Prop :=
  (m.kind = .H_DP_GENERAL_MISPLACED ∨ m.kind = .H_DP_GLOBALS_MISPLACED) ∧ Supplies m ∧ m.previous = none ∧
    m.at_.lineno = 0 ∧ m.at_.line = [] ∧ ∃ w, S w ∧ w.filename = m.at_.filename

theorem top_onComplete {dp : Dialplan} (h : DpIn S dp) : LogAll (AtTop S) (onComplete dp) := by
  unfold onComplete
  split
  · exact .pure _
  · rename_i c cs hc
    have hS := (h.contexts c (by simp [hc])).at_
    refine .bind (.ite (.emit ?_) (.pure _)) fun _ => .ite (.emit ?_) (.pure _)
    · exact ⟨.inl rfl, supplies_of_covers rfl, rfl, rfl, rfl, _, hS, rfl⟩
    · exact ⟨.inr rfl, supplies_of_covers rfl, rfl, rfl, rfl, _, hS, rfl⟩

theorem LogAll.mono {α : Type} {P Q : Msg → Prop} {x : Res α} (h : LogAll P x) (hpq : ∀ m, P m → Q m) :
    LogAll Q x := fun m hm => hpq m (h m hm)

theorem lineOf_frame {fs : FS} {path : Str} {content : Bytes} {q : Str} {c : Bytes}
    (h : FileOf fs path content q c) : FrameIn (LineOf fs path content) (openFrame q c) := by
  intro i l hl
  exact ⟨c, h, i, by simp [openFrame], hl⟩

/-- Every message of a check, even one that ends with an exception. -/
theorem placed_check (fs : FS) (env : DEnv) (sp : Option Str) (n : Nat) (path : Str) (content : Bytes) :
    LogAll (fun m => Placed env.toAEnv (LineOf fs path content) m ∨ AtTop (LineOf fs path content) m)
      (checkDialplan fs env sp n path content) := by
  have hst : PipeIn (LineOf fs path content) (⟨[openFrame path content], [], [], DState.init sp⟩ : PState DState) :=
    ⟨by simpa using lineOf_frame (.inl ⟨rfl, rfl⟩), by simp [FfIn], by simp [VswIn]⟩
  obtain ⟨h1, h2⟩ := pipeRun_consumes (fs := fs) (fun q c h => lineOf_frame (.inr h)) (fun _ h => h.placed)
    (placed_step env) n hst DpIn.init
  unfold checkDialplan
  refine LogAll.bind_ok (h1.mono fun _ => .inl) fun r hr => ?_
  cases r with
  | none => exact .pure _
  | some st =>
    have hin := h2 st hr
    exact .bind ((top_onComplete hin).mono fun _ => .inr) fun _ =>
      .bind ((placed_walkDests hin.dests _).mono fun _ => .inl) fun _ => .pure _

/-- With all values, only the text of a value can be a problem. -/
theorem render_error {m : Msg} {e : Exc} (h : Supplies m) (he : m.render = .error e) :
    ∃ name v, (name, .one v) ∈ m.args ∧ v.toStr = .error e := by
  have key : ∀ ps : List Piece, (∀ n ∈ placeholders ps, ∃ a, (n, a) ∈ m.args) → renderAll m.args ps = .error e →
      ∃ name v, (name, Arg.one v) ∈ m.args ∧ v.toStr = .error e := by
    intro ps
    induction ps with
    | nil => simp [renderAll]
    | cons p ps ih =>
      intro hs hr
      rw [renderAll] at hr
      have hs' : ∀ n ∈ placeholders ps, ∃ a, (n, a) ∈ m.args := by
        intro n hn
        apply hs
        cases p <;> simp [placeholders, hn]
      cases hp : renderPiece m.args p with
      | ok r =>
        simp only [hp] at hr
        cases hq : renderAll m.args ps with
        | ok r => simp [hq, Except.map] at hr
        | error e' =>
          simp only [hq, Except.map, Except.error.injEq] at hr
          subst hr
          exact ih hs' hq
      | error e' =>
        simp only [hp, Except.error.injEq] at hr
        subst hr
        cases p with
        | lit s => simp [renderPiece] at hp
        | field name r =>
          obtain ⟨a, ha⟩ := hs name (by simp [placeholders])
          simp only [renderPiece] at hp
          cases hl : m.args.lookup name with
          | none =>
            rw [List.lookup_eq_none_iff] at hl
            simpa using hl (name, a) ha
          | some b =>
            simp only [hl] at hp
            split at hp
            · simp at hp
            · cases b with
              | many vs => simp at hp
              | one v =>
                refine ⟨name, v, lookup_mem hl, ?_⟩
                cases hv : v.toStr with
                | ok s => simp [hv, Except.map] at hp
                | error e'' => simpa [hv, Except.map] using hp
  exact key _ h he

end

end ALint
