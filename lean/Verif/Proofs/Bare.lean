import Verif.Proofs.Moved
import Verif.Proofs.Located

/-!
# The text of a line is only passed on (proofs)

Replacing all places by others (`φ`; for example leaving the text of the line out, or changing line
numbers) commutes with everything behind the reading of the lines.
-/

namespace ALint.Proofs
open ALint
open ALint.Pattern (Values)

/-! ## Other places -/

section
variable (φ : Where → Where)

def reM (m : Msg) : Msg := ⟨m.kind, φ m.at_, m.args, m.previous.map φ⟩
def reEv : Ev → Ev
  | .msg m => .msg ((reM φ) m)
  | .var n w => .var n (φ w)
  | .func s => .func s
  | .app s => .app s
def reC (c : CtxE) : CtxE := ⟨c.name, c.templates, c.comment, φ c.at_⟩
def reV (v : VarE) : VarE := ⟨v.key, v.value, v.arrow, v.comment, φ v.at_⟩
def reE : Elem → Elem
  | .ctx c => .ctx ((reC φ) c)
  | .var v => .var ((reV φ) v)
  | .empty c w => .empty c (φ w)
def reStep (s : Step) : Step := ⟨s.raw, s.pat, s.prio, s.label, s.app, s.comment, φ s.at_⟩
def reAt {α : Type} (p : α × Where) : α × Where := (p.1, φ p.2)
def reCache (p : PCache) : PCache := ⟨p.labels.map (reAt φ), p.prios.map (reAt φ)⟩
def reEntry (p : Str × PCache) : Str × PCache := (p.1, (reCache φ) p.2)
def reCtx (c : DCtx) : DCtx :=
  ⟨c.name, φ c.at_, c.steps.map (reStep φ), c.includes.map (reAt φ), c.lastPrio, c.cache.map (reEntry φ), c.sorted⟩
def reDest (d : Dest) : Dest := ⟨d.context, d.exten, d.prio, φ d.at_⟩
def rePart (p : CtxE × List VarE) : CtxE × List VarE := ((reC φ) p.1, p.2.map (reV φ))
def reDp (dp : Dialplan) : Dialplan :=
  ⟨dp.general.map (rePart φ), dp.globals.map (rePart φ), dp.contexts.map (reCtx φ), dp.lastPrio, dp.dests.map (reDest φ), dp.allLabels⟩
def reSt (s : DState) : DState := ⟨(reDp φ) s.dp, s.cur, s.sp, s.uses.map (reEv φ)⟩
def reExt (e : ExtLine) : ExtLine := ⟨e.pat, e.prio, e.label, e.app, e.jumps, e.comment, φ e.at_⟩
def reDVar : DVar → DVar
  | .nothing => .nothing
  | .ext e => .ext ((reExt φ) e)
  | .include_ n w => .include_ n (φ w)
def reRead (r : Option Str × List Ev × DVar) : Option Str × List Ev × DVar := (r.1, r.2.1.map (reEv φ), (reDVar φ) r.2.2)
def reAdded (a : Added) : Added := ⟨(reCtx φ) a.ctx, a.last, a.labels, a.dests.map (reDest φ)⟩

/-- `y` is what `x` comes to without the text of the lines. -/
def Bares {α : Type} (g : α → α) (x y : Res α) : Prop := y = ⟨x.log.map (reM φ), x.val.map g⟩

variable {φ}

namespace Bares
variable {α β : Type} {g : α → α} {h : β → β}

theorem pure {a b : α} (e : b = g a) : Bares φ g (Res.pure a) (Res.pure b) := by subst e; rfl
theorem unit {g : Unit → Unit} : Bares φ g (Res.pure ()) (Res.pure ()) := rfl
theorem raise (e : Exc) : Bares φ g (Res.raise e) (Res.raise e) := rfl
theorem lift {x y : Except Exc α} (e : y = x.map g) : Bares φ g (Res.lift x) (Res.lift y) := by subst e; rfl

theorem bind {x y : Res α} {f k : α → Res β} (hx : Bares φ g x y) (hf : ∀ a, Bares φ h (f a) (k (g a))) :
    Bares φ h (Res.bind x f) (Res.bind y k) := by
  unfold Bares at hx
  subst hx
  unfold Bares Res.bind
  dsimp only
  cases hv : x.val with
  | error e => rfl
  | ok a =>
    have := hf a
    unfold Bares at this
    simp [Except.map, this]

theorem emit {m m' : Msg} (e : m' = (reM φ) m) : Bares φ id (Res.emit m) (Res.emit m') := by
  subst e
  unfold Bares Res.emit
  have : ((reM φ) m).render = m.render := rfl
  rw [this]
  cases m.render <;> rfl

theorem ite {c : Prop} [Decidable c] {x y x' y' : Res α} (hx : Bares φ g x x') (hy : Bares φ g y y') :
    Bares φ g (if c then x else y) (if c then x' else y') := by split <;> assumption

theorem wrap {x y : Res α} (hx : Bares φ g x y) : Bares φ g (wrapExc x) (wrapExc y) := by
  unfold Bares at hx
  subst hx
  unfold Bares wrapExc
  cases x.val <;> rfl

end Bares

theorem except_map_id {α : Type} (x : Except Exc α) : x.map id = x := by cases x <;> rfl

/-! ## Applications -/

theorem runApp_bare (env : AEnv) (n : Nat) (sp : Option Str) (w : Where) (a : Arg) :
    runApp env n sp (φ w) a = ⟨(runApp env n sp w a).ev.map (reEv φ), (runApp env n sp w a).val⟩ := by
  have h1 : runApp env n sp (φ w) a = (runApp env n sp w a).moved (φ w) := moved_runApp w (φ w) env n sp a
  have h2 : runApp env n sp w a = (runApp env n sp w a).moved w := moved_runApp w w env n sp a
  have hm := supplies_runApp env n sp w a
  rw [h1, Tr.moved, Tr.mk.injEq]
  refine ⟨?_, rfl⟩
  have h3 : (runApp env n sp w a).ev = (runApp env n sp w a).ev.map (Ev.moved w) := congrArg Tr.ev h2
  generalize (runApp env n sp w a).ev = evs at h3 hm
  have h4 : ∀ e ∈ evs, Ev.moved w e = e := by
    clear hm
    induction evs with
    | nil => intro e he; cases he
    | cons e es ih =>
      simp only [List.map_cons, List.cons.injEq] at h3
      intro x hx
      rcases List.mem_cons.1 hx with rfl | hx
      · exact h3.1.symm
      · exact ih h3.2 x hx
  refine List.map_congr_left fun e he => ?_
  have h5 := h4 e he
  cases e with
  | msg m =>
    have h6 := (hm m (List.mem_filterMap.2 ⟨_, he, rfl⟩)).2.1
    have h7 : w = m.at_ := by simpa [Ev.moved] using congrArg (fun e => match e with | .msg m => m.at_ | _ => w) h5
    simp [Ev.moved, reEv, reM, h6, h7]
  | var n v =>
    simp only [Ev.moved, Ev.var.injEq, true_and] at h5
    simp [Ev.moved, reEv, h5]
  | func s => rfl
  | app s => rfl

theorem evMsgs_bare (evs : List Ev) : evMsgs (evs.map (reEv φ)) = (evMsgs evs).map (reM φ) := by
  induction evs with
  | nil => rfl
  | cons e es ih =>
    unfold evMsgs at ih ⊢
    cases e <;> simp [reEv, ih]

theorem evUses_bare (evs : List Ev) : evUses (evs.map (reEv φ)) = (evUses evs).map (reEv φ) := by
  induction evs with
  | nil => rfl
  | cons e es ih =>
    unfold evUses at ih ⊢
    cases e <;> simp [reEv, ih]

theorem toRes_bare (env : AEnv) (n : Nat) (sp : Option Str) (w : Where) (a : Arg) :
    Bares φ (fun r => (r.1, r.2.map (reEv φ))) (runApp env n sp w a).toRes (runApp env n sp (φ w) a).toRes := by
  rw [runApp_bare]
  unfold Bares Tr.toRes
  dsimp only
  rw [evMsgs_bare, evUses_bare]
  cases (runApp env n sp w a).val <;> rfl

/-! ## Lines of a dialplan -/

theorem arrow_bare (v : VarE) : Bares φ id (expectArrow v) (expectArrow ((reV φ) v)) := by
  unfold expectArrow
  exact .ite .unit (.emit rfl)

theorem splitExten_bare (v : VarE) : splitExten ((reV φ) v) = splitExten v := rfl

theorem readPrio_bare (w : Where) (s : Str) : Bares φ id (readPrio w s) (readPrio (φ w) s) := by
  unfold readPrio
  refine .ite (.pure rfl) (.ite ?_ (.ite (.bind (.emit rfl) fun _ => .pure rfl) (.bind (.emit rfl) fun _ => .pure rfl)))
  split
  · exact .pure rfl
  · exact .raise _

theorem readLabel_bare (w : Where) (l : Option Str) : Bares φ id (readLabel w l) (readLabel (φ w) l) := by
  unfold readLabel
  split
  · exact .pure rfl
  · exact .ite (.pure rfl) (.bind (.emit rfl) fun _ => .pure rfl)

theorem readExten_bare (env : DEnv) (sp : Option Str) (v : VarE) :
    Bares φ (reRead φ) (readExten env sp v) (readExten env sp ((reV φ) v)) := by
  unfold readExten
  rw [splitExten_bare]
  refine .bind (.lift (except_map_id _).symm) fun pr => ?_
  refine .bind (readPrio_bare _ _) fun prio => ?_
  cases prio with
  | none => exact .pure rfl
  | some prio =>
    refine .bind (readLabel_bare _ _) fun label => ?_
    cases label with
    | none => exact .pure rfl
    | some label =>
      refine .bind (.lift (except_map_id _).symm) fun pat => ?_
      exact .bind (toRes_bare _ _ _ _ _) fun r => .pure rfl

theorem fromVarset_bare (env : DEnv) (sp : Option Str) (v : VarE) :
    Bares φ (reRead φ) (fromVarset env sp v) (fromVarset env sp ((reV φ) v)) := by
  unfold fromVarset
  refine .ite (.bind (arrow_bare v) fun _ => readExten_bare env sp v) (.ite ?_ (.ite ?_ (.ite ?_ ?_)))
  · exact .bind (arrow_bare v) fun _ => .pure rfl
  · exact .bind (arrow_bare v) fun _ => .bind (.emit rfl) fun _ => .pure rfl
  · exact .bind (arrow_bare v) fun _ => .bind (.emit rfl) fun _ => .pure rfl
  · exact .bind (.emit rfl) fun _ => .pure rfl

/-! ## Contexts -/

theorem filter_bareStep (p : Values) (ss : List Step) :
    (ss.map (reStep φ)).filter (·.pat = p) = (ss.filter (·.pat = p)).map (reStep φ) := by
  rw [List.filter_map]; rfl

theorem lookup_bareAt {α : Type} [BEq α] (k : α) (l : List (α × Where)) : (l.map (reAt φ)).lookup k = (l.lookup k).map φ := by
  induction l with
  | nil => rfl
  | cons a l ih =>
    obtain ⟨a, w⟩ := a
    simp only [List.map_cons, reAt, List.lookup_cons]
    split
    · rfl
    · exact ih

theorem lookup_bareEntry (k : Str) (l : List (Str × PCache)) : (l.map (reEntry φ)).lookup k = (l.lookup k).map (reCache φ) := by
  induction l with
  | nil => rfl
  | cons a l ih =>
    obtain ⟨a, w⟩ := a
    simp only [List.map_cons, reEntry, List.lookup_cons]
    split
    · rfl
    · exact ih

theorem putCache_bare (k : Str) (p : PCache) (l : List (Str × PCache)) :
    putCache k ((reCache φ) p) (l.map (reEntry φ)) = (putCache k p l).map (reEntry φ) := by
  induction l with
  | nil => rfl
  | cons a l ih =>
    obtain ⟨a, q⟩ := a
    simp only [List.map_cons, reEntry, putCache]
    split
    · simp [reEntry]
    · simp only [List.map_cons, reEntry, List.cons.injEq, true_and]
      exact ih

theorem outOfOrder_bare (c : DCtx) (p : Values) : outOfOrder ((reCtx φ) c) p = outOfOrder c p := by
  unfold outOfOrder reCtx
  dsimp only
  split
  · rfl
  · rw [List.getLast?_map]
    cases c.steps.getLast? <;> rfl

theorem lastOf_bare (ss : List Step) (p : Values) : lastOf (ss.map (reStep φ)) p = (lastOf ss p).map (reStep φ) := by
  unfold lastOf
  rw [filter_bareStep, List.getLast?_map]

theorem resolvePrio_bare (last : Option Nat) (c : DCtx) (raw : Str) (pat : Values) (e : ExtLine) :
    Bares φ id (resolvePrio last c raw pat e) (resolvePrio last ((reCtx φ) c) raw pat ((reExt φ) e)) := by
  unfold resolvePrio
  have hs : ((reCtx φ) c).steps = c.steps.map (reStep φ) := rfl
  have hp : ((reExt φ) e).prio = e.prio := rfl
  rw [hs, hp, outOfOrder_bare, lastOf_bare]
  cases e.prio with
  | none =>
    dsimp only
    refine .ite (.bind (.emit rfl) fun _ => .pure rfl) ?_
    refine .bind (.lift (except_map_id _).symm) fun bad => ?_
    exact .bind (g := id) (.ite (.emit rfl) .unit) fun _ => .pure rfl
  | some n =>
    dsimp only
    refine .ite (.bind (.emit rfl) fun _ => .pure rfl) (.ite ?_ (.pure rfl))
    cases lastOf c.steps pat with
    | none => exact .bind (.emit rfl) fun _ => .pure rfl
    | some prev => exact .ite (.bind (.emit rfl) fun _ => .pure rfl) (.pure rfl)

theorem completeDest_bare (ctx ex : Str) (w : Where) (j : Jump) :
    completeDest ctx ex (φ w) j = (completeDest ctx ex w j).map (reDest φ) := by
  unfold completeDest
  dsimp only
  split <;> rfl

theorem completeDests_bare (ctx ex : Str) (w : Where) (js : List Jump) :
    completeDests ctx ex (φ w) js = (completeDests ctx ex w js).map (·.map (reDest φ)) := by
  induction js with
  | nil => rfl
  | cons j js ih =>
    simp only [completeDests, completeDest_bare, ih]
    cases completeDest ctx ex w j with
    | error e => rfl
    | ok d => cases completeDests ctx ex w js <;> rfl

def reChecked (φ : Where → Where) (r : Option (PCache × Option Str × List Str)) : Option (PCache × Option Str × List Str) :=
  r.map fun x => ((reCache φ) x.1, x.2)

theorem cacheCheck_bare (c : DCtx) (key : Str) (prio : Nat) (label : Option Str) (w : Where) :
    Bares φ (reChecked φ) (cacheCheck c key prio label w) (cacheCheck ((reCtx φ) c) key prio label (φ w)) := by
  unfold cacheCheck
  have hc : ((reCtx φ) c).cache = c.cache.map (reEntry φ) := rfl
  rw [hc, lookup_bareEntry]
  cases c.cache.lookup key with
  | none =>
    dsimp only [Option.map]
    cases realLabel label <;> exact .pure rfl
  | some pc =>
    dsimp only [Option.map, reCache]
    rw [lookup_bareAt]
    cases pc.prios.lookup prio with
    | some prev => exact .bind (.emit rfl) fun _ => .pure rfl
    | none =>
      dsimp only [Option.map]
      cases realLabel label with
      | none => exact .pure (by simp [reChecked, reCache, reAt])
      | some l =>
        dsimp only
        rw [lookup_bareAt]
        cases pc.labels.lookup l with
        | some prev => exact .bind (.emit rfl) fun _ => .pure (by simp [reChecked, reCache, reAt])
        | none => exact .pure (by simp [reChecked, reCache, reAt])

theorem storeStep_bare (c : DCtx) (raw : Str) (pat : Values) (prio : Nat) (e : ExtLine) :
    Bares φ (reAdded φ) (storeStep c raw pat prio e) (storeStep ((reCtx φ) c) raw pat prio ((reExt φ) e)) := by
  unfold storeStep
  dsimp only
  refine .bind (cacheCheck_bare { c with lastPrio := some prio } _ prio e.label e.at_) fun r => ?_
  cases r with
  | none => exact .pure rfl
  | some r =>
    obtain ⟨pc, label, labels⟩ := r
    refine .bind (.lift (completeDests_bare _ _ _ _)) fun ds => .pure ?_
    simp only [reAdded, reCtx, List.map_append, Added.mk.injEq, DCtx.mk.injEq, true_and, and_true]
    exact ⟨rfl, putCache_bare _ _ _⟩

theorem resolvePat_bare (c : DCtx) (e : ExtLine) : resolvePat ((reCtx φ) c) ((reExt φ) e) = resolvePat c e := by
  unfold resolvePat reCtx reExt
  dsimp only
  rw [List.getLast?_map]
  cases e.pat with
  | some p => rfl
  | none => cases c.steps.getLast? <;> rfl

theorem addExt_bare (last : Option Nat) (c : DCtx) (e : ExtLine) :
    Bares φ (reAdded φ) (addExt last c e) (addExt last ((reCtx φ) c) ((reExt φ) e)) := by
  unfold addExt
  dsimp only
  have hc : { (reCtx φ) c with sorted := none } = (reCtx φ) { c with sorted := none } := rfl
  rw [hc, resolvePat_bare]
  cases resolvePat { c with sorted := none } e with
  | none => exact .bind (.emit rfl) fun _ => .pure rfl
  | some p =>
    obtain ⟨raw, pat⟩ := p
    refine .bind (resolvePrio_bare _ _ _ _ _) fun r => ?_
    cases r with
    | none => exact .pure rfl
    | some prio => exact storeStep_bare _ _ _ _ _

theorem putCtx_bare (c : DCtx) (l : List DCtx) : putCtx ((reCtx φ) c) (l.map (reCtx φ)) = (putCtx c l).map (reCtx φ) := by
  induction l with
  | nil => rfl
  | cons d l ih =>
    have hd : ((reCtx φ) d).name = d.name := rfl
    have hc : ((reCtx φ) c).name = c.name := rfl
    simp only [List.map_cons, putCtx, hd, hc, ih]
    split <;> rfl

theorem get_bare (dp : Dialplan) (n : Str) : ((reDp φ) dp).get n = (dp.get n).map (reCtx φ) := by
  unfold Dialplan.get reDp
  dsimp only
  rw [List.find?_map]
  rfl

/-! ## The aggregator -/

theorem addGeneral_bare (dp : Dialplan) (c : CtxE) : Bares φ (reDp φ) (addGeneral dp c) (addGeneral ((reDp φ) dp) ((reC φ) c)) := by
  unfold addGeneral
  have h1 : ((reDp φ) dp).general = dp.general.map (rePart φ) := rfl
  have h2 : ((reDp φ) dp).globals.isSome = dp.globals.isSome := by simp [reDp]
  have h3 : ((reDp φ) dp).contexts.isEmpty = dp.contexts.isEmpty := by simp [reDp]
  rw [h1, h2, h3]
  cases dp.general with
  | some g => exact .bind (.emit rfl) fun _ => .raise _
  | none => exact .bind (g := id) (.ite (.emit rfl) .unit) fun _ => .pure rfl

theorem addGlobals_bare (dp : Dialplan) (c : CtxE) :
    Bares φ (fun r => ((reDp φ) r.1, r.2)) (addGlobals dp c) (addGlobals ((reDp φ) dp) ((reC φ) c)) := by
  unfold addGlobals
  have h1 : ((reDp φ) dp).globals = dp.globals.map (rePart φ) := rfl
  have h2 : ((reDp φ) dp).general.isNone = dp.general.isNone := by simp [reDp]
  have h3 : ((reDp φ) dp).contexts.isEmpty = dp.contexts.isEmpty := by simp [reDp]
  rw [h1, h2, h3]
  cases dp.globals with
  | some g => exact .bind (.emit rfl) fun _ => .pure rfl
  | none => exact .bind (g := id) (.ite (.emit rfl) .unit) fun _ => .pure rfl

theorem updateCtx_bare (c : DCtx) (o : CtxE) : updateCtx ((reCtx φ) c) ((reC φ) o) = (updateCtx c o).map (reCtx φ) := by
  unfold updateCtx reC
  dsimp only
  split
  · rfl
  · split <;> rfl

theorem onDialplanContext_bare (dp : Dialplan) (c : CtxE) :
    onDialplanContext ((reDp φ) dp) ((reC φ) c) = (onDialplanContext dp c).map (reDp φ) := by
  unfold onDialplanContext
  have hn : ((reC φ) c).name = c.name := rfl
  rw [hn, get_bare]
  cases dp.get c.name with
  | some old =>
    dsimp only [Option.map]
    rw [updateCtx_bare]
    cases updateCtx old c with
    | error e => rfl
    | ok new =>
      dsimp only [Except.map]
      congr 1
      unfold reDp
      simp only [putCtx_bare]
  | none =>
    dsimp only [Option.map, Except.map]
    congr 1
    unfold reDp
    simp only [List.map_append]
    rfl

theorem onContext_bare (st : DState) (c : CtxE) : Bares φ (reSt φ) (onContext st c) (onContext ((reSt φ) st) ((reC φ) c)) := by
  unfold onContext
  refine .ite ?_ (.ite ?_ ?_)
  · exact .bind (addGeneral_bare st.dp c) fun dp => .pure rfl
  · exact .bind (addGlobals_bare st.dp c) fun r => .pure rfl
  · refine .bind (g := id) (.ite .unit (.emit rfl)) fun _ => ?_
    exact .bind (.lift (onDialplanContext_bare st.dp c)) fun dp => .pure rfl

theorem canonCheck_bare (e : ExtLine) : Bares φ id (canonCheck e) (canonCheck ((reExt φ) e)) := by
  unfold canonCheck
  have : ((reExt φ) e).pat = e.pat := rfl
  rw [this]
  cases e.pat with
  | none => exact .unit
  | some p => exact .ite .unit (.emit rfl)

theorem withAdded_bare (dp : Dialplan) (a : Added) : ((reDp φ) dp).withAdded ((reAdded φ) a) = (reDp φ) (dp.withAdded a) := by
  unfold Dialplan.withAdded reDp reAdded
  simp only [putCtx_bare, List.map_append]

theorem onDVar_bare (dp : Dialplan) (c : DCtx) (d : DVar) :
    Bares φ (reDp φ) (onDVar dp c d) (onDVar ((reDp φ) dp) ((reCtx φ) c) ((reDVar φ) d)) := by
  cases d with
  | nothing => exact .pure rfl
  | ext e =>
    refine .bind (canonCheck_bare e) fun _ => ?_
    exact .bind (addExt_bare dp.lastPrio c e) fun a => .pure (withAdded_bare dp a)
  | include_ n w =>
    refine .pure ?_
    have h : (reCtx φ) { c with includes := c.includes ++ [(n, w)] } =
        { (reCtx φ) c with includes := ((reCtx φ) c).includes ++ [(n, φ w)] } := by
      simp [reCtx, reAt]
    unfold reDp
    simp only [← putCtx_bare, h]

theorem onVarset_bare (env : DEnv) (st : DState) (v : VarE) :
    Bares φ (reSt φ) (onVarset env st v) (onVarset env ((reSt φ) st) ((reV φ) v)) := by
  unfold onVarset
  have hc : ((reSt φ) st).cur = st.cur := rfl
  rw [hc]
  cases st.cur with
  | none => exact .bind (.emit rfl) fun _ => .pure rfl
  | general =>
    refine .pure ?_
    unfold reSt reDp
    simp only [DState.mk.injEq, Dialplan.mk.injEq, and_true]
    cases st.dp.general <;> simp [rePart, addVar]
  | globals =>
    refine .pure ?_
    unfold reSt reDp
    simp only [DState.mk.injEq, Dialplan.mk.injEq, and_true, true_and]
    cases st.dp.globals <;> simp [rePart, addVar]
  | detached => exact .pure rfl
  | ctx name =>
    dsimp only
    have hg : ((reSt φ) st).dp.get name = (st.dp.get name).map (reCtx φ) := get_bare st.dp name
    rw [hg]
    cases st.dp.get name with
    | none => exact .raise _
    | some c =>
      refine .bind (fromVarset_bare env st.sp v) fun r => ?_
      refine .bind (onDVar_bare st.dp c r.2.2) fun dp => .pure ?_
      simp [reSt, reRead]

/-- The aggregator does not look at the text of a line. -/
theorem dialplanStep_bare (env : DEnv) (st : DState) (e : Elem) :
    Bares φ (reSt φ) (dialplanStep env st e) (dialplanStep env ((reSt φ) st) ((reE φ) e)) := by
  cases e with
  | ctx c => exact onContext_bare st c
  | var v => exact onVarset_bare env st v
  | empty c w => exact .pure rfl

theorem feed_bare {σ : Type} {g : σ → σ} {agg : σ → Elem → Res σ} (ha : ∀ s e, Bares φ g (agg s e) (agg (g s) ((reE φ) e))) :
    ∀ (es : List Elem) (s : σ), Bares φ g (feed agg s es) (feed agg (g s) (es.map (reE φ)))
  | [], _ => .pure rfl
  | e :: es, s => .bind (.wrap (ha s e)) fun s' => feed_bare ha es s'

/-! ## Jumps -/

theorem onComplete_bare (hφ : ∀ w : Where, φ ⟨w.filename, 0, []⟩ = ⟨(φ w).filename, 0, []⟩) (dp : Dialplan) :
    Bares φ id (onComplete dp) (onComplete ((reDp φ) dp)) := by
  unfold onComplete
  have h1 : ((reDp φ) dp).contexts = dp.contexts.map (reCtx φ) := rfl
  have h2 : ((reDp φ) dp).globals.isNone = dp.globals.isNone := by simp [reDp]
  have h3 : ((reDp φ) dp).general.isNone = dp.general.isNone := by simp [reDp]
  rw [h1, h2, h3]
  cases dp.contexts with
  | nil => exact .unit
  | cons c cs => 
    have hm : ∀ k, mkMsg k ⟨((reCtx φ) c).at_.filename, 0, []⟩ [] = reM φ (mkMsg k ⟨c.at_.filename, 0, []⟩ []) := by
      intro k
      simp [mkMsg, reM, reCtx, hφ]
    exact .bind (g := id) (.ite (.emit (hm _)) .unit) fun _ => .ite (.emit (hm _)) .unit

def reFound (φ : Where → Where) (r : Option Step) : Option Step := r.map (reStep φ)

theorem firstFit_bare (prio : Arg) (ss : List Step) : firstFit prio (ss.map (reStep φ)) = (firstFit prio ss).map (reFound φ) := by
  induction ss with
  | nil => rfl
  | cons s ss ih =>
    have : prioFits prio ((reStep φ) s) = prioFits prio s := rfl
    simp only [List.map_cons, firstFit, this, ih]
    cases prioFits prio s with
    | error e => rfl
    | ok b => cases b <;> rfl

theorem matchHere_bare (ss : List Step) (x : Str) (prio : Arg) (ps : List Values) :
    matchHere (ss.map (reStep φ)) x prio ps = (matchHere ss x prio ps).map (reFound φ) := by
  induction ps with
  | nil => rfl
  | cons p ps ih =>
    simp only [matchHere, ih, filter_bareStep, firstFit_bare]
    cases Pattern.matchesExtension p x with
    | none => rfl
    | some b =>
      cases b with
      | false => rfl
      | true =>
        dsimp only
        cases firstFit prio (ss.filter fun s => decide (s.pat = p)) with
        | error e => rfl
        | ok o => cases o <;> rfl

theorem sortedPatterns_bare (ss : List Step) : sortedPatterns (ss.map (reStep φ)) = sortedPatterns ss := by
  unfold sortedPatterns
  rw [List.map_map]
  rfl

theorem firstOf_bare {f k : Str × Where → Except Exc (Option Step)} (h : ∀ i, k ((reAt φ) i) = (f i).map (reFound φ)) (l : List (Str × Where)) :
    firstOf k (l.map (reAt φ)) = (firstOf f l).map (reFound φ) := by
  induction l with
  | nil => rfl
  | cons a l ih =>
    simp only [List.map_cons, firstOf, h, ih]
    cases f a with
    | error e => rfl
    | ok o => cases o <;> rfl

theorem matchPattern_bare (dp : Dialplan) : ∀ (d : Nat) (ctx x : Str) (prio : Arg),
    matchPattern ((reDp φ) dp) d ctx x prio = (matchPattern dp d ctx x prio).map (reFound φ)
  | 0, _, _, _ => rfl
  | d + 1, ctx, x, prio => by
    have ih := matchPattern_bare dp d
    rw [matchPattern.eq_def ((reDp φ) dp), matchPattern.eq_def dp]
    dsimp only
    rw [get_bare]
    cases dp.get ctx with
    | none => rfl
    | some c =>
      dsimp only [Option.map]
      have hs : ((reCtx φ) c).steps = c.steps.map (reStep φ) := rfl
      have hi : ((reCtx φ) c).includes = c.includes.map (reAt φ) := rfl
      rw [hs, hi, sortedPatterns_bare, matchHere_bare]
      cases matchHere c.steps x prio (sortedPatterns c.steps) with
      | error e => rfl
      | ok o =>
        cases o with
        | some s => rfl
        | none =>
          dsimp only [Except.map, reFound, Option.map]
          rw [firstOf_bare (f := fun i => matchIf (dp.get i.1).isSome (matchPattern dp d i.1 x prio))]
          · cases firstOf (fun i => matchIf (dp.get i.1).isSome (matchPattern dp d i.1 x prio)) c.includes with
            | error e => rfl
            | ok o =>
              cases o with
              | some s => rfl
              | none =>
                dsimp only [Except.map, reFound, Option.map]
                split
                · cases prio with
                  | one v =>
                    cases v with
                    | int i => exact ih _ _ _
                    | _ => rfl
                  | _ => rfl
                · rfl
          · intro i
            simp only [matchIf, reAt, get_bare, Option.isSome_map, ih]
            split <;> rfl

theorem hasLabel_bare (c : DCtx) (l : Str) : ((reCtx φ) c).hasLabel l = c.hasLabel l := by
  unfold DCtx.hasLabel reCtx
  dsimp only
  rw [List.any_map]
  congr 1
  funext kv
  simp only [Function.comp, reEntry, reCache]
  rw [List.any_map]
  rfl

theorem walkDest_bare (dp : Dialplan) (depth : Nat) (d : Dest) :
    Bares φ id (walkDest dp depth d) (walkDest ((reDp φ) dp) depth ((reDest φ) d)) := by
  obtain ⟨ctx, x, prio, w⟩ := d
  unfold walkDest reDest
  dsimp only
  refine .ite ?_ ?_
  · cases prioText prio with
    | none => exact .unit
    | some l => exact .ite .unit (.emit rfl)
  · cases ctx with
    | str s =>
      dsimp only
      rw [get_bare]
      cases dp.get s with
      | none => exact .emit rfl
      | some c =>
        dsimp only [Option.map]
        refine .ite ?_ ?_
        · cases prioText prio with
          | none => exact .unit
          | some l =>
            dsimp only
            rw [hasLabel_bare]
            exact .ite .unit (.emit rfl)
        · cases x with
          | str x =>
            dsimp only
            refine .bind (.lift (matchPattern_bare dp depth _ _ _)) fun r => ?_
            cases r with
            | none => exact .emit rfl
            | some s => exact .unit
          | _ => exact .raise _
    | _ => exact .emit rfl

theorem walkDests_bare (dp : Dialplan) (depth : Nat) : ∀ ds : List Dest,
    Bares φ id (walkDests dp depth ds) (walkDests ((reDp φ) dp) depth (ds.map (reDest φ)))
  | [] => .unit
  | d :: ds => .bind (walkDest_bare dp depth d) fun _ => walkDests_bare dp depth ds

end

/-! ## Blank lines -/

section
variable {φ : Where → Where} {r : Str → Str}

def reVsw (φ : Where → Where) (r : Str → Str) (s : Vsw) : Vsw := ⟨r s.filename, s.bof, s.blanks.map (reAt φ), s.lastVarsets⟩


/-- `φ` replaces the names of files by others, different names by different ones. -/
structure Places (φ : Where → Where) (r : Str → Str) : Prop where
  file : ∀ w, (φ w).filename = r w.filename
  inj : ∀ a b, r a = r b → a = b

theorem reE_file (hp : Places φ r) (e : Elem) : ((reE φ) e).at_.filename = r e.at_.filename := by cases e <;> exact hp.file _

theorem groupBlanks_bare : ∀ bs : List (Bool × Where),
    groupBlanks (bs.map (reAt φ)) = (groupBlanks bs).map fun g => (g.1, g.2.map φ)
  | [] => rfl
  | (c, w) :: bs => by
    simp only [List.map_cons, reAt, groupBlanks, groupBlanks_bare bs]
    cases groupBlanks bs with
    | nil => rfl
    | cons g gs =>
      obtain ⟨c', ws⟩ := g
      simp only [List.map_cons]
      split <;> rfl

theorem longGroups_bare (k : MK) (mx : Nat) (gs : List (Bool × List Where)) :
    longGroups k mx (gs.map fun g => (g.1, g.2.map φ)) = (longGroups k mx gs).map (reM φ) := by
  unfold longGroups
  induction gs with
  | nil => rfl
  | cons g gs ih =>
    simp only [List.map_cons, List.flatMap_cons, List.map_append, ih]
    congr 1
    simp only [List.length_map]
    split
    · rw [List.getLast?_map]
      cases g.2.getLast? <;> rfl
    · rfl

theorem flushMsgs_bare (bof : Bool) (bs : List (Bool × Where)) (w : Where) (k : MK) (mn mx : Nat) :
    flushMsgs bof (bs.map (reAt φ)) (φ w) k mn mx = (flushMsgs bof bs w k mn mx).map (reM φ) := by
  unfold flushMsgs
  simp only [List.length_map, groupBlanks_bare]
  split
  · rfl
  · cases groupBlanks bs with
    | nil => rfl
    | cons g gs =>
      simp only [List.map_cons]
      split
      · rw [longGroups_bare, List.map_append, List.head?_map]
        cases g.2.head? <;> rfl
      · exact longGroups_bare k mx (g :: gs)

theorem blankElem_bare (bs : List (Bool × Where)) : (bs.map (reAt φ)).map blankElem = (bs.map blankElem).map (reE φ) := by
  rw [List.map_map, List.map_map]; rfl

theorem handle_bare (s : Vsw) (e : Elem) :
    ((reVsw φ r) s).handle ((reE φ) e) = ((reVsw φ r) (s.handle e).1, (s.handle e).2.1.map (reE φ), (s.handle e).2.2.map (reM φ)) := by
  cases e with
  | empty c w => simp [Vsw.handle, reE, reVsw, reAt]
  | ctx c =>
    have := flushMsgs_bare (φ := φ) s.bof s.blanks c.at_ .H_WSV_CTX_BETWEEN (if s.lastVarsets ≤ 2 then 0 else 1) 2
    simp only [Vsw.handle, reE, reVsw, List.map_append, ← blankElem_bare, ← this]
    rfl
  | var v =>
    have := flushMsgs_bare (φ := φ) s.bof s.blanks v.at_ .H_WSV_VARSET_BETWEEN 0 1
    simp only [Vsw.handle, reE, reVsw, List.map_append, ← blankElem_bare, ← this]
    rfl

theorem eof_bare (s : Vsw) (b : Bool) :
    ((reVsw φ r) s).eof b = ((s.eof b).1.map (reE φ), (s.eof b).2.map (reM φ)) := by
  unfold Vsw.eof
  have hb : ((reVsw φ r) s).blanks = s.blanks.map (reAt φ) := rfl
  dsimp only
  rw [hb, groupBlanks_bare, List.getLast?_map]
  cases hg : (groupBlanks s.blanks).getLast? with
  | none => rfl
  | some g =>
    obtain ⟨c, ws⟩ := g
    dsimp only [Option.map]
    have hd : ((groupBlanks s.blanks).map fun g => (g.1, g.2.map φ)).dropLast =
        (groupBlanks s.blanks).dropLast.map fun g => (g.1, g.2.map φ) := by rw [List.map_dropLast]
    rw [hd, longGroups_bare, longGroups_bare]
    split
    · rw [← blankElem_bare]
    · split
      · rw [List.map_append, List.getLast?_map, ← blankElem_bare]
        cases s.blanks.getLast? <;> rfl
      · simp only [List.length_map, ← List.map_take, blankElem_bare]

theorem vswPop_bare (hp : Places φ r) (n : Str) : ∀ st : List Vsw, vswPop (r n) (st.map (reVsw φ r)) =
    ((vswPop n st).1.map (reVsw φ r), (vswPop n st).2.1.map (reE φ), (vswPop n st).2.2.map (reM φ))
  | [] => rfl
  | s :: st => by
    have hf : ((reVsw φ r) s).filename = r n ↔ s.filename = n := ⟨hp.inj _ _, fun h => congrArg r h⟩
    simp only [List.map_cons, vswPop, hf, vswPop_bare hp n st, eof_bare]
    split
    · rfl
    · simp

theorem vswStep_bare (hp : Places φ r) (st : List Vsw) (e : Elem) : vswStep (st.map (reVsw φ r)) ((reE φ) e) =
    ((vswStep st e).1.map (reVsw φ r), (vswStep st e).2.1.map (reE φ), (vswStep st e).2.2.map (reM φ)) := by
  unfold vswStep
  rw [reE_file hp, vswPop_bare hp, List.any_map]
  have ha : ((fun s : Vsw => decide (s.filename = r e.at_.filename)) ∘ (reVsw φ r)) = fun s => decide (s.filename = e.at_.filename) := by
    funext s
    exact decide_eq_decide.2 ⟨hp.inj _ _, fun h => congrArg r h⟩
  rw [ha]
  split
  · dsimp only
    cases (vswPop e.at_.filename st).1 with
    | nil => rfl
    | cons s ss => simp [handle_bare]
  · have : (⟨r e.at_.filename, true, [], 0⟩ : Vsw) = (reVsw φ r) ⟨e.at_.filename, true, [], 0⟩ := rfl
    dsimp only
    rw [this, handle_bare]
    rfl

theorem vswEndFrom_bare : ∀ (st : List Vsw) (b : Bool), vswEndFrom b (st.map (reVsw φ r)) =
    ((vswEndFrom b st).1.map (reE φ), (vswEndFrom b st).2.map (reM φ))
  | [], _ => rfl
  | s :: st, b => by simp [vswEndFrom, eof_bare, vswEndFrom_bare st]

end

/-! ## Leaving the text out -/

def bareW (w : Where) : Where := ⟨w.filename, w.lineno, []⟩
abbrev bareM : Msg → Msg := reM bareW
abbrev bareE : Elem → Elem := reE bareW
abbrev bareAt {α : Type} : α × Where → α × Where := reAt bareW
abbrev bareSt : DState → DState := reSt bareW
abbrev bareDp : Dialplan → Dialplan := reDp bareW
abbrev bareDest : Dest → Dest := reDest bareW
abbrev bareCtx : DCtx → DCtx := reCtx bareW
abbrev bareVsw : Vsw → Vsw := reVsw bareW id
theorem bareP : Places bareW id := ⟨fun _ => rfl, fun _ _ h => h⟩

/-! ## Lines -/

theorem parserStage_bare (w : Where) (data c c' : Str) (hc : c.isEmpty = c'.isEmpty) :
    (parserStage (bareW w) data c').1 = (parserStage w data c).1.map bareM ∧
    (∀ e, (parserStage w data c).2 = .elem e → (parserStage (bareW w) data c').2 = .elem (bareE e)) ∧
    ∀ p, (parserStage w data c).2 = .pp p → (parserStage (bareW w) data c').2 = .pp p := by
  unfold parserStage
  rw [hc]
  cases readLine data with
  | some r =>
    cases r with
    | header bol name tmpl =>
      simp only [mkElem, List.map_append]
      refine ⟨?_, ?_, ?_⟩
      · congr 1 <;> split <;> rfl
      · intro e he; cases he; rfl
      · intro p hp; cases hp
    | assign k s v =>
      simp only [mkElem, List.map_append]
      refine ⟨?_, ?_, ?_⟩
      · congr 1
        · split
          · split <;> rfl
          · split
            · split <;> rfl
            · rfl
        · split <;> split <;> rfl
      · intro e he; cases he; rfl
      · intro p hp; cases hp
    | blank =>
      refine ⟨rfl, ?_, ?_⟩
      · intro e he; cases he; rfl
      · intro p hp; cases hp
  | none =>
    dsimp only
    split
    · dsimp only
      refine ⟨?_, (fun e he => nomatch he), ?_⟩
      · unfold preprocessor
        dsimp only
        split
        · rw [List.map_append]; congr 1; split <;> rfl
        · split
          · rw [List.map_append]; congr 1; split <;> rfl
          · split
            · rw [List.map_append]; congr 1; split <;> rfl
            · split
              · rw [List.map_append]; congr 1; split <;> rfl
              · split
                · simp only [List.map_append]
                  congr 1
                  congr 1
                  · congr 1 <;> split <;> rfl
                  · split <;> rfl
                · simp only [List.map_append]
                  congr 1
                  · congr 1 <;> split <;> rfl
                  · split <;> rfl
      · intro p hp
        cases hp
        congr 1
        unfold preprocessor
        dsimp only
        split
        · rfl
        · split
          · rfl
          · split
            · rfl
            · split
              · rfl
              · split <;> rfl
    · exact ⟨rfl, (fun e he => nomatch he), fun p hp => hp⟩

end ALint.Proofs
