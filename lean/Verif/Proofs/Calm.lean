import Verif.Proofs.Kinds
import Verif.Proofs.Located
import Verif.Model.Command

/-!
# Old-style conditions in files that are read to the end

A report of an old-style condition of `ExecIf` is always followed by an exception.
-/

namespace ALint

/-- The message is not about an old-style `ExecIf`. -/
def CalmMsg (m : Msg) : Prop := m.kind = .E_APP_ARG_IFSTYLE → m.args.lookup (c! "app") ≠ some (strV (c! "ExecIf"))

/-- The applications called `ExecIf` behave like it. -/
def ExecIfOnly (env : AEnv) : Prop := ∀ k a, env.apps k = some a → a.name = c! "ExecIf" → a.beh = .execIf

/-- When it ends well, no message is about an old-style `ExecIf`. -/
structure Calm {α : Type} (x : Tr α) : Prop where
  out : ∀ a, x.val = .ok a → ∀ m, Ev.msg m ∈ x.ev → CalmMsg m

/-- Every kind but the report of old-style conditions. -/
def notOld : MK → Bool
  | .E_APP_ARG_IFSTYLE => false
  | _ => true

theorem calm_kind {m : Msg} (h : notOld m.kind = true) : CalmMsg m := by
  intro hk
  rw [hk] at h
  exact absurd h (by decide)

theorem notOld_of_var (k : MK) (h : varKind k = true) : notOld k = true := by
  revert h; cases k <;> decide

namespace Calm
variable {α β : Type}

theorem of_only {x : Tr α} (h : Only notOld x) : Calm x := ⟨fun _ _ m hm => calm_kind (h.all m hm)⟩
theorem of_var {x : Tr α} (h : Only varKind x) : Calm x := of_only (h.mono notOld_of_var)

theorem pure (a : α) : Calm (Tr.pure a) := ⟨by intro _ _ m hm; cases hm⟩
theorem raise (e : Exc) : Calm (Tr.raise e : Tr α) := ⟨by intro _ _ m hm; cases hm⟩
theorem lift (x : Except Exc α) : Calm (Tr.lift x) := ⟨by intro _ _ m hm; cases hm⟩

theorem bind_ok {x : Tr α} {f : α → Tr β} (hx : Calm x) (hf : ∀ a, x.val = .ok a → Calm (f a)) : Calm (Tr.bind x f) := by
  refine ⟨fun b hb m hm => ?_⟩
  unfold Tr.bind at hb hm
  cases h : x.val with
  | error e => simp [h] at hb
  | ok a =>
    simp only [h] at hb hm
    rcases List.mem_append.1 hm with hm | hm
    · exact hx.out a h m hm
    · exact (hf a h).out b hb m hm

theorem bind {x : Tr α} {f : α → Tr β} (hx : Calm x) (hf : ∀ a, Calm (f a)) : Calm (Tr.bind x f) :=
  bind_ok hx fun a _ => hf a

theorem ite {c : Prop} [Decidable c] {x y : Tr α} (hx : Calm x) (hy : Calm y) : Calm (if c then x else y) := by
  split <;> assumption

theorem emit (m : Msg) (h : CalmMsg m) : Calm (Tr.emit m) := by
  refine ⟨fun _ _ m' hm => ?_⟩
  obtain rfl : m' = m := by simpa [Tr.emit] using hm
  exact h

theorem mapM {f : α → Tr β} (h : ∀ a, Calm (f a)) (l : List α) : Calm (Tr.mapM f l) := by
  induction l with
  | nil => exact .pure _
  | cons a l ih => exact .bind (h a) fun _ => .bind ih fun _ => .pure _

theorem catchParse {x h : Tr α} (hx : Only notOld x) (hh : Calm h) : Calm (x.catchParse h) := by
  unfold Tr.catchParse
  split
  · refine ⟨fun a ha m hm => ?_⟩
    rcases List.mem_append.1 hm with hm | hm
    · exact calm_kind (hx.all m hm)
    · exact hh.out a ha m hm
  · exact of_only hx

end Calm

section
variable (env : FEnv) (w : Where)

theorem notOld_minMaxCheck (n : Str) (a b : Option Nat) (l : List V) : Only notOld (minMaxCheck w n a b l) := by
  unfold minMaxCheck; only

theorem notOld_pipeCheck (n : Str) (d : V) (l : List V) : Only notOld (pipeCheck w n d l) := by
  unfold pipeCheck; only

theorem notOld_validateArgs (n : Str) : ∀ (i : Nat) (b : List ArgBeh) (a : List V), Only notOld (validateArgs w n i b a) := by
  intro i b
  induction b generalizing i with
  | nil => intro a; exact .pure _
  | cons b bs ih =>
    intro a
    cases a with
    | nil => exact .pure _
    | cons a as =>
      refine .bind ?_ fun _ => ih ..
      unfold validateArg; only

theorem notOld_jumpArgs (n : Str) (d : V) : Only notOld (jumpArgs w n d) := by
  unfold jumpArgs
  exact .bind (notOld_minMaxCheck ..) fun _ => .bind (notOld_pipeCheck ..) fun _ => .pure _

theorem notOld_gosubDest (n : Str) (b : Bool) (l : List V) : Only notOld (gosubDest w n b l) := by
  have h : ∀ d, Only notOld (gosubPrio w d) := by intro d; unfold gosubPrio; only
  unfold gosubDest
  split
  · only
  · exact .bind (h _) fun _ => .pure _
  · exact .bind (h _) fun _ => .pure _
  · exact .bind (h _) fun _ => .pure _
  · exact .bind (.ite (.emit _ _ _ rfl) (.pure _)) fun _ => .bind (h _) fun _ => .pure _

theorem notOld_appBalance (d : V) : Only notOld (appBalance w d) := by
  unfold appBalance; only

theorem notOld_splitAppEnd (a : V) (d : Str) : Only notOld (splitAppEnd w a d) := by
  unfold splitAppEnd; dsimp only; only

theorem notOld_splitAppData (a : Arg) : Only notOld (splitAppData env w a) := by
  unfold splitAppData
  split
  · only
  · refine .bind (.lift _) fun _ => ?_
    split
    · exact .bind (.lift _) fun _ => notOld_splitAppEnd ..
    · unfold splitAppBare
      split
      · exact .bind (.ite (.emit _ _ _ rfl) (.pure _)) fun _ => notOld_splitAppEnd ..
      · only

theorem calm_parseInner (a d : Str) : Calm (parseInner env w a d) := by
  unfold parseInner
  exact .ite (.catchParse ((only_parseVariables ..).mono notOld_of_var)
    (.of_only (.bind (.emit _ _ _ rfl) fun _ => .pure _))) (.pure _)

/-- The parts of a condition, when the application is not called `ExecIf`. -/
theorem calm_ifParts {n : Str} (hn : n ≠ c! "ExecIf") (d : V) : Calm (ifParts w n d) := by
  unfold ifParts
  split
  · refine .bind (.of_only ?_) fun _ => .pure _
    unfold ifMany; only
  · split
    · exact .raise _
    · refine .bind (.emit _ ?_) fun _ => .pure _
      intro hk
      split
      · rename_i h
        simp only [h, if_true] at hk
        simp [ifFew, mkMsg] at hk
      · simp only [ifOldStyle, mkMsg, strV, List.lookup]
        simp [hn]

theorem calm_ifSplit {n : Str} (hn : n ≠ c! "ExecIf") (d : V) : Calm (ifSplit w n d) := by
  unfold ifSplit
  exact .bind (calm_ifParts w hn d) fun _ => .bind (.lift _) fun _ =>
    .bind (.of_only (.ite (.emit _ _ _ rfl) (.pure _))) fun _ => .pure _

theorem calm_condSplit {n : Str} (hn : n ≠ c! "ExecIf") (d : V) : Calm (condSplit w n d) := by
  unfold condSplit
  exact .bind (calm_ifSplit w hn d) fun _ => .bind (.of_only (.ite (.emit _ _ _ rfl) (.pure _))) fun _ => .pure _

/-- The parts of a condition: nothing in the old style, or the actions are a list. -/
theorem ifParts_old (n : Str) (d : V) (p : V × Arg × V) (h : (ifParts w n d).val = .ok p) :
    Only notOld (ifParts w n d) ∨ ∃ a rest, p.2.1 = .many (a :: rest) := by
  unfold ifParts at h ⊢
  split
  · refine .inl (.bind ?_ fun _ => .pure _)
    unfold ifMany; only
  · rename_i hq
    split
    · exact .inl (.raise _)
    · rename_i cond rest hc
      cases rest with
      | nil =>
        refine .inl (.bind ?_ fun _ => .pure _)
        simp only [List.isEmpty_nil, if_true, ifFew]
        exact .emit _ _ _ rfl
      | cons a rest =>
        refine .inr ⟨a, rest, ?_⟩
        split at h
        · rename_i x y z hx
          exact absurd hx (hq x y z)
        · simp only [hc] at h
          obtain ⟨_, _, h2, -⟩ := Tr.bind_ok h
          simp only [Tr.pure, Except.ok.injEq] at h2
          rw [← h2]

theorem condSplit_old (n : Str) (d : V) (p : V × Arg × V) (h : (condSplit w n d).val = .ok p) :
    Only notOld (condSplit w n d) ∨ ∃ a rest, p.2.1 = .many (a :: rest) := by
  unfold condSplit at h ⊢
  obtain ⟨q, h1, h2, -⟩ := Tr.bind_ok h
  obtain ⟨_, _, h3, -⟩ := Tr.bind_ok h2
  simp only [Tr.pure, Except.ok.injEq] at h3
  subst h3
  unfold ifSplit at h1 ⊢
  obtain ⟨r, h4, h5, -⟩ := Tr.bind_ok h1
  obtain ⟨_, _, h6, -⟩ := Tr.bind_ok h5
  obtain ⟨_, _, h7, -⟩ := Tr.bind_ok h6
  simp only [Tr.pure, Except.ok.injEq] at h7
  subst h7
  rcases ifParts_old w n d r h4 with h | h
  · exact .inl (.bind (.bind h fun _ => .bind (.lift _) fun _ => .bind (.ite (.emit _ _ _ rfl) (.pure _)) fun _ => .pure _)
      fun _ => .bind (.ite (.emit _ _ _ rfl) (.pure _)) fun _ => .pure _)
  · exact .inr h

theorem calm_execAll {inner : Option Str → Arg → Tr (Option Str)} (h : ∀ sp a, Calm (inner sp a)) :
    ∀ (l : List Arg) (sp : Option Str), Calm (execAll inner sp l)
  | [], _ => .pure _
  | a :: l, sp => .bind (h sp a) fun sp => calm_execAll h l sp

theorem calm_callApp {inner : Option Str → Arg → Tr (Option Str)} (h : ∀ sp a, Calm (inner sp a))
    (hm : ∀ sp l v, (inner sp (.many l)).val ≠ .ok v) (sp : Option Str)
    (app : AppInfo) (ha : app.name = c! "ExecIf" → app.beh = .execIf) (d : V) : Calm (callApp env inner sp w app d) := by
  have hn : app.beh ≠ .execIf → app.name ≠ c! "ExecIf" := fun h h' => h (ha h')
  unfold callApp
  split
  · exact .of_only (.bind (notOld_appBalance ..) fun _ => .pure _)
  · exact .of_only (.bind (notOld_appBalance ..) fun _ => .pure _)
  · exact .bind (.of_var (only_parseAssignment _ _ (only_callFuncTop env w) _)) fun _ =>
      .of_only (.bind (notOld_appBalance ..) fun _ => .pure _)
  · unfold callArgs
    exact .of_only (.bind (.bind (notOld_minMaxCheck ..) fun _ => .bind (notOld_validateArgs ..) fun _ =>
      .bind (notOld_pipeCheck ..) fun _ => .pure _) fun _ => .pure _)
  · exact .of_only (.bind (notOld_jumpArgs ..) fun _ => .bind (.lift _) fun _ => .pure _)
  · rename_i hb
    exact .bind (calm_condSplit w (hn (by simp [hb])) d) fun _ => .bind (.mapM (fun _ => .lift _) _) fun _ => .pure _
  · rename_i hb
    exact .bind (calm_ifSplit w (hn (by simp [hb])) d) fun _ => .pure _
  · exact .of_only (.bind (notOld_jumpArgs ..) fun _ => .bind (notOld_gosubDest ..) fun _ => .pure _)
  · rename_i hb
    exact .bind (calm_condSplit w (hn (by simp [hb])) d) fun _ =>
      .of_only (.bind (.mapM (fun _ => notOld_gosubDest ..) _) fun _ => .pure _)
  · refine ⟨fun v hv => ?_⟩
    obtain ⟨p, h1, h2, -⟩ := Tr.bind_ok hv
    rcases condSplit_old w _ d p h1 with ho | ⟨a, rest, hp⟩
    · exact (Calm.bind (.of_only ho) fun _ => .bind (calm_execAll h _ _) fun _ => .pure _).out v hv
    · exfalso
      obtain ⟨s, h3, _, -⟩ := Tr.bind_ok h2
      have : actions p.2 = .many (a :: rest) :: ([.one p.2.2].filter Arg.truthy) := by
        simp [actions, hp, Arg.truthy, List.filter_cons]
      rw [this, execAll] at h3
      obtain ⟨s', h4, _⟩ := Tr.bind_ok h3
      exact hm _ _ _ h4

end

theorem calm_getApp (env : AEnv) (sp : Option Str) (w : Where) (a : Str) : Calm (getApp env sp w a) := by
  unfold getApp checkAvailability
  split
  · exact .raise _
  · exact .of_only (.bind (.noteApp _) fun _ => .bind (.ite (.pure _) (.ite (.emit _ _ _ rfl) (.emit _ _ _ rfl))) fun _ => .pure _)

theorem getApp_known {env : AEnv} {sp : Option Str} {w : Where} {a : Str} {r : AppInfo × Option Str}
    (h : (getApp env sp w a).val = .ok r) : ∃ k, env.apps k = some r.1 := by
  unfold getApp at h
  split at h
  · simp [Tr.raise] at h
  · rename_i i hi
    obtain ⟨_, _, h2, -⟩ := Tr.bind_ok h
    obtain ⟨_, _, h3, -⟩ := Tr.bind_ok h2
    simp only [Tr.pure, Except.ok.injEq] at h3
    subst h3
    rcases Option.or_eq_some_iff.1 hi with h | ⟨_, h⟩
    · exact ⟨_, h⟩
    · exact ⟨_, h⟩

theorem runApp_many (env : AEnv) (depth : Nat) (sp : Option Str) (w : Where) (l : List V) (v : Option Str × List Jump) :
    (runApp env depth sp w (.many l)).val ≠ .ok v := by
  cases depth with
  | zero => simp [runApp, Tr.raise]
  | succ depth =>
    intro h
    rw [runApp] at h
    obtain ⟨_, h1, _, -⟩ := Tr.bind_ok h
    simp [splitAppData, Tr.raise] at h1

theorem calm_runApp (env : AEnv) (he : ExecIfOnly env) : ∀ (depth : Nat) (sp : Option Str) (w : Where) (raw : Arg),
    Calm (runApp env depth sp w raw) := by
  intro depth
  induction depth with
  | zero => intro sp w raw; exact .raise _
  | succ depth ih =>
    intro sp w raw
    rw [runApp]
    refine .bind (.of_only (notOld_splitAppData ..)) fun r => ?_
    cases r with
    | none => exact .pure _
    | some r =>
      refine .bind_ok (calm_getApp ..) fun a ha => .bind (calm_parseInner ..) fun _ =>
        calm_callApp _ _ (fun sp a => .bind (ih sp w a) fun _ => .pure _) ?_ _ _ ?_ _
      · intro sp l v hv
        obtain ⟨_, h1, _, -⟩ := Tr.bind_ok hv
        exact runApp_many _ _ _ _ _ _ h1
      · obtain ⟨k, hk⟩ := getApp_known ha
        exact he k _ hk

/-- The same for results with a log. -/
structure CalmR {α : Type} (x : Res α) : Prop where
  out : ∀ a, x.val = .ok a → ∀ m ∈ x.log, CalmMsg m

namespace CalmR
variable {α β : Type}

theorem pure (a : α) : CalmR (Res.pure a) := ⟨by intro _ _ m hm; cases hm⟩
theorem raise (e : Exc) : CalmR (Res.raise e : Res α) := ⟨by intro _ _ m hm; cases hm⟩
theorem lift (x : Except Exc α) : CalmR (Res.lift x) := ⟨by intro _ _ m hm; cases hm⟩

theorem emit (m : Msg) (h : notOld m.kind = true) : CalmR (Res.emit m) := by
  refine ⟨fun _ _ m' hm => ?_⟩
  obtain rfl : m' = m := by simpa [Res.emit] using hm
  exact calm_kind h

theorem bind {x : Res α} {f : α → Res β} (hx : CalmR x) (hf : ∀ a, CalmR (f a)) : CalmR (Res.bind x f) := by
  refine ⟨fun b hb m hm => ?_⟩
  obtain ⟨a, h1, h2, h3⟩ := Res.bind_ok hb
  rw [h3] at hm
  rcases List.mem_append.1 hm with hm | hm
  · exact hx.out a h1 m hm
  · exact (hf a).out b h2 m hm

theorem ite {c : Prop} [Decidable c] {x y : Res α} (hx : CalmR x) (hy : CalmR y) : CalmR (if c then x else y) := by
  split <;> assumption

theorem wrap {r : Res α} (h : CalmR r) : CalmR (wrapExc r) :=
  ⟨fun a ha m hm => h.out a (wrapExc_ok.1 ha) m hm⟩

theorem feed {σ : Type} {agg : σ → Elem → Res σ} (h : ∀ s e, CalmR (agg s e)) :
    ∀ (es : List Elem) (s : σ), CalmR (feed agg s es)
  | [], _ => .pure _
  | e :: es, s => .bind (.wrap (h s e)) fun s => feed h es s

theorem toRes {x : Tr α} (h : Calm x) : CalmR x.toRes := by
  refine ⟨fun a ha m hm => ?_⟩
  have hm' : Ev.msg m ∈ x.ev := by
    have : m ∈ evMsgs x.ev := hm
    unfold evMsgs at this
    obtain ⟨e, he, h'⟩ := List.mem_filterMap.1 this
    cases e <;> simp at h'
    exact h' ▸ he
  cases hv : x.val with
  | error e => simp [Tr.toRes, hv, Except.map] at ha
  | ok b => exact h.out b hv m hm'

end CalmR

/-- Pieces without calls. -/
macro "calmr" : tactic => `(tactic| repeat' (first
  | exact CalmR.pure _ | exact CalmR.raise _ | exact CalmR.lift _ | exact CalmR.emit _ rfl
  | assumption
  | refine CalmR.bind ?_ (fun _ => ?_)
  | refine CalmR.ite ?_ ?_
  | split))

theorem calmr_readExten (env : DEnv) (he : ExecIfOnly env.toAEnv) (sp : Option Str) (v : VarE) : CalmR (readExten env sp v) := by
  have hr : ∀ a, CalmR (runApp env.toAEnv env.depth sp v.at_ a).toRes := fun a => .toRes (calm_runApp _ he ..)
  have hp : ∀ p, CalmR (readPrio v.at_ p) := by intro p; unfold readPrio; calmr
  have hl : ∀ l, CalmR (readLabel v.at_ l) := by intro p; unfold readLabel; calmr
  unfold readExten
  refine .bind (.lift _) fun pr => .bind (hp _) fun prio => ?_
  cases prio with
  | none => exact .pure _
  | some prio =>
    refine .bind (hl _) fun label => ?_
    cases label with
    | none => exact .pure _
    | some label => exact .bind (.lift _) fun pat => .bind (hr _) fun r => .pure _

theorem calmr_fromVarset (env : DEnv) (he : ExecIfOnly env.toAEnv) (sp : Option Str) (v : VarE) :
    CalmR (fromVarset env sp v) := by
  have hr := calmr_readExten env he sp v
  unfold fromVarset expectArrow
  calmr

theorem calmr_addExt (last : Option Nat) (c : DCtx) (e : ExtLine) : CalmR (addExt last c e) := by
  unfold addExt resolvePrio storeStep cacheCheck badOrder
  dsimp only
  calmr

theorem calmr_dialplanStep (env : DEnv) (he : ExecIfOnly env.toAEnv) (st : DState) (e : Elem) :
    CalmR (dialplanStep env st e) := by
  unfold dialplanStep
  cases e with
  | ctx c => dsimp only; unfold onContext addGeneral addGlobals; calmr
  | var v =>
    dsimp only
    unfold onVarset
    split
    · calmr
    · calmr
    · calmr
    · calmr
    · split
      · calmr
      · refine .bind (calmr_fromVarset _ he ..) fun r => .bind ?_ fun _ => .pure _
        unfold onDVar canonCheck
        split
        · calmr
        · exact .bind (by calmr) fun _ => .bind (calmr_addExt ..) fun _ => .pure _
        · calmr
  | empty c w => exact .pure _

theorem calmr_onComplete (dp : Dialplan) : CalmR (onComplete dp) := by
  unfold onComplete; calmr

/-- The messages of a run come from the files or from the aggregator. -/
theorem pipeRun_logs {σ : Type} (fs : FS) (agg : σ → Elem → Res σ) : ∀ (n : Nat) (st : PState σ)
    (s : σ), (pipeRun fs agg n st).val = .ok (some s) →
    ∃ es, (feed agg st.agg es).val = .ok s ∧
      ∀ m ∈ (pipeRun fs agg n st).log, m ∈ (feed agg st.agg es).log ∨
        ∀ l, m ∈ (pipeRun fs collect n (st.with_ l)).log := by
  intro n
  induction n with
  | zero => intro st s h; simp [pipeRun] at h
  | succ n ih =>
    intro st s h
    rw [pipeRun] at h
    cases hp : pipeStep fs agg st with
    | none =>
      simp only [hp] at h
      have hc : ∀ l : List Elem, pipeStep fs collect (st.with_ l) = none := by
        intro l
        unfold pipeStep at hp ⊢
        simp only [PState.with_]
        cases hn : nextLine st.frames with
        | none => rfl
        | some p => simp [hn] at hp
      obtain ⟨a, h1, h2, h3⟩ := Res.bind_ok h
      simp only [Res.pure_val, Except.ok.injEq, Option.some.injEq] at h2
      subst h2
      unfold pipeEnd at h1
      obtain ⟨u, h4, h5, h6⟩ := Res.bind_ok h1
      obtain ⟨u', h7, h8, h9⟩ := Res.bind_ok h5
      refine ⟨(vswEnd st.vsw).1, h8, fun m hm => ?_⟩
      rw [pipeRun] at hm
      simp only [hp] at hm
      rw [h3, show (pipeEnd agg st).log = _ from h6, h9] at hm
      have hc' : ∀ l, (pipeRun fs collect (n + 1) (st.with_ l)).log = (Res.emitAll (ffEnd st.ff)).log ++
            (Res.emitAll (vswEnd st.vsw).2).log := by
        intro l
        rw [pipeRun]
        simp only [hc]
        have : pipeEnd collect (st.with_ l) = ⟨(Res.emitAll (ffEnd st.ff)).log ++
            (Res.emitAll (vswEnd st.vsw).2).log, .ok (l ++ (vswEnd st.vsw).1)⟩ := by
          unfold pipeEnd
          simp only [PState.with_]
          rw [Res.bind_of_ok h4]
          simp only [Res.bind_of_ok h7, feed_collect]
          simp [Res.pure]
        rw [this, Res.bind_of_ok rfl]
        simp
      simp only [Res.pure_log, List.append_nil, List.mem_append] at hm
      rcases hm with hm | hm | hm
      · exact .inr fun l => by rw [hc' l]; simp [hm]
      · exact .inr fun l => by rw [hc' l]; simp [hm]
      · exact .inl hm
    | some r =>
      simp only [hp] at h
      obtain ⟨st', h1, h2, h3⟩ := Res.bind_ok h
      obtain ⟨es1, e1, e2⟩ := pipeStep_collect fs agg st st' r hp h1
      obtain ⟨es2, e3, e4⟩ := ih st' s h2
      refine ⟨es1 ++ es2, ?_, fun m hm => ?_⟩
      · rw [feed_append, Res.bind_of_ok e1]; exact e3
      · rw [pipeRun] at hm
        simp only [hp] at hm
        rw [h3] at hm
        have hf : (feed agg st.agg (es1 ++ es2)).log = (feed agg st.agg es1).log ++ (feed agg st'.agg es2).log := by
          rw [feed_append, Res.bind_of_ok e1]
        have hl : ∀ l, ∃ r' : Res (PState (List Elem)), r.log = r'.log ++ (feed agg st.agg es1).log ∧
            (pipeRun fs collect (n + 1) (st.with_ l)).log =
              r'.log ++ (pipeRun fs collect n (st'.with_ (l ++ es1))).log := by
          intro l
          obtain ⟨r', q1, q2, q3⟩ := e2 l
          refine ⟨r', q3, ?_⟩
          rw [pipeRun]
          simp only [q1]
          rw [Res.bind_of_ok q2]
        rw [hf]
        rcases List.mem_append.1 hm with hm | hm
        · by_cases hin : m ∈ (feed agg st.agg es1).log
          · exact .inl (by simp [hin])
          · refine .inr fun l => ?_
            obtain ⟨r', q1, q2⟩ := hl l
            rw [q2]
            rw [q1] at hm
            rcases List.mem_append.1 hm with hm | hm
            · simp [hm]
            · exact absurd hm hin
        · rcases e4 m hm with hm | hm
          · exact .inl (by simp [hm])
          · refine .inr fun l => ?_
            obtain ⟨r', q1, q2⟩ := hl l
            rw [q2]
            simp [hm]

theorem notOld_of_file (k : MK) (h : fileKind k = true) : notOld k = true := by
  revert h; cases k <;> decide

theorem file_kinds (fs : FS) (n : Nat) (path : Str) (content : Bytes) (m : Msg)
    (h : m ∈ (pipeRun fs collect n ⟨[openFrame path content], [], [], []⟩).log) : fileKind m.kind = true := by
  have hc : Consumes (Spec.LineOf fs path content) (fun m => fileKind m.kind = true)
      (fun _ : List Elem => True) collect := fun _ _ _ _ => ⟨.pure _, fun _ _ => trivial⟩
  exact (pipeRun_consumes (fs := fs) (fun q c h => lineOf_frame (.inr h)) (fun m h => h.kind) hc n
    (⟨by simpa using lineOf_frame (.inl ⟨rfl, rfl⟩), by simp [FfIn], by simp [VswIn]⟩) trivial).1 m h

/-- A dialplan that is read to the end has no report of an old-style `ExecIf`. -/
theorem calm_readDialplan (fs : FS) (env : DEnv) (he : ExecIfOnly env.toAEnv) (n : Nat) (path : Str) (st : DState)
    (h : (readDialplan fs env n path).val = .ok (.ok st)) : ∀ m ∈ (readDialplan fs env n path).log, CalmMsg m := by
  unfold readDialplan opening at h ⊢
  cases hp : fs path with
  | none => simp [hp] at h
  | some content =>
    simp only [hp, finished] at h ⊢
    obtain ⟨o, h1, h2, h3⟩ := Res.bind_ok h
    cases o with
    | none => simp at h2
    | some s =>
      obtain ⟨es, h4, h5⟩ := pipeRun_logs fs (dialplanStep env) n _ s h1
      intro m hm
      rw [h3] at hm
      rcases List.mem_append.1 hm with hm | hm
      · rcases h5 m hm with hm | hm
        · exact (CalmR.feed (calmr_dialplanStep env he) es _).out _ h4 m hm
        · exact calm_kind (notOld_of_file _ (file_kinds fs n path content m (hm [])))
      · exact (CalmR.bind (calmr_onComplete s.dp) fun _ => CalmR.pure _).out _ h2 m hm

end ALint
