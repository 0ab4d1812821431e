import Verif.Proofs.Kinds
import Verif.Props.CleanText

/-!
# C32 as it is reported: unclosed brackets in the data of an application
-/

namespace ALint.Props
open ALint Spec

/-- A parse error is among the messages. -/
def SaysParseError (ev : List Ev) : Prop := ∃ m, Ev.msg m ∈ ev ∧ m.kind = .E_APP_PARSE_ERROR

theorem saysParse_append (a b : List Ev) : SaysParseError (a ++ b) ↔ SaysParseError a ∨ SaysParseError b := by
  unfold SaysParseError
  constructor
  · rintro ⟨m, hm, hk⟩
    exact (List.mem_append.1 hm).imp (⟨m, ·, hk⟩) (⟨m, ·, hk⟩)
  · rintro (⟨m, hm, hk⟩ | ⟨m, hm, hk⟩)
    · exact ⟨m, List.mem_append_left _ hm, hk⟩
    · exact ⟨m, List.mem_append_right _ hm, hk⟩

theorem only_noParse {p : MK → Bool} {α : Type} {x : Tr α} (h : Only p x) (hp : p .E_APP_PARSE_ERROR = false) :
    ¬ SaysParseError x.ev := by
  rintro ⟨m, hm, hk⟩
  have := h.all m hm
  rw [hk, hp] at this
  cases this

theorem parseInner_says (env : FEnv) (w : Where) (name data : Str) :
    (SaysParseError (parseInner env w name data).ev ↔ (parseVariables env w data).val = .error .varParseError) ∧
    ((parseVariables env w data).val = .error .varParseError →
      parseInner env w name data =
        ⟨(parseVariables env w data).ev ++ [.msg (mkMsg .E_APP_PARSE_ERROR w [(c! "app", strV name), (c! "args", strV data)])],
          .ok (.str data)⟩) := by
  have ho := only_noParse (only_parseVariables env w data) rfl
  unfold parseInner
  split
  · have hc : ∀ h, (parseVariables env w data).val = .error .varParseError →
        (parseVariables env w data).catchParse h = (⟨(parseVariables env w data).ev ++ h.ev, h.val⟩ : Tr V) := by
      intro h hv
      unfold Tr.catchParse
      rw [hv]
    have hc' : ∀ h : Tr V, (parseVariables env w data).val ≠ .error .varParseError →
        (parseVariables env w data).catchParse h = parseVariables env w data := by
      intro h hv
      unfold Tr.catchParse
      split
      · rename_i h'
        exact absurd h' hv
      · rfl
    refine ⟨⟨fun h => ?_, fun h => ?_⟩, fun h => ?_⟩
    · refine Classical.byContradiction fun hv => ho ?_
      rwa [hc' _ hv] at h
    · rw [hc _ h, saysParse_append]
      exact .inr ⟨mkMsg .E_APP_PARSE_ERROR w [(c! "app", strV name), (c! "args", strV data)], by simp [Tr.bind, Tr.emit, Tr.pure]; split <;> simp, rfl⟩
    · rw [hc _ h]
      rfl
  · rename_i hs
    have hp : parseVariables env w data = .pure (.str data) := by
      refine C32_plain env w data fun h => hs ?_
      simp only [Bool.or_eq_true, contains_infix]
      exact h
    rw [hp]
    refine ⟨⟨?_, ?_⟩, ?_⟩
    · rintro ⟨m, hm, -⟩
      cases hm
    · intro h; cases h
    · intro h; cases h

/-- An application by its name and data in parentheses: a name without blanks around. -/
theorem runApp_named {env : AEnv} {name : Str} (h1 : name ≠ []) (h2 : '(' ∉ name) (h3 : NoLead name) (h4 : NoTrail name)
    (data : Str) (depth : Nat) (sp : Option Str) (w : Where) :
    runApp env (depth + 1) sp w (strV (name ++ '(' :: (data ++ [')']))) =
      .bind (getApp env sp w name) fun a =>
      .bind (parseInner env.toFEnv w name data) fun d =>
      callApp env.toFEnv (fun sp raw => .bind (runApp env depth sp w raw) fun r => .pure r.1) a.2 w a.1 d := by
  rw [runApp, splitApp_named h1 h2 h3 h4 data w, Tr.pure_bind]

theorem getApp_known {env : AEnv} {name : Str} {a : AppInfo} (h : env.apps (env.lower name) = some a)
    (sp : Option Str) (w : Where) :
    (getApp env sp w name).val = .ok (a, chooseSpelling sp a name) ∧ ¬ SaysParseError (getApp env sp w name).ev := by
  have : ∀ n, (checkAvailability w n name).val = .ok () ∧ ¬ SaysParseError (checkAvailability w n name).ev := by
    intro n
    unfold checkAvailability
    split
    · exact ⟨rfl, fun ⟨m, hm, _⟩ => by cases hm⟩
    · split
      all_goals
        refine ⟨rfl, fun ⟨m, hm, hk⟩ => ?_⟩
        simp [Tr.emit] at hm
        subst hm
        cases hk
  unfold getApp
  rw [h]
  obtain ⟨t1, t2⟩ := this (appName (chooseSpelling sp a name) a)
  simp only [Option.some_or, Tr.bind, Tr.note, Tr.pure, t1]
  refine ⟨trivial, fun hs => ?_⟩
  rw [List.append_nil, saysParse_append] at hs
  rcases hs with ⟨m, hm, hk⟩ | hs
  · simp at hm
  · exact t2 hs

/-- C32: for a known application other than `ExecIf` (which runs others), a parse error is reported
exactly if some `${` or `$[` in its data is never closed (data in which something else fails, such as
a variable without a name, is left out). -/
theorem C32_reported (env : AEnv) (depth : Nat) (sp : Option Str) (w : Where) (name data : Str) (a : AppInfo)
    (hn : name ≠ [] ∧ '(' ∉ name ∧ NoLead name ∧ NoTrail name) (ha : env.apps (env.lower name) = some a)
    (he : a.beh ≠ .execIf) (hd : ∀ e, (parseVariables env.toFEnv w data).val = .error e → e = .varParseError) :
    (∃ m, Ev.msg m ∈ (runApp env (depth + 1) sp w (strV (name ++ '(' :: (data ++ [')'])))).ev ∧ m.kind = .E_APP_PARSE_ERROR) ↔
      ¬ Closed data := by
  rw [← C32_iff env.toFEnv w data hd, ← (parseInner_says env.toFEnv w name data).1]
  obtain ⟨g1, g2⟩ := getApp_known ha sp w
  rw [runApp_named hn.1 hn.2.1 hn.2.2.1 hn.2.2.2, (Tr.bind_val_ok g1).2]
  show SaysParseError _ ↔ _
  rw [saysParse_append]
  have hc : ∀ d, ¬ SaysParseError (callApp env.toFEnv (fun sp raw => .bind (runApp env depth sp w raw) fun r => .pure r.1)
      (chooseSpelling sp a name) w a d).ev := fun d => only_noParse (only_callApp _ _ _ _ _ he _) rfl
  cases hv : (parseInner env.toFEnv w name data).val with
  | error e =>
    rw [show Tr.bind (parseInner env.toFEnv w name data) _ = ⟨(parseInner env.toFEnv w name data).ev, .error e⟩ by
      unfold Tr.bind; rw [hv]]
    simp [g2]
  | ok d =>
    rw [(Tr.bind_val_ok hv).2, saysParse_append]
    simp [g2, hc]

/-- C32: the message names the application and its data, the rest is checked as if nothing in the
data were a variable. -/
theorem C32_reported_text (env : AEnv) (depth : Nat) (sp : Option Str) (w : Where) (name data : Str) (a : AppInfo)
    (hn : name ≠ [] ∧ '(' ∉ name ∧ NoLead name ∧ NoTrail name) (ha : env.apps (env.lower name) = some a)
    (hd : ∀ e, (parseVariables env.toFEnv w data).val = .error e → e = .varParseError) (ho : ¬ Closed data) :
    (runApp env (depth + 1) sp w (strV (name ++ '(' :: (data ++ [')'])))).ev =
      (getApp env sp w name).ev ++ (parseVariables env.toFEnv w data).ev ++
      [.msg (mkMsg .E_APP_PARSE_ERROR w [(c! "app", strV name), (c! "args", strV data)])] ++
      (callApp env.toFEnv (fun sp raw => .bind (runApp env depth sp w raw) fun r => .pure r.1)
        (chooseSpelling sp a name) w a (.str data)).ev := by
  obtain ⟨g1, -⟩ := getApp_known ha sp w
  rw [runApp_named hn.1 hn.2.1 hn.2.2.1 hn.2.2.2, (Tr.bind_val_ok g1).2,
    (parseInner_says env.toFEnv w name data).2 ((C32_iff env.toFEnv w data hd).2 ho)]
  simp [Tr.bind]

/-- Unclosed: `NoOp(${x)`. -/
example : (∃ m, Ev.msg m ∈ (runApp demoEnv.toAEnv 1 none (demoW 1) (strV (c! "NoOp(${x)"))).ev ∧ m.kind = .E_APP_PARSE_ERROR) ↔
    ¬ Closed (c! "${x") :=
  C32_reported demoEnv.toAEnv 0 none (demoW 1) (c! "NoOp") (c! "${x") ⟨c! "NoOp", c! "<builtin>", .plain⟩
    ⟨by decide, by decide, fun c r h => by cases h; decide, noTrail_of (by decide)⟩ (by decide) (by decide)
    (fun e h => by
      have : (parseVariables demoEnv.toFEnv (demoW 1) (c! "${x")).val = .error .varParseError := by decide +kernel
      rw [this] at h
      cases h
      rfl)

end ALint.Props
