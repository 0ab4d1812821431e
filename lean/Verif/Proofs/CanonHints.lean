import Verif.Proofs.Calm
import Verif.Proofs.Expansion
import Verif.Proofs.DialplanLog
import Verif.Proofs.AppKinds
import Verif.Props.LineLog

/-!
# The hints about patterns: which elements they come from
-/

namespace ALint
open Spec
open Pattern (parse canonical isCanonical Values)

def isHint (m : Msg) : Bool := m.kind == .H_PAT_NON_CANONICAL

/-- The hints among messages. -/
def hintsOf (log : List Msg) : List Msg := log.filter isHint

theorem hintsOf_append (a b : List Msg) : hintsOf (a ++ b) = hintsOf a ++ hintsOf b := by simp [hintsOf]

theorem hintsOf_merges {a b c : List Msg} (h : Merges a b c) (ha : hintsOf a = []) : hintsOf c = hintsOf b := by
  induction h with
  | nil => rfl
  | left x _ ih =>
    unfold hintsOf at ha ih ⊢
    rw [List.filter_cons] at ha
    split at ha
    · cases ha
    · rename_i hx
      rw [List.filter_cons_of_neg hx]
      exact ih ha
  | right x _ ih =>
    unfold hintsOf at ih ⊢
    rw [List.filter_cons, List.filter_cons, ih ha]

/-- Results without hints. -/
structure NoHint {α : Type} (x : Res α) : Prop where
  out : hintsOf x.log = []

namespace NoHint
variable {α β : Type}

theorem pure (a : α) : NoHint (Res.pure a) := ⟨rfl⟩
theorem raise (e : Exc) : NoHint (Res.raise e : Res α) := ⟨rfl⟩
theorem lift (x : Except Exc α) : NoHint (Res.lift x) := ⟨rfl⟩
theorem emit (m : Msg) (h : isHint m = false) : NoHint (Res.emit m) := ⟨by simp [Res.emit, hintsOf, h]⟩

theorem bind {x : Res α} {f : α → Res β} (hx : NoHint x) (hf : ∀ a, NoHint (f a)) : NoHint (Res.bind x f) := by
  constructor
  unfold Res.bind
  split
  · exact hx.out
  · simp only [hintsOf_append, hx.out, (hf _).out, List.append_nil]

theorem ite {c : Prop} [Decidable c] {x y : Res α} (hx : NoHint x) (hy : NoHint y) : NoHint (if c then x else y) := by
  split <;> assumption

theorem toRes (env : AEnv) (depth : Nat) (sp : Option Str) (w : Where) (raw : Arg) :
    NoHint (runApp env depth sp w raw).toRes := by
  constructor
  unfold hintsOf
  rw [List.filter_eq_nil_iff]
  intro m hm
  have := (here_runApp env depth sp w raw m hm).2
  unfold isHint
  intro hk
  rw [beq_iff_eq] at hk
  rw [hk] at this
  cases this

end NoHint

/-- Pieces without calls. -/
macro "nohint" : tactic => `(tactic| repeat' (first
  | exact NoHint.pure _ | exact NoHint.raise _ | exact NoHint.lift _ | exact NoHint.emit _ rfl
  | assumption
  | refine NoHint.bind ?_ (fun _ => ?_)
  | refine NoHint.ite ?_ ?_
  | split))

theorem nohint_readExten (env : DEnv) (sp : Option Str) (v : VarE) : NoHint (readExten env sp v) := by
  have hp : ∀ p, NoHint (readPrio v.at_ p) := by intro p; unfold readPrio; nohint
  have hl : ∀ l, NoHint (readLabel v.at_ l) := by intro p; unfold readLabel; nohint
  unfold readExten
  refine .bind (.lift _) fun pr => .bind (hp _) fun prio => ?_
  cases prio with
  | none => exact .pure _
  | some prio =>
    refine .bind (hl _) fun label => ?_
    cases label with
    | none => exact .pure _
    | some label => exact .bind (.lift _) fun pat => .bind (NoHint.toRes ..) fun r => .pure _

theorem nohint_fromVarset (env : DEnv) (sp : Option Str) (v : VarE) : NoHint (fromVarset env sp v) := by
  have hr := nohint_readExten env sp v
  unfold fromVarset expectArrow
  nohint

theorem nohint_addExt (last : Option Nat) (c : DCtx) (e : ExtLine) : NoHint (addExt last c e) := by
  unfold addExt resolvePrio storeStep cacheCheck badOrder
  dsimp only
  nohint

theorem nohint_onContext (st : DState) (c : CtxE) : NoHint (onContext st c) := by
  unfold onContext addGeneral addGlobals; nohint

theorem nohint_onComplete (dp : Dialplan) : NoHint (onComplete dp) := by
  unfold onComplete; nohint

theorem nohint_files (fs : FS) (n : Nat) (path : Str) (content : Bytes) :
    hintsOf (pipeRun fs collect n ⟨[openFrame path content], [], [], []⟩).log = [] := by
  unfold hintsOf
  rw [List.filter_eq_nil_iff]
  intro m hm hk
  have := file_kinds fs n path content m hm
  unfold isHint at hk
  rw [beq_iff_eq] at hk
  rw [hk] at this
  cases this

/-! ## Elements -/

/-- A line for a pattern that is not spelled canonically. -/
structure PatLine (v : VarE) (pat rest : Str) (vals : Values) : Prop where
  key : v.key = c! "exten"
  value : v.value = pat ++ ',' :: rest
  noComma : ',' ∉ pat
  ne : pat ≠ []
  parses : parse pat = .ok vals
  odd : isCanonical pat vals = false

/-- The hint about it. -/
def hintMsg (w : Where) (pat : Str) (vals : Values) : Msg :=
  mkMsg .H_PAT_NON_CANONICAL w [(c! "pat", strV pat), (c! "expected", strV (canonical vals))]

theorem canonCheck_hints (e : ExtLine) :
    hintsOf (canonCheck e).log = [] ∨
    ∃ raw v, e.pat = some (raw, v) ∧ isCanonical raw v = false ∧ hintsOf (canonCheck e).log = [hintMsg e.at_ raw v] := by
  unfold canonCheck
  cases e.pat with
  | none => exact .inl rfl
  | some p =>
    obtain ⟨raw, v⟩ := p
    dsimp only
    by_cases h : isCanonical raw v = true
    · rw [if_pos h]; exact .inl rfl
    · rw [if_neg h]; exact .inr ⟨raw, v, rfl, by simpa using h, rfl⟩

theorem onVarset_hints {env : DEnv} {st st' : DState} {v : VarE} (h : (onVarset env st v).val = .ok st') :
    hintsOf (onVarset env st v).log = [] ∨
    ∃ pat rest vals, PatLine v pat rest vals ∧ hintsOf (onVarset env st v).log = [hintMsg v.at_ pat vals] := by
  unfold onVarset at h ⊢
  cases hc : st.cur with
  | none => exact .inl (NoHint.out (by nohint))
  | general => exact .inl rfl
  | globals => exact .inl rfl
  | detached => exact .inl rfl
  | ctx name =>
    simp only [hc] at h ⊢
    cases hg : st.dp.get name with
    | none => exact .inl rfl
    | some c =>
      simp only [hg] at h ⊢
      obtain ⟨r, h1, h2, h3⟩ := Res.bind_ok h
      obtain ⟨dp, h4, h5, h6⟩ := Res.bind_ok h2
      rw [h3, h6, hintsOf_append, hintsOf_append, (nohint_fromVarset env st.sp v).out]
      simp only [Res.pure_log, List.nil_append]
      rw [show hintsOf [] = [] from rfl, List.append_nil]
      have hcase := fromVarset_cases h1
      obtain ⟨sp', us, dv⟩ := r
      dsimp only at h4 ⊢
      cases dv with
      | nothing => exact .inl rfl
      | include_ name w => exact .inl rfl
      | ext e =>
        simp only [onDVar] at h4 ⊢
        obtain ⟨u1, g1, g2, g3⟩ := Res.bind_ok h4
        obtain ⟨a, g4, g5, g6⟩ := Res.bind_ok g2
        rw [g3, g6, hintsOf_append, hintsOf_append, (nohint_addExt _ _ _).out]
        simp only [Res.pure_log, List.nil_append]
        rw [show hintsOf [] = [] from rfl, List.append_nil]
        rcases canonCheck_hints e with hh | ⟨raw, vals, e1, e2, e3⟩
        · exact .inl hh
        · right
          generalize (fromVarset env st.sp v).log = lg at hcase
          have hpl : ∃ rest, PatLine v raw rest vals ∧ e.at_ = v.at_ := by
            cases hcase with
            | line _ ms hk hr =>
              cases hr with
              | ext p rr pat prio label sp'' jumps uses ms hs hp hl hpat hrun =>
                dsimp only at e1
                subst e1
                have hpr : p = some raw ∧ parse raw = .ok vals := by
                  cases p with
                  | none => simp [readPattern] at hpat
                  | some p =>
                    unfold readPattern at hpat
                    dsimp only at hpat
                    cases hpp : parse p with
                    | error e => rw [hpp] at hpat; cases hpat
                    | ok vv =>
                      rw [hpp] at hpat
                      simp only [Except.ok.injEq, Option.some.injEq, Prod.mk.injEq] at hpat
                      obtain ⟨rfl, rfl⟩ := hpat
                      exact ⟨rfl, hpp⟩
                obtain ⟨rfl, hpp⟩ := hpr
                unfold splitExten at hs
                split at hs
                · rename_i hkey
                  cases hso : splitOnce ',' v.value with
                  | none => rw [hso] at hs; cases hs
                  | some q =>
                    obtain ⟨q1, q2⟩ := q
                    rw [hso] at hs
                    simp only [Except.ok.injEq, Prod.mk.injEq] at hs
                    obtain ⟨hq, rfl⟩ := hs
                    have hne : q1 ≠ [] := by
                      intro he; subst he; simp at hq
                    have hq' : q1 = raw := by
                      rw [if_neg (by simpa using hne)] at hq
                      simpa using hq
                    subst hq'
                    obtain ⟨s1, s2⟩ := splitOnce_some hso
                    exact ⟨q2, ⟨hkey, s1, s2, hne, hpp, e2⟩, rfl⟩
                · simp at hs
          obtain ⟨rest, hpl, hat⟩ := hpl
          exact ⟨raw, rest, vals, hpl, by rw [e3, hat]⟩

theorem step_hints {env : DEnv} {st st' : DState} {e : Elem} (h : (dialplanStep env st e).val = .ok st') :
    hintsOf (dialplanStep env st e).log = [] ∨
    ∃ v pat rest vals, e = .var v ∧ PatLine v pat rest vals ∧
      hintsOf (dialplanStep env st e).log = [hintMsg v.at_ pat vals] := by
  cases e with
  | ctx c => exact .inl (nohint_onContext st c).out
  | empty c w => exact .inl rfl
  | var v =>
    rcases onVarset_hints h with h | ⟨pat, rest, vals, h1, h2⟩
    · exact .inl h
    · exact .inr ⟨v, pat, rest, vals, rfl, h1, h2⟩

theorem feed_hints {env : DEnv} : ∀ (es : List Elem) (st st' : DState), (feed (dialplanStep env) st es).val = .ok st' →
    ((hintsOf (feed (dialplanStep env) st es).log).map (·.at_)).Sublist ((es.filter notBlank).map (·.at_)) ∧
    ∀ m ∈ hintsOf (feed (dialplanStep env) st es).log, ∃ v pat rest vals, Elem.var v ∈ es ∧ PatLine v pat rest vals ∧
      m = hintMsg v.at_ pat vals
  | [], _, _, _ => ⟨List.nil_sublist _, by simp [feed, hintsOf]⟩
  | e :: es, st, st', h => by
    rw [feed] at h ⊢
    obtain ⟨s, h1, h2, h3⟩ := Res.bind_ok h
    obtain ⟨i1, i2⟩ := feed_hints es s st' h2
    rw [h3, hintsOf_append, wrapExc_log]
    have h1' := wrapExc_ok.1 h1
    constructor
    · rw [List.map_append]
      have : ((hintsOf (dialplanStep env st e).log).map (·.at_)).Sublist (([e].filter notBlank).map (·.at_)) := by
        rcases step_hints h1' with h | ⟨v, pat, rest, vals, rfl, _, h⟩
        · rw [h]; exact List.nil_sublist _
        · rw [h]; exact List.Sublist.refl _
      rw [show (e :: es).filter notBlank = [e].filter notBlank ++ es.filter notBlank by
        rw [← List.filter_append]; rfl, List.map_append]
      exact this.append i1
    · intro m hm
      rcases List.mem_append.1 hm with hm | hm
      · rcases step_hints h1' with h | ⟨v, pat, rest, vals, rfl, hp, h⟩
        · rw [h] at hm; cases hm
        · rw [h] at hm
          exact ⟨v, pat, rest, vals, by simp, hp, by simpa using hm⟩
      · obtain ⟨v, pat, rest, vals, hv, hp⟩ := i2 m hm
        exact ⟨v, pat, rest, vals, by simp [hv], hp⟩

end ALint
