import Verif.Proofs.DialplanRun

/-!
# The effect of a line
-/

namespace ALint
open ALint.Spec
open Pattern (Values)

theorem drops_append (a b : List Msg) : drops (a ++ b) = drops a ++ drops b := by simp [drops]

theorem drops_nil {l : List Msg} (h : ∀ m ∈ l, dropKind m.kind = false) : drops l = [] := by
  unfold drops
  rw [List.filter_eq_nil_iff]
  intro m hm
  simp [h m hm]

theorem drops_arrow (v : VarE) : drops (arrowMsgs v) = [] :=
  drops_nil fun m hm => by rw [arrowMsgs_mem hm]; rfl

theorem appKind_drop {k : MK} (h : appKind k = true) : dropKind k = false := by
  cases k <;> first | rfl | simp [appKind] at h

theorem read_ext_log {env : DEnv} {sp sp' : Option Str} {v : VarE} {us : List Ev} {e : ExtLine} {ms : List Msg}
    (h : ReadCase env sp v (sp', us, .ext e) ms) :
    (∀ m ∈ ms, m.at_ = v.at_ ∧ appKind m.kind = true) ∧ e.at_ = v.at_ ∧ e.comment = v.comment := by
  cases h with
  | ext p r pat prio label _ jumps _ _ hs hp hl hpat hrun =>
    refine ⟨fun m hm => ?_, rfl, rfl⟩
    have : ms = evMsgs (runApp env.toAEnv env.depth sp v.at_ (strV (splitApp r).2)).ev := by
      have := congrArg Res.log hrun
      exact this.symm
    rw [this] at hm
    exact here_runApp _ _ _ _ _ _ hm

theorem add_drops {last : Option Nat} {c : DCtx} {e : ExtLine} {a : Added} {ms : List Msg}
    (h : AddCase last c e a ms) :
    (∃ s, a.ctx.steps = c.steps ++ [s] ∧ s.at_ = e.at_ ∧ s.comment = e.comment ∧ s.app = e.app ∧ drops ms = []) ∨
    (a.ctx.steps = c.steps ∧ ∃ m, drops ms = [m] ∧ m.at_ = e.at_) := by
  have order : ∀ {raw pat ms n}, resolvePrio last { c with sorted := none } raw pat e = ⟨ms, .ok (some n)⟩ →
      drops ms = [] := by
    intro raw pat ms n hr
    have := resolvePrio_log (congrArg Res.val hr)
    rw [hr] at this
    rcases this with h | ⟨p, h⟩
    · simp at h; rw [h]; rfl
    · simp at h; rw [h]; rfl
  cases h with
  | noPat hp => exact .inr ⟨rfl, _, rfl, rfl⟩
  | noPrio raw pat _ hp hr =>
    refine .inr ⟨rfl, ?_⟩
    have := resolvePrio_none (congrArg Res.val hr)
    rw [hr] at this
    cases this with
    | next => exact ⟨_, rfl, rfl⟩
    | zero => exact ⟨_, rfl, rfl⟩
  | dupe raw pat ms n prev hp hr hd =>
    refine .inr ⟨rfl, ?_⟩
    rw [drops_append, order hr]
    exact ⟨_, rfl, rfl⟩
  | stored raw pat ms n label' ls ds pc lms hp hr hd hpc hlc hl hj =>
    refine .inl ⟨_, rfl, rfl, rfl, rfl, ?_⟩
    rw [drops_append, order hr]
    cases hl <;> rfl

theorem get_put {dp : Dialplan} {c d : DCtx} {n : Str} (hc : dp.get n = some c) (hd : d.name = n) :
    ({ dp with contexts := putCtx d dp.contexts } : Dialplan).get n = some d ∧
    ∀ m, m ≠ n → ({ dp with contexts := putCtx d dp.contexts } : Dialplan).get m = dp.get m := by
  unfold Dialplan.get at hc ⊢
  constructor
  · simp only [putCtx_find, hd, if_true, hc]; rfl
  · intro m hm
    simp only [putCtx_find, hd, hm, if_false]

/-- What is the same after a line in context `n`. -/
structure LineFrame (st st' : DState) (n : Str) : Prop where
  cur : st'.cur = st.cur
  names : st'.dp.contexts.map (·.name) = st.dp.contexts.map (·.name)
  other : ∀ m, m ≠ n → st'.dp.get m = st.dp.get m
  general : st'.dp.general = st.dp.general
  globals : st'.dp.globals = st.dp.globals

/-- The line is stored, or left out with exactly one message saying so. -/
def StepEffect (c c' : DCtx) (v : VarE) (ms : List Msg) : Prop :=
  (∃ s, c'.steps = c.steps ++ [s] ∧ s.at_ = v.at_ ∧ s.comment = v.comment ∧ drops ms = []) ∨
  (c'.steps = c.steps ∧ ∃ m, drops ms = [m] ∧ m.at_ = v.at_)

theorem line_effect {env : DEnv} {st st' : DState} {v : VarE} {c : DCtx} {n : Str} {ms : List Msg}
    (hc : st.dp.get n = some c) (h : LineCase env st v c st' ms) :
    LineFrame st st' n ∧ ∃ c', st'.dp.get n = some c' ∧
      c'.includes = c.includes ++ (if v.key = c! "include" then [(v.value, v.at_)] else []) ∧
      c'.at_ = c.at_ ∧
      (stepLine v = true → StepEffect c c' v ms) ∧
      (stepLine v = false → c'.steps = c.steps ∧ drops ms = []) := by
  obtain ⟨hmem, hname⟩ := get_mem hc
  cases h with
  | nothing sp' us _ h =>
    refine ⟨⟨rfl, rfl, fun _ _ => rfl, rfl, rfl⟩, c, hc, ?_⟩
    generalize hx : (sp', us, DVar.nothing) = x at h
    cases h with
    | line r ms' hk h =>
      subst hx
      have hk' : v.key ≠ c! "include" := by
        rintro e; rw [e] at hk; revert hk; decide
      have hsl : stepLine v = true := by
        rcases hk with h | h <;> simp [stepLine, h]
      refine ⟨by simp [hk'], rfl, fun _ => ?_, fun h => by rw [hsl] at h; simp at h⟩
      refine .inr ⟨rfl, ?_⟩
      rw [drops_append, drops_arrow]
      cases h with
      | hint hp => exact ⟨_, rfl, rfl⟩
      | badPrio p r hp hd => exact ⟨_, rfl, rfl⟩
    | incl hk => cases hx
    | other ms' hk hm =>
      have hsl : stepLine v = false := by simp [stepLine, hk.1, hk.2.1]
      refine ⟨by simp [hk.2.2], rfl, fun h => by rw [hsl] at h; simp at h, fun _ => ⟨rfl, drops_nil fun m hm' => ?_⟩⟩
      rcases (hm m hm').2 with h | h | h | h <;> rw [h] <;> rfl
  | incl hk =>
    have hsl : stepLine v = false := by simp [stepLine, hk]
    obtain ⟨g1, g2⟩ := get_put (d := { c with includes := c.includes ++ [(v.value, v.at_)] }) hc hname
    refine ⟨⟨rfl, putCtx_names _ _, g2, rfl, rfl⟩, _, g1, by simp [hk], rfl, fun h => by rw [hsl] at h; simp at h,
      fun _ => ⟨rfl, drops_arrow v⟩⟩
  | ext sp' us e a ms' cs as hk h hcs ha =>
    have hk' : v.key ≠ c! "include" := by
      rintro e; rw [e] at hk; revert hk; decide
    have hsl : stepLine v = true := by
      rcases hk with h | h <;> simp [stepLine, h]
    obtain ⟨f1, f2, f3⟩ := addCase_frame ha
    obtain ⟨r1, r2, r3⟩ := read_ext_log h
    obtain ⟨g1, g2⟩ := get_put (d := a.ctx) hc (f1.trans hname)
    have hd : drops (arrowMsgs v ++ ms' ++ cs ++ as) = drops as := by
      rw [drops_append, drops_append, drops_append, drops_arrow,
        drops_nil (l := ms') fun m hm => appKind_drop (r1 m hm).2,
        drops_nil (l := cs) fun m hm => by rw [(canonCheck_log e m (hcs ▸ hm)).2]; rfl]
      rfl
    refine ⟨⟨rfl, putCtx_names _ _, g2, rfl, rfl⟩, _, g1, by simp [hk', f2], f3, fun _ => ?_, fun h => by rw [hsl] at h; simp at h⟩
    unfold StepEffect
    rw [hd]
    rcases add_drops ha with ⟨s, h1, h2, h3, h4, h5⟩ | ⟨h1, m, h2, h3⟩
    · exact .inl ⟨s, h1, h2.trans r2, h3.trans r3, h5⟩
    · exact .inr ⟨h1, m, h2, h3.trans r2⟩

end ALint
