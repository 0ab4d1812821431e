import Verif.Proofs.VgDialplan

/-!
# The elements read by the `vg` command do not depend on what is done with them
-/

namespace ALint
open Spec

variable {σ : Type} {fs : FS} {agg : σ → Elem → Res σ}

theorem feed_both {s t u : σ} {a b : List Elem} (h1 : (feed agg s a).val = .ok t) (h2 : (feed agg t b).val = .ok u) :
    (feed agg s (a ++ b)).val = .ok u := by
  rw [feed_append, Res.bind_of_ok h1]
  exact h2

theorem vgDeliver_collect {st st' : PState σ} {l : Logical} (h : (vgDeliver fs agg st l).val = .ok st') :
    ∃ es, (feed agg st.agg es).val = .ok st'.agg ∧
      ∀ acc : List Elem, (vgDeliver fs collect (st.with_ acc) l).val = .ok (st'.with_ (acc ++ es)) := by
  unfold vgDeliver at h ⊢
  obtain ⟨_, h1, h2, _⟩ := Res.bind_ok h
  dsimp only
  cases hp : (parserStage l.1 l.2.1 l.2.2).2 with
  | elem e =>
    simp only [hp] at h2
    obtain ⟨_, h3, h4, _⟩ := Res.bind_ok h2
    obtain ⟨s, h5, h6, _⟩ := Res.bind_ok h4
    simp only [Res.pure_val, Except.ok.injEq] at h6
    subst h6
    refine ⟨(vswStep st.vsw e).2.1, h5, fun acc => ?_⟩
    rw [Res.bind_of_ok h1]
    simp only [PState.with_, Res.bind_of_ok h3, feed_collect, Res.pure_bind, Res.pure_val]
  | pp p =>
    simp only [hp] at h2
    obtain ⟨_, h3, h4, _⟩ := Res.bind_ok h2
    obtain ⟨fr, h5, h6, _⟩ := Res.bind_ok h4
    simp only [Res.pure_val, Except.ok.injEq] at h6
    subst h6
    refine ⟨[], rfl, fun acc => ?_⟩
    rw [Res.bind_of_ok h1]
    simp [PState.with_, Res.bind_of_ok h3, Res.bind_of_ok h5]

theorem vgDeliverOpt_collect {st st' : PState σ} {l : Option Logical} (h : (vgDeliverOpt fs agg st l).val = .ok st') :
    ∃ es, (feed agg st.agg es).val = .ok st'.agg ∧
      ∀ acc : List Elem, (vgDeliverOpt fs collect (st.with_ acc) l).val = .ok (st'.with_ (acc ++ es)) := by
  cases l with
  | some l => exact vgDeliver_collect h
  | none =>
    simp only [vgDeliverOpt, Res.pure_val, Except.ok.injEq] at h
    subst h
    exact ⟨[], rfl, fun acc => by simp [vgDeliverOpt]⟩

theorem vgRound_collect {st : PState σ} {o : PState σ × Option Logical} {prev : Option Logical} {w : Where} {data : Str}
    (h : (vgRound fs agg st prev w data).val = .ok o) :
    ∃ es, (feed agg st.agg es).val = .ok o.1.agg ∧
      ∀ acc : List Elem, (vgRound fs collect (st.with_ acc) prev w data).val = .ok (o.1.with_ (acc ++ es), o.2) := by
  unfold vgRound at h ⊢
  by_cases hc : (prev.isSome && startsBlank data) = true
  · rw [if_pos hc] at h
    simp only [if_pos hc]
    obtain ⟨_, h1, h2, _⟩ := Res.bind_ok h
    simp only [Res.pure_val, Except.ok.injEq] at h2
    subst h2
    exact ⟨[], rfl, fun acc => by simp [Res.bind_of_ok h1]⟩
  · rw [if_neg hc] at h
    simp only [if_neg hc]
    obtain ⟨s1, h1, h2, _⟩ := Res.bind_ok h
    obtain ⟨_, h3, h4, _⟩ := Res.bind_ok h2
    obtain ⟨s2, h5, h6, _⟩ := Res.bind_ok h4
    simp only [Res.pure_val, Except.ok.injEq] at h6
    subst h6
    obtain ⟨e1, f1, g1⟩ := vgDeliverOpt_collect h1
    obtain ⟨e2, f2, g2⟩ := vgDeliverOpt_collect h5
    refine ⟨e1 ++ e2, feed_both f1 f2, fun acc => ?_⟩
    rw [Res.bind_of_ok (g1 acc)]
    simp only [Res.bind_of_ok h3, Res.bind_of_ok (g2 (acc ++ e1)), Res.pure_val, List.append_assoc]

/-- When a run ends, its result is that of feeding the elements, which are the same for all aggregators. -/
theorem vgRun_collect : ∀ (n : Nat) (st : PState σ) (prev : Option Logical) (s : σ), (vgRun fs agg n st prev).val = .ok (some s) →
    ∃ es, (feed agg st.agg es).val = .ok s ∧
      ∀ acc : List Elem, (vgRun fs collect n (st.with_ acc) prev).val = .ok (some (acc ++ es)) := by
  intro n
  induction n with
  | zero => intro st prev s h; simp [vgRun] at h
  | succ n ih =>
    intro st prev s h
    rw [vgRun] at h
    cases hn : nextLine st.frames with
    | none =>
      simp only [hn] at h
      obtain ⟨_, h1, h2, _⟩ := Res.bind_ok h
      obtain ⟨s1, h3, h4, _⟩ := Res.bind_ok h2
      obtain ⟨_, h5, h6, _⟩ := Res.bind_ok h4
      obtain ⟨s2, h7, h8, _⟩ := Res.bind_ok h6
      simp only [Res.pure_val, Except.ok.injEq, Option.some.injEq] at h8
      subst h8
      obtain ⟨e1, f1, g1⟩ := vgDeliverOpt_collect h3
      refine ⟨e1 ++ (vswEnd s1.vsw).1, feed_both f1 h7, fun acc => ?_⟩
      rw [vgRun]
      have hn' : nextLine (st.with_ acc).frames = none := hn
      simp only [hn']
      have e : (st.with_ acc).ff = st.ff := rfl
      rw [e, Res.bind_of_ok h1]
      dsimp only
      rw [Res.bind_of_ok (g1 acc)]
      simp [PState.with_, Res.bind_of_ok h5, feed_collect]
    | some q =>
      obtain ⟨w, frames⟩ := q
      simp only [hn] at h
      obtain ⟨r, h1, h2, _⟩ := Res.bind_ok h
      obtain ⟨o, h3, h4, _⟩ := Res.bind_ok h2
      obtain ⟨e1, f1, g1⟩ := vgRound_collect h3
      obtain ⟨e2, f2, g2⟩ := ih _ _ _ h4
      refine ⟨e1 ++ e2, feed_both f1 f2, fun acc => ?_⟩
      rw [vgRun]
      have hn' : nextLine (st.with_ acc).frames = some (w, frames) := hn
      simp only [hn']
      have e : (st.with_ acc).ff = st.ff := rfl
      rw [e, Res.bind_of_ok h1]
      dsimp only
      have g := g1 acc
      have g' := g2 (acc ++ e1)
      simp only [PState.with_] at g g' ⊢
      rw [Res.bind_of_ok g]
      dsimp only
      rw [g', List.append_assoc]

end ALint
