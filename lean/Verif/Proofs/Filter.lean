import Verif.Proofs.Supplies

/-!
# Messages of the consumer alone
-/

namespace ALint
open ALint.Spec

theorem filter_none {K : Msg → Bool} {ms : List Msg} (h : ∀ m ∈ ms, K m = false) : ms.filter K = [] := by
  simpa using h

/-- Messages of kinds no stage before the aggregator issues are those of the aggregator. -/
theorem pipeRun_filter {σ : Type} (fs : FS) (agg : σ → Elem → Res σ) (K : Msg → Bool)
    (hK : ∀ m, fileKind m.kind = true → K m = false) : ∀ (n : Nat) (st : PState σ)
    (s : σ), (pipeRun fs agg n st).val = .ok (some s) →
    ∃ es, (feed agg st.agg es).val = .ok s ∧
      (∀ l, (pipeRun fs collect n (st.with_ l)).val = .ok (some (l ++ es))) ∧
      (pipeRun fs agg n st).log.filter K = (feed agg st.agg es).log.filter K := by
  intro n
  have hin : ∀ st : PState (List Elem), PipeIn (fun _ => True) st := fun st =>
    ⟨fun _ _ _ _ _ => trivial, fun _ _ => trivial, fun _ _ _ _ => trivial⟩
  have hin' : ∀ st : PState σ, PipeIn (fun _ => True) st := fun st =>
    ⟨fun _ _ _ _ _ => trivial, fun _ _ => trivial, fun _ _ _ _ => trivial⟩
  have hcol : Consumes (fun _ => True) (fun m => fileKind m.kind = true) (fun _ : List Elem => True) collect :=
    fun _ _ _ _ => ⟨.pure _, fun _ _ => trivial⟩
  induction n with
  | zero => intro st s h; simp [pipeRun] at h
  | succ n ih =>
    intro st s h
    rw [pipeRun] at h ⊢
    cases hp : pipeStep fs agg st with
    | none =>
      simp only [hp] at h ⊢
      have hc : ∀ l : List Elem, pipeStep fs collect (st.with_ l) = none := by
        intro l
        unfold pipeStep at hp ⊢
        simp only [PState.with_]
        cases hn : nextLine st.frames with
        | none => rfl
        | some p => simp [hn] at hp
      obtain ⟨a, h1, h2, h3⟩ := Res.bind_ok h
      simp only [Res.pure_val, Except.ok.injEq, Option.some.injEq] at h2
      subst h2
      unfold pipeEnd at h1
      obtain ⟨u, h4, h5, h6⟩ := Res.bind_ok h1
      obtain ⟨u', h7, h8, h9⟩ := Res.bind_ok h5
      refine ⟨(vswEnd st.vsw).1, h8, fun l => ?_, ?_⟩
      · rw [pipeRun]
        simp only [hc]
        have : pipeEnd collect (st.with_ l) = ⟨(Res.emitAll (ffEnd st.ff)).log ++
            (Res.emitAll (vswEnd st.vsw).2).log, .ok (l ++ (vswEnd st.vsw).1)⟩ := by
          unfold pipeEnd
          simp only [PState.with_]
          rw [Res.bind_of_ok h4]
          simp only [Res.bind_of_ok h7, feed_collect]
          simp [Res.pure]
        rw [this, Res.bind_of_ok rfl]
        rfl
      · rw [h3, show (pipeEnd agg st).log = _ from h6, h9]
        have e1 := LogAll.emitAll fun m hm => hK m ((fine_ffEnd (hin' st).ff) m hm).kind
        have e2 := LogAll.emitAll fun m hm => hK m ((fine_vswEnd (hin' st).vsw).1 m hm).kind
        simp only [Res.pure_log, List.append_nil, List.filter_append, filter_none e1, filter_none e2,
          List.nil_append]
    | some r =>
      simp only [hp] at h ⊢
      obtain ⟨st', h1, h2, h3⟩ := Res.bind_ok h
      obtain ⟨es1, e1, e2⟩ := pipeStep_collect fs agg st st' r hp h1
      obtain ⟨es2, e3, e4, e5⟩ := ih st' s h2
      refine ⟨es1 ++ es2, ?_, fun l => ?_, ?_⟩
      · rw [feed_append, Res.bind_of_ok e1]; exact e3
      · rw [pipeRun]
        obtain ⟨r', q1, q2, _⟩ := e2 l
        simp only [q1]
        rw [Res.bind_of_ok q2]
        simp only [e4, List.append_assoc]
      · rw [feed_append, Res.bind_of_ok e1, h3]
        obtain ⟨r', q1, _, q3⟩ := e2 []
        have := (pipeStep_consumes (fs := fs) (fun _ _ _ _ _ _ => trivial) (fun m h => h.kind) hcol (hin _) trivial q1).1
        rw [q3, List.filter_append, List.filter_append, List.filter_append, e5,
          filter_none fun m hm => hK m (this m hm), List.nil_append]

end ALint
