import Verif.Model.Dialplan

/-!
# Sequencing, and feeding the aggregator
-/

namespace ALint

namespace Res

theorem bind_ok {α β : Type} {x : Res α} {f : α → Res β} {b : β} (h : (bind x f).val = .ok b) :
    ∃ a, x.val = .ok a ∧ (f a).val = .ok b ∧ (bind x f).log = x.log ++ (f a).log := by
  simp only [bind] at h ⊢
  cases hx : x.val with
  | error e => simp [hx] at h
  | ok a => exact ⟨a, rfl, by simpa [hx] using h, by simp⟩

theorem bind_of_ok {α β : Type} {x : Res α} {a : α} (h : x.val = .ok a) (f : α → Res β) :
    bind x f = ⟨x.log ++ (f a).log, (f a).val⟩ := by
  simp [bind, h]

theorem bind_of_error {α β : Type} {x : Res α} {e : Exc} (h : x.val = .error e) (f : α → Res β) :
    bind x f = ⟨x.log, .error e⟩ := by
  simp [bind, h]

theorem bind_assoc {α β γ : Type} (x : Res α) (f : α → Res β) (g : β → Res γ) :
    bind (bind x f) g = bind x fun a => bind (f a) g := by
  cases hx : x.val with
  | error e => simp [bind, hx]
  | ok a =>
    cases hf : (f a).val with
    | error e => simp [bind, hx, hf]
    | ok b => simp [bind, hx, hf]

@[simp] theorem pure_bind {α β : Type} (a : α) (f : α → Res β) : bind (pure a) f = f a := by
  simp [bind, pure]

@[simp] theorem pure_val {α : Type} (a : α) : (pure a).val = .ok a := rfl
@[simp] theorem pure_log {α : Type} (a : α) : (pure a).log = [] := rfl
@[simp] theorem raise_val {α : Type} (e : Exc) : (raise e : Res α).val = .error e := rfl
@[simp] theorem raise_log {α : Type} (e : Exc) : (raise e : Res α).log = [] := rfl
@[simp] theorem lift_val {α : Type} (x : Except Exc α) : (lift x).val = x := rfl
@[simp] theorem lift_log {α : Type} (x : Except Exc α) : (lift x).log = [] := rfl
@[simp] theorem emit_log (m : Msg) : (emit m).log = [m] := rfl

end Res

theorem wrapExc_ok {α : Type} {r : Res α} {a : α} : (wrapExc r).val = .ok a ↔ r.val = .ok a := by
  unfold wrapExc
  cases r.val <;> simp

theorem wrapExc_log {α : Type} (r : Res α) : (wrapExc r).log = r.log := rfl

/-- Feeding one more element. -/
theorem feed_cons_ok {σ : Type} {agg : σ → Elem → Res σ} {s t : σ} {e : Elem} {es : List Elem}
    (h : (feed agg s (e :: es)).val = .ok t) :
    ∃ s', (agg s e).val = .ok s' ∧ (feed agg s' es).val = .ok t ∧
      (feed agg s (e :: es)).log = (agg s e).log ++ (feed agg s' es).log := by
  rw [feed] at h ⊢
  obtain ⟨a, h1, h2, h3⟩ := Res.bind_ok h
  exact ⟨a, wrapExc_ok.1 h1, h2, by rw [h3, wrapExc_log]⟩

theorem feed_append {σ : Type} (agg : σ → Elem → Res σ) (s : σ) (a b : List Elem) :
    feed agg s (a ++ b) = Res.bind (feed agg s a) fun s' => feed agg s' b := by
  induction a generalizing s with
  | nil => simp [feed]
  | cons e es ih =>
    simp only [List.cons_append, feed, Res.bind_assoc]
    congr 1
    funext s'
    exact ih s'

/-- The elements reaching the aggregator, collected. -/
def collect (s : List Elem) (e : Elem) : Res (List Elem) := .pure (s ++ [e])

theorem feed_collect (s es : List Elem) : feed collect s es = .pure (s ++ es) := by
  induction es generalizing s with
  | nil => simp [feed]
  | cons e es ih =>
    have h : (wrapExc (collect s e)) = .pure (s ++ [e]) := rfl
    simp [feed, h, ih]

/-- An invariant kept by every element holds at the end. -/
theorem feed_inv {σ : Type} {agg : σ → Elem → Res σ} (P : σ → Prop)
    (step : ∀ s e t, P s → (agg s e).val = .ok t → P t) :
    ∀ (es : List Elem) (s t : σ), P s → (feed agg s es).val = .ok t → P t := by
  intro es
  induction es with
  | nil =>
    intro s t hs h
    simp only [feed, Res.pure_val, Except.ok.injEq] at h
    exact h ▸ hs
  | cons e es ih =>
    intro s t hs h
    obtain ⟨s', h1, h2, _⟩ := feed_cons_ok h
    exact ih s' t (step s e s' hs h1) h2

/-- `s` with the aggregator's state replaced. -/
def PState.with_ {σ τ : Type} (st : PState σ) (a : τ) : PState τ := ⟨st.frames, st.ff, st.vsw, a⟩

theorem pipeStep_collect {σ : Type} (fs : FS) (agg : σ → Elem → Res σ) (st st' : PState σ)
    (r : Res (PState σ)) (h : pipeStep fs agg st = some r) (hr : r.val = .ok st') :
    ∃ es, (feed agg st.agg es).val = .ok st'.agg ∧ ∀ l : List Elem,
      ∃ r', pipeStep fs collect (st.with_ l) = some r' ∧ r'.val = .ok (st'.with_ (l ++ es)) ∧
        r.log = r'.log ++ (feed agg st.agg es).log := by
  unfold pipeStep at h ⊢
  simp only [PState.with_]
  cases hn : nextLine st.frames with
  | none => simp [hn] at h
  | some p =>
    obtain ⟨w, frames⟩ := p
    simp only [hn, Option.some.injEq] at h ⊢
    subst h
    obtain ⟨u, h1, h2, h3⟩ := Res.bind_ok hr
    cases hl : (lineStep fs st.ff frames w).2 with
    | error e => simp [hl] at h2
    | ok p =>
      obtain ⟨r, oe⟩ := p
      cases oe with
      | none =>
        simp only [hl, Res.pure_val, Except.ok.injEq] at h2
        refine ⟨[], by simp [feed, ← h2], fun l => ⟨_, rfl, ?_, ?_⟩⟩
        · rw [Res.bind_of_ok h1]
          simp [← h2]
        · simp [Res.bind_of_ok h1, feed]
      | some e =>
        simp only [hl] at h2 h3
        obtain ⟨u', h4, h5, h6⟩ := Res.bind_ok h2
        obtain ⟨s, h7, h8, h9⟩ := Res.bind_ok h5
        simp only [Res.pure_val, Except.ok.injEq] at h8
        refine ⟨(vswStep st.vsw e).2.1, by rw [h7, ← h8], fun l => ⟨_, rfl, ?_, ?_⟩⟩
        · rw [Res.bind_of_ok h1]
          simp only [Res.bind_of_ok h4, feed_collect, Res.pure_bind, ← h8, Res.pure_val]
        · simp [Res.bind_of_ok h1, Res.bind_of_ok h4, Res.bind_of_ok h7, feed_collect]

/-- When a run of the pipeline ends without an exception, the elements it hands to the
aggregator do not depend on the aggregator, and the result is that of feeding these.  The
messages of the aggregator are among those of the run, in order. -/
theorem pipeRun_collect {σ : Type} (fs : FS) (agg : σ → Elem → Res σ) : ∀ (n : Nat) (st : PState σ)
    (s : σ), (pipeRun fs agg n st).val = .ok (some s) →
    ∃ es, (feed agg st.agg es).val = .ok s ∧
      (∀ l, (pipeRun fs collect n (st.with_ l)).val = .ok (some (l ++ es))) ∧
      List.Sublist (feed agg st.agg es).log (pipeRun fs agg n st).log := by
  intro n
  induction n with
  | zero => intro st s h; simp [pipeRun] at h
  | succ n ih =>
    intro st s h
    rw [pipeRun] at h ⊢
    cases hp : pipeStep fs agg st with
    | none =>
      simp only [hp] at h ⊢
      have hc : ∀ l : List Elem, pipeStep fs collect (st.with_ l) = none := by
        intro l
        unfold pipeStep at hp ⊢
        simp only [PState.with_]
        cases hn : nextLine st.frames with
        | none => rfl
        | some p => simp [hn] at hp
      obtain ⟨a, h1, h2, h3⟩ := Res.bind_ok h
      simp only [Res.pure_val, Except.ok.injEq, Option.some.injEq] at h2
      subst h2
      unfold pipeEnd at h1
      obtain ⟨u, h4, h5, h6⟩ := Res.bind_ok h1
      obtain ⟨u', h7, h8, h9⟩ := Res.bind_ok h5
      refine ⟨(vswEnd st.vsw).1, h8, fun l => ?_, ?_⟩
      · rw [pipeRun]
        simp only [hc]
        have : pipeEnd collect (st.with_ l) = ⟨(Res.emitAll (ffEnd st.ff)).log ++
            (Res.emitAll (vswEnd st.vsw).2).log, .ok (l ++ (vswEnd st.vsw).1)⟩ := by
          unfold pipeEnd
          simp only [PState.with_]
          rw [Res.bind_of_ok h4]
          simp only [Res.bind_of_ok h7, feed_collect]
          simp [Res.pure]
        rw [this, Res.bind_of_ok rfl]
        rfl
      · rw [h3, show (pipeEnd agg st).log = _ from h6, h9]
        simp only [Res.pure_log, List.append_nil]
        rw [← List.append_assoc]
        exact List.sublist_append_right _ _
    | some r =>
      simp only [hp] at h ⊢
      obtain ⟨st', h1, h2, h3⟩ := Res.bind_ok h
      obtain ⟨es1, e1, e2⟩ := pipeStep_collect fs agg st st' r hp h1
      obtain ⟨es2, e3, e4, e5⟩ := ih st' s h2
      refine ⟨es1 ++ es2, ?_, fun l => ?_, ?_⟩
      · rw [feed_append, Res.bind_of_ok e1]; exact e3
      · rw [pipeRun]
        obtain ⟨r', q1, q2, _⟩ := e2 l
        simp only [q1]
        rw [Res.bind_of_ok q2]
        simp only [e4, List.append_assoc]
      · rw [feed_append, Res.bind_of_ok e1, h3]
        obtain ⟨r', _, _, q3⟩ := e2 []
        rw [q3]
        exact List.Sublist.append (List.sublist_append_right _ _) e5

theorem Res.bind_val {α β : Type} (x : Res α) (f : α → Res β) :
    (bind x f).val = match x.val with | .ok a => (f a).val | .error e => .error e := by
  cases h : x.val with
  | ok a => rw [bind_of_ok h]
  | error e => rw [bind_of_error h]

theorem pipeStep_feed {σ : Type} (fs : FS) (agg : σ → Elem → Res σ) (st : PState σ) (l : List Elem)
    (out : PState (List Elem)) (r' : Res (PState (List Elem)))
    (h : pipeStep fs collect (st.with_ l) = some r') (hr : r'.val = .ok out) :
    ∃ es, out.agg = l ++ es ∧ ∃ r, pipeStep fs agg st = some r ∧
      r.val = (feed agg st.agg es).val.map fun s => out.with_ s := by
  unfold pipeStep at h ⊢
  simp only [PState.with_] at h ⊢
  cases hn : nextLine st.frames with
  | none => simp [hn] at h
  | some p =>
    obtain ⟨w, frames⟩ := p
    simp only [hn, Option.some.injEq] at h ⊢
    subst h
    obtain ⟨u, h1, h2, h3⟩ := Res.bind_ok hr
    cases hl : (lineStep fs st.ff frames w).2 with
    | error e => simp [hl] at h2
    | ok p =>
      obtain ⟨r, oe⟩ := p
      cases oe with
      | none =>
        simp only [hl, Res.pure_val, Except.ok.injEq] at h2
        refine ⟨[], by simp [← h2], _, rfl, ?_⟩
        rw [Res.bind_of_ok h1]
        simp [← h2, feed, Except.map]
      | some e =>
        simp only [hl] at h2 h3
        obtain ⟨u', h4, h5, h6⟩ := Res.bind_ok h2
        rw [feed_collect] at h5
        simp only [Res.pure_bind, Res.pure_val, Except.ok.injEq] at h5
        refine ⟨(vswStep st.vsw e).2.1, by simp [← h5], _, rfl, ?_⟩
        rw [Res.bind_of_ok h1]
        simp only [Res.bind_of_ok h4]
        rw [Res.bind_val]
        cases (feed agg st.agg (vswStep st.vsw e).2.1).val <;> simp [Except.map, ← h5]

/-- When the elements can be read from the file, the run of any aggregator ends as feeding
them does. -/
theorem pipeRun_feed {σ : Type} (fs : FS) (agg : σ → Elem → Res σ) : ∀ (n : Nat) (st : PState σ)
    (l out : List Elem), (pipeRun fs collect n (st.with_ l)).val = .ok (some out) →
    ∃ es, out = l ++ es ∧ (pipeRun fs agg n st).val = (feed agg st.agg es).val.map some := by
  intro n
  induction n with
  | zero => intro st l out h; simp [pipeRun] at h
  | succ n ih =>
    intro st l out h
    rw [pipeRun] at h ⊢
    cases hp : pipeStep fs collect (st.with_ l) with
    | none =>
      simp only [hp] at h
      have hc : pipeStep fs agg st = none := by
        unfold pipeStep at hp ⊢
        simp only [PState.with_] at hp
        cases hn : nextLine st.frames with
        | none => rfl
        | some p => simp [hn] at hp
      simp only [hc]
      obtain ⟨a, h1, h2, h3⟩ := Res.bind_ok h
      simp only [Res.pure_val, Except.ok.injEq, Option.some.injEq] at h2
      subst h2
      unfold pipeEnd at h1 ⊢
      obtain ⟨u, h4, h5, h6⟩ := Res.bind_ok h1
      obtain ⟨u', h7, h8, h9⟩ := Res.bind_ok h5
      simp only [feed_collect, Res.pure_val, Except.ok.injEq] at h8
      refine ⟨(vswEnd st.vsw).1, h8.symm, ?_⟩
      simp only [PState.with_] at h4 h7
      rw [Res.bind_assoc, Res.bind_of_ok h4]
      dsimp only
      rw [Res.bind_assoc, Res.bind_of_ok h7]
      dsimp only
      rw [Res.bind_val]
      cases (feed agg st.agg (vswEnd st.vsw).1).val <;> rfl
    | some r' =>
      simp only [hp] at h
      obtain ⟨st', h1, h2, h3⟩ := Res.bind_ok h
      obtain ⟨es1, e1, r, e2, e3⟩ := pipeStep_feed fs agg st l st' r' hp h1
      simp only [e2]
      cases hf : (feed agg st.agg es1).val with
      | error e =>
        rw [hf] at e3
        have hgen : ∃ es2, out = st'.agg ++ es2 := by
          obtain ⟨es2, h4, _⟩ := ih (st'.with_ st.agg) st'.agg out h2
          exact ⟨es2, h4⟩
        obtain ⟨es2, rfl⟩ := hgen
        refine ⟨es1 ++ es2, by rw [e1, List.append_assoc], ?_⟩
        rw [Res.bind_of_error (e := e) e3, feed_append, Res.bind_of_error hf]
        rfl
      | ok s =>
        rw [hf] at e3
        obtain ⟨es2, h4, h5⟩ := ih (st'.with_ s) st'.agg out h2
        refine ⟨es1 ++ es2, by rw [h4, e1, List.append_assoc], ?_⟩
        rw [Res.bind_of_ok (a := st'.with_ s) e3, feed_append, Res.bind_of_ok hf]
        exact h5

end ALint
