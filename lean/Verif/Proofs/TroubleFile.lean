import Verif.Proofs.Trouble
import Verif.Proofs.Located
import Verif.Proofs.Lookup
import Verif.Props.File

/-!
# Reading files, and walking the jumps: internal errors
-/

namespace ALint
open ALint.Spec

theorem fails_lineStep {fs : FS} {ff : List FInfo} {frames : List Frame} {w : Where} :
    (∃ e, (lineStep fs ff frames w).2 = .error e) ↔ BadLine w := by
  have henc : (∃ e, (encodingStage w).2 = .error e) ↔ (¬ ∃ s, w.line = utf8 s) ∧ ∃ b ∈ w.line, cp1252Byte b = none := by
    by_cases hu : ∃ s, w.line = utf8 s
    · obtain ⟨s, hs⟩ := hu
      have : (encodingStage w).2 = .ok s := by rw [Props.C04_valid w s hs]
      rw [this]
      constructor
      · rintro ⟨e, he⟩; cases he
      · rintro ⟨h, _⟩; exact absurd ⟨s, hs⟩ h
    · obtain ⟨_, _, h⟩ := Props.C04_invalid w hu
      constructor
      · rintro ⟨e, he⟩
        refine ⟨hu, h.2 ?_⟩
        unfold encodingStage at he ⊢
        split at he
        · simp at he
        · dsimp only at he ⊢
          split at he
          · simp at he
          · rfl
      · rintro ⟨_, h'⟩
        exact ⟨_, h.1 h'⟩
  unfold BadLine
  rw [← henc]
  unfold lineStep fileStage opens
  dsimp only
  cases he : (encodingStage w).2 with
  | error x => simp
  | ok data =>
    dsimp only
    rw [ffStage_data [] ff]
    cases hp : (parserStage w (commentStage w (ffStage ff w data).2.2).2.1
        (commentStage w (ffStage ff w data).2.2).2.2).2 with
    | elem e => simp
    | pp pp =>
      cases pp with
      | nothing => simp [runPP]
      | open_ path must name =>
        simp only [runPP]
        by_cases hn : path.any (fun c => c.toNat = 0) = true
        · simp only [hn, if_true]
          simp only [List.any_eq_true, decide_eq_true_eq] at hn
          simpa using hn
        · have hn' : ¬ ∃ c ∈ path, c.toNat = 0 := by simpa [List.any_eq_true] using hn
          simp only [hn]
          have hl : ¬ ∃ p, some path = some p ∧ ∃ c ∈ p, c.toNat = 0 := by
            rintro ⟨p, hp, h⟩
            simp only [Option.some.injEq] at hp
            subst hp
            exact hn' h
          simp only [hl, or_false, reduceCtorEq, exists_false, iff_false]
          cases fs path <;> simp

theorem pipeIn_true {σ : Type} (st : PState σ) : PipeIn (fun _ => True) st :=
  ⟨fun _ _ _ _ _ => trivial, fun _ _ => trivial, fun _ _ _ _ => trivial⟩

/-- A line that cannot be read ends every run that comes to it. -/
theorem pipeRun_bad {σ : Type} (fs : FS) (agg : σ → Elem → Res σ) (n : Nat) (st : PState σ)
    (h : ∃ w ∈ (readFuel fs opens n st.frames).1, BadLine w) : Fails (pipeRun fs agg n st) := by
  induction n generalizing st with
  | zero => simp [readFuel] at h
  | succ n ih =>
    rw [readFuel_succ] at h
    rw [pipeRun]
    cases hn : nextLine st.frames with
    | none => simp [hn] at h
    | some p =>
      obtain ⟨w, rest⟩ := p
      simp only [hn] at h
      cases hp : pipeStep fs agg st with
      | none => simp [pipeStep, hn] at hp
      | some r =>
        dsimp only
        rw [fails_bind]
        cases hr : r.val with
        | error e => exact .inl ⟨e, hr⟩
        | ok st' =>
          refine .inr ⟨st', rfl, ih st' ?_⟩
          rw [pipeStep_frames fs agg st st' w rest r hn hp hr]
          obtain ⟨x, hx, hb⟩ := h
          rcases List.mem_cons.1 hx with rfl | hx
          · exfalso
            obtain ⟨e, he⟩ := (fails_lineStep (fs := fs) (ff := st.ff) (frames := rest)).2 hb
            unfold pipeStep at hp
            simp only [hn, he, Option.some.injEq] at hp
            subst hp
            obtain ⟨_, _, h2, _⟩ := Res.bind_ok hr
            simp at h2
          · exact ⟨x, hx, hb⟩

/-- Without such lines the elements can be read. -/
theorem pipeRun_good (fs : FS) (n : Nat) (st : PState (List Elem))
    (h : ∀ w ∈ (readFuel fs opens n st.frames).1, ¬ BadLine w) : ∃ o, (pipeRun fs collect n st).val = .ok o := by
  induction n generalizing st with
  | zero => exact ⟨_, rfl⟩
  | succ n ih =>
    rw [readFuel_succ] at h
    rw [pipeRun]
    cases hn : nextLine st.frames with
    | none =>
      have hp : pipeStep fs collect st = none := by simp [pipeStep, hn]
      simp only [hp]
      have h1 := emitAll_fine (fine_ffEnd (pipeIn_true st).ff)
      have h2 := emitAll_fine (fine_vswEnd (pipeIn_true st).vsw).1
      unfold pipeEnd
      rw [Res.bind_assoc, Res.bind_of_ok h1]
      dsimp only
      rw [Res.bind_assoc, Res.bind_of_ok h2]
      dsimp only
      rw [feed_collect]
      exact ⟨_, rfl⟩
    | some p =>
      obtain ⟨w, rest⟩ := p
      simp only [hn] at h
      cases hp : pipeStep fs collect st with
      | none => simp [pipeStep, hn] at hp
      | some r =>
        have hrv : ∃ st', r.val = .ok st' := by
          unfold pipeStep at hp
          simp only [hn, Option.some.injEq] at hp
          subst hp
          obtain ⟨l1, l2⟩ := fine_lineStep (pipeIn_true st).ff (w := w) trivial fs rest
          rw [Res.bind_of_ok (emitAll_fine l1)]
          cases hl : (lineStep fs st.ff rest w).2 with
          | error e => exact absurd (fails_lineStep.1 ⟨e, hl⟩) (h w (by simp))
          | ok q =>
            obtain ⟨r, oe⟩ := q
            cases oe with
            | none => exact ⟨_, rfl⟩
            | some e =>
              dsimp only
              rw [Res.bind_of_ok (emitAll_fine (fine_vswStep (pipeIn_true st).vsw (e := e) trivial).1), feed_collect]
              exact ⟨_, rfl⟩
        obtain ⟨st', hr⟩ := hrv
        dsimp only
        rw [Res.bind_of_ok hr]
        refine ih st' ?_
        rw [pipeStep_frames fs collect st st' w rest r hn hp hr]
        intro x hx
        exact h x (List.mem_cons_of_mem _ hx)

/-! ## Jumps -/

/-- With a priority and an extension that can be looked up, only the depth is a problem. -/
theorem matchPattern_error {dp : Dialplan} {prio : Arg} (hp : Prio prio) (depth : Nat) (ctx exten : Str)
    {b : List Nat} (he : latin1? (exten.filter (· ≠ '-')) = some b) (e : Exc)
    (h : matchPattern dp depth ctx exten prio = .error e) : e = .recursionError := by
  induction depth generalizing ctx exten prio b with
  | zero => simp only [matchPattern, Except.error.injEq] at h; exact h.symm
  | succ depth ih =>
    unfold matchPattern at h
    cases hc : dp.get ctx with
    | none => simp [hc] at h
    | some c =>
      rw [hc] at h
      dsimp only at h
      obtain ⟨r, hr⟩ := matchHere_ok hp he c.steps (sortedPatterns c.steps)
      rw [hr] at h
      cases r with
      | some s => simp at h
      | none =>
        dsimp only at h
        cases hf : firstOf (fun i => matchIf (dp.get i.1).isSome (matchPattern dp depth i.1 exten prio)) c.includes with
        | error e' =>
          rw [hf] at h
          simp only [Except.error.injEq] at h
          subst h
          obtain ⟨i, hi, h1⟩ := firstOf_error hf
          unfold matchIf at h1
          split at h1
          · exact ih hp _ _ he h1
          · simp at h1
        | ok r =>
          rw [hf] at h
          cases r with
          | some s => simp at h
          | none =>
            dsimp only at h
            split at h
            · split at h
              · exact ih (.inl ⟨1, rfl⟩) ctx (c! "i") (b := [105]) (by decide) h
              · simp at h
            · simp at h

theorem latin1_some {x : Str} (h : ∀ c ∈ x, c.toNat < 256) : ∃ b, latin1? x = some b := by
  induction x with
  | nil => exact ⟨_, rfl⟩
  | cons c cs ih =>
    obtain ⟨b, hb⟩ := ih fun c hc => h c (by simp [hc])
    exact ⟨c.toNat :: b, by simp [latin1?, h c (by simp), hb]⟩

theorem emit_walk {d : Dest} (h : Walkable d) {k : MK} {last : Str}
    (hk : covers k [c! "context", c! "exten", last] = true) :
    (Res.emit (mkMsg k d.at_ (destArgs d last))).val = .ok () := by
  have hs : Supplies (mkMsg k d.at_ (destArgs d last)) := supplies_of_covers hk
  cases hr : (mkMsg k d.at_ (destArgs d last)).render with
  | ok t => simp [Res.emit, hr, Except.map]
  | error e =>
    exfalso
    obtain ⟨name, v, hv, he⟩ := render_error hs hr
    simp only [mkMsg, destArgs, List.mem_cons, Prod.mk.injEq, List.not_mem_nil, or_false] at hv
    rcases hv with ⟨_, hv⟩ | ⟨_, hv⟩ | ⟨_, hv⟩
    · obtain ⟨s, hs⟩ := h.context
      simp only [Arg.one.injEq] at hv
      subst hv
      rw [hs] at he; cases he
    · obtain ⟨s, hs⟩ := h.exten
      simp only [Arg.one.injEq] at hv
      subst hv
      rw [hs] at he; cases he
    · obtain ⟨s, hs⟩ := h.prio.2 v hv.symm
      rw [hs] at he; cases he

theorem walkDest_ok {dp : Dialplan} {depth : Nat} {d : Dest} (h : Walkable d)
    (hdeep : ∀ ctx exten prio, matchPattern dp depth ctx exten prio ≠ .error .recursionError) :
    (walkDest dp depth d).val = .ok () := by
  unfold walkDest
  split
  · split
    · split
      · rfl
      · exact emit_walk h rfl
    · rfl
  · split
    · exact emit_walk h rfl
    · split
      · split
        · split
          · rfl
          · exact emit_walk h rfl
        · rfl
      · rename_i c _ hx
        rcases h.latin1 with hv | ⟨x, he, hlat⟩
        · exact absurd hv hx
        · rw [he]
          dsimp only
          obtain ⟨b, hb⟩ := latin1_some (x := x.filter (· ≠ '-')) fun c hc => hlat c (List.mem_filter.1 hc).1
          cases hm : matchPattern dp depth c.name x d.prio with
          | error e =>
            have := matchPattern_error h.prio.1 depth c.name x hb e hm
            subst this
            exact absurd hm (hdeep _ _ _)
          | ok r =>
            rw [show (Res.lift (.ok r) : Res (Option Step)) = .pure r from rfl, Res.pure_bind]
            cases r with
            | some s => rfl
            | none =>
              have := emit_walk h (k := .W_DP_GOTO_CONTEXT_NOEXTEN) (last := c! "prio") rfl
              exact this

theorem walkDests_ok {dp : Dialplan} {depth : Nat} {ds : List Dest} (h : ∀ d ∈ ds, Walkable d)
    (hdeep : ∀ ctx exten prio, matchPattern dp depth ctx exten prio ≠ .error .recursionError) :
    (walkDests dp depth ds).val = .ok () := by
  induction ds with
  | nil => rfl
  | cons d ds ih =>
    rw [walkDests, Res.bind_of_ok (walkDest_ok (h d (by simp)) hdeep)]
    exact ih fun d hd => h d (by simp [hd])

theorem onComplete_ok (dp : Dialplan) : (onComplete dp).val = .ok () := by
  unfold onComplete
  split
  · rfl
  · dsimp only
    cases dp.general <;> cases dp.globals <;> rfl

end ALint
