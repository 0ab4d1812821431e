import Verif.Spec.Issued
import Verif.Proofs.LineLog
import Verif.Proofs.DialplanTells
import Verif.Proofs.Vsw

/-!
# Lemmas about the order of messages
-/

namespace ALint
open Spec

theorem tells_kind {p : Prop} {k : MK} {w : Where} {ms : List Msg} (h : Tells p (plainMsg k w) ms) : ∀ m ∈ ms, m.kind = k := by
  rcases h with ⟨_, rfl⟩ | ⟨_, rfl⟩
  · intro m hm; rw [List.mem_singleton.1 hm]; rfl
  · intro m hm; cases hm

theorem tells_mem {p : Prop} {m0 : Msg} {ms : List Msg} (h : Tells p m0 ms) : ∀ m ∈ ms, m = m0 := by
  rcases h with ⟨_, rfl⟩ | ⟨_, rfl⟩
  · intro m hm; exact List.mem_singleton.1 hm
  · intro m hm; cases hm

theorem readAs_kinds {fs : FS} {w : Where} {data : Str} {c : Bool} {ms : List Msg} {g : Gives} (h : ReadAs fs w data c ms g) :
    ∀ m ∈ ms, ¬ AboutBytes m := by
  have no : ∀ {p : Prop} {m0 : Msg} {l : List Msg}, Tells p m0 l → ¬ AboutBytes m0 → ∀ m ∈ l, ¬ AboutBytes m :=
    fun h h0 m hm => by rw [tells_mem h m hm]; exact h0
  have one : ∀ {m0 : Msg}, ¬ AboutBytes m0 → ∀ m ∈ [m0], ¬ AboutBytes m :=
    fun h0 m hm => by rw [List.mem_singleton.1 hm]; exact h0
  have app : ∀ {a b : List Msg}, (∀ m ∈ a, ¬ AboutBytes m) → (∀ m ∈ b, ¬ AboutBytes m) → ∀ m ∈ a ++ b, ¬ AboutBytes m :=
    fun ha hb m hm => (List.mem_append.1 hm).elim (ha m) (hb m)
  cases h with
  | header _ t => exact no t (by rintro (h | h) <;> cases h)
  | template _ t => exact app (no t (by rintro (h | h) <;> cases h)) (one (by rintro (h | h) <;> cases h))
  | arrow _ _ _ _ t1 t2 => exact app (no t1 (by rintro (h | h) <;> cases h)) (no t2 (by rintro (h | h) <;> cases h))
  | equals _ _ _ _ t1 t2 => exact app (no t1 (by rintro (h | h) <;> cases h)) (no t2 (by rintro (h | h) <;> cases h))
  | blank => intro m hm; cases hm
  | exec _ _ _ _ _ t1 t2 t3 =>
    exact app (app (app (no t1 (by rintro (h | h) <;> cases h)) (no t2 (by rintro (h | h) <;> cases h)))
      (no t3 (by rintro (h | h) <;> cases h))) (one (by rintro (h | h) <;> cases h))
  | «include» _ _ _ _ _ _ _ _ t1 t2 t3 t4 =>
    exact app (app (app (no t1 (by rintro (h | h) <;> cases h)) (no t2 (by rintro (h | h) <;> cases h)))
      (no t3 (by rintro (h | h) <;> cases h))) (no t4 (by rintro (h | h) <;> cases h))
  | hash _ _ _ _ _ t => exact app (no t (by rintro (h | h) <;> cases h)) (one (by rintro (h | h) <;> cases h))
  | other => exact one (by rintro (h | h) <;> cases h)

/-- The messages of a line with those about terminators in between. -/
theorem lineStep_parts {fs : FS} {ff : List FInfo} {frames : List Frame} {w : Where} {r : RState} {oe : Option Elem}
    (h : (lineStep fs ff frames w).2 = .ok (r, oe)) :
    ∃ a b g, lineModel fs w = some (a ++ b, g) ∧ g.elem? = oe ∧ r.ff = (ffStage ff w (textOf w)).1 ∧
      (lineStep fs ff frames w).1 = a ++ (ffStage ff w (textOf w)).2.1 ++ b ∧
      (∀ m ∈ a, AboutBytes m) ∧ ∀ m ∈ b, ¬ AboutBytes m := by
  obtain ⟨ms, g, g1, g2, g3, _⟩ := lineStep_told h
  have hkeep := h
  unfold lineModel at g1
  cases he : (encodingStage w).2 with
  | error e => simp [he] at g1
  | ok text =>
    simp only [he] at g1
    cases hr : readModel fs w (commentStage w (ffStage [] w text).2.2).2.1 (commentStage w (ffStage [] w text).2.2).2.2 with
    | none => rw [hr] at g1; cases g1
    | some r0 =>
      rw [hr] at g1
      simp only [Option.map_some, Option.some.injEq, Prod.mk.injEq] at g1
      obtain ⟨e1, e2⟩ := g1
      obtain ⟨bad, hdec⟩ := decodesAs_exists he
      refine ⟨(encodingStage w).1 ++ ctrlStage w text, (commentStage w (ffStage [] w text).2.2).1 ++ r0.1, g, ?_, g2, g3, ?_, ?_, ?_⟩
      · unfold lineModel
        simp only [he, hr, Option.map_some, e2, List.append_assoc]
      · have htext : textOf w = text := by unfold textOf; rw [he]
        rw [htext]
        unfold lineStep fileStage at hkeep ⊢
        simp only [he] at hkeep ⊢
        rw [ffStage_data [] ff w text] at hr ⊢
        unfold readModel at hr
        cases hp : (parserStage w (commentStage w (ffStage ff w text).2.2).2.1 (commentStage w (ffStage ff w text).2.2).2.2).2 with
        | elem e =>
          simp only [hp, Option.some.injEq] at hr ⊢
          subst hr
          simp
        | pp p =>
          cases p with
          | nothing =>
            simp only [hp, Option.some.injEq, runPP] at hr ⊢
            subst hr
            simp
          | open_ path must name =>
            simp only [hp] at hr hkeep ⊢
            have hz : (path.any fun c => decide (c.toNat = 0)) = true ↔ '\x00' ∈ path := by
              rw [List.any_eq_true]
              constructor
              · rintro ⟨c, h1, h2⟩
                have : c = '\x00' := Char.toNat_inj.1 (by simpa using h2)
                rw [← this]; exact h1
              · intro h1; exact ⟨_, h1, by decide⟩
            by_cases h0 : '\x00' ∈ path
            · rw [if_pos h0] at hr; cases hr
            · have h0' : (path.any fun c => decide (c.toNat = 0)) = false := by
                rw [← Bool.not_eq_true]; exact fun h => h0 (hz.1 h)
              rw [if_neg h0, Option.some.injEq] at hr
              subst hr
              simp only [runPP, h0', Bool.false_eq_true, if_false]
              cases hx : fs path with
              | some content => simp
              | none => cases must <;> simp
      · intro m hm
        rcases List.mem_append.1 hm with hm | hm
        · exact .inl (tells_kind (decodesAs_stage hdec).2 m hm)
        · exact .inr (tells_kind (ctrl_tells w text) m hm)
      · intro m hm
        rcases List.mem_append.1 hm with hm | hm
        · obtain ⟨m3, m4, q1, q2, q3⟩ := comment_msgs w (ffStage [] w text).2.2
          rw [q1] at hm
          rcases List.mem_append.1 hm with hm | hm
          · have := tells_kind q2 m hm
            rintro (h | h) <;> rw [h] at this <;> cases this
          · have := tells_kind q3 m hm
            rintro (h | h) <;> rw [h] at this <;> cases this
        · exact readAs_kinds (readAs_exists hr) m hm

theorem feed_filter {env : DEnv} : ∀ (es : List Elem) (st : DState),
    feed (dialplanStep env) st es = feed (dialplanStep env) st (es.filter notBlank)
  | [], _ => rfl
  | .empty b w :: es, st => by
    rw [List.filter_cons_of_neg (by simp [notBlank]), feed]
    have : wrapExc (dialplanStep env st (.empty b w)) = .pure st := rfl
    rw [this, Res.pure_bind]
    exact feed_filter es st
  | .ctx c :: es, st => by
    rw [List.filter_cons_of_pos (by simp [notBlank]), feed, feed]
    congr 1
    funext s
    exact feed_filter es s
  | .var v :: es, st => by
    rw [List.filter_cons_of_pos (by simp [notBlank]), feed, feed]
    congr 1
    funext s
    exact feed_filter es s

theorem ffPop_about (i : FInfo) : ∀ m ∈ ffPopMsgs i, AboutEnd m := by
  intro m hm
  unfold ffPopMsgs at hm
  split at hm
  · rw [List.mem_singleton.1 hm]; exact .inl rfl
  · split at hm
    · rw [List.mem_singleton.1 hm]; exact .inr rfl
    · cases hm

theorem popFileinfo_about (stop : Option Str) : ∀ (st : List FInfo), ∀ m ∈ (popFileinfo stop st).1, AboutEnd m
  | [], m, hm => by cases hm
  | i :: is, m, hm => by
    unfold popFileinfo at hm
    split at hm
    · cases hm
    · rcases List.mem_append.1 hm with hm | hm
      · exact ffPop_about i m hm
      · exact popFileinfo_about stop is m hm

theorem ffEnter_about (st : List FInfo) (w : Where) : ∀ m ∈ (ffEnter st w).1, AboutEnd m := by
  intro m hm
  unfold ffEnter at hm
  split at hm
  · cases hm
  · split at hm
    · cases hm
    · split at hm
      · dsimp only at hm
        split at hm <;> exact popFileinfo_about _ _ m hm
      · cases hm

/-- What is said about line terminators upon a line. -/
theorem ffStage_upon (st : List FInfo) (w : Where) (data : Str) :
    ∃ ends own, (ffStage st w data).2.1 = ends ++ own ∧ UponLine w ends own := by
  refine ⟨_, _, rfl, ffEnter_about st w, fun m hm => ?_⟩
  have one : ∀ {p : Prop} [Decidable p] {k : MK}, m ∈ (if p then [(⟨k, w, [], none⟩ : Msg)] else []) →
      m = ⟨k, w, [], none⟩ := by
    intro p _ k h
    by_cases hp : p
    · rw [if_pos hp] at h; exact List.mem_singleton.1 h
    · rw [if_neg hp] at h; cases h
  have two : ∀ (d : Bool) {l l' : List Msg}, m ∈ (if d = true then l else l') → m ∈ l ∨ m ∈ l' := by
    intro d l l' h
    cases d
    · exact .inr h
    · exact .inl h
  rcases two _ hm with hm | hm
  · rw [one hm]; exact ⟨rfl, by rintro (h | h) <;> cases h⟩
  · rw [one hm]; exact ⟨rfl, by rintro (h | h) <;> cases h⟩

/-- What the checker of blank lines hands on upon an element, read by the dialplan. -/
theorem handed_tells {env : DEnv} (hd : ArgsDescribed env.toAEnv) {s : Sofar} {vsw : List Vsw} {st st' : DState} {e : Elem}
    (hi : DpInv st) (h : Agrees s st) (hv : (feed (dialplanStep env) st (vswStep vsw e).2.1).val = .ok st') :
    ∃ s' us ds, ElemTells env.toAEnv s e (feed (dialplanStep env) st (vswStep vsw e).2.1).log s' us ds ∧ Agrees s' st' ∧
      DpInv st' ∧ st'.uses = st.uses ++ us ∧ st'.dp.dests = st.dp.dests ++ ds := by
  rw [feed_filter, vswStep_blank, ← feed_filter] at hv ⊢
  simp only [feed] at hv ⊢
  obtain ⟨st1, h1, h2, h3⟩ := Res.bind_ok hv
  rw [wrapExc_ok] at h1
  simp only [Res.pure_val, Except.ok.injEq] at h2
  subst h2
  obtain ⟨s1, u1, d1, e1, e2, e3, e4⟩ := elem_tells hd hi h h1
  rw [h3, wrapExc_log]
  simp only [Res.pure_log, List.append_nil]
  exact ⟨s1, u1, d1, e1, e2, step_inv hi h1, e3, e4⟩

theorem pipeRun_issued (fs : FS) {env : DEnv} (hd : ArgsDescribed env.toAEnv) : ∀ (n : Nat) (st : PState DState) (s : Sofar)
    (out : DState), DpInv st.agg → Agrees s st.agg → (pipeRun fs (dialplanStep env) n st).val = .ok (some out) →
    ∃ (told : List Told) (s' : Sofar) (us : List Ev) (ds : List Dest),
      told.map (·.line) = pipeLines fs (dialplanStep env) n st ∧
      (∀ x ∈ told, lineModel fs x.line = some (x.msgs, x.gives)) ∧
      Issued env.toAEnv s told
        ((ffRun textOf st.ff (told.map (·.line))).2 ++ ffEnd (ffRun textOf st.ff (told.map (·.line))).1)
        (vswRun st.vsw (elemsOf told)).2 (pipeRun fs (dialplanStep env) n st).log s' us ds ∧
      Agrees s' out ∧ out.uses = st.agg.uses ++ us ∧ out.dp.dests = st.agg.dp.dests ++ ds := by
  intro n
  induction n with
  | zero => intro st s out _ _ h; simp [pipeRun] at h
  | succ n ih =>
    intro st s out hi hs h
    rw [pipeRun] at h ⊢
    rw [pipeLines]
    cases hn : nextLine st.frames with
    | none =>
      have hp : pipeStep fs (dialplanStep env) st = none := by unfold pipeStep; rw [hn]
      simp only [hp] at h ⊢
      obtain ⟨a, h1, h2, h3⟩ := Res.bind_ok h
      simp only [Res.pure_val, Except.ok.injEq, Option.some.injEq] at h2
      subst h2
      unfold pipeEnd at h1
      obtain ⟨u, h4, h5, h6⟩ := Res.bind_ok h1
      obtain ⟨u', h7, h8, h9⟩ := Res.bind_ok h5
      have hb : feed (dialplanStep env) st.agg (vswEnd st.vsw).1 = .pure st.agg := by
        rw [feed_filter, show (vswEnd st.vsw).1.filter notBlank = [] from vswEndFrom_blank true st.vsw]
        rfl
      rw [hb] at h8
      simp only [Res.pure_val, Except.ok.injEq] at h8
      subst h8
      refine ⟨[], s, [], [], rfl, by simp, ?_, hs, by simp, by simp⟩
      have e : (Res.bind (pipeEnd (dialplanStep env) st) fun s => Res.pure (some s)).log = ffEnd st.ff ++ (vswEnd st.vsw).2 := by
        rw [h3, show (pipeEnd (dialplanStep env) st).log = _ from h6]
        simp only at h9 ⊢
        rw [h9, hb]
        simp [emitAll_told _ h4, emitAll_told _ h7]
      rw [e]
      simpa [ffRun, vswRun, elemsOf] using Issued.done (env := env.toAEnv) (s := s) (formats := ffEnd st.ff) (hints := (vswEnd st.vsw).2)
        (popFileinfo_about none st.ff)
    | some p =>
      obtain ⟨w, frames⟩ := p
      cases hp : pipeStep fs (dialplanStep env) st with
      | none => unfold pipeStep at hp; rw [hn] at hp; cases hp
      | some r =>
        simp only [hp] at h ⊢
        obtain ⟨st', h1, h2, h3⟩ := Res.bind_ok h
        simp only [h1]
        unfold pipeStep at hp
        simp only [hn, Option.some.injEq] at hp
        rw [← hp] at h1
        obtain ⟨_, he1, h4, h5⟩ := Res.bind_ok h1
        rw [hp] at h5
        cases hl : (lineStep fs st.ff frames w).2 with
        | error e => rw [hl] at h4; simp at h4
        | ok x =>
          obtain ⟨rs, oe⟩ := x
          obtain ⟨a, b, g, g1, g2, g3, g4, g5, g6⟩ := lineStep_parts hl
          obtain ⟨fe, fo, f1, f2⟩ := ffStage_upon st.ff w (textOf w)
          rw [hl] at h4 h5
          cases oe with
          | none =>
            simp only [Res.pure_val, Except.ok.injEq] at h4
            subst h4
            obtain ⟨told, s', us, ds, t1, t2, t3, t4, t5, t6⟩ := ih ⟨rs.frames, rs.ff, st.vsw, st.agg⟩ s out hi hs h2
            have hel : elemsOf (⟨w, a ++ b, g⟩ :: told) = elemsOf told := by simp [elemsOf, g2]
            refine ⟨⟨w, a ++ b, g⟩ :: told, s', us, ds, by simp [t1], ?_, ?_, t4, t5, t6⟩
            · intro x hx
              rcases List.mem_cons.1 hx with rfl | hx
              · exact g1
              · exact t2 x hx
            · have ha : AggTells env.toAEnv s g [] s [] [] := by
                cases g with
                | elem e => cases g2
                | file p => exact .file p
                | nothing => exact .nothing
              rw [hel]
              have := Issued.line (x := ⟨w, a ++ b, g⟩) (h := []) rfl g5 g6 f2
                (fun _ => rfl) ha t3
              rw [h3, h5]
              simp only [List.map_cons, ffRun, ← g3, f1, List.append_assoc, Res.pure_log, List.append_nil, List.nil_append] at this ⊢
              rw [emitAll_told _ he1, g4, f1]
              simpa using this
          | some e =>
            simp only at h4 h5
            obtain ⟨_, he2, h6, h7⟩ := Res.bind_ok h4
            obtain ⟨ag, h8, h9, h10⟩ := Res.bind_ok h6
            simp only [Res.pure_val, Except.ok.injEq] at h9
            subst h9
            obtain ⟨s1, u1, d1, e1, e2, e3, e4, e5⟩ := handed_tells hd hi hs h8
            obtain ⟨told, s', us, ds, t1, t2, t3, t4, t5, t6⟩ := ih ⟨rs.frames, rs.ff, (vswStep st.vsw e).1, ag⟩ s1 out e3 e2 h2
            have hel : elemsOf (⟨w, a ++ b, g⟩ :: told) = e :: elemsOf told := by simp [elemsOf, g2]
            have hg : g = .elem e := by
              cases g with
              | elem e' => simp only [Gives.elem?, Option.some.injEq] at g2; rw [g2]
              | file p => cases g2
              | nothing => cases g2
            refine ⟨⟨w, a ++ b, g⟩ :: told, s', u1 ++ us, d1 ++ ds, by simp [t1], ?_, ?_, t4, ?_, ?_⟩
            · intro x hx
              rcases List.mem_cons.1 hx with rfl | hx
              · exact g1
              · exact t2 x hx
            · rw [hel]
              have := Issued.line (x := ⟨w, a ++ b, g⟩) (h := (vswStep st.vsw e).2.2)
                rfl g5 g6 f2 (fun hh => by rw [g2] at hh; cases hh) (hg ▸ AggTells.elem e1) t3
              rw [h3, h5, h7, h10]
              simp only [List.map_cons, ffRun, vswRun, ← g3, f1, List.append_assoc, Res.pure_log, List.append_nil] at this ⊢
              rw [emitAll_told _ he1, emitAll_told _ he2, g4, f1]
              simpa using this
            · rw [t5, e4, List.append_assoc]
            · rw [t6, e5, List.append_assoc]

end ALint
