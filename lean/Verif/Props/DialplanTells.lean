import Verif.Proofs.DialplanTells
import Verif.Props.LineLog
import Verif.Props.AppSays

/-!
# What is said about a dialplan, applications included (C94)
-/

namespace ALint.Props
open ALint ALint.Spec

/-- C94: for the elements of a dialplan exactly the messages of the specification are issued, in
that order; the uses of variables, functions and applications, the destinations of jumps and the
steps of the contexts are those of the specification, too.  The specification does not refer to the
program. -/
theorem C94_tells (env : DEnv) (hd : ArgsDescribed env.toAEnv) (sp : Option Str) (es : List Elem) (log : List Msg)
    (st : DState) (h : After env sp es log st) :
    ∃ s, DialplanTells env.toAEnv (.none sp) es log s st.uses st.dp.dests ∧ s.spelling = st.sp ∧
      (∀ name c, st.dp.get name = some c → c.steps = s.steps name) ∧ ∀ name, st.dp.get name = none → s.steps name = [] := by
  have h1 := congrArg Res.log h
  obtain ⟨s, us, ds, t1, t2, t3, t4⟩ := dialplan_tells hd es (DpInv.init sp) (Agrees.init sp) (congrArg Res.val h)
  have e1 : st.uses = us := by simpa [DState.init] using t3
  have e2 : st.dp.dests = ds := by simpa [DState.init, Dialplan.init] using t4
  rw [h1, ← e1, ← e2] at t1
  refine ⟨s, t1, t2.spelling, fun name c hc => ?_, fun name hc => ?_⟩
  · rw [t2.steps, stepsOf, hc]; rfl
  · rw [t2.steps, stepsOf, hc]; rfl

theorem extenTells_unique {env : AEnv} {s : Sofar} {name : Str} {v : VarE} {m1 m2 : List Msg} {s1 s2 : Sofar} {u1 u2 : List Ev}
    {d1 d2 : List Dest} (h1 : ExtenTells env s name v m1 s1 u1 d1) (h2 : ExtenTells env s name v m2 s2 u2 d2) :
    m1 = m2 ∧ s1 = s2 ∧ u1 = u2 ∧ d1 = d2 := by
  have hint : ¬ NextOrNumber (c! "hint") := by unfold NextOrNumber; decide
  cases h1 with
  | hint a =>
    cases h2 with
    | hint b => exact ⟨rfl, rfl, rfl, rfl⟩
    | badPrio b _ => exact absurd a b
    | noExten b => rw [a] at b; exact absurd b hint
    | step b => rw [a] at b; exact absurd b hint
  | badPrio a a' =>
    cases h2 with
    | hint b => exact absurd b a
    | badPrio b _ => exact ⟨rfl, rfl, rfl, rfl⟩
    | noExten b => exact absurd b a'
    | step b => exact absurd b a'
  | noExten a l x y =>
    cases h2 with
    | hint b => rw [b] at a; exact absurd a hint
    | badPrio _ b => exact absurd a b
    | noExten _ l' =>
      obtain ⟨rfl, rfl, rfl⟩ := C93_unique _ _ _ _ _ _ _ _ _ _ l l'
      exact ⟨rfl, rfl, rfl, rfl⟩
    | step _ l' x' =>
      rw [x] at x'
      simp [Spec.extenFor, y] at x'
  | step a l x q ds1 =>
    cases h2 with
    | hint b => rw [b] at a; exact absurd a hint
    | badPrio _ b => exact absurd a b
    | noExten _ l' x' y' =>
      rw [x'] at x
      simp [Spec.extenFor, y'] at x
    | step _ l' x' q' ds2 =>
      obtain ⟨rfl, rfl, rfl⟩ := C93_unique _ _ _ _ _ _ _ _ _ _ l l'
      rw [x] at x'
      cases x'
      rw [q] at q'
      cases q'
      refine ⟨rfl, rfl, rfl, ?_⟩
      by_cases hk : KeepsLine s s1
      · exact zips_unique (R := CompletedAs _ _ _) (fun _ _ _ h h' => completedAs_unique h h') (ds1.kept hk) (ds2.kept hk)
      · rw [ds1.not hk, ds2.not hk]

theorem bodyTells_unique {env : AEnv} {s : Sofar} {name : Str} {v : VarE} {m1 m2 : List Msg} {s1 s2 : Sofar} {u1 u2 : List Ev}
    {d1 d2 : List Dest} (h1 : BodyTells env s name v m1 s1 u1 d1) (h2 : BodyTells env s name v m2 s2 u2 d2) :
    m1 = m2 ∧ s1 = s2 ∧ u1 = u2 ∧ d1 = d2 := by
  cases h1 with
  | step a h =>
    cases h2 with
    | step _ h' => obtain ⟨rfl, rfl, rfl, rfl⟩ := extenTells_unique h h'; exact ⟨rfl, rfl, rfl, rfl⟩
    | included b => rw [b] at a; exact absurd a (by decide)
    | switch b => rw [b] at a; exact absurd a (by decide)
    | ignorepat b => rw [b] at a; exact absurd a (by decide)
    | other b => rcases a with a | a <;> exact absurd (by simp [a]) b
  | included a =>
    cases h2 with
    | step b h => rw [a] at b; exact absurd b (by decide)
    | included b => exact ⟨rfl, rfl, rfl, rfl⟩
    | switch b => rw [b] at a; exact absurd a (by decide)
    | ignorepat b => rw [b] at a; exact absurd a (by decide)
    | other b => exact absurd (by simp [a]) b
  | switch a =>
    cases h2 with
    | step b h => rw [a] at b; exact absurd b (by decide)
    | included b => rw [b] at a; exact absurd a (by decide)
    | switch b => exact ⟨rfl, rfl, rfl, rfl⟩
    | ignorepat b => rw [b] at a; exact absurd a (by decide)
    | other b => exact absurd (by simp [a]) b
  | ignorepat a =>
    cases h2 with
    | step b h => rw [a] at b; exact absurd b (by decide)
    | included b => rw [b] at a; exact absurd a (by decide)
    | switch b => rw [b] at a; exact absurd a (by decide)
    | ignorepat b => exact ⟨rfl, rfl, rfl, rfl⟩
    | other b => exact absurd (by simp [a]) b
  | other a =>
    cases h2 with
    | step b h => rcases b with b | b <;> exact absurd (by simp [b]) a
    | included b => exact absurd (by simp [b]) a
    | switch b => exact absurd (by simp [b]) a
    | ignorepat b => exact absurd (by simp [b]) a
    | other b => exact ⟨rfl, rfl, rfl, rfl⟩

/-- C94: the specification leaves no choice: elements have one list of messages, of uses, of steps and of destinations. -/
theorem C94_unique (env : AEnv) (s s1 s2 : Sofar) (es : List Elem) (m1 m2 : List Msg) (u1 u2 : List Ev) (d1 d2 : List Dest)
    (h1 : DialplanTells env s es m1 s1 u1 d1) (h2 : DialplanTells env s es m2 s2 u2 d2) : m1 = m2 ∧ s1 = s2 ∧ u1 = u2 ∧ d1 = d2 := by
  induction h1 generalizing m2 s2 u2 d2 with
  | nil => cases h2; exact ⟨rfl, rfl, rfl, rfl⟩
  | cons e1 r1 ih =>
    cases h2 with
    | cons e2 r2 =>
      have key : ∀ {s s1 s2 : Sofar} {e : Elem} {m1 m2 : List Msg} {u1 u2 : List Ev} {d1 d2 : List Dest},
          ElemTells env s e m1 s1 u1 d1 → ElemTells env s e m2 s2 u2 d2 → m1 = m2 ∧ s1 = s2 ∧ u1 = u2 ∧ d1 = d2 := by
        intro s s1 s2 e m1 m2 u1 u2 d1 d2 h1 h2
        cases h1 with
        | blank => cases h2; exact ⟨rfl, rfl, rfl, rfl⟩
        | header => cases h2; exact ⟨rfl, rfl, rfl, rfl⟩
        | orphan v a =>
          cases h2 with
          | orphan => exact ⟨rfl, rfl, rfl, rfl⟩
          | setting _ _ b => rw [a] at b; cases b
          | body _ _ b => rw [a] at b; cases b
        | setting v n a p =>
          cases h2 with
          | orphan _ b => rw [a] at b; cases b
          | setting => exact ⟨rfl, rfl, rfl, rfl⟩
          | body _ _ b q => rw [a] at b; cases b; rw [p] at q; cases q
        | body v n a p h =>
          cases h2 with
          | orphan _ b => rw [a] at b; cases b
          | setting _ _ b q => rw [a] at b; cases b; rw [p] at q; cases q
          | body _ _ b q h' => rw [a] at b; cases b; exact bodyTells_unique h h'
      obtain ⟨rfl, rfl, rfl, rfl⟩ := key e1 e2
      obtain ⟨rfl, rfl, rfl, rfl⟩ := ih _ _ _ _ r2
      exact ⟨rfl, rfl, rfl, rfl⟩

theorem dialplanTells_filter {env : AEnv} : ∀ (es : List Elem) {s s' : Sofar} {ms : List Msg} {us : List Ev} {ds : List Dest},
    DialplanTells env s es ms s' us ds ↔ DialplanTells env s (es.filter notBlank) ms s' us ds
  | [], _, _, _, _, _ => .rfl
  | .empty c w :: es, s, s', ms, us, ds => by
    rw [List.filter_cons_of_neg (by simp [notBlank]), ← dialplanTells_filter es]
    constructor
    · intro h
      cases h with
      | cons a b => cases a; exact b
    · intro h
      exact .cons (.blank c w) h
  | .ctx c :: es, s, s', ms, us, ds => by
    rw [List.filter_cons_of_pos (by rfl)]
    constructor
    · intro h
      cases h with
      | cons a b => exact .cons a ((dialplanTells_filter es).1 b)
    · intro h
      cases h with
      | cons a b => exact .cons a ((dialplanTells_filter es).2 b)
  | .var c :: es, s, s', ms, us, ds => by
    rw [List.filter_cons_of_pos (by rfl)]
    constructor
    · intro h
      cases h with
      | cons a b => exact .cons a ((dialplanTells_filter es).1 b)
    · intro h
      cases h with
      | cons a b => exact .cons a ((dialplanTells_filter es).2 b)

/-- C94: the messages of a whole check.  What there is to say about the lines of the files (C96)
and what there is to say about the dialplan are put together; then comes what is missing, then what
is wrong with the jumps in order. -/
theorem C94_tells_check (fs : FS) (env : DEnv) (hd : ArgsDescribed env.toAEnv) (sp : Option Str) (n : Nat) (path : Str)
    (content : Bytes) (hf : fs path = some content) (log : List Msg) (st : DState)
    (h : checkDialplan fs env sp n path content = ⟨log, .ok (some st)⟩) :
    ∃ told lines ms s both parts, FilesSay fs path content told lines ∧
      DialplanTells env.toAEnv (.none sp) (elemsOf told) ms s st.uses st.dp.dests ∧
      (∀ name c, st.dp.get name = some c → c.steps = s.steps name) ∧
      Merges lines ms both ∧ Zips (JumpSays st.dp) st.dp.dests parts ∧
      log = both ++ endSays s ++ parts.flatten := by
  obtain ⟨es, lines, both, parts, h1, h2, h3, h4, h5⟩ := C94_check fs env sp n path content log st h
  obtain ⟨told, t1, t2⟩ := C96_files fs n path content hf lines es h1
  obtain ⟨s, us, ds, a1, a2, a3, a4⟩ := dialplan_tells hd es (DpInv.init sp) (Agrees.init sp) (congrArg Res.val h4)
  obtain ⟨b1, b2⟩ := dialplan_says es (DpInv.init sp) (Agrees.init sp) (congrArg Res.val h4)
  have e1 : st.uses = us := by simpa [DState.init] using a3
  have e2 : st.dp.dests = ds := by simpa [DState.init, Dialplan.init] using a4
  have e3 : endSays s = endSays (dialplanSays env (.none sp) es).2 := by
    have := (end_says a2).symm.trans (end_says b2)
    exact congrArg Res.log this
  rw [dialplanTells_filter, t2, ← dialplanTells_filter] at a1
  rw [b1, ← e1, ← e2] at a1
  rw [← e3] at h5
  exact ⟨told, lines, _, s, both, parts, t1, a1, fun name c hc => by rw [a2.steps, stepsOf, hc]; rfl, h2, h3, h5⟩

/-! ### Examples -/

theorem demo_described : ArgsDescribed demoEnv.toAEnv := by
  intro low a least behs h hb
  simp only [demoEnv] at h
  split at h
  · cases h; cases hb
  · split at h
    · cases h; cases hb
    · split at h
      · cases h; cases hb
      · cases h

-- the elements of before: the specification holds, with these uses and destinations
example : ∃ log s us ds, DialplanTells demoEnv.toAEnv (.none none) poor log s us ds ∧
    log.length = 20 ∧ us.length = 10 ∧
    ds = [⟨.str (c! "nowhere"), .str (c! "s"), natV 1, demoW 7⟩, ⟨.str (c! "b"), .str (c! "s"), natV 7, demoW 12⟩] := by
  have h : (feed (dialplanStep demoEnv) (.init none) poor).val.toOption.isSome = true := by decide +kernel
  cases hx : (feed (dialplanStep demoEnv) (.init none) poor).val with
  | error e => rw [hx] at h; simp [Except.toOption] at h
  | ok st =>
    obtain ⟨s, h1, -⟩ := C94_tells demoEnv demo_described none poor (feed (dialplanStep demoEnv) (.init none) poor).log st
      (by unfold After; rw [← hx])
    refine ⟨_, s, _, _, h1, ?_⟩
    have hs : st = ((feed (dialplanStep demoEnv) (.init none) poor).val.toOption).getD (.init none) := by
      rw [hx]; rfl
    rw [hs]
    decide +kernel

end ALint.Props
