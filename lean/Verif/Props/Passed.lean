import Verif.Spec.Passed
import Verif.Props.Issued
import Verif.Props.Command

/-!
# C111: what is known when a check was passed
-/

namespace ALint.Props
open ALint Spec

theorem tells_nil {p : Prop} {m : Msg} (h : Tells p m []) : ¬ p := by
  rcases h with ⟨_, h⟩ | ⟨h, _⟩
  · cases h
  · exact h

theorem tells_not {p : Prop} {m : Msg} (h : ¬ p) : Tells p m [] := .inr ⟨h, rfl⟩

theorem quoted_good {name arg : Str} (h : Quoted name arg) : ¬ BadQuotes arg := by
  rintro ⟨h1, h2, h3⟩
  cases h with
  | double => exact h2 ⟨_, rfl⟩
  | angle => exact h3 ⟨_, rfl⟩
  | bare h0 a b =>
    rcases h1 with h | h | h | h
    · exact (a _ h).1 rfl
    · exact (a _ h).2.1 rfl
    · exact (b _ h).1 rfl
    · exact (b _ h).2 rfl

/-- C111: nothing is said about a line if and only if it is fine. -/
theorem C111_line (fs : FS) (w : Where) (g : Gives) : LineTells fs w [] g ↔ CleanLine fs w g := by
  refine ⟨fun h => ?_, fun h => ?_⟩
  · generalize hms : ([] : List Msg) = ms at h
    cases h with
    | @mk text body data comment bad m1 m2 m3 m4 m5 _ hd hb hc t1 t2 t3 t4 hr =>
      simp only [List.nil_eq, List.append_eq_nil_iff] at hms
      obtain ⟨⟨⟨⟨rfl, rfl⟩, rfl⟩, rfl⟩, rfl⟩ := hms
      have hbad := tells_nil t1
      have hu : w.line = utf8 text := by
        cases hd with
        | utf8 h => exact h
        | cp1252 => exact absurd rfl hbad
      refine .mk text body data comment hu (tells_nil t2) hb (tells_nil t3) (tells_nil t4) hc ?_
      generalize hms : ([] : List Msg) = ms at hr
      cases hr with
      | @header indent name m hh ht =>
        subst hms
        have : indent = [] := Classical.not_not.1 (tells_nil ht)
        subst this
        exact .header hh
      | template => simp at hms
      | @arrow indent key sep value m1 m2 hs ha hi hk s1 s2 =>
        simp only [List.nil_eq, List.append_eq_nil_iff] at hms
        obtain ⟨rfl, rfl⟩ := hms
        have e : sep = c! " => " := Classical.not_not.1 (tells_nil s1)
        subst e
        exact .arrow hs ha hi hk fun h => Classical.not_not.1 fun h' => tells_nil s2 ⟨h, h'⟩
      | @equals indent key sep value m1 m2 hs ha hi hk s1 s2 =>
        simp only [List.nil_eq, List.append_eq_nil_iff] at hms
        obtain ⟨rfl, rfl⟩ := hms
        have e : sep = c! "=" := Classical.not_not.1 (tells_nil s1)
        subst e
        exact .equals hs ha hi hk fun h => Classical.not_not.1 fun h' => tells_nil s2 ⟨h, h'⟩
      | blank h => exact .blank h
      | exec => simp at hms
      | @«include» indent text cmd sep arg name path m1 m2 m3 m4 hdata _ heq hdir hx hn hp hz s1 s2 s3 s4 =>
        simp only [List.nil_eq, List.append_eq_nil_iff] at hms
        obtain ⟨⟨⟨rfl, rfl⟩, rfl⟩, rfl⟩ := hms
        have e : indent = [] := Classical.not_not.1 (tells_nil s1)
        subst e
        simp only [List.nil_append] at hdata
        subst hdata
        refine .included hdir heq ?_ ?_ ?_ hp hz ?_
        · rcases hdir.cmd with h | h | h
          · exact .inl h
          · exact .inr h
          · exact absurd h hx
        · by_cases hs : ∀ c ∈ sep, c = ' '
          · exact .inl hs
          · exact .inr (Classical.not_not.1 fun ht => tells_nil s2 ⟨hs, ht⟩)
        · cases hn with
          | quoted _ hq => exact .inl hq
          | lone h => exact .inr ⟨h, rfl⟩
          | bad h h' => exact absurd ⟨h, h'⟩ (tells_nil s3)
        · intro hc
          cases hf : fs path with
          | none => exact absurd ⟨hc, hf⟩ (tells_nil s4)
          | some c => exact ⟨c, rfl⟩
      | hash => simp at hms
      | other => simp at hms
  · cases h with
    | mk text body data comment hu hc hb he hg hcont hd =>
      have key : ReadAs fs w data (!comment.isEmpty) [] g := by
        cases hd with
        | header h => exact .header h (tells_not (by simp))
        | arrow h1 h2 h3 h4 h5 => exact .arrow h1 h2 h3 h4 (m1 := []) (m2 := []) (tells_not (by simp)) (tells_not fun h => h.2 (h5 h.1))
        | equals h1 h2 h3 h4 h5 => exact .equals h1 h2 h3 h4 (m1 := []) (m2 := []) (tells_not (by simp)) (tells_not fun h => h.2 (h5 h.1))
        | blank h => exact .blank h
        | @included cmd sep arg name path h1 h2 h3 h4 h5 h6 h7 h8 =>
          refine .include (indent := []) (m1 := []) (m2 := []) (m3 := []) (m4 := []) rfl (by intro c hc; cases hc) h2 h1 ?_ ?_ h6 h7
            (tells_not (by simp)) (tells_not ?_) (tells_not ?_) (tells_not ?_)
          · rcases h3 with rfl | rfl <;> decide
          · rcases h5 with h | ⟨rfl, rfl⟩
            · exact .quoted _ h
            · exact .lone rfl
          · rintro ⟨a, b⟩
            rcases h4 with h | h
            · exact a h
            · exact b h
          · rintro ⟨a, b⟩
            rcases h5 with h | h
            · exact quoted_good h a
            · exact b h.1
          · rintro ⟨a, b⟩
            obtain ⟨c, hc⟩ := h8 a
            rw [b] at hc
            cases hc
      exact .mk (m1 := []) (m2 := []) (m3 := []) (m4 := []) (bad := false) (.utf8 _ hu) hb hcont (tells_not (by simp)) (tells_not hc)
        (tells_not he) (tells_not hg) key

theorem header_clean {s : Sofar} {c : CtxE} (hg : c.name = c! "general" → s.general = none) (h : (headerSays s c).1 = []) :
    CleanHeader s c (headerSays s c).2 := by
  unfold headerSays at h ⊢
  by_cases h1 : c.name = c! "general"
  · rw [if_pos h1] at h ⊢
    simp only at h
    split at h
    · cases h
    · rename_i hn
      simp only [Bool.or_eq_true, not_or, Bool.not_eq_true, Option.isSome_eq_false_iff, Option.isNone_iff_eq_none] at hn
      exact .general h1 (hg h1) hn.1 hn.2
  · rw [if_neg h1] at h ⊢
    by_cases h2 : c.name = c! "globals"
    · rw [if_pos h2] at h ⊢
      cases hgl : s.globals with
      | some w => rw [hgl] at h; cases h
      | none =>
        rw [hgl] at h
        simp only at h ⊢
        split at h
        · cases h
        · rename_i hn
          simp only [Bool.or_eq_true, not_or, Bool.not_eq_true, Option.isSome_eq_false_iff, Option.isNone_iff_eq_none,
            ] at hn
          exact .globals h2 (Option.ne_none_iff_exists'.1 hn.1) hgl hn.2
    · rw [if_neg h2] at h ⊢
      simp only at h ⊢
      split at h
      · rename_i ht
        exact .context h1 h2 (by simpa using ht)
      · cases h

theorem elem_clean (env : AEnv) (s : Sofar) (e : Elem) (s' : Sofar) (us : List Ev) (ds : List Dest)
    (h : ElemTells env s e [] s' us ds) : CleanElem env s e s' us ds := by
  generalize hms : ([] : List Msg) = ms at h
  cases h with
  | blank b w => exact .blank b w
  | header c hg => exact .header c _ (header_clean hg hms.symm)
  | orphan => simp at hms
  | setting v name h1 h2 => exact .setting v name h1 h2
  | @body v name ms s' us ds h1 h2 hb =>
    cases hb with
    | @step m _ _ _ hk ht =>
      simp only [List.nil_eq, List.append_eq_nil_iff] at hms
      obtain ⟨ha, rfl⟩ := hms
      have harrow : v.arrow = true := by
        unfold arrowSays at ha
        split at ha
        · assumption
        · cases ha
      generalize hms : ([] : List Msg) = ms at ht
      cases ht with
      | hint => simp at hms
      | badPrio => simp at hms
      | noExten => simp at hms
      | @step evs sp js raw pat ms2 _ _ hp hl hx hs hd =>
        simp only [List.nil_eq, List.append_eq_nil_iff] at hms
        obtain ⟨hev, hcan, rfl⟩ := hms
        unfold stepSays at hs
        have hsteps : ({ s with spelling := sp } : Sofar).steps name = s.steps name := rfl
        cases hn : numberFor { s with spelling := sp } (prioOf (readingOf v).prio) with
        | none => rw [hn] at hs; simp at hs
        | some n =>
          rw [hn] at hs
          simp only at hs
          split at hs
          · rename_i t _; simp at hs
          · rename_i hf1
            split at hs
            · simp at hs
            · rename_i hf2
              simp only [Prod.mk.injEq] at hs
              obtain ⟨hord, rfl⟩ := hs
              have hdis : ¬ Disorder s name pat (prioOf (readingOf v).prio) := by
                intro hD
                have : Disorder { s with spelling := sp } name pat (prioOf (readingOf v).prio) := by
                  revert hD
                  cases prioOf (readingOf v).prio <;> exact id
                rw [if_pos this] at hord
                cases hord
              refine .step v name raw pat n evs sp js ds h1 h2 ⟨hk, harrow, hp, hl, hev, hx, ?_, ?_, hdis, ?_⟩ (hd.kept ⟨_, rfl, rfl⟩)
              · intro hne
                cases he : (readingOf v).exten with
                | none => exact absurd he hne
                | some x =>
                  rw [he] at hx hcan
                  simp only [Spec.extenFor] at hx
                  simp only [Option.bind_some, hx, canonSays] at hcan
                  split at hcan
                  · assumption
                  · cases hcan
              · rw [← hn]
                cases prioOf (readingOf v).prio <;> rfl
              · intro t ht hc
                rw [List.find?_eq_none] at hf1 hf2
                refine ⟨fun e => ?_, fun l hlab hne e => ?_⟩
                · have := hf1 t ht
                  simp only [decide_eq_true_eq] at this
                  exact this ⟨hc, e⟩
                · have := hf2 t ht
                  simp only [decide_eq_true_eq] at this
                  refine this ⟨hc, ?_⟩
                  rw [hlab]
                  exact ⟨hne, e⟩
    | included hk =>
      refine .includes v name h1 h2 hk ?_
      unfold arrowSays at hms
      split at hms
      · assumption
      · cases hms
    | switch => simp at hms
    | ignorepat => simp at hms
    | other => simp at hms

theorem clean_header {s s' : Sofar} {c : CtxE} (h : CleanHeader s c s') :
    (c.name = c! "general" → s.general = none) ∧ headerSays s c = ([], s') := by
  unfold headerSays
  cases h with
  | general h1 h2 h3 h4 => simp [h1, h2, h3, h4]
  | globals h1 h2 h3 h4 =>
    obtain ⟨w, h2⟩ := h2
    have : c.name ≠ c! "general" := by rw [h1]; decide
    rw [if_neg this, if_pos h1, h3]
    simp [h2, h4, this]
  | context h1 h2 h3 =>
    rw [if_neg h1, if_neg h2]
    simp [h1, h3]

theorem clean_elem {env : AEnv} {s s' : Sofar} {e : Elem} {us : List Ev} {ds : List Dest} (h : CleanElem env s e s' us ds) :
    ElemTells env s e [] s' us ds := by
  cases h with
  | blank b w => exact .blank b w
  | header c _ h =>
    obtain ⟨h1, h2⟩ := clean_header h
    have := ElemTells.header (env := env) c h1
    rwa [h2] at this
  | setting v name h1 h2 => exact .setting v name h1 h2
  | includes v name h1 h2 h3 h4 =>
    have := BodyTells.included (env := env) (s := s) (name := name) h3
    simp only [arrowSays, h4, if_true] at this
    exact .body v name h1 h2 this
  | step v name raw pat n evs sp js _ h1 h2 hs hz =>
    have ha : arrowSays v = [] := by simp [arrowSays, hs.arrow]
    have hn : numberFor { s with spelling := sp } (prioOf (readingOf v).prio) = some n := by
      rw [← hs.number]
      cases prioOf (readingOf v).prio <;> rfl
    have hd : ¬ Disorder { s with spelling := sp } name pat (prioOf (readingOf v).prio) := by
      intro hD
      apply hs.order
      revert hD
      cases prioOf (readingOf v).prio <;> exact id
    have hf1 : (({ s with spelling := sp } : Sofar).steps name).find? (fun t => decide (SameExten t
        ⟨raw, pat, n, (readingOf v).label, (readingOf v).app, v.comment, v.at_⟩ ∧ t.prio = n)) = none := by
      rw [List.find?_eq_none]
      intro t ht hc
      simp only [decide_eq_true_eq] at hc
      exact (hs.once t ht hc.1).1 hc.2
    have hf2 : (({ s with spelling := sp } : Sofar).steps name).find? (fun t => decide (SameExten t
        ⟨raw, pat, n, (readingOf v).label, (readingOf v).app, v.comment, v.at_⟩ ∧
        Labelled t ((readingOf v).label.getD []))) = none := by
      rw [List.find?_eq_none]
      intro t ht hc
      simp only [decide_eq_true_eq] at hc
      obtain ⟨hc, hne, hl⟩ := hc
      cases hv : (readingOf v).label with
      | none => rw [hv] at hne; exact hne rfl
      | some l =>
        rw [hv] at hne hl
        exact (hs.once t ht hc).2 l hv hne hl
    have hsay : stepSays { s with spelling := sp } name raw pat (prioOf (readingOf v).prio) (readingOf v).label (readingOf v).app
        v.comment v.at_ = ([], { s with spelling := sp }.number
          ⟨name, ⟨raw, pat, n, (readingOf v).label, (readingOf v).app, v.comment, v.at_⟩, true⟩) := by
      unfold stepSays
      rw [hn]
      simp only
      rw [hf1]
      simp only
      rw [hf2]
      simp only [if_neg hd]
    have hcan : canonSays v.at_ ((readingOf v).exten.bind extenOf) = [] := by
      cases he : (readingOf v).exten with
      | none => rfl
      | some x =>
        have hx := hs.exten
        rw [he] at hx
        simp only [Spec.extenFor] at hx
        simp only [Option.bind_some, hx, canonSays, hs.canonical (by rw [he]; simp), if_true]
    have := ExtenTells.step hs.prio hs.app hs.exten hsay (ds := ds)
      ⟨fun _ => hz, fun hk => absurd ⟨_, rfl, rfl⟩ hk⟩
    rw [hs.silent, hcan] at this
    have := BodyTells.step hs.key this
    rw [ha] at this
    exact .body v name h1 h2 this

/-- C111: nothing is said about an element if and only if it is fine. -/
theorem C111_elem (env : AEnv) (s : Sofar) (e : Elem) (s' : Sofar) (us : List Ev) (ds : List Dest) :
    ElemTells env s e [] s' us ds ↔ CleanElem env s e s' us ds := ⟨elem_clean env s e s' us ds, clean_elem⟩

theorem elems_clean {env : AEnv} {s s' : Sofar} {es : List Elem} {us : List Ev} {ds : List Dest}
    (h : DialplanTells env s es [] s' us ds) : CleanElems env s es s' us ds := by
  generalize hms : ([] : List Msg) = ms at h
  induction h with
  | nil => exact .nil
  | cons he _ ih =>
    simp only [List.nil_eq, List.append_eq_nil_iff] at hms
    obtain ⟨rfl, rfl⟩ := hms
    exact .cons ((C111_elem _ _ _ _ _ _).1 he) (ih rfl)

theorem clean_elems {env : AEnv} {s s' : Sofar} {es : List Elem} {us : List Ev} {ds : List Dest}
    (h : CleanElems env s es s' us ds) : DialplanTells env s es [] s' us ds := by
  induction h with
  | nil => exact .nil
  | cons he _ ih => exact .cons (ms := []) (ms' := []) ((C111_elem _ _ _ _ _ _).2 he) ih

theorem end_clean {s : Sofar} : endSays s = [] ↔ (s.first ≠ none → s.general ≠ none ∧ s.globals ≠ none) := by
  unfold endSays
  cases s.first with
  | none => simp
  | some p =>
    cases s.general <;> cases s.globals <;> simp

theorem merges_nil {α : Type} {a b : List α} (h : Merges a b []) : a = [] ∧ b = [] := by
  cases h with
  | nil => exact ⟨rfl, rfl⟩

theorem jumpSays_nil {dp : Dialplan} {d : Dest} (h : JumpSays dp d []) : JumpOk dp d := by
  generalize hms : ([] : List Msg) = ms at h
  cases h with
  | ok h => exact h
  | noLabel => simp at hms
  | noContext => simp at hms
  | noLabelThere => simp at hms
  | noStep => simp at hms

/-- C111: if a check comes to its end without a message, the dialplan is fine. -/
theorem C111_silent (fs : FS) (env : DEnv) (hd : ArgsDescribed env.toAEnv) (n : Nat) (path : Str)
    (content : Bytes) (hf : fs path = some content) (st : DState)
    (h : checkDialplan fs env none n path content = ⟨[], .ok (some st)⟩) :
    ∃ told s us ds, CleanDialplan fs env.toAEnv path content told s us ds := by
  obtain ⟨told, formats, hints, both, s, us, ds, parts, h1, h2, h3, h4⟩ := C96_order fs env hd none n path content hf [] st h
  have h4 := h4.symm
  simp only [List.append_eq_nil_iff] at h4
  obtain ⟨⟨rfl, he⟩, hp⟩ := h4
  obtain ⟨ms, i1, lines, rest, i2, i3, i4⟩ := issued_tells h2
  obtain ⟨rfl, rfl⟩ := merges_nil i4
  obtain ⟨hm, rfl⟩ := merges_nil i3
  obtain ⟨rfl, rfl⟩ := merges_nil i2
  refine ⟨told, s, us, ds, h1, ?_, elems_clean i1, end_clean.1 he, ?_⟩
  · intro x hx
    have := h1.lines x hx
    rw [List.flatMap_eq_nil_iff.1 hm x hx] at this
    exact (C111_line _ _ _).1 this
  · have : ∀ {ds parts}, Zips (JumpSays (viewOf (elemsOf told) s)) ds parts → parts.flatten = [] →
        ∀ d ∈ ds, JumpOk (viewOf (elemsOf told) s) d := by
      intro ds parts hz
      induction hz with
      | nil => intro _ d hd; cases hd
      | cons hj _ ih =>
        intro hn d hd
        simp only [List.flatten_cons, List.append_eq_nil_iff] at hn
        obtain ⟨rfl, hn⟩ := hn
        rcases List.mem_cons.1 hd with rfl | hd
        · exact jumpSays_nil hj
        · exact ih hn d hd
    exact this h3 hp

theorem viewOf_same {es : List Elem} {s : Sofar} {c c' : DCtx} (h : c ∈ (viewOf es s).contexts) (h' : c' ∈ (viewOf es s).contexts)
    (hn : c.name = c'.name) : c = c' := by
  simp only [viewOf, List.mem_map] at h h'
  obtain ⟨a, _, rfl⟩ := h
  obtain ⟨b, _, rfl⟩ := h'
  simp only at hn
  rw [hn]

theorem jumpOk_nil {es : List Elem} {s : Sofar} {d : Dest} {ms : List Msg} (hok : JumpOk (viewOf es s) d)
    (h : JumpSays (viewOf es s) d ms) : ms = [] := by
  cases h with
  | ok _ => rfl
  | noLabel l h1 h2 h3 =>
    cases hok with
    | anyContext _ hl =>
      obtain ⟨c, hc, t, ht, hlab⟩ := hl l h2
      exact absurd hlab (h3 c hc t ht)
    | anyExten name c hc => rw [hc] at h1; cases h1
    | step name x c t hc => rw [hc] at h1; cases h1
  | noContext h1 h2 =>
    cases hok with
    | anyContext h => rw [h] at h1; cases h1
    | anyExten name c hc hg => exact absurd (by rw [hc, (get_mem hg).2]) (h2 c (get_mem hg).1)
    | step name x c t hc hg => exact absurd (by rw [hc, (get_mem hg).2]) (h2 c (get_mem hg).1)
  | noLabelThere c l h1 h2 h3 h4 h5 =>
    cases hok with
    | anyContext h => rw [h2] at h; cases h
    | anyExten name c' hc hg _ hl =>
      obtain ⟨t, ht, hlab⟩ := hl l h4
      rw [h2] at hc
      have : c = c' := viewOf_same h1 (get_mem hg).1 (by rw [(get_mem hg).2]; exact V.str.inj hc)
      subst this
      exact absurd hlab (h5 t ht)
    | step name x c' t hc hg hx => rw [hx] at h3; cases h3
  | noStep c x h1 h2 h3 h4 =>
    cases hok with
    | anyContext h => rw [h2] at h; cases h
    | anyExten name c' hc hg h => rw [h3] at h; cases h
    | step name x' c' t hc hg hx hs =>
      rw [h2] at hc
      rw [h3] at hx
      have e1 := V.str.inj hc
      have e2 := V.str.inj hx
      subst e1
      subst e2
      exact absurd hs (h4 t)

/-- C111: nothing is said about a dialplan that is fine, each file being included only once. -/
theorem C111_fine (fs : FS) (env : DEnv) (hd : ArgsDescribed env.toAEnv) (n : Nat) (path : Str)
    (content : Bytes) (hf : fs path = some content) (log : List Msg) (st : DState)
    (h : checkDialplan fs env none n path content = ⟨log, .ok (some st)⟩)
    {told : List Told} {s : Sofar} {us : List Ev} {ds : List Dest} (hc : CleanDialplan fs env.toAEnv path content told s us ds)
    (hn : ∀ inc t, KnowsIncludes fs inc → Expand fs inc path 0 (physLines content) t → (path :: t.files).Nodup) :
    log = [] := by
  obtain ⟨told', formats, hints, both, s', us', ds', parts, h1, h2, h3, h4⟩ :=
    C96_order fs env hd none n path content hf log st h
  obtain ⟨ms, i1, lines, rest, i2, i3, i4⟩ := issued_tells h2
  have f1 : ∀ {told formats hints}, FilesTell fs path content told formats hints →
      ∃ log, FilesSay fs path content told log := by
    intro told formats hints hf
    obtain ⟨t, f1, f2, f3, f4⟩ := hf.files
    have whole : ∀ l l' : List Msg, Merges l l' (l ++ l') := fun l l' => by
      have a : Merges l [] l := by simpa using Merges.appendLeft l (Merges.nil (α := Msg))
      have b : Merges [] l' l' := by simpa using Merges.appendRight l' (Merges.nil (α := Msg))
      simpa using Merges.append a b
    exact ⟨_, hf.lines, t, f1, f2, formats, hints, _, f3, f4, whole _ _, whole _ _⟩
  obtain ⟨_, g1⟩ := f1 h1
  obtain ⟨_, g2⟩ := f1 hc.files
  have := C96_told_unique fs path content told told' _ _ g2 g1
  subst this
  obtain ⟨rfl, rfl, rfl, rfl⟩ := C94_unique _ _ _ _ _ _ _ _ _ _ _ i1 (clean_elems hc.elems)
  obtain ⟨k1, k2⟩ := C96_knows fs
  have hmsgs : told.flatMap (·.msgs) = [] := by
    rw [List.flatMap_eq_nil_iff]
    intro x hx
    have a := (C111_line _ _ _).2 (hc.lines x hx)
    exact (C96_unique fs _ _ _ _ _ (h1.lines x hx) a).1
  obtain ⟨t, t1, t2, t3, t4⟩ := h1.files
  obtain ⟨t', t1', t2', t3', t4'⟩ := hc.files.files
  have := expand_unique (t1 _ k1) (t1' _ k1)
  subst this
  have hfm : formats = [] := (t3 _ k2).trans (t3' _ k2).symm
  have hnd := hn _ t k1 (t1 _ k1)
  have hh : hints = [] := by
    cases hints with
    | nil => rfl
    | cons m rest =>
      obtain ⟨l, hl⟩ := C17_layout_exists (ownLines m.at_.filename (elemsOf told))
      obtain ⟨a1, a2⟩ := t4 hnd m.at_.filename l hl
      obtain ⟨b1, b2⟩ := t4' hnd m.at_.filename l hl
      by_cases hs : SeenOver m.at_.filename (elemsOf told)
      · have := (a1 hs).trans (b1 hs).symm
        simp at this
      · have := (a2 hs).trans (b2 hs).symm
        simp at this
  have hparts : ∀ {ds parts}, Zips (JumpSays (viewOf (elemsOf told) s')) ds parts →
      (∀ d ∈ ds, JumpOk (viewOf (elemsOf told) s') d) → parts.flatten = [] := by
    intro ds parts hz
    induction hz with
    | nil => intro _; rfl
    | cons hj _ ih =>
      intro hok
      rw [List.flatten_cons, jumpOk_nil (hok _ List.mem_cons_self) hj, ih fun d hd => hok d (List.mem_cons_of_mem _ hd)]
      rfl
  subst hfm
  subst hh
  have nil : ∀ {l : List Msg}, Merges [] [] l → l = [] := by
    intro l hl
    cases hl
    rfl
  have := nil i2
  subst this
  rw [hmsgs] at i3
  have := nil i3
  subst this
  have := nil i4
  subst this
  rw [h4, end_clean.2 hc.special, hparts h3 hc.jumps]
  rfl

/-- C111: if `dialplan-check` ends with exit status 0 and nothing is ignored, nothing was said about the definitions of functions,
and the dialplan is fine. -/
theorem C111_passed (sh : Shell) (hm : sh.muted = false) (hi : sh.ignore = []) (fs : FS) (env : DEnv)
    (hd : ArgsDescribed env.toAEnv) (n : Nat) (arg : Option Str) (path : Str)
    (h : (dialplanCheck sh fs env n arg path).fin = .exit 0) :
    ∃ content env' told s us ds, fs path = some content ∧ DefinesFrom fs env n arg path env' [] ∧
      CleanDialplan fs { env with toFEnv := env' }.toAEnv path content told s us ds := by
  obtain ⟨env', first, content, st, h1, h2, h3, h4⟩ := C85_messages sh fs env n arg path 0 h
  obtain ⟨_, ⟨msgs, groups, hs, he, hl⟩, hst⟩ := C85_dialplan_check sh hm fs env n arg path
  have h0 := hst 0 h
  have hg : groups = [] := by
    have : (dialplanCheck sh fs env n arg path).err = [] := by
      split at h0
      · assumption
      · cases h0
    rw [he] at this
    exact Classical.not_not.1 fun hne => (lines_ne hs).2 hne this
  have hmsgs : msgs = [] := by
    cases msgs with
    | nil => rfl
    | cons m ms =>
      refine absurd hg ((said_ne hs).2 ⟨m, by simp, ?_⟩)
      rw [hi]
      exact (not_ignores_iff ..).2 (by simp [classMuted, ignoreTokens, splitAll])
  have hlog : (dialplanCheckRun fs env n arg path).log = [] := by
    rcases hl with hl | ⟨m, e, _, _, hl⟩
    · rw [hl, hmsgs]
    · rw [h] at hl; cases hl
  rw [h4] at hlog
  simp only [List.append_eq_nil_iff] at hlog
  obtain ⟨rfl, hlog⟩ := hlog
  obtain ⟨told, s, us, ds, hc⟩ := C111_silent fs { env with toFEnv := env' } hd n path content h2 st
    (by rw [← hlog, ← h3])
  exact ⟨content, env', told, s, us, ds, h2, h1, hc⟩

/-! ### Example -/

def fineText : Str := c! "[general]\n\n[globals]\n\n[a]\nexten => _X!,1(top),NoOp(hello)  ; x\n same => n,Goto(top)\nexten => s,1,Goto(a,12,1)\n"
def fineFiles : FS := fun p => if p = c! "e.conf" then some (asciiBytes fineText) else none

-- nothing is said
theorem fine_silent : (checkDialplan fineFiles demoEnv none 99 (c! "e.conf") (asciiBytes fineText)).log = [] ∧
    (checkDialplan fineFiles demoEnv none 99 (c! "e.conf") (asciiBytes fineText)).val.toOption.join.isSome = true := by
  decide +kernel

example : ∃ told s us ds, CleanDialplan fineFiles demoEnv.toAEnv (c! "e.conf") (asciiBytes fineText) told s us ds := by
  obtain ⟨h1, h2⟩ := fine_silent
  generalize hr : checkDialplan fineFiles demoEnv none 99 (c! "e.conf") (asciiBytes fineText) = r at h1 h2
  obtain ⟨log, val⟩ := r
  simp only at h1
  subst h1
  cases val with
  | error e => simp [Except.toOption, Option.join] at h2
  | ok o =>
    cases o with
    | none => simp [Except.toOption, Option.join] at h2
    | some st => exact C111_silent fineFiles demoEnv demo_described 99 _ _ rfl st hr

-- a line that is fine, and one that is not
example : CleanLine (fun _ => none) ⟨c! "e.conf", 3, asciiBytes (c! "a => b\n")⟩
    (.elem (.var ⟨c! "a", c! "b", true, false, ⟨c! "e.conf", 3, asciiBytes (c! "a => b\n")⟩⟩)) ∧
    ¬ ∃ g, CleanLine (fun _ => none) ⟨c! "e.conf", 3, asciiBytes (c! "a =>b\n")⟩ g := by
  refine ⟨(C111_line _ _ _).1 (lineTells_exists (r := ([], _)) (by decide +kernel)), ?_⟩
  rintro ⟨g, hg⟩
  have h := lineTells_model ((C111_line _ _ _).2 hg)
  have h' : ∀ r, lineModel (fun _ => none) ⟨c! "e.conf", 3, asciiBytes (c! "a =>b\n")⟩ = some r → r.1 ≠ [] := by
    rw [show lineModel (fun _ => none) ⟨c! "e.conf", 3, asciiBytes (c! "a =>b\n")⟩ =
      some ([plainMsg .W_WSH_OBJSET ⟨c! "e.conf", 3, asciiBytes (c! "a =>b\n")⟩],
        .elem (.var ⟨c! "a", c! "b", true, false, ⟨c! "e.conf", 3, asciiBytes (c! "a =>b\n")⟩⟩)) from by decide +kernel]
    rintro r ⟨⟩
    simp
  exact h' _ h rfl

end ALint.Props
