import Verif.Spec.Fatal
import Verif.Props.DialplanTells
import Verif.Props.Stumbles

/-!
# What ends a check with an internal error, in terms of the files alone (C57, C94, C96)
-/

namespace ALint.Props
open ALint ALint.Spec

/-! ## One element -/

theorem lineText_marks {v : VarE} {x : Option Str} {ps : Str} {lab : Option Str} {app : Str} (h : LineText v x ps lab app) :
    app.count '?' ≤ v.value.count '?' := by
  obtain ⟨rest, pl, h1, h2, -⟩ := h
  have h3 : app.count '?' ≤ rest.count '?' := by
    rcases h2 with ⟨-, rfl⟩ | ⟨-, -, rfl⟩
    · rw [List.count_append, List.count_cons]; omega
    · exact Nat.zero_le _
  rcases h1 with ⟨-, raw, -, h, -⟩ | ⟨-, h, -⟩
  · rw [h, List.count_append, List.count_cons]; omega
  · rw [h]; exact h3

theorem cur_under {s : Sofar} {st : DState} (h : Agrees s st) (name : Str) : st.cur = .ctx name ↔ Under s name := by
  have hh := h.header
  constructor
  · intro hc
    rw [hc] at hh
    exact ⟨hh, h.plain name hc⟩
  · rintro ⟨h1, h2⟩
    rw [h1] at hh
    have g : special (c! "general") = true := by decide
    have g' : special (c! "globals") = true := by decide
    cases hc : st.cur with
    | none => rw [hc] at hh; cases hh
    | general => rw [hc] at hh; cases hh; rw [g] at h2; cases h2
    | globals => rw [hc] at hh; cases hh; rw [g'] at h2; cases h2
    | detached => rw [hc] at hh; cases hh; rw [g'] at h2; cases h2
    | ctx n => rw [hc] at hh; cases hh; rfl

theorem get_headers {es : List Elem} {log : List Msg} {st : DState} (h : Rel es log st) (n : Str) :
    (∃ c, st.dp.get n = some c) ↔ special n = false ∧ n ∈ headers es := by
  have : (∃ c, st.dp.get n = some c) ↔ n ∈ st.dp.contexts.map (·.name) := by
    constructor
    · rintro ⟨c, hc⟩
      exact List.mem_map.2 ⟨c, (get_mem hc).1, (get_mem hc).2⟩
    · intro hn
      obtain ⟨c, hc, rfl⟩ := List.mem_map.1 hn
      rw [Dialplan.get]
      cases hf : st.dp.contexts.find? fun d => d.name = c.name with
      | some d => exact ⟨d, rfl⟩
      | none => have := List.find?_eq_none.1 hf c hc; simp at this
  rw [this, h.names, List.mem_eraseDups, List.mem_filter]
  constructor
  · rintro ⟨h1, h2⟩; exact ⟨by simpa using h2, h1⟩
  · rintro ⟨h1, h2⟩; exact ⟨h2, by simpa using h1⟩

/-- What is trouble for the program is fatal in the specification, and the other way round. -/
theorem trouble_fatal {env : DEnv} (hd : ArgsDescribed env.toAEnv) {pre : List Elem} {log : List Msg} {s : Sofar} {st : DState}
    (ha : Agrees s st) (hi : DpInv st) (hr : Rel pre log st) {el : Elem}
    (hq : ∀ v, el = .var v → v.value.count '?' < env.depth) :
    Trouble env st el ↔ Fatal env.toAEnv pre s el := by
  have hgen : st.dp.general.isSome = true ↔ c! "general" ∈ headers pre := by
    have := hr.general
    by_cases h : c! "general" ∈ headers pre
    · rw [if_pos h] at this
      cases hg : st.dp.general with
      | none => rw [hg] at this; cases this
      | some g => simp [h]
    · rw [if_neg h] at this
      cases hg : st.dp.general with
      | none => simp [h]
      | some g => rw [hg] at this; cases this
  have hrun : ∀ (v : VarE) (app : Str), app.count '?' ≤ v.value.count '?' → v.value.count '?' < env.depth →
      (∀ evs sp js, runApp env.toAEnv env.depth st.sp v.at_ (strV app) = ⟨evs, .ok (sp, js)⟩ ↔
        LineSays env.toAEnv v.at_ s.spelling (.str app) evs sp js) ∧
      ((∃ e, (runApp env.toAEnv env.depth st.sp v.at_ (strV app)).val = .error e) ↔
        ¬ ∃ evs sp js, LineSays env.toAEnv v.at_ s.spelling (.str app) evs sp js) := by
    intro v app h1 h2
    rw [ha.spelling]
    exact C93_depth_partial env.toAEnv hd st.sp v.at_ app env.depth (by omega)
  constructor
  · intro h
    cases h with
    | general c hn h => exact .general c hn (hgen.1 h)
    | reopened c d hs hg h => exact .reopened c hs ((get_headers hr _).1 ⟨d, hg⟩).2 h
    | noComma v name hc hk h => exact .noComma v name ((cur_under ha _).1 hc) hk h
    | digits v name x ps lab app hc ht hd' h => exact .digits v name x ps lab app ((cur_under ha _).1 hc) ht hd' h
    | label v name x ps lab app hc ht p hp h => exact .label v name x ps lab app ((cur_under ha _).1 hc) ht p hp h
    | pattern v name x ps lab app hc ht p hp hl h =>
      exact .pattern v name x ps lab app ((cur_under ha _).1 hc) ht p hp hl h
    | app v name x ps lab app hc ht p hp hl hx e h =>
      exact .app v name x ps lab app ((cur_under ha _).1 hc) ht p hp hl hx
        ((hrun v app (lineText_marks ht) (hq v rfl)).2.1 ⟨e, h⟩)
    | jump v name c x ps lab app hc hg ht p hp hl hx sp jumps hr' pat hacc j hj e h =>
      have hsay := ((hrun v app (lineText_marks ht) (hq v rfl)).1 _ sp jumps).1 (by rw [← hr'])
      refine .jump v name x ps lab app ((cur_under ha _).1 hc) ht p hp hl hx _ sp jumps hsay pat ?_ j hj
        ((completeDest_error (line_usable hsay j hj)).1 ⟨e, h⟩)
      rw [← ha.last, ha.get hg]
      exact hacc
  · intro h
    cases h with
    | general c hn h => exact .general c hn (hgen.2 h)
    | reopened c hs hg h =>
      obtain ⟨d, hd'⟩ := (get_headers hr _).2 ⟨hs, hg⟩
      exact .reopened c d hs hd' h
    | noComma v name hc hk h => exact .noComma v name ((cur_under ha _).2 hc) hk h
    | digits v name x ps lab app hc ht hd' h => exact .digits v name x ps lab app ((cur_under ha _).2 hc) ht hd' h
    | label v name x ps lab app hc ht p hp h => exact .label v name x ps lab app ((cur_under ha _).2 hc) ht p hp h
    | pattern v name x ps lab app hc ht p hp hl h =>
      exact .pattern v name x ps lab app ((cur_under ha _).2 hc) ht p hp hl h
    | app v name x ps lab app hc ht p hp hl hx h =>
      obtain ⟨e, he⟩ := (hrun v app (lineText_marks ht) (hq v rfl)).2.2 h
      exact .app v name x ps lab app ((cur_under ha _).2 hc) ht p hp hl hx e he
    | jump v name x ps lab app hc ht p hp hl hx evs sp js hsay pat hacc j hj h =>
      have hcur := (cur_under ha _).2 hc
      obtain ⟨c, hg⟩ := hi.cur name hcur
      obtain ⟨e, he⟩ := (completeDest_error (name := name) (x := Pattern.exampleOf pat) (w := v.at_)
        (line_usable hsay j hj)).2 h
      refine .jump v name c x ps lab app hcur hg ht p hp hl hx sp js ?_ pat ?_ j hj e he
      · rw [((hrun v app (lineText_marks ht) (hq v rfl)).1 _ _ _).2 hsay]
      · rw [← ha.last, ha.get hg] at hacc
        exact hacc

/-! ## The elements -/

/-- What came of the elements, in the program and in the specification. -/
theorem after_tells {env : DEnv} (hd : ArgsDescribed env.toAEnv) {sp : Option Str} {es : List Elem} {st : DState}
    (h : (feed (dialplanStep env) (.init sp) es).val = .ok st) :
    ∃ s, DialplanTells env.toAEnv (.none sp) es (feed (dialplanStep env) (.init sp) es).log s st.uses st.dp.dests ∧
      Agrees s st := by
  obtain ⟨s, us, ds, t1, t2, t3, t4⟩ := dialplan_tells hd es (DpInv.init sp) (Agrees.init sp) h
  have e1 : st.uses = us := by simpa [DState.init] using t3
  have e2 : st.dp.dests = ds := by simpa [DState.init, Dialplan.init] using t4
  exact ⟨s, by rw [e1, e2]; exact t1, t2⟩

theorem after_of {env : DEnv} {sp : Option Str} {es : List Elem} {st : DState}
    (h : (feed (dialplanStep env) (.init sp) es).val = .ok st) :
    After env sp es (feed (dialplanStep env) (.init sp) es).log st := by
  unfold After
  rw [← h]

theorem feed_fatal {env : DEnv} (hd : ArgsDescribed env.toAEnv) {sp : Option Str} {es : List Elem}
    (hq : ∀ v, .var v ∈ es → v.value.count '?' < env.depth) :
    (∃ e, (feed (dialplanStep env) (.init sp) es).val = .error e) ↔
    ∃ pre el post ms s us ds, es = pre ++ el :: post ∧ DialplanTells env.toAEnv (.none sp) pre ms s us ds ∧
      Fatal env.toAEnv pre s el := by
  have hf : ∀ es, (∃ e, (feed (dialplanStep env) (.init sp) es).val = .error e) ↔ _ := fun es =>
    fails_feed (env := env) (DpInv.init sp) (es := es)
  constructor
  · intro h
    obtain ⟨pre, el, post, st, rfl, h1, h2⟩ := (hf es).1 h
    obtain ⟨s, h3, h4⟩ := after_tells hd h1
    obtain ⟨i1, i2, i3⟩ := after_inv (after_of h1)
    refine ⟨pre, el, post, _, s, _, _, rfl, h3, (trouble_fatal hd h4 i1 i3 ?_).1 h2⟩
    rintro v rfl
    exact hq v (by simp)
  · rintro ⟨pre, el, post, ms, s, us, ds, rfl, h1, h2⟩
    cases hv : (feed (dialplanStep env) (.init sp) pre).val with
    | error e =>
      obtain ⟨pre', el', post', st, rfl, h3, h4⟩ := (hf pre).1 ⟨e, hv⟩
      exact (hf _).2 ⟨pre', el', post' ++ el :: post, st, by simp, h3, h4⟩
    | ok st =>
      obtain ⟨s', h3, h4⟩ := after_tells hd hv
      obtain ⟨-, rfl, -⟩ := C94_unique _ _ _ _ _ _ _ _ _ _ _ h1 h3
      obtain ⟨i1, i2, i3⟩ := after_inv (after_of hv)
      refine (hf _).2 ⟨pre, el, post, st, rfl, hv, (trouble_fatal hd h4 i1 i3 ?_).2 h2⟩
      rintro v rfl
      exact hq v (by simp)

/-! ## Searching sees steps and includes only -/

/-- What a search sees of a context. -/
def seenOf (c : DCtx) : Str × List Step × List (Str × Where) := (c.name, c.steps, c.includes)

/-- The two look the same to a search. -/
def LookAlike (dp dp' : Dialplan) : Prop := dp.contexts.map seenOf = dp'.contexts.map seenOf

theorem LookAlike.symm {dp dp' : Dialplan} (h : LookAlike dp dp') : LookAlike dp' dp := Eq.symm h

theorem LookAlike.mem {dp dp' : Dialplan} (h : LookAlike dp dp') {c : DCtx} (hc : c ∈ dp.contexts) :
    ∃ c' ∈ dp'.contexts, c'.name = c.name ∧ c'.steps = c.steps ∧ c'.includes = c.includes := by
  have : seenOf c ∈ dp'.contexts.map seenOf := by rw [← h]; exact List.mem_map_of_mem hc
  obtain ⟨c', h1, h2⟩ := List.mem_map.1 this
  simp only [seenOf, Prod.mk.injEq] at h2
  exact ⟨c', h1, h2.1, h2.2.1, h2.2.2⟩

theorem get_seen (dp : Dialplan) (n : Str) : (dp.get n).map seenOf = (dp.contexts.map seenOf).find? (·.1 = n) := by
  rw [Dialplan.get, List.find?_map]
  rfl

theorem LookAlike.get {dp dp' : Dialplan} (h : LookAlike dp dp') {n : Str} {c : DCtx} (hc : dp.get n = some c) :
    ∃ c', dp'.get n = some c' ∧ c'.name = c.name ∧ c'.steps = c.steps ∧ c'.includes = c.includes := by
  have h1 := get_seen dp n
  rw [h, ← get_seen dp' n, hc] at h1
  cases hg : dp'.get n with
  | none => rw [hg] at h1; cases h1
  | some c' =>
    rw [hg] at h1
    simp only [Option.map_some, Option.some.injEq, seenOf, Prod.mk.injEq] at h1
    exact ⟨c', rfl, h1.1.symm, h1.2.1.symm, h1.2.2.symm⟩

theorem LookAlike.isSome {dp dp' : Dialplan} (h : LookAlike dp dp') {n : Str} (hc : (dp.get n).isSome = true) :
    (dp'.get n).isSome = true := by
  obtain ⟨c, hc⟩ := Option.isSome_iff_exists.1 hc
  obtain ⟨c', h', -⟩ := h.get hc
  rw [h']
  rfl

theorem LookAlike.reaches {dp dp' : Dialplan} (h : LookAlike dp dp') {a b : Str} (hr : Reaches dp a b) : Reaches dp' a b := by
  induction hr with
  | self => exact .self
  | incl _ hi ih =>
    obtain ⟨c, i, h1, h2, h3, h4⟩ := hi
    obtain ⟨c', g1, -, -, g4⟩ := h.get h1
    exact .incl ih ⟨c', i, g1, g4 ▸ h2, h3, h.isSome h4⟩

theorem LookAlike.findable {dp dp' : Dialplan} (h : LookAlike dp dp') {ctx exten : Str} {prio : Arg} {s : Step}
    (hf : Findable dp ctx exten prio s) : Findable dp' ctx exten prio s := by
  obtain ⟨c, h1, h2, h3, h4⟩ := hf
  obtain ⟨c', g1, g2, g3, -⟩ := h.get h1
  exact ⟨c', g2 ▸ g1, g2 ▸ h.reaches h2, g3 ▸ h3, h4⟩

theorem LookAlike.jumpOk {dp dp' : Dialplan} (h : LookAlike dp dp') {d : Dest} (hj : JumpOk dp d) : JumpOk dp' d := by
  cases hj with
  | anyContext hv hl =>
    refine .anyContext hv fun l hp => ?_
    obtain ⟨c, hc, s, hs, hlab⟩ := hl l hp
    obtain ⟨c', g1, -, g3, -⟩ := h.mem hc
    exact ⟨c', g1, s, g3 ▸ hs, hlab⟩
  | anyExten name c hc hg hv hl =>
    obtain ⟨c', g1, -, g3, -⟩ := h.get hg
    exact .anyExten name c' hc g1 hv (g3 ▸ hl)
  | step name x c s hc hg hx hs =>
    obtain ⟨c', g1, -⟩ := h.get hg
    exact .step name x c' s hc g1 hx (h.findable hs)

theorem LookAlike.jumpSays {dp dp' : Dialplan} (h : LookAlike dp dp') {d : Dest} {ms : List Msg} (hj : JumpSays dp d ms) :
    JumpSays dp' d ms := by
  cases hj with
  | ok hj => exact .ok (h.jumpOk hj)
  | noLabel l h1 h2 h3 =>
    refine .noLabel l h1 h2 fun c hc s hs => ?_
    obtain ⟨c', g1, -, g3, -⟩ := h.symm.mem hc
    exact h3 c' g1 s (g3 ▸ hs)
  | noContext h1 h2 =>
    refine .noContext h1 fun c hc => ?_
    obtain ⟨c', g1, g2, -⟩ := h.symm.mem hc
    exact g2 ▸ h2 c' g1
  | noLabelThere c l h1 h2 h3 h4 h5 =>
    obtain ⟨c', g1, g2, g3, -⟩ := h.mem h1
    exact .noLabelThere c' l g1 (g2 ▸ h2) h3 h4 (g3 ▸ h5)
  | noStep c x h1 h2 h3 h4 =>
    obtain ⟨c', g1, g2, -⟩ := h.mem h1
    exact .noStep c' x g1 (g2 ▸ h2) h3 fun s hs => h4 s (g2 ▸ h.symm.findable hs)

theorem LookAlike.goesOn {dp dp' : Dialplan} (h : LookAlike dp dp') {exten : Str} {prio : Arg} {a b : Str}
    (hg : GoesOn dp exten prio a b) : GoesOn dp' exten prio a b := by
  obtain ⟨c, pre, i, post, h1, h2, h3, h4, h5, h6⟩ := hg
  obtain ⟨c', g1, -, g3, g4⟩ := h.get h1
  exact ⟨c', pre, i, post, g1, fun s hs => h2 s (g3 ▸ hs), g4 ▸ h3, h4, h.isSome h5,
    fun j hj s hs => h6 j hj s (h.symm.findable hs)⟩

theorem LookAlike.comesTo {dp dp' : Dialplan} (h : LookAlike dp dp') {exten : Str} {prio : Arg} {a b : Str}
    (hc : ComesTo dp exten prio a b) : ComesTo dp' exten prio a b := by
  induction hc with
  | self => exact .self
  | on _ hg ih => exact .on ih (h.goesOn hg)

theorem LookAlike.searchFails {dp dp' : Dialplan} (h : LookAlike dp dp') {ctx exten : Str} {prio : Arg}
    (hs : SearchFails dp ctx exten prio) : SearchFails dp' ctx exten prio := by
  cases hs with
  | circle hc =>
    obtain ⟨a, b, h1, h2, h3⟩ := hc
    exact .circle ⟨a, b, h.comesTo h1, h.goesOn h2, h.comesTo h3⟩
  | latin1 c s hc hr hs he =>
    obtain ⟨c', g1, g2, g3, -⟩ := h.get hc
    exact .latin1 c' s (g2 ▸ g1) (g2 ▸ h.reaches hr) (g3 ▸ hs) he
  | prio c s hc hr hs hd hp =>
    obtain ⟨c', g1, g2, g3, -⟩ := h.get hc
    exact .prio c' s (g2 ▸ g1) (g2 ▸ h.reaches hr) (g3 ▸ hs) hd hp

theorem LookAlike.stumbles {dp dp' : Dialplan} (h : LookAlike dp dp') {d : Dest} (hs : Stumbles dp d) : Stumbles dp' d := by
  cases hs with
  | search name x hc hx hs => exact .search name x hc hx (h.searchFails hs)
  | report hj hu => exact .report (fun hj' => hj (h.symm.jumpOk hj')) hu

/-- The dialplan that was read looks like the one of the specification. -/
theorem view_alike {es : List Elem} {log : List Msg} {s : Sofar} {st : DState} (ha : Agrees s st) (hi : DpInv st)
    (hr : Rel es log st) : LookAlike st.dp (viewOf es s) := by
  unfold LookAlike viewOf contextsOf
  rw [← hr.names]
  simp only [List.map_map]
  refine List.map_congr_left fun c hc => ?_
  simp only [seenOf, Function.comp_apply, Prod.mk.injEq, true_and]
  exact ⟨(ha.get (get_of_mem hi.names hc)).symm, hr.includes c hc⟩

/-! ## Blank lines do not matter -/

theorem headers_filter (es : List Elem) : headers (es.filter notBlank) = headers es := by
  induction es with
  | nil => rfl
  | cons e es ih => cases e <;> simp [List.filter_cons, notBlank, headers, ih]

theorem governed_filter (cur : Option Str) (es : List Elem) : governed cur (es.filter notBlank) = governed cur es := by
  induction es generalizing cur with
  | nil => rfl
  | cons e es ih => cases e <;> simp [List.filter_cons, notBlank, governed, ih]

theorem viewOf_filter (es : List Elem) (s : Sofar) : viewOf (es.filter notBlank) s = viewOf es s := by
  unfold viewOf contextsOf linesOf
  simp only [headers_filter, governed_filter]

theorem fatal_filter {env : AEnv} {pre : List Elem} {s : Sofar} {el : Elem} :
    Fatal env (pre.filter notBlank) s el ↔ Fatal env pre s el := by
  have key : ∀ pre pre' : List Elem, headers pre = headers pre' → Fatal env pre s el → Fatal env pre' s el := by
    intro pre pre' he h
    cases h with
    | general c hn h => exact .general c hn (he ▸ h)
    | reopened c hs hg h => exact .reopened c hs (he ▸ hg) h
    | noComma v name hc hk h => exact .noComma v name hc hk h
    | digits v name x ps lab app hc ht hd' h => exact .digits v name x ps lab app hc ht hd' h
    | label v name x ps lab app hc ht p hp h => exact .label v name x ps lab app hc ht p hp h
    | pattern v name x ps lab app hc ht p hp hl h => exact .pattern v name x ps lab app hc ht p hp hl h
    | app v name x ps lab app hc ht p hp hl hx h => exact .app v name x ps lab app hc ht p hp hl hx h
    | jump v name x ps lab app hc ht p hp hl hx evs sp js hsay pat hacc j hj h =>
      exact .jump v name x ps lab app hc ht p hp hl hx evs sp js hsay pat hacc j hj h
  exact ⟨key _ _ (headers_filter pre), key _ _ (headers_filter pre).symm⟩

theorem falls_filter {env : AEnv} {sp : Option Str} {es : List Elem} : Falls env sp es ↔ Falls env sp (es.filter notBlank) := by
  unfold Falls
  refine or_congr ?_ ?_
  · constructor
    · rintro ⟨pre, el, post, ms, s, us, ds, rfl, h1, h2⟩
      have hel : notBlank el = true := by cases h2 <;> rfl
      refine ⟨pre.filter notBlank, el, post.filter notBlank, ms, s, us, ds, by simp [hel],
        (dialplanTells_filter pre).1 h1, fatal_filter.2 h2⟩
    · rintro ⟨pre, el, post, ms, s, us, ds, he, h1, h2⟩
      obtain ⟨l1, l2, rfl, rfl, h3⟩ := List.filter_eq_append_iff.1 he
      obtain ⟨l3, l4, rfl, h4, h5, rfl⟩ := List.filter_eq_cons_iff.1 h3
      have hb : l3.filter notBlank = [] := List.filter_eq_nil_iff.2 h4
      refine ⟨l1 ++ l3, el, l4, ms, s, us, ds, by simp, (dialplanTells_filter _).2 (by simpa [hb] using h1),
        fatal_filter.1 (by simpa [hb] using h2)⟩
  · constructor
    · rintro ⟨ms, s, us, ds, h1, h2⟩
      exact ⟨ms, s, us, ds, (dialplanTells_filter es).1 h1, by rw [viewOf_filter]; exact h2⟩
    · rintro ⟨ms, s, us, ds, h1, h2⟩
      exact ⟨ms, s, us, ds, (dialplanTells_filter es).2 h1, by rw [viewOf_filter] at h2; exact h2⟩

/-! ## The check -/

theorem expand_unique {fs : FS} {inc : Where → Option Str} {f : Str} {n : Nat} {ls : List Bytes} {t t' : Items}
    (h : Expand fs inc f n ls t) (h' : Expand fs inc f n ls t') : t = t' := by
  induction h generalizing t' with
  | nil => cases h'; rfl
  | line hp _ ih =>
    cases h' with
    | line _ h2 => rw [ih h2]
    | incl hp' _ _ => rw [hp] at hp'; cases hp'
  | incl hp _ _ ih1 ih2 =>
    cases h' with
    | line hp' _ => rw [hp] at hp'; cases hp'
    | incl hp' h1 h2 =>
      rw [hp] at hp'
      cases hp'
      rw [ih1 h1, ih2 h2]

/-- C96: the files leave no choice about the lines read and what each gives. -/
theorem C96_told_unique (fs : FS) (path : Str) (content : Bytes) (told told' : List Told) (log log' : List Msg)
    (h : FilesSay fs path content told log) (h' : FilesSay fs path content told' log') : told = told' := by
  have lines : ∀ {told log}, FilesSay fs path content told log → ∃ t : Items, Expand fs opens path 0 (physLines content) t ∧
      told.map (·.line) = t.flatten := by
    intro told log h
    obtain ⟨t, h1, h2, -⟩ := h.files
    exact ⟨t, h1 opens (C96_knows fs).1, h2⟩
  obtain ⟨t, h1, h2⟩ := lines h
  obtain ⟨t', h1', h2'⟩ := lines h'
  have : told.map (·.line) = told'.map (·.line) := by
    rw [h2, h2']
    rw [expand_unique h1 h1']
  have hl := h.lines
  have hl' := h'.lines
  clear h h' lines h1 h1' h2 h2'
  induction told generalizing told' with
  | nil => cases told' with
    | nil => rfl
    | cons x xs => cases this
  | cons x xs ih =>
    cases told' with
    | nil => cases this
    | cons y ys =>
      simp only [List.map_cons, List.cons.injEq] at this
      have hx := hl x List.mem_cons_self
      have hy := hl' y List.mem_cons_self
      rw [← this.1] at hy
      obtain ⟨e1, e2⟩ := C96_unique fs _ _ _ _ _ hx hy
      have : x = y := by
        obtain ⟨a, b, c⟩ := x
        obtain ⟨a', b', c'⟩ := y
        simp only at this e1 e2
        rw [this.1, e1, e2]
      rw [this, ih ys (by simp_all) (fun z hz => hl z (List.mem_cons_of_mem _ hz))
        fun z hz => hl' z (List.mem_cons_of_mem _ hz)]

theorem falls_iff {env : DEnv} (hd : ArgsDescribed env.toAEnv) {sp : Option Str} {es : List Elem}
    (hq : ∀ v, .var v ∈ es → v.value.count '?' < env.depth) :
    ((∃ pre el post log st, es = pre ++ el :: post ∧ After env sp pre log st ∧ Trouble env st el) ∨
      ∃ log st, After env sp es log st ∧ ∃ d ∈ st.dp.dests, Stumbles st.dp d) ↔ Falls env.toAEnv sp es := by
  have hA : (∃ pre el post log st, es = pre ++ el :: post ∧ After env sp pre log st ∧ Trouble env st el) ↔
      ∃ e, (feed (dialplanStep env) (.init sp) es).val = .error e := by
    refine Iff.trans ?_ (fails_feed (env := env) (DpInv.init sp) (es := es)).symm
    constructor
    · rintro ⟨pre, el, post, log, st, h1, h2, h3⟩
      exact ⟨pre, el, post, st, h1, congrArg Res.val h2, h3⟩
    · rintro ⟨pre, el, post, st, h1, h2, h3⟩
      exact ⟨pre, el, post, _, st, h1, after_of h2, h3⟩
  rw [hA]
  unfold Falls
  constructor
  · rintro (h | ⟨log, st, h1, d, h2, h3⟩)
    · exact .inl ((feed_fatal hd hq).1 h)
    · obtain ⟨s, t1, t2⟩ := after_tells hd (congrArg Res.val h1)
      obtain ⟨i1, i2, i3⟩ := after_inv h1
      exact .inr ⟨_, s, _, _, t1, d, h2, (view_alike t2 i1 i3).stumbles h3⟩
  · rintro (h | ⟨ms, s, us, ds, h1, d, h2, h3⟩)
    · exact .inl ((feed_fatal hd hq).2 h)
    · cases hv : (feed (dialplanStep env) (.init sp) es).val with
      | error e => exact .inl ⟨e, rfl⟩
      | ok st =>
        obtain ⟨s', t1, t2⟩ := after_tells hd hv
        obtain ⟨i1, i2, i3⟩ := after_inv (after_of hv)
        obtain ⟨-, rfl, -, rfl⟩ := C94_unique _ _ _ _ _ _ _ _ _ _ _ h1 t1
        exact .inr ⟨_, st, after_of hv, d, h2, (view_alike t2 i1 i3).symm.stumbles h3⟩

/-- C57, exactly, and in terms of the files alone: a check of a dialplan whose includes of files are
finite ends with an internal error if and only if there is a line that cannot be read, or the
elements of the lines make it fall: one of them is fatal behind those before it, or a jump stumbles
in the end.  The depth of calls Python allows is enough for the number of contexts and of question
marks in a line. -/
theorem C57_tells_partial (fs : FS) (env : DEnv) (hd : ArgsDescribed env.toAEnv) (sp : Option Str) (path : Str)
    (content : Bytes) (hf : fs path = some content) (t : Items) (ht : Expand fs opens path 0 (physLines content) t)
    (hdeep : ∀ told lines, FilesSay fs path content told lines → (contextsOf (elemsOf told)).length + 2 ≤ env.depth ∧
      ∀ v, .var v ∈ elemsOf told → v.value.count '?' < env.depth) :
    (∃ e, (checkDialplan fs env sp (t.flatten.length + 1) path content).val = .error e) ↔
    (∃ w ∈ t.flatten, BadLine w) ∨
    ∃ told lines, FilesSay fs path content told lines ∧ Falls env.toAEnv sp (elemsOf told) := by
  have read : ∀ es, (pipeRun fs collect (t.flatten.length + 1) ⟨[openFrame path content], [], [], []⟩).val = .ok (some es) →
      ∃ told lines, FilesSay fs path content told lines ∧ es.filter notBlank = (elemsOf told).filter notBlank ∧
        (∀ v, .var v ∈ es → v.value.count '?' < env.depth) ∧ (contextsOf es).length + 2 ≤ env.depth := by
    intro es hes
    obtain ⟨told, t1, t2⟩ := C96_files fs _ path content hf _ es (by rw [← hes])
    obtain ⟨d1, d2⟩ := hdeep told _ t1
    refine ⟨told, _, t1, t2, fun v hv => d2 v ?_, ?_⟩
    · have : Elem.var v ∈ es.filter notBlank := List.mem_filter.2 ⟨hv, rfl⟩
      rw [t2] at this
      exact (List.mem_filter.1 this).1
    · unfold contextsOf at d1 ⊢
      rw [← headers_filter, t2, headers_filter]
      exact d1
  rw [C57_exact_partial fs env sp path content t ht (fun es log st h1 h2 => by
    obtain ⟨-, -, -, -, -, h3⟩ := read es h1
    have := (C51_names env sp es log st h2).1
    have := congrArg List.length this
    rw [List.length_map] at this
    rw [this]
    exact h3)]
  by_cases hb : ∃ w ∈ t.flatten, BadLine w
  · simp only [hb, true_or]
  · simp only [hb, false_or]
    constructor
    · rintro ⟨es, h1, h2⟩
      obtain ⟨told, lines, t1, t2, t3, -⟩ := read es h1
      refine ⟨told, lines, t1, ?_⟩
      rw [falls_filter, ← t2, ← falls_filter]
      exact (falls_iff hd t3).1 h2
    · rintro ⟨told, lines, h1, h2⟩
      have hgood : ∃ es, (pipeRun fs collect (t.flatten.length + 1) ⟨[openFrame path content], [], [], []⟩).val =
          .ok (some es) := by
        have hread := C02_expansion fs opens path content t ht
        obtain ⟨o, ho⟩ := pipeRun_good fs (t.flatten.length + 1) ⟨[openFrame path content], [], [], []⟩
          (by intro w hw hbad; exact hb ⟨w, by simpa [hread] using hw, hbad⟩)
        have := (pipeRun_reader fs collect _ _ _ ho).2
        rw [hread] at this
        cases o with
        | none => simp at this
        | some es => exact ⟨es, ho⟩
      obtain ⟨es, hes⟩ := hgood
      obtain ⟨told', lines', t1, t2, t3, -⟩ := read es hes
      have := C96_told_unique fs path content told told' lines lines' h1 t1
      subst this
      refine ⟨es, hes, (falls_iff hd t3).2 ?_⟩
      rw [falls_filter, t2, ← falls_filter]
      exact h2

/-- C94: the messages of a whole check, in terms of the files alone: what there is to say about their
lines and what there is to say about the dialplan, put together; then what is missing, then what is
wrong with the jumps, in order. -/
theorem C94_files (fs : FS) (env : DEnv) (hd : ArgsDescribed env.toAEnv) (sp : Option Str) (n : Nat) (path : Str)
    (content : Bytes) (hf : fs path = some content) (log : List Msg) (st : DState)
    (h : checkDialplan fs env sp n path content = ⟨log, .ok (some st)⟩) :
    ∃ told lines ms s us ds both parts, FilesSay fs path content told lines ∧
      DialplanTells env.toAEnv (.none sp) (elemsOf told) ms s us ds ∧
      Merges lines ms both ∧ Zips (JumpSays (viewOf (elemsOf told) s)) ds parts ∧
      log = both ++ endSays s ++ parts.flatten := by
  obtain ⟨es, lines, both, parts, h1, h2, h3, h4, h5⟩ := C94_check fs env sp n path content log st h
  obtain ⟨told, t1, t2⟩ := C96_files fs n path content hf lines es h1
  obtain ⟨s, a1, a2⟩ := after_tells hd (congrArg Res.val h4)
  obtain ⟨b1, b2⟩ := dialplan_says es (DpInv.init sp) (Agrees.init sp) (congrArg Res.val h4)
  have e3 : endSays s = endSays (dialplanSays env (.none sp) es).2 :=
    congrArg Res.log ((end_says a2).symm.trans (end_says b2))
  obtain ⟨i1, i2, i3⟩ := after_inv h4
  have hv : viewOf (elemsOf told) s = viewOf es s := by rw [← viewOf_filter, ← t2, viewOf_filter]
  rw [dialplanTells_filter, t2, ← dialplanTells_filter, b1] at a1
  refine ⟨told, lines, _, s, _, _, both, parts, t1, a1, h2, ?_, by rw [e3]; exact h5⟩
  rw [hv]
  have hlike := view_alike a2 i1 i3
  generalize st.dp.dests = ds at h3
  clear h5
  induction h3 with
  | nil => exact .nil
  | cons h _ ih => exact .cons (hlike.jumpSays h) ih

/-! ### Examples -/

def fallText : Str := c! "[a]\nexten => s,1,Goto(\u00b2)\n"
def fallFiles : FS := fun p => if p = c! "e.conf" then some (utf8 fallText) else none
def fallW (n : Nat) (s : Str) : Where := ⟨c! "e.conf", n, utf8 s⟩
def fallItems : Items :=
  .line (fallW 1 (c! "[a]\n")) (.line (fallW 2 (c! "exten => s,1,Goto(\u00b2)\n")) .nil)
def fallElems : List Elem := [.ctx ⟨c! "a", [], false, fallW 1 (c! "[a]\n")⟩,
  .var ⟨c! "exten", c! "s,1,Goto(\u00b2)", true, false, fallW 2 (c! "exten => s,1,Goto(\u00b2)\n")⟩]

theorem fall_elems : (pipeRun fallFiles collect 3 ⟨[openFrame (c! "e.conf") (utf8 fallText)], [], [], []⟩).val =
    .ok (some fallElems) := by decide +kernel

-- a jump to a superscript two: the conditions are met, and the elements make the check fall
example : ∃ told lines, FilesSay fallFiles (c! "e.conf") (utf8 fallText) told lines ∧ Falls demoEnv.toAEnv none (elemsOf told) := by
  have ht : Expand fallFiles opens (c! "e.conf") 0 (physLines (utf8 fallText)) fallItems :=
    .line (by decide +kernel) (.line (by decide +kernel) .nil)
  have hf : fallFiles (c! "e.conf") = some (utf8 fallText) := by decide
  have hfail : ∃ e, (checkDialplan fallFiles demoEnv none (fallItems.flatten.length + 1) (c! "e.conf") (utf8 fallText)).val =
      .error e := by
    have : (checkDialplan fallFiles demoEnv none (fallItems.flatten.length + 1) (c! "e.conf") (utf8 fallText)).val.toOption.isNone =
        true := by decide +kernel
    cases hv : (checkDialplan fallFiles demoEnv none (fallItems.flatten.length + 1) (c! "e.conf") (utf8 fallText)).val with
    | error e => exact ⟨e, rfl⟩
    | ok o => rw [hv] at this; cases this
  obtain ⟨told, t1, t2⟩ := C96_files fallFiles 3 (c! "e.conf") (utf8 fallText) hf _ fallElems (by rw [← fall_elems])
  rcases (C57_tells_partial fallFiles demoEnv demo_described none (c! "e.conf") (utf8 fallText) hf fallItems ht (by
    intro told' lines' h
    have := C96_told_unique _ _ _ _ _ _ _ h t1
    subst this
    refine ⟨?_, fun v hv => ?_⟩
    · unfold contextsOf
      rw [← headers_filter, ← t2, headers_filter]
      decide
    · have : Elem.var v ∈ (elemsOf told').filter notBlank := List.mem_filter.2 ⟨hv, rfl⟩
      rw [← t2] at this
      have := (List.mem_filter.1 this).1
      simp only [fallElems, List.mem_cons, List.not_mem_nil, or_false, reduceCtorEq, false_or, Elem.var.injEq] at this
      subst this
      decide)).1 hfail with ⟨w, hw, hb⟩ | h
  · exfalso
    obtain ⟨e, he⟩ := (fails_lineStep (fs := fallFiles) (ff := []) (frames := [])).2 hb
    simp only [fallItems, Items.flatten, List.mem_cons, List.not_mem_nil, or_false] at hw
    rcases hw with rfl | rfl
    · have : (lineStep fallFiles [] [] (fallW 1 (c! "[a]\n"))).2.toOption.isSome = true := by decide +kernel
      rw [he] at this; cases this
    · have : (lineStep fallFiles [] [] (fallW 2 (c! "exten => s,1,Goto(\u00b2)\n"))).2.toOption.isSome = true := by
        decide +kernel
      rw [he] at this; cases this
  · exact h

end ALint.Props
