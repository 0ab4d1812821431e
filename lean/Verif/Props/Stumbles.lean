import Verif.Props.Trouble
import Verif.Proofs.Stumbles
import Verif.Proofs.JumpTexts

/-!
# C54, C57: where a look-up does not end, and where a check ends with an internal error
-/

namespace ALint.Props
open ALint ALint.Spec

/-! ## C54 -/

/-- C54, exactly: a look-up of an extension within Latin-1 with a priority that is a number or
a text goes on without end (it exhausts every depth of calls) if and only if it goes in a
circle; if not, all depths that suffice for the number of contexts give the same. -/
theorem C54_exact_partial (env : DEnv) (sp : Option Str) (es : List Elem) (log : List Msg) (st : DState)
    (h : After env sp es log st) (ctx exten : Str) (prio : Arg) (hx : ∀ ch ∈ exten, ch.toNat < 256) (hp : Prio prio) :
    (Circles st.dp ctx exten prio → ∀ depth, matchPattern st.dp depth ctx exten prio = .error .recursionError) ∧
    (¬ Circles st.dp ctx exten prio → ∃ r, ∀ depth, st.dp.contexts.length + 2 ≤ depth →
      matchPattern st.dp depth ctx exten prio = .ok r) := by
  have hm := (after_inv h).2.1
  obtain ⟨b, hb⟩ := latin1_some (x := exten.filter (· ≠ '-')) fun c hc => hx c (List.mem_filter.1 hc).1
  constructor
  · intro hc depth
    obtain ⟨e, he⟩ := lookup_circles hm depth hc
    rw [he, matchPattern_error hp depth ctx exten hb e he]
  · intro hc
    cases hr : matchPattern st.dp (st.dp.contexts.length + 2) ctx exten prio with
    | error e =>
      rw [matchPattern_error hp _ ctx exten hb e hr] at hr
      exact absurd (lookup_recursion hm (Nat.le_refl _) hr) hc
    | ok r =>
      refine ⟨r, fun depth hd => ?_⟩
      rw [lookup_mono_le hd ctx exten prio (by rw [hr]; simp), hr]

/-- The dialplan of these elements. -/
def stateOf (env : DEnv) (es : List Elem) : DState := ((feed (dialplanStep env) (.init none) es).val.toOption).getD (.init none)

theorem stateOf_after (env : DEnv) (es : List Elem)
    (h : (feed (dialplanStep env) (.init none) es).val.toOption.isSome = true) :
    ∃ log, After env none es log (stateOf env es) := by
  refine ⟨(feed (dialplanStep env) (.init none) es).log, ?_⟩
  unfold After
  cases hx : (feed (dialplanStep env) (.init none) es).val with
  | error e => rw [hx] at h; cases h
  | ok s =>
    have : stateOf env es = s := by simp [stateOf, hx, Except.toOption]
    rw [this, ← hx]

-- with two contexts that include each other, the search for 9 goes in a circle; the one for `s` does not
example : Circles (stateOf demoEnv circular).dp (c! "a") (c! "9") (.one (.int 1)) ∧
    ¬ Circles (stateOf demoEnv circular).dp (c! "b") (c! "s") (.one (.int 1)) := by
  obtain ⟨log, h⟩ := stateOf_after demoEnv circular (by decide)
  constructor
  · refine lookup_recursion (after_inv h).2.1 (depth := 4) (by decide) ?_
    have : (match matchPattern (stateOf demoEnv circular).dp 4 (c! "a") (c! "9") (.one (.int 1)) with
      | .error .recursionError => true | _ => false) = true := by decide
    split at this
    · assumption
    · cases this
  · intro hc
    have h1 := (C54_exact_partial _ _ _ _ _ h (c! "b") (c! "s") (.one (.int 1)) (by decide) (.inl ⟨1, rfl⟩)).1 hc 3
    have : (matchPattern (stateOf demoEnv circular).dp 3 (c! "b") (c! "s") (.one (.int 1))).toOption.isSome = true := by decide
    rw [h1] at this; cases this

/-! ## Destinations -/

theorem emit_dest {d : Dest} {k : MK} {last : Str} {a b c : Str}
    (ht : k.template = [.lit a, .field (c! "context") false, .lit b, .field (c! "exten") false, .lit c, .field last false])
    (hl : last ≠ c! "context") (hl' : last ≠ c! "exten") :
    (∃ e, (Res.emit (mkMsg k d.at_ (destArgs d last))).val = .error e) ↔ Unprintable d := by
  have h1 : (c! "exten" == c! "context") = false := by decide
  have h2 : (last == c! "context") = false := by simpa using hl
  have h3 : (last == c! "exten") = false := by simpa using hl'
  unfold Unprintable
  simp only [Res.emit, Msg.render, mkMsg, ht, renderAll, renderPiece, destArgs, List.lookup, BEq.rfl, h1, h2, h3,
    Bool.false_eq_true, if_false]
  cases hc : d.context.toStr with
  | error e => simp [Except.map]
  | ok s =>
    cases hx : d.exten.toStr with
    | error e => simp [Except.map]
    | ok t =>
      cases hp : d.prio with
      | many vs => simp [Except.map]
      | one v =>
        cases hv : v.toStr with
        | error e => simp [Except.map, hv]
        | ok u =>
          simp [Except.map, hv]

/-- Whether a report can be made depends on the parts of the destination. -/
theorem walk_says {dp : Dialplan} {depth : Nat} {d : Dest} (h : (walkDest dp depth d).log ≠ []) :
    (∃ e, (walkDest dp depth d).val = .error e) ↔ Unprintable d := by
  revert h
  unfold walkDest
  have quiet : ∀ {r : Res Unit}, r.log = [] → r.log ≠ [] → ((∃ e, r.val = .error e) ↔ Unprintable d) :=
    fun h1 h2 => absurd h1 h2
  split
  · split
    · split
      · exact quiet rfl
      · exact fun _ => emit_dest rfl (by decide) (by decide)
    · exact quiet rfl
  · split
    · exact fun _ => emit_dest rfl (by decide) (by decide)
    · split
      · split
        · split
          · exact quiet rfl
          · exact fun _ => emit_dest rfl (by decide) (by decide)
        · exact quiet rfl
      · split
        · generalize matchPattern dp depth _ _ d.prio = r
          cases r with
          | error e => exact quiet rfl
          | ok r =>
            cases r with
            | some s => exact quiet rfl
            | none =>
              have := emit_dest (d := d) (k := .W_DP_GOTO_CONTEXT_NOEXTEN) (last := c! "prio") rfl (by decide) (by decide)
              exact fun _ => this
        · exact quiet rfl

/-- An error without a report is one of the search. -/
theorem walk_quiet {dp : Dialplan} {depth : Nat} {d : Dest} (hx : isText d.exten = true) {e : Exc}
    (h : (walkDest dp depth d).log = []) (he : (walkDest dp depth d).val = .error e) :
    ∃ name x c, d.context = .str name ∧ d.exten = .str x ∧ dp.get name = some c ∧
      matchPattern dp depth name x d.prio = .error e := by
  unfold walkDest at h he
  by_cases hvar : d.context.isVar = true
  · rw [if_pos hvar] at h he
    split at h
    · split at h
      · rename_i hp hl
        simp only [hp, hl, if_true] at he
        cases he
      · cases h
    · rename_i hp
      rw [hp] at he
      cases he
  · rw [if_neg hvar] at h he
    cases hctx : d.context with
    | str name =>
      rw [hctx] at h he
      dsimp only at h he
      cases hg : dp.get name with
      | none => rw [hg] at h; cases h
      | some c =>
        rw [hg] at h he
        dsimp only at h he
        by_cases hxv : d.exten.isVar = true
        · rw [if_pos hxv] at h he
          split at h
          · split at h
            · rename_i hp hl
              simp only [hp, hl, if_true] at he
              cases he
            · cases h
          · rename_i hp
            rw [hp] at he
            cases he
        · rw [if_neg hxv] at h he
          cases hex : d.exten with
          | str x =>
            rw [hex] at h he
            dsimp only at h he
            rw [(get_mem hg).2] at h he
            cases hm : matchPattern dp depth name x d.prio with
            | error e' =>
              rw [hm] at he
              refine ⟨name, x, c, rfl, rfl, hg, ?_⟩
              simp only [Res.lift, Res.bind, Except.error.injEq] at he
              rw [hm, he]
            | ok r =>
              rw [hm] at h he
              cases r with
              | some s => cases he
              | none => cases h
          | lst l => rw [hex] at hxv; exact absurd rfl hxv
          | atom => rw [hex] at hxv; exact absurd rfl hxv
          | int => rw [hex] at hx; cases hx
          | none => rw [hex] at hx; cases hx
    | lst => rw [hctx] at hvar; exact absurd rfl hvar
    | atom => rw [hctx] at hvar; exact absurd rfl hvar
    | int => rw [hctx] at h; cases h
    | none => rw [hctx] at h; cases h

theorem searchFails_exists {dp : Dialplan} {ctx exten : Str} {prio : Arg} (h : SearchFails dp ctx exten prio) :
    ∃ c, dp.get ctx = some c := by
  have key : ∀ c, dp.get c.name = some c → Reaches dp ctx c.name → ∃ c, dp.get ctx = some c := by
    intro c hc hr
    rcases reaches_cases hr with rfl | ⟨_, ⟨d, _, hd, _⟩, _⟩
    · exact ⟨c, hc⟩
    · exact ⟨d, hd⟩
  rcases h with h | ⟨c, s, h1, h2, _⟩ | ⟨c, s, h1, h2, _⟩
  · obtain ⟨b, ⟨c, _, _, _, hc, _⟩, _⟩ := circles_next h
    exact ⟨c, hc⟩
  · exact key c h1 h2
  · exact key c h1 h2

/-- C57: looking at a recorded destination ends with an internal error exactly where the
specification says; the depth of calls is enough for the number of contexts. -/
theorem C57_destination (env : DEnv) (sp : Option Str) (es : List Elem) (log : List Msg) (st : DState)
    (h : After env sp es log st) (depth : Nat) (hd : st.dp.contexts.length + 2 ≤ depth) (d : Dest) (hin : d ∈ st.dp.dests) :
    (∃ e, (walkDest st.dp depth d).val = .error e) ↔ Stumbles st.dp d := by
  have hm := (after_inv h).2.1
  have htext := (dests_text (congrArg Res.val h) d hin).2
  constructor
  · rintro ⟨e, he⟩
    by_cases hl : (walkDest st.dp depth d).log = []
    · obtain ⟨name, x, c, h1, h2, _, h3⟩ := walk_quiet htext hl he
      exact .search name x h1 h2 ((lookup_fails hm hd).1 ⟨e, h3⟩)
    · refine .report (fun hj => hl ((walk_exact env sp es log st h depth d fun _ _ => hl).2 hj)) ((walk_says hl).1 ⟨e, he⟩)
  · rintro (⟨name, x, h1, h2, h3⟩ | ⟨h1, h2⟩)
    · obtain ⟨c, hc⟩ := searchFails_exists h3
      obtain ⟨e, he⟩ := (lookup_fails hm hd).2 h3
      refine ⟨e, ?_⟩
      unfold walkDest
      simp only [h1, V.isVar, hc, h2, (get_mem hc).2, he]
      rfl
    · cases hv : (walkDest st.dp depth d).val with
      | error e => exact ⟨e, rfl⟩
      | ok u =>
        exfalso
        have hl : (walkDest st.dp depth d).log ≠ [] := fun hl =>
          h1 ((walk_exact env sp es log st h depth d fun e he => by rw [hv] at he; cases he).1 hl)
        obtain ⟨e, he⟩ := (walk_says hl).2 h2
        rw [hv] at he; cases he

/-- With `Gosub`. -/
def gosubEnv : DEnv := { demoEnv with
  apps := fun s => if s = c! "gosub" then some ⟨c! "Gosub", c! "app_stack", .gosub⟩ else demoEnv.apps s }

/-- Jumps to an extension that is not within Latin-1, and with a list for a priority. -/
def stumbling : List Elem := [demoHead 1 (c! "a"), demoExten 2 (c! "s,1,Goto(\u20ac,1)"),
  demoExten 3 (c! "s,2,Gosub(s,${A}b(x))"), demoExten 4 (c! "s,3,Goto(1)")]

example : ∃ d1 d2 d3, (stateOf gosubEnv stumbling).dp.dests = [d1, d2, d3] ∧ Stumbles (stateOf gosubEnv stumbling).dp d1 ∧
    Stumbles (stateOf gosubEnv stumbling).dp d2 ∧ ¬ Stumbles (stateOf gosubEnv stumbling).dp d3 := by
  obtain ⟨log, h⟩ := stateOf_after gosubEnv stumbling (by decide +kernel)
  have key := fun d hd => C57_destination _ _ _ _ _ h 3 (by decide +kernel) d hd
  match hd : (stateOf gosubEnv stumbling).dp.dests with
  | [d1, d2, d3] =>
    have hb : (stateOf gosubEnv stumbling).dp.dests.map (fun d => (walkDest (stateOf gosubEnv stumbling).dp 3 d).val.toOption.isSome) =
      [false, false, true] := by decide +kernel
    rw [hd] at hb
    simp only [List.map_cons, List.map_nil, List.cons.injEq, and_true] at hb
    refine ⟨d1, d2, d3, rfl, (key d1 (by rw [hd]; simp)).1 ?_, (key d2 (by rw [hd]; simp)).1 ?_, fun hs => ?_⟩
    · cases hv : (walkDest (stateOf gosubEnv stumbling).dp 3 d1).val with
      | error e => exact ⟨e, rfl⟩
      | ok u => rw [hv] at hb; cases hb.1
    · cases hv : (walkDest (stateOf gosubEnv stumbling).dp 3 d2).val with
      | error e => exact ⟨e, rfl⟩
      | ok u => rw [hv] at hb; cases hb.2.1
    · obtain ⟨e, he⟩ := (key d3 (by rw [hd]; simp)).2 hs
      rw [he] at hb; cases hb.2.2
  | [] | [_] | [_, _] | _ :: _ :: _ :: _ :: _ =>
    have hb : (stateOf gosubEnv stumbling).dp.dests.length = 3 := by decide +kernel
    rw [hd] at hb
    simp at hb

theorem walkDests_error {dp : Dialplan} {depth : Nat} {ds : List Dest} :
    (∃ e, (walkDests dp depth ds).val = .error e) ↔ ∃ d ∈ ds, ∃ e, (walkDest dp depth d).val = .error e := by
  induction ds with
  | nil => simp [walkDests]
  | cons d ds ih =>
    rw [walkDests]
    have := fails_bind (x := walkDest dp depth d) (f := fun _ => walkDests dp depth ds)
    unfold Fails at this
    rw [this, ih]
    constructor
    · rintro (h | ⟨_, _, d', hd', h⟩)
      · exact ⟨d, by simp, h⟩
      · exact ⟨d', by simp [hd'], h⟩
    · rintro ⟨d', hd', h⟩
      cases hv : (walkDest dp depth d).val with
      | error e => exact .inl ⟨e, rfl⟩
      | ok u =>
        right
        rcases List.mem_cons.1 hd' with rfl | hd'
        · obtain ⟨e, he⟩ := h; rw [hv] at he; cases he
        · exact ⟨u, rfl, d', hd', h⟩

/-- C57, exactly: a check of a dialplan whose includes of files are finite ends with an internal
error if and only if there is a line that cannot be read, or an element that is trouble for the
dialplan made of the elements before it, or a jump that stumbles in the dialplan read.  The depth
of calls Python allows is enough for the number of contexts. -/
theorem C57_exact_partial (fs : FS) (env : DEnv) (sp : Option Str) (path : Str) (content : Bytes) (t : Items)
    (ht : Expand fs opens path 0 (physLines content) t)
    (hdeep : ∀ es log st, (pipeRun fs collect (t.flatten.length + 1) ⟨[openFrame path content], [], [], []⟩).val =
        .ok (some es) → After env sp es log st → st.dp.contexts.length + 2 ≤ env.depth) :
    (∃ e, (checkDialplan fs env sp (t.flatten.length + 1) path content).val = .error e) ↔
    (∃ w ∈ t.flatten, BadLine w) ∨
    ∃ es, (pipeRun fs collect (t.flatten.length + 1) ⟨[openFrame path content], [], [], []⟩).val = .ok (some es) ∧
      ((∃ pre el post log st, es = pre ++ el :: post ∧ After env sp pre log st ∧ Trouble env st el) ∨
       ∃ log st, After env sp es log st ∧ ∃ d ∈ st.dp.dests, Stumbles st.dp d) := by
  have hreading := C57_reading fs env sp path content t ht
  have hcheck : (∃ e, (checkDialplan fs env sp (t.flatten.length + 1) path content).val = .error e) ↔
      (∃ e, (pipeRun fs (dialplanStep env) (t.flatten.length + 1) ⟨[openFrame path content], [], [], .init sp⟩).val = .error e) ∨
      ∃ st, (pipeRun fs (dialplanStep env) (t.flatten.length + 1) ⟨[openFrame path content], [], [], .init sp⟩).val =
        .ok (some st) ∧ ∃ d ∈ st.dp.dests, ∃ e, (walkDest st.dp env.depth d).val = .error e := by
    unfold checkDialplan
    refine Iff.trans fails_bind ?_
    refine or_congr .rfl ?_
    constructor
    · rintro ⟨r, h1, e, h2⟩
      cases r with
      | none => cases h2
      | some st =>
        refine ⟨st, h1, walkDests_error.1 ?_⟩
        dsimp only at h2
        rw [Res.bind_of_ok (onComplete_ok st.dp)] at h2
        dsimp only at h2
        cases hw : (walkDests st.dp env.depth st.dp.dests).val with
        | error e' => exact ⟨e', rfl⟩
        | ok u => rw [Res.bind_of_ok hw] at h2; cases h2
    · rintro ⟨st, h1, h2⟩
      obtain ⟨e, he⟩ := walkDests_error.2 h2
      refine ⟨some st, h1, e, ?_⟩
      dsimp only
      rw [Res.bind_of_ok (onComplete_ok st.dp)]
      dsimp only
      rw [Res.bind_val, he]
  rw [hcheck, hreading]
  constructor
  · rintro ((h | ⟨es, h1, h2⟩) | ⟨st, h1, h2⟩)
    · exact .inl h
    · exact .inr ⟨es, h1, .inl h2⟩
    · right
      obtain ⟨es, k1, k2, _⟩ := pipeRun_collect fs (dialplanStep env) _ _ st h1
      have hes := k2 []
      simp only [List.nil_append] at hes
      have hafter : After env sp es (feed (dialplanStep env) (.init sp) es).log st := by
        unfold After
        rw [← k1]
      obtain ⟨d, hd, he⟩ := h2
      exact ⟨es, hes, .inr ⟨_, st, hafter, d, hd,
        (C57_destination env sp es _ st hafter env.depth (hdeep es _ st hes hafter) d hd).1 he⟩⟩
  · rintro (h | ⟨es, h1, h2 | ⟨log, st, h2, d, hd, h3⟩⟩)
    · exact .inl (.inl h)
    · exact .inl (.inr ⟨es, h1, h2⟩)
    · right
      obtain ⟨es', k1, k2⟩ := pipeRun_feed fs (dialplanStep env) (t.flatten.length + 1)
        ⟨[openFrame path content], [], [], DState.init sp⟩ [] es h1
      simp only [List.nil_append] at k1
      subst k1
      refine ⟨st, ?_, d, hd, (C57_destination env sp es log st h2 env.depth (hdeep es log st h1 h2) d hd).2 h3⟩
      rw [k2, congrArg Res.val h2]
      rfl

-- the file `goodText` (of `C57_report_partial`) meets the conditions
example : (∃ t, Expand noFiles opens (c! "e.conf") 0 (physLines (asciiBytes goodText)) t) ∧
    ∀ es log st, (pipeRun noFiles collect 3 ⟨[openFrame (c! "e.conf") (asciiBytes goodText)], [], [], []⟩).val =
      .ok (some es) → After demoEnv none es log st → st.dp.contexts.length + 2 ≤ demoEnv.depth := by
  refine ⟨⟨_, good_expand⟩, fun es log st h1 h2 => ?_⟩
  rw [good_elems] at h1
  simp only [Except.ok.injEq, Option.some.injEq] at h1
  subst h1
  have := good_feed.1
  rw [congrArg Res.val h2] at this
  simp only [Except.toOption, Option.map_some, Option.some.injEq] at this
  have := congrArg List.length this
  simp only [List.length_map, List.length_singleton] at this
  rw [this]
  decide

end ALint.Props
