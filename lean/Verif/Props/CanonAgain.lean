import Verif.Proofs.CanonAgain
import Verif.Props.CanonProgram

/-!
# Making the patterns of a dialplan canonical, and reading it again (C97)
-/

namespace ALint.Props
open ALint ALint.Spec

/-! ## The same dialplan -/

theorem matched_map {α : Type} {R : α → α → Prop} {l : List α} {f : α → α} (h : ∀ a ∈ l, R a (f a)) : Matched R l (l.map f) := by
  refine ⟨by simp, ?_⟩
  intro k a a' h1 h2
  rw [List.getElem?_map, h1] at h2
  cases h2
  exact h a (List.mem_of_getElem? h1)

theorem samePlan_of {hs log : List Msg} {st st' : DState} (h : Sim (rewritten hs) st st') (hg : GoodDp (FixesTo log) st.dp) :
    SamePlan log st.dp st'.dp ∧ namesUsed st'.uses = namesUsed st.uses := by
  constructor
  · rw [h.dp]
    refine ⟨rfl, rfl, matched_map fun c hc => ⟨rfl, rfl, rfl, matched_map fun s hs => ?_⟩,
      matched_map fun d _ => ⟨rfl, rfl, rfl, rewritten_place _ _⟩, rfl⟩
    have := hg c hc s hs
    exact ⟨rfl, rfl, rfl, rfl, rewritten_place _ _, this.spelling, ⟨this.parsed, this.parses⟩, this.stands⟩
  · have hn : ∀ (us : List Ev) (w : Where), namesUsed (us.map (Ev.moved w)) = namesUsed us := by
      intro us w
      induction us with
      | nil => rfl
      | cons e us ih => cases e <;> simp [namesUsed, Ev.moved, ih]
    have := congrArg namesUsed (h.uses ⟨[], 0, []⟩)
    rwa [hn, hn] at this

/-! ## The lines of a file -/

/-- How a line changes. -/
def Changed (l l' : Bytes) : Prop :=
  l' = l ∨ ∃ a x y b, l = a ++ x ++ 0x2c :: b ∧ l' = a ++ y ++ 0x2c :: b ∧ 0x0a ∉ y

theorem linesOf_changed {c : Bytes} {ls ls' : List Bytes} (h : LinesOf c ls) (ha : Matched Changed ls ls') :
    LinesOf ls'.flatten ls' := by
  obtain ⟨hlen, hall⟩ := ha
  have hback : ∀ (k : Nat) l', ls'[k]? = some l' → ∃ l, ls[k]? = some l ∧ Changed l l' := by
    intro k l' hk
    have hlt : k < ls.length := by rw [← hlen]; exact (List.getElem?_eq_some_iff.1 hk).1
    exact ⟨_, List.getElem?_eq_getElem hlt, hall k _ _ (List.getElem?_eq_getElem hlt) hk⟩
  refine ⟨rfl, ?_, ?_, ?_⟩
  · intro l' hl' he
    obtain ⟨k, hk⟩ := List.getElem?_of_mem hl'
    obtain ⟨l, h1, h2⟩ := hback k l' hk
    rcases h2 with rfl | ⟨a, x, y, b, rfl, rfl, -⟩
    · exact h.nonempty _ (List.mem_of_getElem? h1) he
    · simp at he
  · intro l' hl' p q hpq
    obtain ⟨k, hk⟩ := List.getElem?_of_mem hl'
    obtain ⟨l, h1, h2⟩ := hback k l' hk
    have hl := h.lf_last l (List.mem_of_getElem? h1)
    rcases h2 with rfl | ⟨a, x, y, b, rfl, rfl, hy⟩
    · exact hl p q hpq
    · rw [List.append_assoc] at hpq
      -- the line feed is not in `a`
      rcases List.append_eq_append_iff.1 hpq with ⟨r, hr1, hr2⟩ | ⟨r, hr1, hr2⟩
      · rcases List.append_eq_append_iff.1 hr2 with ⟨r', hs1, hs2⟩ | ⟨r', hs1, hs2⟩
        · cases r' with
          | nil => simp at hs2
          | cons z r' =>
            rw [List.cons_append] at hs2
            injection hs2 with e1 e2
            exact hl (a ++ x ++ 0x2c :: r') q (by rw [e2]; simp)
        · cases r' with
          | nil => simp at hs2
          | cons z r' =>
            rw [List.cons_append] at hs2
            injection hs2 with e1 e2
            exact absurd (by rw [hs1, e1]; simp) hy
      · cases r with
        | nil =>
          rw [List.nil_append] at hr2
          cases y with
          | nil => simp at hr2
          | cons z y =>
            rw [List.cons_append] at hr2
            injection hr2 with e1 e2
            exact absurd (by rw [e1]; simp) hy
        | cons z r =>
          rw [List.cons_append] at hr2
          injection hr2 with e1 e2
          have := hl p (r ++ x ++ 0x2c :: b) (by rw [hr1, e1]; simp)
          simp at this
  · intro l' hl'
    obtain ⟨k, hk⟩ := List.getElem?_of_mem hl'
    rw [List.getElem?_dropLast] at hk
    split at hk
    · rename_i hlt
      obtain ⟨l, h1, h2⟩ := hback k l' hk
      have hl := h.terminated l (List.mem_of_getElem? (i := k) (by
        rw [List.getElem?_dropLast, if_pos (by omega)]; exact h1))
      rcases h2 with rfl | ⟨a, x, y, b, rfl, rfl, hy⟩
      · exact hl
      · rw [List.getLast?_append] at hl ⊢
        simpa using hl
    · cases hk

theorem numbered_getElem? (f : Str) : ∀ (n : Nat) (ls : List Bytes) (k : Nat),
    (numbered f n ls)[k]? = ls[k]?.map fun l => ⟨f, ((n + k : Nat) : Int) + 1, l⟩
  | _, [], _ => by simp [numbered]
  | n, l :: ls, 0 => by simp [numbered]
  | n, l :: ls, k + 1 => by
    rw [numbered, List.getElem?_cons_succ, List.getElem?_cons_succ, numbered_getElem? f (n + 1) ls k,
      show n + 1 + k = n + (k + 1) by omega]

theorem replaced_lines {fs : FS} {log : List Msg} (h : Lined fs (hintsOf log)) {f : Str} {c : Bytes} (hf : fs f = some c) :
    replaced (canonIssues log f) (physLines c) = linesAfter (rewritten (hintsOf log)) f 0 (physLines c) := by
  refine List.ext_getElem? fun k => ?_
  unfold replaced linesAfter
  rw [List.getElem?_mapIdx, List.getElem?_map, numbered_getElem?, Option.map_map]
  cases hl : (physLines c)[k]? with
  | none => rfl
  | some line =>
    simp only [Option.map_some, Option.some.injEq, Function.comp_apply, Nat.zero_add]
    -- an issue on this line is from a hint about it
    have hfrom : ∀ i ∈ canonIssues log f, i.lineno = (k : Int) → ∃ m ∈ hintsOf log, m.at_ = ⟨f, (k : Int) + 1, line⟩ ∧
        canonIssue m = some i := by
      intro i hi hk
      rw [canonIssues_hints] at hi
      obtain ⟨m, hm, hi⟩ := List.mem_filterMap.1 hi
      have hmf : m.at_.filename = f := by simpa using (List.mem_filter.1 hm).2
      obtain ⟨p, vals, c', k', l', hh⟩ := h.each m (List.mem_filter.1 hm).1
      refine ⟨m, (List.mem_filter.1 hm).1, ?_, hi⟩
      have hc := hh.file
      rw [hmf, hf] at hc
      cases hc
      rw [hh.msg, canonIssue_hintMsg] at hi
      cases hi
      dsimp only at hk
      have hn := hh.number
      obtain rfl : k' = k := by omega
      have hl' := hh.line
      rw [hl] at hl'
      cases hl'
      rw [← hmf, ← hn]
    cases hm : (hintsOf log).find? (·.at_ = (⟨f, (k : Int) + 1, line⟩ : Where)) with
    | none =>
      have : (canonIssues log f).find? (fun i => i.lineno == (k : Int)) = none := by
        rw [List.find?_eq_none]
        intro i hi hk
        rw [beq_iff_eq] at hk
        obtain ⟨m, h1, h2, -⟩ := hfrom i hi hk
        exact List.find?_eq_none.1 hm m h1 (by simpa using h2)
      rw [this]
      unfold rewritten
      rw [hm]
    | some m =>
      have hmem := List.mem_of_find?_eq_some hm
      have hmat := List.find?_some hm
      rw [decide_eq_true_eq] at hmat
      obtain ⟨p, vals, c', k', l', hh⟩ := h.each m hmem
      have hiss : canonIssue m = some ⟨(k : Int), canonOut (utf8 p) (utf8 (Pattern.canonical vals))⟩ := by
        rw [hh.msg, canonIssue_hintMsg, hmat]; simp
      cases hi : (canonIssues log f).find? (fun i => i.lineno == (k : Int)) with
      | none =>
        refine absurd ?_ (List.find?_eq_none.1 hi ⟨(k : Int), canonOut (utf8 p) (utf8 (Pattern.canonical vals))⟩ ?_)
        · simp
        · rw [canonIssues_hints]
          exact List.mem_filterMap.2 ⟨m, List.mem_filter.2 ⟨hmem, by simp [hmat]⟩, hiss⟩
      | some i =>
        have hk := List.find?_some hi
        rw [beq_iff_eq] at hk
        obtain ⟨m', h1, h2, h3⟩ := hfrom i (List.mem_of_find?_eq_some hi) hk
        have : m' = m := by
          have e1 := only_hint h.order hmem hmat
          have e2 := only_hint h.order h1 h2
          rw [e1] at e2
          simpa using e2.symm
        subst this
        unfold rewritten
        rw [hm]
        dsimp only
        rw [h3]

/-! ## The disk -/

section
variable {P : Type} [DecidableEq P]

omit [DecidableEq P] in
theorem followed_missing {ps : Paths P} {d d' : Disk P}
    (h : ∀ p, (∀ c u g m, d p ≠ some (.file c u g m)) → d' p = d p) : ∀ (k : Nat) (p : P),
    nodeContent (d.followed ps k p) = none → nodeContent (d'.followed ps k p) = none
  | 0, _, _ => rfl
  | k + 1, p, hp => by
    rw [Disk.followed] at hp ⊢
    cases hd : d p with
    | none =>
      rw [h p (by rw [hd]; simp), hd]; rfl
    | some x =>
      cases x with
      | file c u g m => rw [hd] at hp; cases hp
      | link t =>
        rw [h p (by rw [hd]; simp), hd]
        rw [hd] at hp
        exact followed_missing h k _ hp

/-- C97: when moreover no other file read is reached through the entry of a file with hints, and every canonical
spelling can stand in the place of its pattern, then reading the rewritten files gives the same
dialplan but for the spelling of patterns: the same contexts with the same steps on the same lines,
each with its pattern as before or as a hint expected it, standing for the same extensions; the same
jumps, labels and uses.  No hint is left, and running the program once more changes nothing. -/
theorem C97_again_partial (ps : Paths P) (tmps : Str → P) (u g : Nat) (env : DEnv) (n : Nat) (path : Str)
    (o : Oracle) (k : Nat) (d : Disk P) (st : DState) (names : List Str) (log : List Msg)
    (hr : (readDialplan (filesOn ps d) env n path).val = .ok (.ok st))
    (hlog : (readDialplan (filesOn ps d) env n path).log = log)
    (hn : FilesRead (filesOn ps d) path names) (hd : names.Nodup) (hfit : Fit log)
    (hsits : ∀ f, HasHint log f → ∃ q, SitsAt ps d f q)
    (hapart : ∀ f f' q, HasHint log f → f' ∈ names → SitsAt ps d f q → LeadsTo ps d (ps.name f') q → f = f')
    (ht : ∀ f, HasHint log f → d (tmps f) = none) (ho : ∀ j, o.fail j = none) :
    let d' := (canonProgram ps tmps u g env n true path o k d).disk
    (∃ st', (readDialplan (filesOn ps d') env n path).val = .ok (.ok st') ∧ SamePlan log st.dp st'.dp ∧
      namesUsed st'.uses = namesUsed st.uses) ∧
    (∀ f, ¬ HasHint (readDialplan (filesOn ps d') env n path).log f) ∧
    ∀ tmps' u' g' yes o' k', let r := canonProgram ps tmps' u' g' env n yes path o' k' d'
      r.val = .ok () ∧ r.disk = d' ∧ r.trace = [] := by
  have hlined := lined_of hr hn hd
  rw [hlog] at hlined
  obtain ⟨content, t, told, es, hall⟩ := readDialplan_all hr
  obtain ⟨names', -, hu⟩ := C97_files (filesOn ps d) env n path st hr
  have hnames : names = path :: t.files := by
    rw [hu names hn, hu _ ⟨content, t, hall.root, rfl, hall.anyInc⟩]
  subst hnames
  have hin : ∀ f, HasHint log f → f ∈ path :: t.files := by
    rintro f ⟨l, pat, expected, hh⟩
    obtain ⟨m, hm, rfl, -, -⟩ := hintAt_mem.1 hh
    rw [← hlog] at hm
    have := hall.places.subset (List.mem_map.2 ⟨m, hm, rfl⟩)
    exact (expand_line hall.tree hall.root hd this).1
  obtain ⟨-, a2, a3⟩ := canonProgram_disk ps tmps u g env n path o k d st log hr hlog hlined
    hsits (fun f f' q hf hf' h1 h2 => hapart f f' q hf (hin f' hf') h1 h2.leads) ht ho
  dsimp only
  generalize (canonProgram ps tmps u g env n true path o k d).disk = d' at a2 a3 ⊢
  have hlinks : ∀ p, (∀ c u g m, d p ≠ some (.file c u g m)) → d' p = d p := by
    intro p hp
    refine a3 p fun f _ hs => ?_
    obtain ⟨_, _, _, _, h⟩ := hs.node
    exact hp _ _ _ _ h
  have hmiss : ∀ p, filesOn ps d p = none → filesOn ps d' p = none := fun p hp =>
    followed_missing hlinks 40 (ps.name p) hp
  have hpos : ∀ m ∈ hintsOf log, 0 < m.at_.lineno := by
    intro m hm
    rw [← hlog] at hm
    exact expand_lineno hall.tree _ (hall.places.subset (List.mem_map.2 ⟨m, hm, rfl⟩))
  have hnew : ∀ p ∈ path :: t.files, ∀ c, filesOn ps d p = some c → ∃ c', filesOn ps d' p = some c' ∧
      physLines c' = linesAfter (rewritten (hintsOf log)) p 0 (physLines c) := by
    intro p hp c hc
    by_cases hh : HasHint log p
    · obtain ⟨q, hq⟩ := hsits p hh
      obtain ⟨c0, u', g', m', hnode⟩ := hq.node
      have : c0 = c := by rw [filesOn_sits hq hnode] at hc; cases hc; rfl
      subst this
      have h1 := a2 p q hh hq _ _ _ _ hnode
      rw [replaced_lines hlined hc] at h1
      refine ⟨_, filesOn_sits (hq.still hlinks h1) h1, ?_⟩
      refine C01_unique _ _ _ ⟨physLines_flatten _, fun l h => (physLines_line _ l h).1,
        fun l h => (physLines_line _ l h).2, physLines_lf _⟩ (linesOf_changed (c := c0) (ls := physLines c0)
          ⟨physLines_flatten _, fun l h => (physLines_line _ l h).1, fun l h => (physLines_line _ l h).2, physLines_lf _⟩ ?_)
      refine ⟨?_, ?_⟩
      · have := congrArg List.length (replaced_lines hlined hc)
        rw [← this]
        simp [replaced]
      · intro j l l' hl hl'
        unfold linesAfter at hl'
        rw [List.getElem?_map, numbered_getElem?, hl] at hl'
        simp only [Option.map_some, Option.some.injEq] at hl'
        subst hl'
        cases hm : (hintsOf log).find? (·.at_ = (⟨p, ((0 + j : Nat) : Int) + 1, l⟩ : Where)) with
        | none =>
          left
          unfold rewritten
          rw [hm]
        | some m =>
          obtain ⟨v, pat, rest, vals, vals', a, b, hv, hT⟩ := hall.turned hlog hfit hm
          right
          have hb := hT.before
          have ha := hT.after
          rw [hv] at hb ha
          exact ⟨a, utf8 pat, utf8 (Pattern.canonical vals), b, hb, by rw [ha], hT.noLf⟩
    · have h1 : filesOn ps d' p = filesOn ps d p := congrArg nodeContent <| followed_same 40 (ps.name p) fun q hq =>
        a3 q fun f hf hs => hh (hapart f p q hf hp hs hq ▸ hf)
      refine ⟨c, h1.trans hc, ?_⟩
      refine List.ext_getElem? fun j => ?_
      unfold linesAfter
      rw [List.getElem?_map, numbered_getElem?, Option.map_map]
      cases hl : (physLines c)[j]? with
      | none => rfl
      | some l =>
        simp only [Option.map_some, Option.some.injEq, Function.comp_apply]
        unfold rewritten
        rw [List.find?_eq_none.2]
        intro m hm he
        rw [decide_eq_true_eq] at he
        obtain ⟨pat, vals, c', k', l', hH⟩ := hlined.each m hm
        have := hpos m hm
        exact hh ⟨m.at_.lineno.toNat, pat, Pattern.canonical vals, hintAt_mem.2 ⟨m, hm, by rw [he], by omega,
          by rw [hH.msg]; rfl⟩⟩
  obtain ⟨st', s1, s2, s3, s4⟩ := hall.again hlog hr hfit hd (filesOn ps d') hmiss hnew
  obtain ⟨p1, p2⟩ := samePlan_of s2 s3
  have hno : ∀ f, ¬ HasHint (readDialplan (filesOn ps d') env n path).log f := by
    rintro f ⟨l, pat, expected, hh⟩
    obtain ⟨m, hm, -⟩ := hintAt_mem.1 hh
    rw [s4] at hm
    cases hm
  refine ⟨⟨st', s1, p1, p2⟩, hno, ?_⟩
  intro tmps' u' g' yes o' k'
  obtain ⟨c1, c2, c3⟩ := C97_untouched ps tmps' u' g' env n yes path o' k' d' (.inr (.inl hno))
  exact ⟨c3.2 ⟨st', s1⟩, c2, c1⟩

end

/-! ## Cases -/

theorem fits_digits : (Expressible (c! "_[0-9]") ∧ Bracketless (c! "_[0-9]")) ∧
    (Expressible (c! "_[1-9]X") ∧ Bracketless (c! "_[1-9]X")) := by
  have hr : Reads (utf8 (c! "[0-9]")) [.one (inSet [0x30, 0x2d, 0x39])] :=
    .set (inner := [0x30, 0x2d, 0x39]) (by decide) (by decide) .nil
  have hr' : Reads (utf8 (c! "[1-9]X")) [.one (inSet [0x31, 0x2d, 0x39]), .one (between 0x30 0x39)] :=
    .set (inner := [0x31, 0x2d, 0x39]) (by decide) (by decide) (.x (b := 0x58) (by decide) .nil)
  refine ⟨⟨⟨_, hr, ?_, ?_⟩, ⟨_, hr, ?_⟩⟩, ⟨_, hr', ?_, ?_⟩, ⟨_, hr', ?_⟩⟩
  · intro t ht
    simp at ht
    subst ht
    refine ⟨?_, by decide, by decide⟩
    intro c hc
    simp [inSet, between] at hc
    omega
  · intro h
    have : card (inSet [0x30, 0x2d, 0x39]) = 1 := h _ (List.mem_cons_self ..)
    exact absurd this (by decide)
  · intro t ht
    simp at ht
    subst ht
    exact ⟨by decide, by decide⟩
  · intro t ht
    simp at ht
    rcases ht with rfl | rfl
    · refine ⟨?_, by decide, by decide⟩
      intro c hc
      simp [inSet, between] at hc
      omega
    · refine ⟨?_, by decide, by decide⟩
      intro c hc
      simp [between] at hc
      omega
  · intro h
    have : card (inSet [0x31, 0x2d, 0x39]) = 1 := h _ (List.mem_cons_self ..)
    exact absurd this (by decide)
  · intro t ht
    simp at ht
    rcases ht with rfl | rfl
    · exact ⟨by decide, by decide⟩
    · exact ⟨by decide, by decide⟩

def twoFilesHint (f : Str) (l : Nat) (line pat expected : Str) : Msg :=
  ⟨.H_PAT_NON_CANONICAL, ⟨f, l, utf8 line⟩, [(c! "pat", .one (.str pat)), (c! "expected", .one (.str expected))], none⟩

/-- The log of the two files is fit. -/
theorem twoFiles_fit : Fit (readDialplan (filesOn demoPaths twoFiles) demoEnv 99 (c! "f")).log := by
  have h : hintsOf (readDialplan (filesOn demoPaths twoFiles) demoEnv 99 (c! "f")).log =
      [twoFilesHint (c! "f") 2 (c! "exten => _[0-9],1,NoOp()\n") (c! "_[0-9]") (c! "_X"),
       twoFilesHint (c! "g") 1 (c! "exten => _[1-9]X,1,NoOp()\n") (c! "_[1-9]X") (c! "_ZX")] := by
    decide +kernel
  constructor
  · intro m hm hk
    have hm' : m ∈ hintsOf (readDialplan (filesOn demoPaths twoFiles) demoEnv 99 (c! "f")).log :=
      List.mem_filter.2 ⟨hm, by simp [isHint, hk]⟩
    rw [h] at hm'
    simp only [List.mem_cons, List.not_mem_nil, or_false] at hm'
    rcases hm' with rfl | rfl <;> exact ⟨_, rfl⟩
  · intro f l pat expected hh
    obtain ⟨m, hm, -, -, h3⟩ := hintAt_mem.1 hh
    rw [h] at hm
    simp only [List.mem_cons, List.not_mem_nil, or_false] at hm
    rcases hm with rfl | rfl <;>
      simp only [twoFilesHint, List.cons.injEq, Prod.mk.injEq, Arg.one.injEq, V.str.injEq, true_and, and_true] at h3 <;>
      obtain ⟨rfl, rfl⟩ := h3
    · exact ⟨fits_digits.1.1, fits_digits.1.2, by decide, by decide⟩
    · exact ⟨fits_digits.2.1, fits_digits.2.2, by decide, by decide⟩

/-- The other hypotheses and the outcome in this case. -/
example : (∀ f ∈ [c! "f", c! "g"], (twoFiles (demoPaths.name f)).isSome = true) ∧ (∀ j, lucky.fail j = none) ∧
    twoFiles (c! "ftmp") = none ∧ twoFiles (c! "gtmp") = none ∧
    readsWell (readDialplan (filesOn demoPaths (twoFilesRun true twoFiles).disk) demoEnv 99 (c! "f")) = true ∧
    hintsOf (readDialplan (filesOn demoPaths (twoFilesRun true twoFiles).disk) demoEnv 99 (c! "f")).log = [] :=
  ⟨by decide, fun _ => rfl, by decide, by decide, by decide +kernel, by decide +kernel⟩

/-- A pattern whose canonical spelling has a semicolon in it. -/
def unfitDisk : Disk Str := fun p =>
  if p = c! "f" then some (.file (utf8 (c! "[a]\nexten => _[:-<],1,NoOp()\nexten => 5,1,NoOp()\n")) 1 2 0o644) else none

def stepCount (r : Res (Except Stopped DState)) : Option (List Nat) :=
  match r.val with
  | .ok (.ok st) => some (st.dp.contexts.map (·.steps.length))
  | _ => none

/-- That the canonical spellings can stand in their places is needed: a step may be lost. -/
theorem C97_violated_again : stepCount (readDialplan (filesOn demoPaths unfitDisk) demoEnv 99 (c! "f")) = some [2] ∧
    (twoFilesRun true unfitDisk).val = .ok () ∧
    stepCount (readDialplan (filesOn demoPaths (twoFilesRun true unfitDisk).disk) demoEnv 99 (c! "f")) ≠ some [2] := by
  decide +kernel

/-! ## Links -/

/-- A dialplan whose main file and whose included file are links. -/
def linkedPlan : Disk Str := fun p =>
  if p = c! "f" then some (.link (c! "/e/f"))
  else if p = c! "g" then some (.link (c! "/e/g"))
  else if p = c! "/e/f" then some (.file (utf8 (c! "[a]\nexten => _[0-9],1,NoOp()\n#include g\n#include h\n")) 1 2 0o644)
  else if p = c! "/e/g" then some (.file (utf8 (c! "exten => _[1-9]X,1,NoOp()\n")) 3 4 0o640)
  else if p = c! "h" then some (.link (c! "i"))
  else if p = c! "i" then some (.link (c! "j"))
  else if p = c! "j" then some (.file (utf8 (c! "exten => 5,1,NoOp()\n")) 3 4 0o640) else none

/-- The files behind the links are rewritten and the links stay, those to files without hints
whatever their kind. -/
example : readsWell (readDialplan (filesOn demoPaths linkedPlan) demoEnv 99 (c! "f")) = true ∧
    (hintsOf (readDialplan (filesOn demoPaths linkedPlan) demoEnv 99 (c! "f")).log).map (fun m => (m.at_.filename, m.at_.lineno)) =
      [(c! "f", 2), (c! "g", 1)] ∧
    (twoFilesRun true linkedPlan).val = .ok () ∧
    (twoFilesRun true linkedPlan).disk (c! "/e/f") =
      some (.file (utf8 (c! "[a]\nexten => _X,1,NoOp()\n#include g\n#include h\n")) 1 2 0o644) ∧
    (twoFilesRun true linkedPlan).disk (c! "/e/g") = some (.file (utf8 (c! "exten => _ZX,1,NoOp()\n")) 3 4 0o640) ∧
    (∀ p ∈ [c! "f", c! "g", c! "h", c! "i", c! "j", c! "ftmp", c! "gtmp"], (twoFilesRun true linkedPlan).disk p = linkedPlan p) ∧
    hintsOf (readDialplan (filesOn demoPaths (twoFilesRun true linkedPlan).disk) demoEnv 99 (c! "f")).log = [] := by
  decide +kernel

/-- The hypotheses about the disk in this case. -/
example : SitsAt demoPaths linkedPlan (c! "f") (c! "/e/f") ∧ SitsAt demoPaths linkedPlan (c! "g") (c! "/e/g") ∧
    (∀ q, LeadsTo demoPaths linkedPlan (c! "h") q → q = c! "h" ∨ q = c! "i" ∨ q = c! "j") := by
  refine ⟨.link (t := c! "/e/f") rfl (by decide) rfl, .link (t := c! "/e/g") rfl (by decide) rfl, ?_⟩
  intro q h
  cases h with
  | here => exact .inl rfl
  | on h1 h =>
    have e1 : linkedPlan (c! "h") = some (.link (c! "i")) := by decide
    rw [e1] at h1
    cases h1
    change LeadsTo demoPaths linkedPlan (c! "i") q at h
    cases h with
    | here => exact .inr (.inl rfl)
    | on h1 h =>
      have e2 : linkedPlan (c! "i") = some (.link (c! "j")) := by decide
      rw [e2] at h1
      cases h1
      change LeadsTo demoPaths linkedPlan (c! "j") q at h
      cases h with
      | here => exact .inr (.inr rfl)
      | on h1 h =>
        have e3 : ∀ t, linkedPlan (c! "j") ≠ some (.link t) := by
          intro t ht
          have : (linkedPlan (c! "j")).any (fun x => match x with | .link _ => true | _ => false) = false := by decide
          rw [ht] at this
          cases this
        exact absurd h1 (e3 _)

/-- A link in another directory, relative to it. -/
def awayDisk : Disk Str := fun p =>
  if p = c! "f" then some (.file (utf8 (c! "[a]\n#include d/l\n")) 1 2 0o644)
  else if p = c! "d/l" then some (.link (c! "b"))
  else if p = c! "d/b" then some (.file (utf8 (c! "exten => _[0-9],1,NoOp()\n")) 1 2 0o644)
  else if p = c! "b" then some (.file (utf8 (c! "other\n")) 1 2 0o644) else none

/-- A link to a link. -/
def chainDisk : Disk Str := fun p =>
  if p = c! "f" then some (.link (c! "l"))
  else if p = c! "l" then some (.link (c! "b"))
  else if p = c! "b" then some (.file (utf8 (c! "[a]\nexten => _[0-9],1,NoOp()\n")) 1 2 0o644) else none

/-- That the text of a link lead to the file also from the current directory, and at once, is
needed: otherwise the file with hints stays as it is, and another file, or a link, is replaced. -/
theorem C97_violated_links :
    (readsWell (readDialplan (filesOn demoPaths awayDisk) demoEnv 99 (c! "f")) = true ∧
      (twoFilesRun true awayDisk).val = .ok () ∧
      (twoFilesRun true awayDisk).disk (c! "d/b") = awayDisk (c! "d/b") ∧
      (twoFilesRun true awayDisk).disk (c! "b") = some (.file (utf8 (c! "exten => _X,1,NoOp()\n")) 1 2 0o644)) ∧
    readsWell (readDialplan (filesOn demoPaths chainDisk) demoEnv 99 (c! "f")) = true ∧
      (twoFilesRun true chainDisk).val = .ok () ∧
      (twoFilesRun true chainDisk).disk (c! "b") = chainDisk (c! "b") ∧
      (twoFilesRun true chainDisk).disk (c! "l") = some (.file (utf8 (c! "[a]\nexten => _X,1,NoOp()\n")) 1 2 0o644) := by
  decide +kernel

end ALint.Props
