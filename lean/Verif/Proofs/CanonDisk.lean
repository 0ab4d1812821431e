import Verif.Proofs.CanonProgram

/-!
# Making the patterns of a dialplan canonical: the files
-/

namespace ALint
open Spec Props
open Pattern (parse canonical isCanonical Values)

/-- The hint about a line, and what becomes of the line. -/
structure Hinted (fs : FS) (m : Msg) (pat : Str) (vals : Values) (c : Bytes) (k : Nat) (line' : Bytes) : Prop where
  msg : m = hintMsg m.at_ pat vals
  file : fs m.at_.filename = some c
  number : m.at_.lineno = (k : Int) + 1
  line : (physLines c)[k]? = some m.at_.line
  out : canonOut (utf8 pat) (utf8 (canonical vals)) m.at_.line = ([line'], none)
  swapped : Swapped (utf8 pat) (utf8 (canonical vals)) m.at_.line line'

/-- Where a line of an expansion is. -/
theorem expand_line {fs : FS} {inc : Where → Option Str} {path : Str} {content : Bytes} {t : Items}
    (h : Expand fs inc path 0 (physLines content) t) (hr : fs path = some content) (hnd : (path :: t.files).Nodup)
    {w : Where} (hw : w ∈ t.flatten) :
    w.filename ∈ path :: t.files ∧ ∃ c k, fs w.filename = some c ∧ w.lineno = ((k : Nat) : Int) + 1 ∧
      (physLines c)[k]? = some w.line := by
  obtain ⟨h1, h2, h3, -⟩ := expand_places h hnd
  have hf : ∃ c, fs w.filename = some c ∧
      t.flatten.filter (·.filename = w.filename) = numbered w.filename 0 (physLines c) := by
    rcases List.mem_cons.1 (h1 w hw) with e | e
    · rw [e]; exact ⟨content, hr, h2⟩
    · exact h3 _ e
  obtain ⟨c, c1, c2⟩ := hf
  have hm : w ∈ numbered w.filename 0 (physLines c) := by
    rw [← c2]; exact List.mem_filter.2 ⟨hw, by simp⟩
  obtain ⟨k, l, k1, k2⟩ := numbered_mem hm
  refine ⟨h1 w hw, c, k, c1, ?_, ?_⟩
  · rw [k2]; simp
  · rw [k2]; exact k1

section
variable {fs : FS} {env : DEnv} {n : Nat} {path : Str} {st : DState} {content : Bytes} {t : Items}
    {told : List Told} {es : List Elem}

theorem ReadsAll.hinted (h : ReadsAll fs env n path st content t told es) (hnd : (path :: t.files).Nodup) {m : Msg}
    (hm : m ∈ hintsOf (readDialplan fs env n path).log) : ∃ pat vals c k line', Hinted fs m pat vals c k line' := by
  obtain ⟨v, pat, rest, vals, ms, h1, h2, h3, rfl⟩ := h.hint hm
  obtain ⟨-, c, k, c1, c2, c3⟩ := expand_line h.tree h.root hnd h2
  obtain ⟨line', o1, o2⟩ := canonOut_swapped (old := utf8 pat) (new := utf8 (canonical vals))
    (fun he => h3.ne (by have := utf8Decode_utf8 pat; rw [he] at this; simpa [utf8Decode] using this.symm)) (patLine_equals h1 h3)
  exact ⟨pat, vals, c, k, line', rfl, c1, c2, c3, o1, o2⟩

theorem ReadsAll.order (h : ReadsAll fs env n path st content t told es) (hnd : (path :: t.files).Nodup) :
    List.Pairwise (fun a b : Msg => Further a.at_ b.at_) (hintsOf (readDialplan fs env n path).log) := by
  have := (expand_places h.tree hnd).2.2.2.sublist h.places
  rwa [List.pairwise_map] at this

end

/-! ## Issues -/

theorem canonIssues_hints (log : List Msg) (f : Str) :
    canonIssues log f = ((hintsOf log).filter (·.at_.filename = f)).filterMap canonIssue := by
  unfold canonIssues hintsOf
  induction log with
  | nil => rfl
  | cons m log ih =>
    by_cases hk : isHint m = true
    · rw [List.filter_cons_of_pos hk]
      by_cases hf : m.at_.filename = f
      · rw [List.filter_cons_of_pos (by simpa using hf), List.filter_cons_of_pos (by simpa using hf),
          List.filterMap_cons, List.filterMap_cons, ih]
      · rw [List.filter_cons_of_neg (by simpa using hf), List.filter_cons_of_neg (by simpa using hf), ih]
    · rw [List.filter_cons_of_neg hk, ← ih]
      by_cases hf : m.at_.filename = f
      · have : canonIssue m = none := by
          unfold canonIssue; rw [if_neg]; simpa [isHint] using hk
        rw [List.filter_cons_of_pos (by simpa using hf), List.filterMap_cons, this]
      · rw [List.filter_cons_of_neg (by simpa using hf)]

theorem canonIssue_hintMsg (w : Where) (pat : Str) (vals : Values) :
    canonIssue (hintMsg w pat vals) = some ⟨w.lineno - 1, canonOut (utf8 pat) (utf8 (canonical vals))⟩ := rfl

/-- All the hints are on lines of files, in order. -/
structure Lined (fs : FS) (hs : List Msg) : Prop where
  each : ∀ m ∈ hs, ∃ pat vals c k line', Hinted fs m pat vals c k line'
  order : hs.Pairwise fun a b => Further a.at_ b.at_

theorem Lined.increasing {fs : FS} {log : List Msg} (h : Lined fs (hintsOf log)) (f : Str) : Increasing (canonIssues log f) := by
  rw [canonIssues_hints]
  constructor
  · intro i hi
    obtain ⟨m, hm, hi⟩ := List.mem_filterMap.1 hi
    obtain ⟨pat, vals, c, k, line', hh⟩ := h.each m (List.mem_filter.1 hm).1
    rw [hh.msg, canonIssue_hintMsg] at hi
    have hn := hh.number
    simp only [Option.some.injEq] at hi
    subst hi
    dsimp only
    omega
  · rw [List.pairwise_filterMap]
    have h2 : List.Pairwise (fun a b : Msg => Further a.at_ b.at_ ∧ a.at_.filename = b.at_.filename ∧
        (∃ pat vals, a = hintMsg a.at_ pat vals) ∧ ∃ pat vals, b = hintMsg b.at_ pat vals)
        ((hintsOf log).filter (·.at_.filename = f)) := by
      have h1 := h.order.sublist (List.filter_sublist (p := fun m : Msg => decide (m.at_.filename = f)))
      rw [List.pairwise_iff_forall_sublist] at h1 ⊢
      intro a b hab
      have ha := List.mem_filter.1 (hab.subset (by simp : a ∈ [a, b]))
      have hb := List.mem_filter.1 (hab.subset (by simp : b ∈ [a, b]))
      obtain ⟨p1, v1, _, _, _, g1⟩ := h.each a ha.1
      obtain ⟨p2, v2, _, _, _, g2⟩ := h.each b hb.1
      exact ⟨h1 hab, by have := ha.2; have := hb.2; simp_all, ⟨p1, v1, g1.msg⟩, ⟨p2, v2, g2.msg⟩⟩
    refine h2.imp ?_
    rintro a b ⟨h1, h2, ⟨p1, v1, h3⟩, p2, v2, h4⟩ i hi j hj
    rw [h3, canonIssue_hintMsg] at hi
    rw [h4, canonIssue_hintMsg] at hj
    simp only [Option.some.injEq] at hi hj
    subst hi hj
    have := h1 h2
    dsimp only
    omega

theorem Lined.noneRaises {fs : FS} {log : List Msg} (h : Lined fs (hintsOf log)) {f : Str} {c : Bytes} (hf : fs f = some c) :
    NoneRaises (canonIssues log f) (physLines c) := by
  rw [canonIssues_hints]
  intro i hi k line hl hk
  obtain ⟨m, hm, hi⟩ := List.mem_filterMap.1 hi
  obtain ⟨pat, vals, c', k', line', hh⟩ := h.each m (List.mem_filter.1 hm).1
  have hmf : m.at_.filename = f := by simpa using (List.mem_filter.1 hm).2
  have hc := hh.file
  rw [hmf, hf] at hc
  cases hc
  rw [hh.msg, canonIssue_hintMsg] at hi
  simp only [Option.some.injEq] at hi
  subst hi
  dsimp only at hk ⊢
  have hn := hh.number
  have : k' = k := by omega
  subst this
  have hl' := hh.line
  rw [hl] at hl'
  cases hl'
  rw [hh.out]

theorem hintAt_mem {log : List Msg} {f : Str} {n : Nat} {pat expected : Str} :
    HintAt log f n pat expected ↔ ∃ m ∈ hintsOf log, m.at_.filename = f ∧ m.at_.lineno = n ∧
      m.args = [(c! "pat", .one (.str pat)), (c! "expected", .one (.str expected))] := by
  unfold HintAt hintsOf
  constructor
  · rintro ⟨m, h1, h2, h3⟩
    exact ⟨m, List.mem_filter.2 ⟨h1, by simp [isHint, h2]⟩, h3⟩
  · rintro ⟨m, h1, h3⟩
    have := List.mem_filter.1 h1
    exact ⟨m, this.1, by simpa [isHint] using this.2, h3⟩

/-- What becomes of the lines of a file. -/
theorem Lined.after {fs : FS} {log : List Msg} (h : Lined fs (hintsOf log)) {f : Str} {c : Bytes} (hf : fs f = some c) :
    LinesAfter log f (physLines c) (replaced (canonIssues log f) (physLines c)) := by
  refine ⟨by simp [replaced], ?_⟩
  intro k line line' h1 h2
  simp only [replaced, List.getElem?_mapIdx, h1, Option.map_some, Option.some.injEq] at h2
  cases hfind : (canonIssues log f).find? (fun i => i.lineno == (k : Int)) with
  | none =>
    rw [hfind] at h2
    subst h2
    refine .same ?_
    intro pat expected hh
    obtain ⟨m, hm, g1, g2, g3⟩ := hintAt_mem.1 hh
    obtain ⟨p, vals, c', k', l', hh⟩ := h.each m hm
    rw [List.find?_eq_none] at hfind
    have hi := hfind ⟨m.at_.lineno - 1, canonOut (utf8 p) (utf8 (canonical vals))⟩ (by
      rw [canonIssues_hints]
      refine List.mem_filterMap.2 ⟨m, List.mem_filter.2 ⟨hm, by simpa using g1⟩, ?_⟩
      rw [hh.msg, canonIssue_hintMsg]; rfl)
    rw [beq_iff_eq, g2] at hi
    exact hi (by push_cast; omega)
  | some i =>
    rw [hfind] at h2
    dsimp only at h2
    have hi := List.mem_of_find?_eq_some hfind
    have hk := List.find?_some hfind
    rw [beq_iff_eq] at hk
    rw [canonIssues_hints] at hi
    obtain ⟨m, hm, hi⟩ := List.mem_filterMap.1 hi
    have hmf : m.at_.filename = f := by simpa using (List.mem_filter.1 hm).2
    obtain ⟨p, vals, c', k', l', hh⟩ := h.each m (List.mem_filter.1 hm).1
    have hc := hh.file
    rw [hmf, hf] at hc
    cases hc
    rw [hh.msg, canonIssue_hintMsg] at hi
    simp only [Option.some.injEq] at hi
    subst hi
    dsimp only at hk h2
    have hn := hh.number
    have : k' = k := by omega
    subst this
    have hl' := hh.line
    rw [h1] at hl'
    cases hl'
    rw [hh.out] at h2
    simp only [List.flatten_cons, List.flatten_nil, List.append_nil] at h2
    subst h2
    refine .swapped p (canonical vals) l' (hintAt_mem.2 ⟨m, (List.mem_filter.1 hm).1, hmf, ?_, ?_⟩) hh.swapped
    · rw [hn]; push_cast; rfl
    · rw [hh.msg]; rfl

theorem mem_canonFiles {fs : FS} {log : List Msg} (h : Lined fs (hintsOf log)) {f : Str} :
    f ∈ canonFiles log ↔ HasHint log f := by
  unfold canonFiles
  rw [mem_sortBy, List.mem_eraseDups]
  simp only [List.mem_map, List.mem_filter]
  constructor
  · rintro ⟨m, ⟨h1, h2⟩, rfl⟩
    have hk : isHint m = true := by
      unfold canonIssue at h2
      split at h2
      · rename_i hk; simp [isHint, hk]
      · cases h2
    obtain ⟨p, vals, c', k', l', hh⟩ := h.each m (List.mem_filter.2 ⟨h1, hk⟩)
    refine ⟨k' + 1, p, canonical vals, hintAt_mem.2 ⟨m, List.mem_filter.2 ⟨h1, hk⟩, rfl, ?_, ?_⟩⟩
    · rw [hh.number]; push_cast; rfl
    · rw [hh.msg]; rfl
  · rintro ⟨n, pat, expected, hh⟩
    obtain ⟨m, hm, g1, g2, g3⟩ := hintAt_mem.1 hh
    obtain ⟨p, vals, c', k', l', hh⟩ := h.each m hm
    refine ⟨m, ⟨(List.mem_filter.1 hm).1, ?_⟩, g1⟩
    rw [hh.msg, canonIssue_hintMsg]; rfl

theorem canonIssues_ne {fs : FS} {log : List Msg} (h : Lined fs (hintsOf log)) {f : Str} (hf : HasHint log f) :
    canonIssues log f ≠ [] := by
  obtain ⟨n, pat, expected, hh⟩ := hf
  obtain ⟨m, hm, g1, g2, g3⟩ := hintAt_mem.1 hh
  obtain ⟨p, vals, c', k', l', hh⟩ := h.each m hm
  rw [canonIssues_hints]
  refine List.ne_nil_of_mem (a := ⟨m.at_.lineno - 1, canonOut (utf8 p) (utf8 (canonical vals))⟩)
    (List.mem_filterMap.2 ⟨m, List.mem_filter.2 ⟨hm, by simpa using g1⟩, ?_⟩)
  rw [hh.msg, canonIssue_hintMsg]; rfl

/-! ## The disk -/

section
variable {P : Type} [DecidableEq P]

omit [DecidableEq P] in
theorem stat_plain {ps : Paths P} {d : Disk P} {f : Str} {c : Bytes} {u g m : Nat}
    (h : d (ps.name f) = some (.file c u g m)) : d.stat ps f = some (.file c u g m) := by
  rw [Disk.stat, Disk.followed, h]

omit [DecidableEq P] in
theorem Spec.SitsAt.node {ps : Paths P} {d : Disk P} {f : Str} {q : P} (h : SitsAt ps d f q) :
    ∃ c u g m, d q = some (.file c u g m) := by
  cases h with
  | plain h => exact ⟨_, _, _, _, h⟩
  | link _ _ h => exact ⟨_, _, _, _, h⟩

omit [DecidableEq P] in
theorem Spec.SitsAt.unique {ps : Paths P} {d : Disk P} {f : Str} {q q' : P} (h : SitsAt ps d f q) (h' : SitsAt ps d f q') :
    q = q' := by
  cases h with
  | plain h =>
    cases h' with
    | plain => rfl
    | link h1 => rw [h] at h1; cases h1
  | link h =>
    cases h' with
    | plain h1 => rw [h] at h1; cases h1
    | link h1 => rw [h] at h1; cases h1; rfl

omit [DecidableEq P] in
theorem Spec.SitsAt.stat {ps : Paths P} {d : Disk P} {f : Str} {q : P} (h : SitsAt ps d f q) : d.stat ps f = d q := by
  cases h with
  | plain h => rw [stat_plain h, h]
  | link h h1 h2 =>
    rw [Disk.stat, Disk.followed, h]
    dsimp only
    rw [Disk.followed, h1, h2]

omit [DecidableEq P] in
theorem Spec.SitsAt.diskName {ps : Paths P} {d : Disk P} {f : Str} {q : P} (h : SitsAt ps d f q) :
    ps.name (diskName ps f d) = q := by
  unfold ALint.diskName
  cases h with
  | plain h => rw [h]
  | link h => rw [h]

omit [DecidableEq P] in
theorem Spec.SitsAt.self {ps : Paths P} {d : Disk P} {f : Str} {q : P} (h : SitsAt ps d f q) {c : Bytes} {u g m : Nat}
    (hf : d (ps.name f) = some (.file c u g m)) : q = ps.name f := by
  cases h with
  | plain => rfl
  | link h => rw [h] at hf; cases hf

/-- Changing a file elsewhere. -/
theorem Spec.SitsAt.set {ps : Paths P} {d : Disk P} {f : Str} {q p : P} (h : SitsAt ps d f q) (hp : p ≠ q)
    {c : Bytes} {u g m : Nat} (hd : d p = some (.file c u g m)) (n : Option Node) : SitsAt ps (d.set p n) f q := by
  cases h with
  | plain h => exact .plain (by unfold Disk.set; rw [if_neg (Ne.symm hp), h])
  | link h h1 h2 =>
    refine .link ?_ h1 (by unfold Disk.set; rw [if_neg (Ne.symm hp), h2])
    unfold Disk.set
    rw [if_neg, h]
    intro e
    rw [e, hd] at h
    cases h

theorem ends_renamed (ps : Paths P) (tmp : P) (u g : Nat) (filename df : Str) (issues : List Issue) :
    Ends tmp (Sys.bind (.call (makeTmp tmp u g)) fun _ =>
      Sys.bind (Sys.andFinally (Sys.orElse (mutateBody ps tmp filename issues)
          (.call fun d => match d tmp with | none => none | some _ => some (d.set tmp none, ())))
        (.ask fun _ => some ())) fun _ =>
      Sys.bind (copyOwner ps tmp filename) fun _ =>
      Sys.bind (.ask fun _ => some ()) fun _ =>
      .call (renameTo tmp (ps.name df)))
    (fun d e => ∀ c u g m, d.stat ps filename = some (.file c u g m) →
      e = fun p => if p = ps.name df then some (.file (mutated 0 issues (physLines c)).1.flatten u g m)
        else if p = tmp then none else d p) := by
  refine (Ends.bind (does_makeTmp tmp u g) (fun _ =>
    Ends.bind (Does.andFinally (Does.orElse (does_body ps tmp filename issues) (does_unlink tmp))
      ((Does.ask _).mono (fun _ _ _ _ h => h.2))) (fun _ =>
    Ends.bind (does_owner ps tmp filename) (fun _ =>
    Ends.bind (Does.ask _) (fun _ => ends_rename tmp (ps.name df)))))).mono ?_
  rintro d1 e ⟨_, d2, ⟨ht, rfl⟩, o2, _, d3, ⟨hne, c, hc, hok, hbody⟩, o3, _, d4,
    ⟨u', g', m', hown, hcopy⟩, o4, _, d5, ⟨_, rfl⟩, _, x, hx, rfl⟩
  have hset : (d1.set tmp (some (.file [] u g 0o600))) tmp = some (.file [] u g 0o600) := by simp [Disk.set]
  have h3 := hbody u g 0o600 (by rw [hset]; rfl)
  have h4 := hcopy _ _ _ _ h3
  rw [h4] at hx
  simp only [Option.some.injEq] at hx
  subst hx
  intro c0 u0 g0 m0 h0
  have e2 := followed_off ht o2 _ _ _ h0
  have e3 := followed_off ht (o2.trans o3) _ _ _ h0
  rw [Disk.stat, e2] at hc
  rw [Disk.stat, e3] at hown
  simp only [nodeContent, Option.some.injEq] at hc
  simp only [nodeOwner, Option.some.injEq, Prod.mk.injEq] at hown
  obtain ⟨rfl, rfl, rfl⟩ := hown
  subst hc
  funext p
  by_cases h1 : p = ps.name df
  · simp [h1]
  · by_cases h2 : p = tmp
    · simp [h2]
    · simp only [h1, h2, if_false]
      exact ((o2.trans o3).trans o4) p h2

theorem processFile_sits {ps : Paths P} {tmp : P} {u g : Nat} {f : Str} {issues : List Issue} {o : Oracle} {n : Nat}
    {d : Disk P} {q : P} {c : Bytes} {u' g' m' : Nat} (hq : SitsAt ps d f q) (hf : d q = some (.file c u' g' m'))
    (hi : Increasing issues)
    (hne : issues ≠ []) (hr : NoneRaises issues (physLines c)) (ht : d tmp = none) (ho : ∀ k, o.fail k = none) :
    (processFile ps tmp u g f issues o n d).val = .ok () ∧
    (processFile ps tmp u g f issues o n d).disk =
      d.set q (some (.file (replaced issues (physLines c)).flatten u' g' m')) := by
  have hs := hq.stat.trans hf
  have hmut := mutated_increasing hi (physLines c)
  have hok := ok_file ps tmp u g f ho n hs hne (hmut.2.2 hr) ht
  refine ⟨hok, ?_⟩
  have hread : readLink ps f o n d = ⟨[], d, n + 1, .ok (diskName ps f d)⟩ := by unfold readLink; rw [ho]
  have hd := hq.diskName
  unfold processFile at hok ⊢
  rw [Sys.bind, hread] at hok ⊢
  dsimp only at hok ⊢
  obtain ⟨tr, _, _, hall⟩ := (ends_renamed ps tmp u g f (diskName ps f d) issues o (n + 1) d).2 hok
  have h2 := hall c u' g' m' hs
  generalize diskName ps f d = dst at hd h2
  refine h2.trans ?_
  rw [hmut.1]
  funext p
  unfold Disk.set
  by_cases hp : p = ps.name dst
  · simp [hp, hd]
  · by_cases hp2 : p = tmp
    · have : tmp ≠ q := by rintro rfl; rw [ht] at hf; cases hf
      simp [hp2, ht, this, hd]
    · rw [hd] at hp
      simp [hp, hp2, hd]

theorem processAll_sits {ps : Paths P} {tmps : Str → P} {u g : Nat} {issues : Str → List Issue} {o : Oracle}
    (ho : ∀ k, o.fail k = none) : ∀ (files : List Str) (n : Nat) (d : Disk P),
    (∀ f ∈ files, ∃ q c u' g' m', SitsAt ps d f q ∧ d q = some (.file c u' g' m') ∧ NoneRaises (issues f) (physLines c)) →
    (∀ f ∈ files, Increasing (issues f) ∧ issues f ≠ [] ∧ d (tmps f) = none) →
    files.Pairwise (fun a b => ∀ q, SitsAt ps d a q → ¬ SitsAt ps d b q) →
    (processAll ps u g (files.map fun f => (f, tmps f, issues f)) o n d).val = .ok () ∧
    (∀ f ∈ files, ∀ q c u' g' m', SitsAt ps d f q → d q = some (.file c u' g' m') →
      (processAll ps u g (files.map fun f => (f, tmps f, issues f)) o n d).disk q =
        some (.file (replaced (issues f) (physLines c)).flatten u' g' m')) ∧
    ∀ p, (∀ f ∈ files, ¬ SitsAt ps d f p) →
      (processAll ps u g (files.map fun f => (f, tmps f, issues f)) o n d).disk p = d p
  | [], n, d, _, _, _ => ⟨rfl, by simp, fun _ _ => rfl⟩
  | f :: files, n, d, h1, h2, h3 => by
    obtain ⟨q, c, u', g', m', hq, hf, hr⟩ := h1 f (by simp)
    obtain ⟨hi, hne, ht⟩ := h2 f (by simp)
    obtain ⟨p1, p2⟩ := processFile_sits (u := u) (g := g) (n := n) hq hf hi hne hr ht ho
    rw [List.map_cons, processAll]
    simp only [Sys.bind, p1]
    generalize (processFile ps (tmps f) u g f (issues f) o n d).steps = n'
    rw [p2]
    obtain ⟨h3a, h3b⟩ := List.pairwise_cons.1 h3
    generalize hnew : (some (.file (replaced (issues f) (physLines c)).flatten u' g' m') : Option Node) = new
    have hne' : ∀ x ∈ files, ∀ qx, SitsAt ps d x qx → q ≠ qx := by
      rintro x hx qx hs rfl
      exact h3a x hx q hq hs
    have hkeep : ∀ x ∈ files, ∀ qx, SitsAt ps d x qx → SitsAt ps (d.set q new) x qx := fun x hx qx hs =>
      hs.set (hne' x hx qx hs) hf new
    have hback : ∀ x ∈ files, ∀ qx, SitsAt ps (d.set q new) x qx → SitsAt ps d x qx := by
      intro x hx qx hs
      obtain ⟨q0, _, _, _, _, hs0, _⟩ := h1 x (by simp [hx])
      rw [hs.unique (hkeep x hx q0 hs0)]
      exact hs0
    have hval : ∀ x ∈ files, ∀ qx, SitsAt ps d x qx → (d.set q new) qx = d qx := by
      intro x hx qx hs
      unfold Disk.set
      rw [if_neg (Ne.symm (hne' x hx qx hs))]
    obtain ⟨i1, i2, i3⟩ := processAll_sits (ps := ps) (tmps := tmps) (u := u) (g := g) (issues := issues) ho files n'
      (d.set q new)
      (fun x hx => by
        obtain ⟨qx, cx, ux, gx, mx, k1, k2, k3⟩ := h1 x (by simp [hx])
        exact ⟨qx, cx, ux, gx, mx, hkeep x hx qx k1, by rw [hval x hx qx k1]; exact k2, k3⟩)
      (fun x hx => by
        obtain ⟨j1, j2, j3⟩ := h2 x (by simp [hx])
        refine ⟨j1, j2, ?_⟩
        unfold Disk.set
        rw [if_neg, j3]
        intro e
        rw [e, hf] at j3
        cases j3)
      (by
        rw [List.pairwise_iff_forall_sublist] at h3b ⊢
        intro a b hab qx ha hb
        exact h3b hab qx (hback a (hab.subset (List.mem_cons_self ..)) qx ha)
          (hback b (hab.subset (List.mem_cons_of_mem _ (List.mem_cons_self ..))) qx hb))
    refine ⟨i1, ?_, ?_⟩
    · intro x hx qx c2 u2 g2 m2 hsx hx2
      rcases List.mem_cons.1 hx with rfl | hx
      · obtain rfl := hsx.unique hq
        rw [i3 _ fun y hy hs => h3a y hy qx hq (hback y hy qx hs)]
        rw [hf] at hx2
        cases hx2
        unfold Disk.set
        rw [if_pos rfl, hnew]
      · exact i2 x hx qx c2 u2 g2 m2 (hkeep x hx qx hsx) (by rw [hval x hx qx hsx]; exact hx2)
    · intro p hp
      rw [i3 p fun y hy hs => hp y (by simp [hy]) (hback y hy p hs)]
      unfold Disk.set
      rw [if_neg]
      rintro rfl
      exact hp f (by simp) hq

omit [DecidableEq P] in
theorem Spec.SitsAt.leads {ps : Paths P} {d : Disk P} {f : Str} {q : P} (h : SitsAt ps d f q) :
    LeadsTo ps d (ps.name f) q := by
  cases h with
  | plain => exact .here _
  | link h h1 => exact .on h (h1 ▸ .here _)

omit [DecidableEq P] in
/-- The file is where it was, when nothing but plain files has changed and it is still a plain file. -/
theorem Spec.SitsAt.still {ps : Paths P} {d d' : Disk P} {f : Str} {q : P} (h : SitsAt ps d f q)
    (hd : ∀ p, (∀ c u g m, d p ≠ some (.file c u g m)) → d' p = d p) {c : Bytes} {u g m : Nat}
    (hq : d' q = some (.file c u g m)) : SitsAt ps d' f q := by
  cases h with
  | plain => exact .plain hq
  | link h h1 h2 => exact .link (by rw [hd _ (by rw [h]; simp), h]) h1 hq

omit [DecidableEq P] in
/-- A path along which nothing has changed leads to the same. -/
theorem followed_same {ps : Paths P} {d d' : Disk P} : ∀ (k : Nat) (p : P),
    (∀ q, LeadsTo ps d p q → d' q = d q) → d'.followed ps k p = d.followed ps k p
  | 0, _, _ => rfl
  | k + 1, p, h => by
    rw [Disk.followed, Disk.followed, h p (.here p)]
    cases hd : d p with
    | none => rfl
    | some x =>
      cases x with
      | file c u g m => rfl
      | link t => exact followed_same k _ fun q hq => h q (.on hd hq)

end
end ALint
