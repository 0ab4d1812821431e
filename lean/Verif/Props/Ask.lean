import Verif.Proofs.Main
import Verif.Proofs.Ask
import Verif.Props.CanonProgram

/-!
# No file is rewritten unless its name was shown and the answer is `y` (C99)
-/

namespace ALint.Props
open ALint ALint.Spec

variable {P : Type} [DecidableEq P]

omit [DecidableEq P] in
theorem no_disk_prefix {ds ds' : List (Deed P)} (h : ds <+: ds') (hn : ∀ d', Deed.disk d' ∉ ds') : ∀ d', Deed.disk d' ∉ ds :=
  fun d' hd => hn d' (h.subset hd)

/-- C99: if anything on the disk is touched, then the answer is exactly `y`, and before it the names of
all files with issues have been shown, and the question asked. -/
theorem C99_permission (title : Str) (filesOf : List Msg → List Str) (issuesOf : List Msg → Str → List Issue)
    (ps : Paths P) (tmps : Str → P) (u g : Nat) (env : DEnv) (n : Nat) (answer : Option Str) (path : Str)
    (o : Oracle) (k : Nat) (d : Disk P)
    (h : (∃ d', Deed.disk d' ∈ (mutatorTalk title filesOf issuesOf ps tmps u g env n answer path o k d).deeds) ∨
      ∃ p, (mutatorTalk title filesOf issuesOf ps tmps u g env n answer path o k d).disk p ≠ d p) :
    answer = some (c! "y") ∧ ∃ rest,
      (mutatorTalk title filesOf issuesOf ps tmps u g env n answer path o k d).deeds =
        upToQuestion title (filesOf (readDialplan (filesOn ps d) env n path).log) ++ rest := by
  change _ ∧ ∃ rest, _ = upToQuestion title (filesOf (readDialplan (fun p => nodeContent (d.stat ps p)) env n path).log) ++ rest
  rcases mutatorTalk_cases title filesOf issuesOf ps tmps u g env n answer path o k d with
    ⟨ds, k', e, hr, hd, -⟩ | ⟨st, -, r, ha, hr, hs⟩
  · exfalso
    rw [hr] at h
    rcases h with ⟨d', h⟩ | ⟨p, h⟩
    · exact no_disk_prefix hd (by simp) d' h
    · exact h rfl
  · rw [hr] at h ⊢
    dsimp only at h ⊢
    have hsay : (∃ d', Deed.disk d' ∈ r.deeds) ∨ ∃ p, r.disk p ≠ d p := by
      rcases h with ⟨d', h⟩ | h
      · refine .inl ⟨d', ?_⟩
        rcases List.mem_append.1 h with h | h
        · exfalso
          cases ho : o.fail (k + 3) with
          | none => simp [ho] at h
          | some e => simp [ho] at h
        · exact h
      · exact .inr h
    clear h hr
    cases ha with
    | stopped ds k2 e h2 hq =>
      exfalso
      rcases hsay with ⟨d', h⟩ | ⟨p, h⟩
      · exact no_disk_prefix h2 (by simp) d' h
      · exact h rfl
    | nothing k2 h2 =>
      exfalso
      rcases hsay with ⟨d', h⟩ | ⟨p, h⟩
      · simp at h
      · exact h rfl
    | refused k2 h2 a ha hy =>
      exfalso
      rcases hsay with ⟨d', h⟩ | ⟨p, h⟩
      · simp at h
      · exact h rfl
    | failed k2 k3 h2 ha e =>
      refine ⟨ha, ?_⟩
      cases ho : o.fail (k + 3) with
      | none => exact ⟨_, by dsimp only; rw [← List.append_assoc]; rfl⟩
      | some e => exact absurd (hs (by rw [ho]; simp)).1 (by simp)
    | done k2 k3 h2 ha hv =>
      refine ⟨ha, ?_⟩
      cases ho : o.fail (k + 3) with
      | none => exact ⟨_, by dsimp only; rw [← List.append_assoc]; rfl⟩
      | some e => exact absurd (hs (by rw [ho]; simp)).1 (by simp)

/-- C99: any other answer (`Y`, `yes`, `y` with a blank, nothing at all, the end of the input) leaves
the disk alone. -/
theorem C99_refused (title : Str) (filesOf : List Msg → List Str) (issuesOf : List Msg → Str → List Issue)
    (ps : Paths P) (tmps : Str → P) (u g : Nat) (env : DEnv) (n : Nat) (answer : Option Str) (path : Str)
    (o : Oracle) (k : Nat) (d : Disk P) (ha : answer ≠ some (c! "y")) :
    (∀ d', Deed.disk d' ∉ (mutatorTalk title filesOf issuesOf ps tmps u g env n answer path o k d).deeds) ∧
      ∀ p, (mutatorTalk title filesOf issuesOf ps tmps u g env n answer path o k d).disk p = d p := by
  refine ⟨fun d' h => ha (C99_permission _ _ _ ps tmps u g env n answer path o k d (.inl ⟨d', h⟩)).1, fun p => ?_⟩
  apply Classical.byContradiction
  intro h
  exact ha (C99_permission _ _ _ ps tmps u g env n answer path o k d (.inr ⟨p, h⟩)).1

/-- C99: at any time, an entry that is not as it was at the beginning is a temporary one of a file with
issues, or the name of such a file (or of what it is a link to) that has been announced to be
overwritten before. -/
theorem C99_announced (title : Str) (filesOf : List Msg → List Str) (issuesOf : List Msg → Str → List Issue)
    (ps : Paths P) (tmps : Str → P) (u g : Nat) (env : DEnv) (n : Nat) (answer : Option Str) (path : Str)
    (o : Oracle) (k : Nat) (d : Disk P) :
    Announced ps tmps d (filesOf (readDialplan (filesOn ps d) env n path).log)
      (mutatorTalk title filesOf issuesOf ps tmps u g env n answer path o k d).deeds := by
  change Announced ps tmps d (filesOf (readDialplan (fun p => nodeContent (d.stat ps p)) env n path).log) _
  have nodisk : ∀ (files : List Str) (ds : List (Deed P)), (∀ d', Deed.disk d' ∉ ds) → Announced ps tmps d files ds := by
    intro files ds h before after d' he
    exact absurd (by rw [he]; simp) (h d')
  have shift : ∀ (files : List Str) (a ds : List (Deed P)), (∀ d', Deed.disk d' ∉ a) → Announced ps tmps d files ds →
      Announced ps tmps d files (a ++ ds) := by
    intro files a ds h hd before after d' he p hp
    rcases split_append he with ⟨after', h'⟩ | ⟨before', hb, h'⟩
    · exact absurd (by rw [h']; simp) (h d')
    · rcases hd before' after d' h' p hp with h1 | ⟨f, h1, name, h2, h3, h4⟩
      · exact .inl h1
      · exact .inr ⟨f, h1, name, h2, h3, by rw [hb]; exact List.mem_append_right _ h4⟩
  have ext : ∀ (files : List Str) (ds a : List (Deed P)), (∀ d', Deed.disk d' ∉ a) → Announced ps tmps d files ds →
      Announced ps tmps d files (ds ++ a) := by
    intro files ds a h hd before after d' he p hp
    rcases split_append he with ⟨after', h'⟩ | ⟨before', hb, h'⟩
    · exact hd before after' d' h' p hp
    · exact absurd (by rw [h']; simp) (h d')
  rcases mutatorTalk_cases title filesOf issuesOf ps tmps u g env n answer path o k d with
    ⟨ds, k', e, hr, hd, -⟩ | ⟨st, -, r, ha, hr, hs⟩
  · rw [hr]
    exact nodisk _ _ (no_disk_prefix hd (by simp))
  · rw [hr]
    refine shift _ _ _ ?_ ?_
    · intro d' h
      cases ho : o.fail (k + 3) with
      | none => simp [ho] at h
      | some e => simp [ho] at h
    · clear hr hs
      cases ha with
      | stopped ds k2 e h2 hq => exact nodisk _ _ (no_disk_prefix h2 (by simp))
      | nothing k2 h2 => exact nodisk _ _ (by simp)
      | refused k2 h2 a ha hy => exact nodisk _ _ (by simp)
      | failed k2 k3 h2 ha e => exact shift _ _ _ (by simp) (rewriting_all ps tmps u g _ _ o k2 d).announced
      | done k2 k3 h2 ha hv =>
        exact shift _ _ _ (by simp) (ext _ _ _ (by simp) (rewriting_all ps tmps u g _ _ o k2 d).announced)

/-- C99: what is seen on the screen, when printing and asking do not fail and the dialplan can be read:
the title; then that there is nothing to do, or the files, the question and, depending on the answer,
that it is given up, or a line for each file and `Done`. -/
theorem C99_screen (title : Str) (filesOf : List Msg → List Str) (issuesOf : List Msg → Str → List Issue)
    (ps : Paths P) (tmps : Str → P) (u g : Nat) (env : DEnv) (n : Nat) (answer : Option Str) (path : Str)
    (o : Oracle) (k : Nat) (d : Disk P) (st : DState) (files : List Str) (ho : ∀ j, o.fail j = none)
    (hread : (readDialplan (filesOn ps d) env n path).val = .ok (.ok st))
    (hfiles : filesOf (readDialplan (filesOn ps d) env n path).log = files) :
    let r := mutatorTalk title filesOf issuesOf ps tmps u g env n answer path o k d
    (files = [] → r.val = .ok () ∧ screen r.deeds = [.said title, .said (c! "Parsing current config..."), .said [],
      .said (c! "Your dialplan has no issues. We're done here.")]) ∧
    (files ≠ [] →
      (answer = none → r.val = .error .error ∧ screen r.deeds = upToQuestion title files) ∧
      (∀ a, answer = some a → a ≠ c! "y" →
        r.val = .ok () ∧ screen r.deeds = upToQuestion title files ++ [.said (c! "Aborted.")]) ∧
      (answer = some (c! "y") → ∃ names begun rest, files = begun ++ rest ∧ Zips (NameFor ps d) begun names ∧
        ((∃ e, r.val = .error e ∧
            screen r.deeds = upToQuestion title files ++ names.map (fun name => .said (overwriting name))) ∨
          (r.val = .ok () ∧ rest = [] ∧
            screen r.deeds = upToQuestion title files ++ (names.map (fun name => .said (overwriting name)) ++ [.said (c! "Done")]))))) := by
  change (readDialplan (fun p => nodeContent (d.stat ps p)) env n path).val = .ok (.ok st) at hread
  change filesOf (readDialplan (fun p => nodeContent (d.stat ps p)) env n path).log = files at hfiles
  dsimp only
  rcases mutatorTalk_cases title filesOf issuesOf ps tmps u g env n answer path o k d with
    ⟨ds, k', e, hr, hd, hno⟩ | ⟨st', -, r, ha, hr, hs⟩
  · exact absurd hread (hno ho st)
  · rw [hfiles] at ha
    rw [hr, ho (k + 3)]
    dsimp only
    clear hr hs hread
    cases ha with
    | stopped ds k2 e h2 hq =>
      obtain ⟨q1, rfl, rfl, rfl⟩ := hq ho
      exact ⟨fun h => absurd h q1, fun _ => ⟨fun _ => ⟨rfl, rfl⟩, (fun a h => nomatch h), fun h => nomatch h⟩⟩
    | nothing k2 h2 => exact ⟨fun _ => ⟨rfl, rfl⟩, fun h => absurd h2 h⟩
    | refused k2 h2 a ha hy =>
      refine ⟨fun h => absurd h h2, fun _ => ⟨fun h => (by rw [h] at ha; cases ha), fun a' h h' => ⟨rfl, rfl⟩, fun h => ?_⟩⟩
      rw [h] at ha; cases ha; exact absurd rfl hy
    | failed k2 k3 h2 ha e =>
      refine ⟨fun h => absurd h h2, fun _ => ⟨fun h => (by rw [h] at ha; cases ha), fun a' h h' => ?_, fun _ => ?_⟩⟩
      · rw [h] at ha; cases ha; exact absurd rfl h'
      · obtain ⟨names, rest, b1, begun, b2, b3, -⟩ := (rewriting_all ps tmps u g
          (issuesOf (readDialplan (fun p => nodeContent (d.stat ps p)) env n path).log) files o k2 d).lines
        refine ⟨names, begun, rest, b2, b3, .inl ⟨e, rfl, ?_⟩⟩
        rw [← b1, screen_append, screen_append]
        rfl
    | done k2 k3 h2 ha hv =>
      refine ⟨fun h => absurd h h2, fun _ => ⟨fun h => (by rw [h] at ha; cases ha), fun a' h h' => ?_, fun _ => ?_⟩⟩
      · rw [h] at ha; cases ha; exact absurd rfl h'
      · obtain ⟨names, rest, b1, begun, b2, b3, b4⟩ := (rewriting_all ps tmps u g
          (issuesOf (readDialplan (fun p => nodeContent (d.stat ps p)) env n path).log) files o k2 d).lines
        refine ⟨names, begun, rest, b2, b3, .inr ⟨rfl, b4 hv, ?_⟩⟩
        rw [← b1, screen_append, screen_append, screen_append, screen_append]
        rfl

/-- C99: `Done` is said only when every file with issues has been announced and rewritten, and it is the
last thing that happens. -/
theorem C99_done (title : Str) (filesOf : List Msg → List Str) (issuesOf : List Msg → Str → List Issue)
    (ps : Paths P) (tmps : Str → P) (u g : Nat) (env : DEnv) (n : Nat) (answer : Option Str) (path : Str)
    (o : Oracle) (k : Nat) (d : Disk P) (ht : title ≠ c! "Done")
    (h : Deed.said (c! "Done") ∈ (mutatorTalk title filesOf issuesOf ps tmps u g env n answer path o k d).deeds) :
    let r := mutatorTalk title filesOf issuesOf ps tmps u g env n answer path o k d
    let log := (readDialplan (filesOn ps d) env n path).log
    r.val = .ok () ∧ r.deeds.getLast? = some (.said (c! "Done")) ∧
      (∃ names, Zips (NameFor ps d) (filesOf log) names ∧ ∀ name ∈ names, Deed.said (overwriting name) ∈ r.deeds) ∧
      ∃ k', let s := processAll ps u g ((filesOf log).map fun f => (f, tmps f, issuesOf log f)) o k' d
        s.val = .ok () ∧ r.disk = s.disk := by
  change let r := mutatorTalk title filesOf issuesOf ps tmps u g env n answer path o k d
    let log := (readDialplan (fun p => nodeContent (d.stat ps p)) env n path).log
    _
  dsimp only
  have noDone : ∀ files : List Str, Deed.said (c! "Done") ∉
      ([.said (c! "The following files have issues:"), .said (indented files), .asked question] : List (Deed P)) := by
    intro files hm
    simp only [List.mem_cons, Deed.said.injEq, List.not_mem_nil, or_false, reduceCtorEq] at hm
    rcases hm with hm | hm
    · exact absurd hm (by decide)
    · unfold indented at hm
      split at hm <;> simp at hm
  rcases mutatorTalk_cases title filesOf issuesOf ps tmps u g env n answer path o k d with
    ⟨ds, k', e, hr, hd, -⟩ | ⟨st, -, r, ha, hr, hs⟩
  · exfalso
    rw [hr] at h
    have := hd.subset h
    simp only [List.mem_cons, Deed.said.injEq, List.not_mem_nil, or_false] at this
    rcases this with h | h
    · exact ht h.symm
    · exact absurd h (by decide)
  · rw [hr] at h ⊢
    dsimp only at h ⊢
    have h : Deed.said (c! "Done") ∈ r.deeds := by
      rcases List.mem_append.1 h with h | h
      · exfalso
        rcases List.mem_append.1 h with h | h
        · simp only [List.mem_cons, Deed.said.injEq, List.not_mem_nil, or_false] at h
          rcases h with h | h
          · exact ht h.symm
          · exact absurd h (by decide)
        · cases ho : o.fail (k + 3) with
          | none => simp [ho] at h
          | some e => simp [ho] at h
      · exact h
    clear hr hs
    cases ha with
    | stopped ds k2 e h2 hq => exact absurd (h2.subset h) (noDone _)
    | nothing k2 h2 => simp at h
    | refused k2 h2 a ha hy =>
      exfalso
      have : Deed.said (c! "Done") ∈ ([.said (c! "The following files have issues:"),
          .said (indented (filesOf (readDialplan (fun p => nodeContent (d.stat ps p)) env n path).log)), .asked question] ++
          [.said (c! "Aborted.")] : List (Deed P)) := h
      rcases List.mem_append.1 this with h | h
      · exact noDone _ h
      · simp at h
    | failed k2 k3 h2 ha e =>
      exfalso
      rcases List.mem_append.1 h with h | h
      · exact noDone _ h
      · obtain ⟨names, rest, b1, -⟩ := (rewriting_all ps tmps u g
          (issuesOf (readDialplan (fun p => nodeContent (d.stat ps p)) env n path).log)
          (filesOf (readDialplan (fun p => nodeContent (d.stat ps p)) env n path).log) o k2 d).lines
        have hm := said_screen h
        rw [b1] at hm
        obtain ⟨name, -, hn⟩ := List.mem_map.1 hm
        simp [overwriting] at hn
    | done k2 k3 h2 ha hv =>
      obtain ⟨names, rest, b1, begun, b2, b3, b4⟩ := (rewriting_all ps tmps u g
          (issuesOf (readDialplan (fun p => nodeContent (d.stat ps p)) env n path).log)
          (filesOf (readDialplan (fun p => nodeContent (d.stat ps p)) env n path).log) o k2 d).lines
      have hr := b4 hv
      subst hr
      rw [List.append_nil] at b2
      have he := allTalk_effect ps tmps u g (issuesOf (readDialplan (fun p => nodeContent (d.stat ps p)) env n path).log)
        (filesOf (readDialplan (fun p => nodeContent (d.stat ps p)) env n path).log) o k2 d
      refine ⟨rfl, ?_, ⟨names, b2 ▸ b3, fun name hn => ?_⟩, k2, ?_, he.1⟩
      · rw [← List.append_assoc, ← List.append_assoc]
        exact List.getLast?_concat
      · refine List.mem_append_right _ (List.mem_append_right _ (List.mem_append_left _ (screen_subset ?_)))
        rw [b1]
        exact List.mem_map.2 ⟨name, hn, rfl⟩
      · exact he.2.2.symm.trans hv

omit [DecidableEq P] in
/-- C99 for make_patterns_canonical: the files shown are those with hints, each once, sorted. -/
theorem C99_listed (ps : Paths P) (env : DEnv) (n : Nat) (path : Str) (d : Disk P) (st : DState)
    (h : (readDialplan (filesOn ps d) env n path).val = .ok (.ok st)) :
    (canonFiles (readDialplan (filesOn ps d) env n path).log).Pairwise (· < ·) ∧
    ∀ f, f ∈ canonFiles (readDialplan (filesOn ps d) env n path).log ↔ HasHint (readDialplan (filesOn ps d) env n path).log f := by
  obtain ⟨content, t, told, es, hr⟩ := readDialplan_all h
  constructor
  · have h1 : Ascending strLt (canonFiles (readDialplan (filesOn ps d) env n path).log) := sortBy_ascending strLt_weak _
    have h2 : (canonFiles (readDialplan (filesOn ps d) env n path).log).Nodup := by
      unfold canonFiles
      rw [nodup_sortBy]
      exact nodup_eraseDups _ _ rfl
    unfold Ascending at h1
    refine (h1.and h2).imp fun {a b} hab => ?_
    rw [← strLt_lt]
    cases hlt : strLt a b with
    | true => rfl
    | false => exact absurd (strLt_ext _ _ hlt hab.1) hab.2
  · intro f
    unfold canonFiles
    rw [mem_sortBy, List.mem_eraseDups]
    constructor
    · intro hf
      obtain ⟨m, hm, rfl⟩ := List.mem_map.1 hf
      obtain ⟨h1, h2⟩ := List.mem_filter.1 hm
      have hk : isHint m = true := by
        unfold canonIssue at h2
        split at h2
        · rename_i hk; simp [isHint, hk]
        · cases h2
      obtain ⟨v, pat, rest, vals, ms, g1, g2, g3, rfl⟩ := hr.hint (List.mem_filter.2 ⟨h1, hk⟩)
      have hpos := expand_lineno hr.tree _ g2
      exact ⟨v.at_.lineno.toNat, pat, Pattern.canonical vals, _, h1, rfl, rfl, by
        show v.at_.lineno = _
        omega, rfl⟩
    · rintro ⟨k, pat, expected, m, hm, h1, h2, h3, h4⟩
      refine List.mem_map.2 ⟨m, List.mem_filter.2 ⟨hm, ?_⟩, h2⟩
      unfold canonIssue
      rw [if_pos h1, h4]
      rfl

/-- C99: with a `y` make_patterns_canonical does to the disk what is told of it in C97, otherwise what is
told there for a no. -/
theorem C99_effect (ps : Paths P) (tmps : Str → P) (u g : Nat) (env : DEnv) (n : Nat) (answer : Option Str) (path : Str)
    (o : Oracle) (k : Nat) (d : Disk P) (ho : ∀ j, o.fail j = none) :
    ∃ k', (canonTalk ps tmps u g env n answer path o k d).disk =
      (canonProgram ps tmps u g env n (decide (answer = some (c! "y"))) path o k' d).disk := by
  by_cases ha : answer = some (c! "y")
  · unfold canonTalk
    rcases mutatorTalk_cases (c! "Making dialplan patterns into canonical form.") canonFiles canonIssues ps tmps u g env n answer
      path o k d with ⟨ds, k', e, hr, hd, hno⟩ | ⟨st, hst, r, hk, hr, hs⟩
    · refine ⟨0, ?_⟩
      rw [hr]
      unfold canonProgram
      dsimp only
      split
      · rename_i st' hst
        exact absurd hst (hno ho _)
      · rfl
    · rw [hr]
      simp only [ha, decide_true]
      unfold canonProgram
      dsimp only
      rw [hst]
      dsimp only
      unfold askAndProcess
      clear hr hs
      cases hk with
      | stopped ds k2 e h2 hq =>
        obtain ⟨-, hq, -⟩ := hq ho
        rw [hq] at ha; cases ha
      | nothing k2 h2 => exact ⟨0, by rw [h2]; rfl⟩
      | refused k2 h2 a ha' hy => rw [ha] at ha'; cases ha'; exact absurd rfl hy
      | failed k2 k3 h2 ha' e =>
        refine ⟨k2, ?_⟩
        rw [if_neg (by simpa using h2), if_pos rfl]
        exact (allTalk_effect ps tmps u g _ _ o k2 d).1
      | done k2 k3 h2 ha' hv =>
        refine ⟨k2, ?_⟩
        rw [if_neg (by simpa using h2), if_pos rfl]
        exact (allTalk_effect ps tmps u g _ _ o k2 d).1
  · refine ⟨0, ?_⟩
    rw [(C97_untouched ps tmps u g env n _ path o 0 d (.inl (decide_eq_false ha))).2.1]
    funext p
    exact (C99_refused _ _ _ ps tmps u g env n answer path o k d ha).2 p

/-! ## A case -/

/-- The dialplan in two files of C97: what is on the screen for an answer. -/
def twoFilesTalk (answer : Option Str) : TalkRun Str Unit :=
  canonTalk demoPaths (fun f => f ++ c! "tmp") 0 0 demoEnv 99 answer (c! "f") lucky 0 twoFiles

def shownTexts {P : Type} (ds : List (Deed P)) : List Str :=
  ds.filterMap fun x => match x with
    | .said t => some t
    | .asked t => some t
    | .disk _ => none

example : shownTexts (twoFilesTalk (some (c! "y"))).deeds =
    [c! "Making dialplan patterns into canonical form.", c! "Parsing current config...", [],
      c! "The following files have issues:", c! "  f\n  g", c! "Update all [y/n] ? ",
      c! "Overwriting f ...", c! "Overwriting g ...", c! "Done"] ∧
    shownTexts (twoFilesTalk (some (c! "Y"))).deeds =
    [c! "Making dialplan patterns into canonical form.", c! "Parsing current config...", [],
      c! "The following files have issues:", c! "  f\n  g", c! "Update all [y/n] ? ", c! "Aborted."] ∧
    (twoFilesTalk none).val = .error .error ∧
    contentAt demoPaths (twoFilesTalk (some (c! "y"))).disk (c! "g") =
      some (utf8 (c! "exten => _ZX,1,NoOp()\n same => n,NoOp(_[1-9]X)\n")) ∧
    contentAt demoPaths (twoFilesTalk (some (c! "Y"))).disk (c! "g") = contentAt demoPaths twoFiles (c! "g") := by
  decide +kernel

end ALint.Props
