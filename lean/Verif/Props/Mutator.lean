import Verif.Proofs.Mutator
import Verif.Spec.Mutator
import Verif.Props.Reader

/-!
# C61, C62: rewriting files in place
-/

namespace ALint.Props
open ALint ALint.Spec

variable {P : Type} [DecidableEq P]

/-! ## Examples -/

/-- Paths as entries: plain names in the current directory, and names in `d/`. -/
def demoPaths : Paths Str where
  name := id
  follow := fun p t => if (c! "d/").isPrefixOf p then c! "d/" ++ t else t

/-- Doubling a line. -/
def doubled (k : Int) : Issue := ⟨k, fun line => ([line, line], none)⟩

/-- `a` is a file of three lines, `l` a link to it, `d/l` a link to `d/b`. -/
def demoDisk : Disk Str := fun p =>
  if p = c! "a" then some (.file [97, 10, 98, 10, 99] 1 2 0o644)
  else if p = c! "l" then some (.link (c! "a"))
  else if p = c! "d/l" then some (.link (c! "b"))
  else if p = c! "d/b" then some (.file [100, 10] 1 2 0o640)
  else if p = c! "b" then some (.file [101, 10] 1 2 0o600)
  else none

def lucky : Oracle := ⟨fun _ => none, fun _ => 0⟩

def demoRun (o : Oracle) (path : Str) (issues : List Issue) : Run Str Unit :=
  processFile demoPaths (c! "tmp") 0 0 path issues o 0 demoDisk

/-! ## The content written -/

theorem find_skip {issues : List Issue} {i : Issue} {k : Int} (h : i.lineno ≠ k) :
    (i :: issues).find? (fun i => i.lineno == k) = issues.find? (fun i => i.lineno == k) := by
  rw [List.find?_cons]
  have : (i.lineno == k) = false := by simpa using h
  rw [this]

theorem mutated_spec (lines : List Bytes) : ∀ (k : Nat) (todo : List Issue),
    (∀ i ∈ todo, (k : Int) ≤ i.lineno) → List.Pairwise (fun i j => i.lineno < j.lineno) todo →
    (mutated k todo lines).1 = lines.mapIdx (fun n line =>
      match todo.find? (fun i => i.lineno == ((k + n : Nat) : Int)) with
      | some i => (i.out line).1.flatten
      | none => line) ∧
    ((mutated k todo lines).2 = true ↔ ∀ i ∈ todo, ∀ (n : Nat) line, lines[n]? = some line →
      i.lineno = ((k + n : Nat) : Int) → (i.out line).2 = none) := by
  induction lines with
  | nil => intro k todo _ _; simp [mutated]
  | cons line lines ih =>
    intro k todo hk ho
    cases todo with
    | nil =>
      have := ih (k + 1) [] (by simp) (by simp)
      refine ⟨?_, by simpa [mutated] using this.2⟩
      rw [show ((k + 1 : Nat) : Int) = (k : Int) + 1 from by omega] at this
      rw [mutated]
      simp only [this.1, List.find?_nil]
      simp
    | cons i rest =>
      have hc : ∀ n : Nat, ((k + (n + 1) : Nat) : Int) = ((k + 1 + n : Nat) : Int) := fun n => by omega
      rw [mutated]
      by_cases hi : (k : Int) = i.lineno
      · rw [if_pos hi]
        dsimp only
        rw [List.pairwise_cons] at ho
        obtain ⟨h1, h2⟩ := ih (k + 1) rest (fun j hj => by have := ho.1 j hj; omega) ho.2
        rw [show ((k + 1 : Nat) : Int) = (k : Int) + 1 from by omega] at h1 h2
        rw [h1]
        constructor
        · rw [List.mapIdx_cons]
          congr 1
          · have : (i.lineno == ((k + 0 : Nat) : Int)) = true := by simp [hi]
            rw [List.find?_cons, this]
          · apply List.mapIdx_eq_mapIdx_iff.2
            intro n hn
            rw [find_skip (by omega), hc]
        · rw [Bool.and_eq_true, h2, Option.isNone_iff_eq_none]
          constructor
          · rintro ⟨g1, g2⟩ j hj n l hl hln
            cases n with
            | zero =>
              simp only [List.getElem?_cons_zero, Option.some.injEq] at hl
              subst hl
              rcases List.mem_cons.1 hj with rfl | hj
              · exact g1
              · have := ho.1 j hj; omega
            | succ n =>
              rcases List.mem_cons.1 hj with rfl | hj
              · omega
              · exact g2 j hj n l (by simpa using hl) (by omega)
          · intro g
            refine ⟨g i (by simp) 0 line (by simp) (by omega), fun j hj n l hl hln => ?_⟩
            exact g j (by simp [hj]) (n + 1) l (by simpa using hl) (by omega)
      · rw [if_neg hi]
        dsimp only
        have hk' : ∀ j ∈ i :: rest, ((k + 1 : Nat) : Int) ≤ j.lineno := by
          intro j hj
          rcases List.mem_cons.1 hj with rfl | hj'
          · have := hk j (by simp); omega
          · rw [List.pairwise_cons] at ho
            have := ho.1 j hj'
            have := hk i (by simp)
            omega
        obtain ⟨h1, h2⟩ := ih (k + 1) (i :: rest) hk' ho
        rw [show ((k + 1 : Nat) : Int) = (k : Int) + 1 from by omega] at h1 h2
        rw [h1]
        constructor
        · rw [List.mapIdx_cons]
          congr 1
          · have : (i :: rest).find? (fun i => i.lineno == ((k + 0 : Nat) : Int)) = none := by
              rw [List.find?_eq_none]
              intro j hj
              have := hk' j hj
              simp only [beq_iff_eq]
              omega
            rw [this]
          · apply List.mapIdx_eq_mapIdx_iff.2
            intro n hn
            rw [hc]
        · rw [h2]
          constructor
          · intro g j hj n l hl hln
            cases n with
            | zero => have := hk' j hj; omega
            | succ n => exact g j hj n l (by simpa using hl) (by omega)
          · intro g j hj n l hl hln
            exact g j hj (n + 1) l (by simpa using hl) (by omega)

theorem mutated_increasing {issues : List Issue} (h : Increasing issues) (lines : List Bytes) :
    (mutated 0 issues lines).1 = replaced issues lines ∧
      ((mutated 0 issues lines).2 = true ↔ NoneRaises issues lines) := by
  have := mutated_spec lines 0 issues (fun i hi => h.start i hi) h.order
  simp only [Nat.zero_add] at this
  exact this

/-! ## C61 -/

/-- C61: when a rewrite for issues on strictly increasing lines ends well, the path leads to a
file with exactly the lines of the issues replaced, of the same owner, group and mode; nothing
else on the disk has changed, and no temporary file is left.  (Proviso: the path is not a link
whose text means another entry from the current directory.) -/
theorem C61_rewrite_partial (ps : Paths P) (tmp : P) (u g : Nat) (path : Str) (issues : List Issue)
    (o : Oracle) (n : Nat) (d : Disk P) (c : Bytes) (ls : List Bytes) (u' g' m' : Nat)
    (hf : d.stat ps path = some (.file c u' g' m')) (hl : LinesOf c ls) (hi : Increasing issues)
    (hd : Direct ps d path)
    (hok : (processFile ps tmp u g path issues o n d).val = .ok ()) :
    let d' := (processFile ps tmp u g path issues o n d).disk
    d'.stat ps path = some (.file (replaced issues ls).flatten u' g' m') ∧
      NoneRaises issues ls ∧ d tmp = none ∧ d' tmp = none ∧
      ∃ t, (t = path ∨ d (ps.name path) = some (.link t)) ∧ ∀ p, p ≠ ps.name t → d' p = d p := by
  have hls : physLines c = ls := C01_unique c _ _ ⟨physLines_flatten _, fun l h => (physLines_line _ l h).1,
    fun l h => (physLines_line _ l h).2, physLines_lf _⟩ hl
  obtain ⟨tr, _, _, ht, hne, dst, hdst, hall⟩ := (ends_file ps tmp u g path issues o n d).2 hok
  obtain ⟨h1, h2⟩ := hall c u' g' m' hf
  obtain ⟨m1, m2⟩ := mutated_increasing hi (physLines c)
  rw [hls] at m1 m2 h1 h2
  rw [m1] at h2
  dsimp only
  rw [h2]
  have hpt : ps.name path ≠ tmp := by
    intro he
    rw [Disk.stat, Disk.followed, he, ht] at hf
    simp at hf
  have hdst' : dst = path ∨ d (ps.name path) = some (.link dst) := by
    rcases hdst with h | h
    · exact .inl h
    · unfold diskName at h
      split at h
      · rename_i t he; exact .inr (by rw [h, he])
      · exact .inl h
  have htt : tmp ≠ ps.name dst := by
    intro he
    rcases hdst' with rfl | hl
    · exact hpt he.symm
    · rw [Disk.stat, Disk.followed, hl] at hf
      dsimp only at hf
      rw [hd dst hl, Disk.followed, ← he, ht] at hf
      simp at hf
  refine ⟨?_, m2.1 h1, ht, by simp [htt], dst, hdst', fun p hp => ?_⟩
  · by_cases hp : ps.name path = ps.name dst
    · rw [Disk.stat, Disk.followed]
      simp [hp]
    · rcases hdst' with rfl | hl
      · exact absurd rfl hp
      · rw [Disk.stat, Disk.followed]
        simp only [hp, hpt, if_false, hl]
        rw [hd dst hl, Disk.followed]
        simp
  · dsimp only
    rw [if_neg hp]
    by_cases h : p = tmp
    · rw [if_pos h, h, ht]
    · rw [if_neg h]

/-- The second line doubled, through a link. -/
example : (demoRun lucky (c! "l") [doubled 1]).val = .ok () ∧
    (demoRun lucky (c! "l") [doubled 1]).disk (c! "a") = some (.file [97, 10, 98, 10, 98, 10, 99] 1 2 0o644) ∧
    Increasing [doubled 1] ∧ replaced [doubled 1] [[97, 10], [98, 10], [99]] = [[97, 10], [98, 10, 98, 10], [99]] := by
  refine ⟨by decide, by decide, ⟨by simp [doubled], by simp⟩, by decide⟩

/-- C61 is violated: for a link in another directory with a relative text, the file it leads to
stays as it was, and another file is overwritten. -/
theorem C61_violated_link : (demoRun lucky (c! "d/l") [doubled 0]).val = .ok () ∧
    contentAt demoPaths demoDisk (c! "d/l") = some [100, 10] ∧
    contentAt demoPaths (demoRun lucky (c! "d/l") [doubled 0]).disk (c! "d/l") = some [100, 10] ∧
    contentAt demoPaths demoDisk (c! "b") = some [101, 10] ∧
    contentAt demoPaths (demoRun lucky (c! "d/l") [doubled 0]).disk (c! "b") = some [100, 10, 100, 10] := by
  decide

/-- Issues on lines that do not increase are not all applied (which C61 does not ask for). -/
example : (demoRun lucky (c! "a") [doubled 1, doubled 0]).disk (c! "a") =
    some (.file [97, 10, 98, 10, 98, 10, 99] 1 2 0o644) := by decide

/-- Without faults a rewrite of a file ends well, provided the rewriters do not raise. -/
theorem C61_ends (ps : Paths P) (tmp : P) (u g : Nat) (path : Str) (issues : List Issue) (n : Nat) (d : Disk P)
    (o : Oracle) (c : Bytes) (ls : List Bytes) (u' g' m' : Nat)
    (hf : d.stat ps path = some (.file c u' g' m')) (hl : LinesOf c ls) (hi : Increasing issues) (hne : issues ≠ [])
    (hr : NoneRaises issues ls) (ht : d tmp = none) (ho : ∀ k, o.fail k = none) :
    (processFile ps tmp u g path issues o n d).val = .ok () := by
  have hls : physLines c = ls := C01_unique c _ _ ⟨physLines_flatten _, fun l h => (physLines_line _ l h).1,
    fun l h => (physLines_line _ l h).2, physLines_lf _⟩ hl
  exact ok_file ps tmp u g path ho n hf hne ((mutated_increasing hi _).2.2 (by rw [hls]; exact hr)) ht

/-! ## C62 -/

/-- C62: whatever fails and whenever the process is killed, the path leads to a file with its
old content, owner, group and mode or to one with the new content; the new content depends on
the old one and the issues only. -/
theorem C62_old_or_new (ps : Paths P) (tmp : P) (path : Str) (issues : List Issue) (d : Disk P)
    (c : Bytes) (u' g' m' : Nat) (hf : d.stat ps path = some (.file c u' g' m')) :
    ∃ new, (∀ ls, LinesOf c ls → Increasing issues → new = (replaced issues ls).flatten) ∧
      ∀ u g o n, ∀ d' ∈ (processFile ps tmp u g path issues o n d).trace,
        d'.stat ps path = some (.file c u' g' m') ∨ d'.stat ps path = some (.file new u' g' m') := by
  refine ⟨(mutated 0 issues (physLines c)).1.flatten, fun ls hl hi => ?_, fun u g o n d' hd' => ?_⟩
  · have hls : physLines c = ls := C01_unique c _ _ ⟨physLines_flatten _, fun l h => (physLines_line _ l h).1,
      fun l h => (physLines_line _ l h).2, physLines_lf _⟩ hl
    rw [← hls, (mutated_increasing hi (physLines c)).1]
  · have ht : ∀ e, Off tmp d e → d tmp = none → e.stat ps path = some (.file c u' g' m') := fun e he h =>
      followed_off h he _ _ _ hf
    cases ht0 : d tmp with
    | some x =>
      rw [processFile_taken ht0] at hd'
      simp at hd'
    | none =>
      cases hv : (processFile ps tmp u g path issues o n d).val with
      | error h =>
        exact .inl (ht d' (((ends_file ps tmp u g path issues o n d).1 h hv).1 d' hd') ht0)
      | ok _ =>
        obtain ⟨tr, h1, h2, _, hne, dst, hdst, hall⟩ := (ends_file ps tmp u g path issues o n d).2 hv
        rw [h1] at hd'
        rcases List.mem_append.1 hd' with hd' | hd'
        · exact .inl (ht d' (h2 d' hd') ht0)
        · simp only [List.mem_singleton] at hd'
          obtain ⟨_, h3⟩ := hall c u' g' m' hf
          rw [hd', h3]
          exact followed_new ht0 ⟨_, _, _, _, rfl⟩ _ _ _ hf

/-- C62: a rewrite that does not end well has changed nothing at any time, but for the
temporary file. -/
theorem C62_failed (ps : Paths P) (tmp : P) (u g : Nat) (path : Str) (issues : List Issue)
    (o : Oracle) (n : Nat) (d : Disk P) (h : Halt)
    (hv : (processFile ps tmp u g path issues o n d).val = .error h) :
    ∀ d' ∈ (processFile ps tmp u g path issues o n d).trace, ∀ p, p ≠ tmp → d' p = d p :=
  ((ends_file ps tmp u g path issues o n d).1 h hv).1

/-- C62 for several files: they are rewritten one after the other; at any time all files before
some point have been rewritten completely, the one there is being rewritten (see above), and
the ones after it have not been begun. -/
theorem C62_sequence (ps : Paths P) (u g : Nat) (files : List (Str × P × List Issue)) :
    ∀ (o : Oracle) (n : Nat) (d : Disk P), ∀ d' ∈ (processAll ps u g files o n d).trace,
      ∃ before path tmp issues after, files = before ++ (path, tmp, issues) :: after ∧
        (processAll ps u g before o n d).val = .ok () ∧
        d' ∈ (processFile ps tmp u g path issues o (processAll ps u g before o n d).steps
          (processAll ps u g before o n d).disk).trace := by
  induction files with
  | nil => intro o n d d' h; simp [processAll, Sys.pure] at h
  | cons f files ih =>
    obtain ⟨path, tmp, issues⟩ := f
    intro o n d d' h
    rw [processAll, Sys.bind] at h
    dsimp only at h
    cases hv : (processFile ps tmp u g path issues o n d).val with
    | error e =>
      rw [hv] at h
      exact ⟨[], path, tmp, issues, files, rfl, rfl, h⟩
    | ok a =>
      rw [hv] at h
      rcases List.mem_append.1 h with h | h
      · exact ⟨[], path, tmp, issues, files, rfl, rfl, h⟩
      · obtain ⟨before, path', tmp', issues', after, h1, h2, h3⟩ := ih _ _ _ d' h
        have hd : (processAll ps u g ((path, tmp, issues) :: before) o n d).disk =
            (processAll ps u g before o (processFile ps tmp u g path issues o n d).steps
              (processFile ps tmp u g path issues o n d).disk).disk := by
          rw [processAll, Sys.bind]; dsimp only; rw [hv]
        have hs : (processAll ps u g ((path, tmp, issues) :: before) o n d).steps =
            (processAll ps u g before o (processFile ps tmp u g path issues o n d).steps
              (processFile ps tmp u g path issues o n d).disk).steps := by
          rw [processAll, Sys.bind]; dsimp only; rw [hv]
        refine ⟨(path, tmp, issues) :: before, path', tmp', issues', after, by rw [h1]; rfl, ?_, ?_⟩
        · rw [processAll, Sys.bind]; dsimp only; rw [hv]; exact h2
        · rw [hd, hs]; exact h3

/-- Two files; killed in the second. -/
example :
    let r := processAll demoPaths 0 0 [(c! "a", c! "t1", [doubled 0]), (c! "b", c! "t2", [doubled 0])]
      ⟨fun k => if k = 24 then some .error else none, fun _ => 3⟩ 0 demoDisk
    r.val = .error .error ∧ contentAt demoPaths r.disk (c! "a") = some [97, 10, 97, 10, 98, 10, 99] ∧
      contentAt demoPaths r.disk (c! "b") = some [101, 10] := by
  decide

/-- A failure in the middle, and one at the last step: the temporary file is left behind. -/
example :
    (demoRun ⟨fun k => if k = 5 then some .error else none, fun _ => 3⟩ (c! "a") [doubled 1]).val = .error .error ∧
    (demoRun ⟨fun k => if k = 5 then some .error else none, fun _ => 3⟩ (c! "a") [doubled 1]).disk (c! "tmp") = none ∧
    (demoRun ⟨fun k => if k = 17 then some .error else none, fun _ => 3⟩ (c! "a") [doubled 1]).val = .error .error ∧
    (demoRun ⟨fun k => if k = 17 then some .error else none, fun _ => 3⟩ (c! "a") [doubled 1]).disk (c! "tmp") =
      some (.file [97, 10, 98, 10, 98, 10, 99] 1 2 0o644) := by
  decide

end ALint.Props
