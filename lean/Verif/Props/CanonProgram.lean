import Verif.Proofs.CanonDisk
import Verif.Props.Canon

/-!
# Making the patterns of a dialplan canonical, from beginning to end (C97)
-/

namespace ALint.Props
open ALint ALint.Spec

/-- The files as seen when reading. -/
def filesOn {P : Type} (ps : Paths P) (d : Disk P) : FS := fun p => nodeContent (d.stat ps p)

/-- A dialplan that is read to the end is read from certain files. -/
theorem C97_files (fs : FS) (env : DEnv) (n : Nat) (path : Str) (st : DState)
    (h : (readDialplan fs env n path).val = .ok (.ok st)) :
    ∃ names, FilesRead fs path names ∧ ∀ names', FilesRead fs path names' → names' = names := by
  obtain ⟨content, t, told, es, hr⟩ := readDialplan_all h
  refine ⟨path :: t.files, ⟨content, t, hr.root, rfl, hr.anyInc⟩, ?_⟩
  rintro names' ⟨c', t', h1, rfl, h2⟩
  have hc := hr.root
  rw [h1] at hc
  cases hc
  rw [C02_unique fs opens path 0 _ _ _ (h2 _ (C96_knows fs).1) hr.tree]

theorem lined_of {fs : FS} {env : DEnv} {n : Nat} {path : Str} {st : DState} {names : List Str}
    (h : (readDialplan fs env n path).val = .ok (.ok st)) (hn : FilesRead fs path names) (hd : names.Nodup) :
    Lined fs (hintsOf (readDialplan fs env n path).log) := by
  obtain ⟨content, t, told, es, hr⟩ := readDialplan_all h
  obtain ⟨names', -, hu⟩ := C97_files fs env n path st h
  have hnames : names = path :: t.files := by
    rw [hu names hn, hu _ ⟨content, t, hr.root, rfl, hr.anyInc⟩]
  rw [hnames] at hd
  exact ⟨fun m hm => hr.hinted hd hm, hr.order hd⟩

section
variable {P : Type} [DecidableEq P]

omit [DecidableEq P] in
theorem filesOn_sits {ps : Paths P} {d : Disk P} {f : Str} {q : P} {c : Bytes} {u' g' m' : Nat}
    (hq : SitsAt ps d f q) (h : d q = some (.file c u' g' m')) : filesOn ps d f = some c := by
  show nodeContent (d.stat ps f) = _
  rw [hq.stat, h]; rfl

/-- The disk after the program. -/
theorem canonProgram_disk (ps : Paths P) (tmps : Str → P) (u g : Nat) (env : DEnv) (n : Nat) (path : Str)
    (o : Oracle) (k : Nat) (d : Disk P) (st : DState) (log : List Msg)
    (hr : (readDialplan (filesOn ps d) env n path).val = .ok (.ok st))
    (hlog : (readDialplan (filesOn ps d) env n path).log = log)
    (hlined : Lined (filesOn ps d) (hintsOf log))
    (hsits : ∀ f, HasHint log f → ∃ q, SitsAt ps d f q)
    (hapart : ∀ f f' q, HasHint log f → HasHint log f' → SitsAt ps d f q → SitsAt ps d f' q → f = f')
    (ht : ∀ f, HasHint log f → d (tmps f) = none) (ho : ∀ j, o.fail j = none) :
    let r := canonProgram ps tmps u g env n true path o k d
    r.val = .ok () ∧
    (∀ f q, HasHint log f → SitsAt ps d f q → ∀ c u' g' m', d q = some (.file c u' g' m') →
      r.disk q = some (.file (replaced (canonIssues log f) (physLines c)).flatten u' g' m')) ∧
    (∀ p, (∀ f, HasHint log f → ¬ SitsAt ps d f p) → r.disk p = d p) := by
  dsimp only
  have hprog : canonProgram ps tmps u g env n true path o k d =
      askAndProcess ps tmps u g true (canonFiles log) (canonIssues log) o k d := by
    unfold canonProgram
    dsimp only
    change (match (readDialplan (filesOn ps d) env n path).val with
      | .ok (.ok _) => askAndProcess ps tmps u g true (canonFiles (readDialplan (filesOn ps d) env n path).log)
          (canonIssues (readDialplan (filesOn ps d) env n path).log) o k d
      | _ => ⟨[], d, k, .error .error⟩) = _
    rw [hr, hlog]
  have hnd : (canonFiles log).Nodup := by
    unfold canonFiles
    rw [nodup_sortBy]
    exact nodup_eraseDups _ _ rfl
  have hmem := fun f => mem_canonFiles hlined (f := f)
  have hall := processAll_sits (ps := ps) (tmps := tmps) (u := u) (g := g) (issues := canonIssues log) ho
    (canonFiles log) k d
    (fun f hf => by
      obtain ⟨q, hq⟩ := hsits f ((hmem f).1 hf)
      obtain ⟨c, u', g', m', h⟩ := hq.node
      exact ⟨q, c, u', g', m', hq, h, hlined.noneRaises (filesOn_sits hq h)⟩)
    (fun f hf => ⟨hlined.increasing f, canonIssues_ne hlined ((hmem f).1 hf), ht f ((hmem f).1 hf)⟩)
    (by
      rw [List.pairwise_iff_forall_sublist]
      intro a b hab q h1 h2
      have ha := (hmem a).1 (hab.subset (by simp))
      have hb := (hmem b).1 (hab.subset (by simp))
      have := hapart a b q ha hb h1 h2
      subst this
      have := List.pairwise_iff_forall_sublist.1 hnd hab
      exact this rfl)
  have hask : askAndProcess ps tmps u g true (canonFiles log) (canonIssues log) o k d =
      processAll ps u g ((canonFiles log).map fun f => (f, tmps f, canonIssues log f)) o k d := by
    unfold askAndProcess
    cases canonFiles log with
    | nil => rfl
    | cons f fs => rfl
  rw [hprog, hask]
  exact ⟨hall.1, fun f q hf hq c u' g' m' h => hall.2.1 f ((hmem f).2 hf) q c u' g' m' hq h,
    fun p hp => hall.2.2 p fun f hf => hp f ((hmem f).1 hf)⟩

/-- C97: when the dialplan can be read, every file is read once, the files with hints are at entries
of their own, under that name or with a link there whose text also leads to them from the current
directory, nothing fails and the answer is yes, the program ends well.  Every file with hints is
then where it was and has the same number of lines; a line without a hint is as it was, and in a
line with one (there is at most one) the first occurrence behind the `=` of the pattern named by
the hint is replaced by the spelling that the hint expects.  Owners and modes are as before, and
so are all other entries of the disk, links included. -/
theorem C97_rewritten_partial (ps : Paths P) (tmps : Str → P) (u g : Nat) (env : DEnv) (n : Nat) (path : Str)
    (o : Oracle) (k : Nat) (d : Disk P) (st : DState) (names : List Str) (log : List Msg)
    (hr : (readDialplan (filesOn ps d) env n path).val = .ok (.ok st))
    (hlog : (readDialplan (filesOn ps d) env n path).log = log)
    (hn : FilesRead (filesOn ps d) path names) (hd : names.Nodup)
    (hsits : ∀ f, HasHint log f → ∃ q, SitsAt ps d f q)
    (hapart : ∀ f f' q, HasHint log f → HasHint log f' → SitsAt ps d f q → SitsAt ps d f' q → f = f')
    (ht : ∀ f, HasHint log f → d (tmps f) = none) (ho : ∀ j, o.fail j = none) :
    let r := canonProgram ps tmps u g env n true path o k d
    r.val = .ok () ∧
    (∀ f q, HasHint log f → SitsAt ps d f q → ∀ c u' g' m' ls, d q = some (.file c u' g' m') → LinesOf c ls →
      ∃ ls', r.disk q = some (.file ls'.flatten u' g' m') ∧ SitsAt ps r.disk f q ∧ LinesAfter log f ls ls') ∧
    (∀ p, (∀ f, HasHint log f → ¬ SitsAt ps d f p) → r.disk p = d p) ∧
    ∀ f l pat expected pat' expected', HintAt log f l pat expected → HintAt log f l pat' expected' →
      pat = pat' ∧ expected = expected' := by
  have hlined := lined_of hr hn hd
  rw [hlog] at hlined
  obtain ⟨a1, a2, a3⟩ := canonProgram_disk ps tmps u g env n path o k d st log hr hlog hlined hsits hapart ht ho
  refine ⟨a1, ?_, a3, ?_⟩
  · intro f q hf hq c u' g' m' ls h hls
    have hls' : physLines c = ls := C01_unique c _ _ ⟨physLines_flatten _, fun l h => (physLines_line _ l h).1,
      fun l h => (physLines_line _ l h).2, physLines_lf _⟩ hls
    have hnew := a2 f q hf hq c u' g' m' h
    refine ⟨_, hnew, hq.still (fun p hp => a3 p fun f' _ hs => ?_) hnew, ?_⟩
    · obtain ⟨_, _, _, _, hn⟩ := hs.node
      exact hp _ _ _ _ hn
    · rw [← hls']
      exact hlined.after (filesOn_sits hq h)
  · intro f l pat expected pat' expected' h1 h2
    obtain ⟨m, hm, a1, a2, a3⟩ := hintAt_mem.1 h1
    obtain ⟨m', hm', b1, b2, b3⟩ := hintAt_mem.1 h2
    have : m = m' := by
      have hord := hlined.order
      clear hlined
      generalize hintsOf log = l at hord hm hm'
      induction hord with
      | nil => cases hm
      | cons hx _ ih =>
        rcases List.mem_cons.1 hm with e1 | e1 <;> rcases List.mem_cons.1 hm' with e2 | e2
        · rw [e1, e2]
        · subst e1
          have := hx _ e2 (by rw [a1, b1])
          omega
        · subst e2
          have := hx _ e1 (by rw [a1, b1])
          omega
        · exact ih e1 e2
    subst this
    rw [a3] at b3
    simp only [List.cons.injEq, Prod.mk.injEq, Arg.one.injEq, V.str.injEq, true_and, and_true] at b3
    exact b3

/-- C97: the disk is left alone when the answer is no, when there is nothing to do, and when the
dialplan cannot be read. -/
theorem C97_untouched (ps : Paths P) (tmps : Str → P) (u g : Nat) (env : DEnv) (n : Nat) (yes : Bool) (path : Str)
    (o : Oracle) (k : Nat) (d : Disk P)
    (h : yes = false ∨ (∀ f, ¬ HasHint (readDialplan (filesOn ps d) env n path).log f) ∨
      ∀ st, (readDialplan (filesOn ps d) env n path).val ≠ .ok (.ok st)) :
    let r := canonProgram ps tmps u g env n yes path o k d
    r.trace = [] ∧ r.disk = d ∧ (r.val = .ok () ↔ ∃ st, (readDialplan (filesOn ps d) env n path).val = .ok (.ok st)) := by
  dsimp only
  unfold canonProgram
  dsimp only
  change (let r := (match (readDialplan (filesOn ps d) env n path).val with
      | .ok (.ok _) => askAndProcess ps tmps u g yes (canonFiles (readDialplan (filesOn ps d) env n path).log)
          (canonIssues (readDialplan (filesOn ps d) env n path).log) o k d
      | _ => (⟨[], d, k, .error .error⟩ : Run P Unit));
    r.trace = [] ∧ r.disk = d ∧ (r.val = .ok () ↔ ∃ st, (readDialplan (filesOn ps d) env n path).val = .ok (.ok st)))
  cases hv : (readDialplan (filesOn ps d) env n path).val with
  | error e => exact ⟨rfl, rfl, by simp⟩
  | ok x =>
    cases x with
    | error e => exact ⟨rfl, rfl, by simp⟩
    | ok st =>
      dsimp only
      have key : askAndProcess ps tmps u g yes (canonFiles (readDialplan (filesOn ps d) env n path).log)
          (canonIssues (readDialplan (filesOn ps d) env n path).log) = Sys.pure () := by
        unfold askAndProcess
        rcases h with rfl | h | h
        · split <;> rfl
        · have : canonFiles (readDialplan (filesOn ps d) env n path).log = [] := by
            obtain ⟨content, t, told, es, hr⟩ := readDialplan_all hv
            rw [List.eq_nil_iff_forall_not_mem]
            intro f hf
            unfold canonFiles at hf
            rw [mem_sortBy, List.mem_eraseDups] at hf
            obtain ⟨m, hm, rfl⟩ := List.mem_map.1 hf
            obtain ⟨h1, h2⟩ := List.mem_filter.1 hm
            have hk : isHint m = true := by
              unfold canonIssue at h2
              split at h2
              · rename_i hk; simp [isHint, hk]
              · cases h2
            obtain ⟨v, pat, rest, vals, ms, g1, g2, g3, rfl⟩ := hr.hint (List.mem_filter.2 ⟨h1, hk⟩)
            have hpos := expand_lineno hr.tree _ g2
            exact h v.at_.filename ⟨v.at_.lineno.toNat, pat, Pattern.canonical vals, _, h1, rfl, rfl, by
              show v.at_.lineno = _
              omega, rfl⟩
          rw [this]; rfl
        · exact absurd hv (h st)
      rw [key]
      exact ⟨rfl, rfl, by simp [Sys.pure]⟩

end

/-! ## Cases -/

def readsWell (r : Res (Except Stopped DState)) : Bool :=
  match r.val with
  | .ok (.ok _) => true
  | _ => false

theorem readsWell_some {r : Res (Except Stopped DState)} (h : readsWell r = true) : ∃ st, r.val = .ok (.ok st) := by
  unfold readsWell at h
  split at h
  · exact ⟨_, by assumption⟩
  · cases h

/-- A dialplan in two files; there is a third file beside them. -/
def twoFiles : Disk Str := fun p =>
  if p = c! "f" then some (.file (utf8 (c! "[a]\nexten => _[0-9],1,NoOp()\n#include g\nexten => 5,1,NoOp()\n")) 1 2 0o644)
  else if p = c! "g" then some (.file (utf8 (c! "exten => _[1-9]X,1,NoOp()\n same => n,NoOp(_[1-9]X)\n")) 3 4 0o640)
  else if p = c! "h" then some (.file (utf8 (c! "exten => _[1-9]X,1,NoOp()\n")) 3 4 0o640) else none

def twoFilesRun (yes : Bool) (d : Disk Str) : Run Str Unit :=
  canonProgram demoPaths (fun f => f ++ c! "tmp") 0 0 demoEnv 99 yes (c! "f") lucky 0 d

example : readsWell (readDialplan (filesOn demoPaths twoFiles) demoEnv 99 (c! "f")) = true ∧
    (hintsOf (readDialplan (filesOn demoPaths twoFiles) demoEnv 99 (c! "f")).log).map (fun m => (m.at_.filename, m.at_.lineno)) =
      [(c! "f", 2), (c! "g", 1)] ∧
    (twoFilesRun true twoFiles).disk (c! "f") =
      some (.file (utf8 (c! "[a]\nexten => _X,1,NoOp()\n#include g\nexten => 5,1,NoOp()\n")) 1 2 0o644) ∧
    (twoFilesRun true twoFiles).disk (c! "g") =
      some (.file (utf8 (c! "exten => _ZX,1,NoOp()\n same => n,NoOp(_[1-9]X)\n")) 3 4 0o640) ∧
    (twoFilesRun true twoFiles).disk (c! "h") = twoFiles (c! "h") ∧
    (twoFilesRun true twoFiles).disk (c! "ftmp") = none ∧
    (twoFilesRun false twoFiles).disk (c! "f") = twoFiles (c! "f") := by
  decide +kernel

theorem filesRead_of {fs : FS} {env : DEnv} {n : Nat} {path : Str} {st : DState} {content : Bytes} {t : Items}
    (h : (readDialplan fs env n path).val = .ok (.ok st)) (hp : fs path = some content)
    (ht : Expand fs opens path 0 (physLines content) t) : FilesRead fs path (path :: t.files) := by
  obtain ⟨content', t', told, es, hr⟩ := readDialplan_all h
  have hc := hr.root
  rw [hp] at hc
  cases hc
  rw [C02_unique fs opens path 0 _ _ _ ht hr.tree]
  exact ⟨content, t', hp, rfl, hr.anyInc⟩

/-- The hypotheses in this case. -/
example : ∃ st, (readDialplan (filesOn demoPaths twoFiles) demoEnv 99 (c! "f")).val = .ok (.ok st) ∧
    FilesRead (filesOn demoPaths twoFiles) (c! "f") [c! "f", c! "g"] := by
  obtain ⟨st, h⟩ := readsWell_some (r := readDialplan (filesOn demoPaths twoFiles) demoEnv 99 (c! "f")) (by decide +kernel)
  refine ⟨st, h, ?_⟩
  have ht : ∃ w1 w2 w3 w4 w5 w6, Expand (filesOn demoPaths twoFiles) opens (c! "f") 0
      (physLines (utf8 (c! "[a]\nexten => _[0-9],1,NoOp()\n#include g\nexten => 5,1,NoOp()\n")))
      (.line w1 <| .line w2 <| .incl w3 (c! "g") (.line w4 <| .line w5 .nil) <| .line w6 .nil) :=
    ⟨_, _, _, _, _, _, .line (by decide +kernel) (.line (by decide +kernel)
      (.incl (c := utf8 (c! "exten => _[1-9]X,1,NoOp()\n same => n,NoOp(_[1-9]X)\n")) (by decide +kernel)
        (.line (by decide +kernel) (.line (by decide +kernel) .nil)) (.line (by decide +kernel) .nil)))⟩
  obtain ⟨w1, w2, w3, w4, w5, w6, ht⟩ := ht
  exact filesRead_of h rfl ht

/-! ## When a file is read more than once -/

/-- A file included twice, the first time while there is no context yet. -/
def twiceDisk : Disk Str := fun p =>
  if p = c! "f" then some (.file (utf8 (c! "#include g\n#include g\n")) 1 2 0o644)
  else if p = c! "g" then some (.file (utf8 (c! "exten => _[0-9],1,NoOp()\n[b]\nexten => _[1-9]X,1,NoOp()\n")) 3 4 0o640)
  else none

/-- That every file be read once is needed: a file that is included twice may keep lines with hints. -/
theorem C97_violated_twice : readsWell (readDialplan (filesOn demoPaths twiceDisk) demoEnv 99 (c! "f")) = true ∧
    (hintsOf (readDialplan (filesOn demoPaths twiceDisk) demoEnv 99 (c! "f")).log).map (fun m => (m.at_.filename, m.at_.lineno)) =
      [(c! "g", 3), (c! "g", 1), (c! "g", 3)] ∧
    (twoFilesRun true twiceDisk).val = .ok () ∧
    contentAt demoPaths (twoFilesRun true twiceDisk).disk (c! "g") =
      some (utf8 (c! "exten => _[0-9],1,NoOp()\n[b]\nexten => _ZX,1,NoOp()\n")) := by
  decide +kernel

/-- `./g` is `g`. -/
def dotPaths : Paths Str where
  name := fun s => if s = c! "./g" then c! "g" else s
  follow := fun _ s => s

def dotDisk : Disk Str := fun p =>
  if p = c! "f" then some (.file (utf8 (c! "[a]\n#include g\n[b]\n#include ./g\n")) 1 2 0o644)
  else if p = c! "g" then some (.file (utf8 (c! "exten => _z,1,NoOp(_z)\n")) 3 4 0o640)
  else none

/-- That the files with hints be at entries of their own is needed: when a file goes by two names,
more than the pattern is replaced. -/
theorem C97_violated_names : readsWell (readDialplan (filesOn dotPaths dotDisk) demoEnv 99 (c! "f")) = true ∧
    (hintsOf (readDialplan (filesOn dotPaths dotDisk) demoEnv 99 (c! "f")).log).map (fun m => (m.at_.filename, m.at_.lineno)) =
      [(c! "g", 1), (c! "./g", 1)] ∧
    (canonProgram dotPaths (fun f => f ++ c! "tmp") 0 0 demoEnv 99 true (c! "f") lucky 0 dotDisk).val = .ok () ∧
    contentAt dotPaths (canonProgram dotPaths (fun f => f ++ c! "tmp") 0 0 demoEnv 99 true (c! "f") lucky 0 dotDisk).disk
      (c! "g") = some (utf8 (c! "exten => _Z,1,NoOp(_Z)\n")) := by
  decide +kernel

end ALint.Props
