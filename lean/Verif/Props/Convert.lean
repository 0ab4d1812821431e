import Verif.Model.Convert
import Verif.Proofs.Calm
import Verif.Proofs.Sort
import Verif.Props.Mutator
import Verif.Props.Cond
import Verif.Props.Registry

/-!
# C89: converting old-style conditions in place
-/

namespace ALint.Props
open ALint ALint.Spec

variable {P : Type} [DecidableEq P]

/-! ## Issues -/

theorem convertIssue_some {m : Msg} {i : Issue} (h : convertIssue m = some i) :
    m.kind = .E_APP_ARG_IFSTYLE ∧ i.lineno = m.at_.lineno - 1 ∧
      ∃ app data cond args, m.args.lookup (c! "app") = some (strV app) ∧ i.out = convertOut app data cond args := by
  unfold convertIssue at h
  split at h
  · rename_i hk
    split at h
    · rename_i app data cond args h1 _ _ _
      simp only [Option.some.injEq] at h
      subst h
      exact ⟨hk, rfl, app, data, cond, args, h1, rfl⟩
    · simp at h
  · simp at h

/-- An issue about anything but `ExecIf` raises. -/
theorem convertIssue_raises {m : Msg} {i : Issue} (hm : CalmMsg m) (h : convertIssue m = some i) (line : Bytes) :
    i.out line = ([], some .error) := by
  obtain ⟨hk, _, app, data, cond, args, h1, h2⟩ := convertIssue_some h
  have := hm hk
  rw [h1] at this
  have ha : app ≠ c! "ExecIf" := fun e => this (by rw [e])
  rw [h2, convertOut, if_neg ha]

theorem convertIssues_mem {log : List Msg} {f : Str} {i : Issue} (h : i ∈ convertIssues log f) :
    ∃ m ∈ log, m.at_.filename = f ∧ convertIssue m = some i := by
  unfold convertIssues at h
  obtain ⟨m, hm, h2⟩ := List.mem_filterMap.1 h
  obtain ⟨h3, h4⟩ := List.mem_filter.1 hm
  exact ⟨m, h3, by simpa using h4, h2⟩

theorem convertFiles_mem {log : List Msg} {f : Str} (h : f ∈ convertFiles log) : convertIssues log f ≠ [] := by
  unfold convertFiles at h
  have h1 := List.mem_eraseDups.1 (mem_sortBy.1 h)
  obtain ⟨m, hm, rfl⟩ := List.mem_map.1 h1
  obtain ⟨h2, h3⟩ := List.mem_filter.1 hm
  obtain ⟨i, hi⟩ := Option.isSome_iff_exists.1 h3
  intro he
  have : i ∈ convertIssues log m.at_.filename :=
    List.mem_filterMap.2 ⟨m, List.mem_filter.2 ⟨h2, by simp⟩, hi⟩
  rw [he] at this
  simp at this

/-- When the first issue is about an existing line and raises, the rewrite does. -/
theorem mutated_raises (i : Issue) (rest : List Issue) (hr : ∀ line, (i.out line).2.isNone = false) :
    ∀ (lines : List Bytes) (k : Int) (j : Nat), i.lineno = k + j → j < lines.length →
      (mutated k (i :: rest) lines).2 = false := by
  intro lines
  induction lines with
  | nil => intro k j _ hj; simp at hj
  | cons line lines ih =>
    intro k j he hj
    rw [mutated]
    split
    · simp [hr line]
    · rename_i hk
      cases j with
      | zero => exact absurd (by simpa using he.symm) hk
      | succ j =>
        exact ih (k + 1) j (by rw [he]; push_cast; omega) (by simpa using hj)

/-- Messages of reading a dialplan are about lines of files. -/
theorem read_located {fs : FS} {env : DEnv} {n : Nat} {path : Str} {st : DState}
    (h : (readDialplan fs env n path).val = .ok (.ok st)) {m : Msg} (hm : m ∈ (readDialplan fs env n path).log)
    (hk : m.kind = .E_APP_ARG_IFSTYLE) :
    ∃ bytes, fs m.at_.filename = some bytes ∧ ∃ j : Nat, m.at_.lineno = j + 1 ∧ j < (physLines bytes).length := by
  unfold readDialplan opening at h hm
  cases hp : fs path with
  | none => simp [hp] at h
  | some content =>
    simp only [hp, finished] at h hm
    obtain ⟨o, h1, h2, h3⟩ := Res.bind_ok h
    cases o with
    | none => simp at h2
    | some s =>
      obtain ⟨_, h4, h5, h6⟩ := Res.bind_ok h2
      dsimp only at h3
      have hin : m ∈ (checkDialplan fs env none n path content).log := by
        unfold checkDialplan
        rw [Res.bind_of_ok h1]
        dsimp only
        rw [Res.bind_of_ok h4]
        rw [h3, h6] at hm
        simp only [Res.pure_log, List.append_nil] at hm
        rcases List.mem_append.1 hm with hm | hm
        · exact List.mem_append_left _ hm
        · exact List.mem_append_right _ (List.mem_append_left _ hm)
      rcases C66_located fs env none n path content m hin with ⟨⟨bytes, hf, j, hj, hl⟩, _⟩ | ⟨hk', _⟩
      · refine ⟨bytes, ?_, j, hj, ?_⟩
        · rcases hf with ⟨he, rfl⟩ | hf
          · rw [he]; exact hp
          · exact hf
        · exact (List.getElem?_eq_some_iff.1 hl).1
      · rcases hk' with h | h <;> rw [hk] at h <;> simp at h

/-! ## Programs without interrupts -/

/-- Without an interrupt from outside there is none. -/
def NoInt {α : Type} (x : Sys P α) : Prop :=
  ∀ o n d, (∀ k, o.fail k ≠ some .interrupt) → (x o n d).val ≠ .error .interrupt

omit [DecidableEq P] in
theorem NoInt.bind {α β : Type} {x : Sys P α} {f : α → Sys P β} (hx : NoInt x) (hf : ∀ a, NoInt (f a)) :
    NoInt (Sys.bind x f) := by
  intro o n d ho
  unfold Sys.bind
  dsimp only
  cases hv : (x o n d).val with
  | error h => intro hc; exact hx o n d ho (by rw [hv]; simpa using hc)
  | ok a => exact hf a o _ _ ho

omit [DecidableEq P] in
theorem NoInt.pure {α : Type} (a : α) : NoInt (Sys.pure a : Sys P α) := fun _ _ _ _ h => nomatch h

omit [DecidableEq P] in
theorem NoInt.raise {α : Type} : NoInt (Sys.raise .error : Sys P α) := fun _ _ _ _ h => nomatch h

omit [DecidableEq P] in
theorem NoInt.call {α : Type} (f : Disk P → Option (Disk P × α)) : NoInt (Sys.call f) := by
  intro o n d ho
  unfold Sys.call
  cases hf : o.fail n with
  | some h =>
    cases h with
    | error => simp
    | interrupt => exact absurd hf (ho n)
  | none =>
    dsimp only
    cases f d with
    | none => simp
    | some p => simp

omit [DecidableEq P] in
theorem NoInt.ask {α : Type} (f : Disk P → Option α) : NoInt (Sys.ask f) := NoInt.call _

theorem noInt_write (tmp : P) (w c : Bytes) : NoInt (writeTmp tmp w c) := by
  intro o n d ho
  unfold writeTmp
  cases hf : o.fail n with
  | some h =>
    cases h with
    | error => simp
    | interrupt => exact absurd hf (ho n)
  | none => simp

theorem noInt_flush (tmp : P) (w : Bytes) : NoInt (flushTmp tmp w) := by
  intro o n d ho
  unfold flushTmp
  cases hf : o.fail n with
  | some h =>
    cases h with
    | error => simp
    | interrupt => exact absurd hf (ho n)
  | none => simp

theorem noInt_writeAll (tmp : P) (cs : List Bytes) : ∀ w, NoInt (writeAll tmp w cs) := by
  induction cs with
  | nil => intro w; exact .pure _
  | cons c cs ih => intro w; exact .bind (noInt_write tmp w c) fun w => ih w

theorem noInt_lines (tmp : P) (lines : List Bytes) : ∀ k todo w,
    (∀ i ∈ todo, ∀ line, (i.out line).2 ≠ some .interrupt) → NoInt (mutateLines tmp k todo w lines) := by
  induction lines with
  | nil => intro k todo w _; rw [mutateLines]; exact .bind (.ask _) fun _ => .pure _
  | cons line lines ih =>
    intro k todo w hi
    cases todo with
    | nil =>
      rw [mutateLines]
      exact .bind (.ask _) fun _ => .bind (noInt_write tmp _ _) fun w => ih _ _ _ hi
    | cons i rest =>
      rw [mutateLines]
      refine .bind (.ask _) fun _ => ?_
      split
      · refine .bind ?_ fun w => ih _ _ _ fun i h => hi i (by simp [h])
        unfold processIssue
        refine .bind (noInt_writeAll tmp _ _) fun w => ?_
        split
        · exact .pure _
        · rename_i h hh
          cases h with
          | error => exact .raise
          | interrupt => exact absurd hh (hi i (by simp) line)
      · exact .bind (noInt_write tmp _ _) fun w => ih _ _ _ hi

theorem noInt_body (ps : Paths P) (tmp : P) (f : Str) (issues : List Issue)
    (hi : ∀ i ∈ issues, ∀ line, (i.out line).2 ≠ some .interrupt) : NoInt (mutateBody ps tmp f issues) := by
  unfold mutateBody
  split
  · exact .raise
  · exact .bind (.ask _) fun c => .bind (noInt_lines tmp _ _ _ _ hi) fun w => noInt_flush tmp w

omit [DecidableEq P] in
theorem bind_disk {α β : Type} {x : Sys P α} {f : α → Sys P β} {o : Oracle} {n : Nat} {d : Disk P} {e : Halt}
    (h : (x o n d).val = .error e) : (Sys.bind x f o n d).disk = (x o n d).disk := by
  rw [Sys.bind]; simp only [h]

/-- Without faults from outside, a rewrite whose body fails leaves the disk as it was. -/
theorem processFile_back (ps : Paths P) (tmp : P) (u g : Nat) (f : Str) (issues : List Issue) (o : Oracle) (n : Nat) (d : Disk P)
    (ho : ∀ k, o.fail k = none) (ht : d tmp = none) (hi : ∀ i ∈ issues, ∀ line, (i.out line).2 ≠ some .interrupt)
    (hb : ∀ o n d', Off tmp d d' → ∀ v, (mutateBody ps tmp f issues o n d').val ≠ .ok v) :
    (processFile ps tmp u g f issues o n d).disk = d := by
  have hset : ∀ d' : Disk P, Off tmp d d' → d' tmp = none → d' = d := by
    intro d' h h'
    funext p
    by_cases hp : p = tmp
    · rw [hp, h', ht]
    · exact h p hp
  unfold processFile
  have h1 : (readLink ps f o n d) = ⟨[], d, n + 1, .ok (diskName ps f d)⟩ := by simp [readLink, ho]
  rw [Sys.bind]
  simp only [h1]
  have h2 : Sys.call (makeTmp tmp u g) o (n + 1) d = ⟨[d.set tmp (some (.file [] u g 0o600))],
      d.set tmp (some (.file [] u g 0o600)), n + 1 + 1, .ok ()⟩ := by simp [Sys.call, ho, makeTmp, ht]
  rw [Sys.bind]
  simp only [h2]
  generalize hd1 : d.set tmp (some (.file [] u g 0o600)) = d1
  have o1 : Off tmp d d1 := hd1 ▸ Off.set tmp d _
  have hbad : ∃ e, (Sys.andFinally (Sys.orElse (mutateBody ps tmp f issues)
      (.call fun d => match d tmp with | none => none | some _ => some (d.set tmp none, ())))
    (.ask fun _ => some ()) o (n + 1 + 1) d1).val = .error e ∧ (Sys.andFinally (Sys.orElse (mutateBody ps tmp f issues)
      (.call fun d => match d tmp with | none => none | some _ => some (d.set tmp none, ())))
    (.ask fun _ => some ()) o (n + 1 + 1) d1).disk = d := by
    have hoff := (does_body ps tmp f issues o (n + 1 + 1) d1).2.1
    cases hv : (mutateBody ps tmp f issues o (n + 1 + 1) d1).val with
    | ok v => exact absurd hv (hb _ _ _ o1 v)
    | error e =>
      cases e with
      | interrupt => exact absurd hv (noInt_body ps tmp f issues hi _ _ _ (by simp [ho]))
      | error =>
        unfold Sys.andFinally Sys.orElse
        simp only [hv]
        cases hd2 : (mutateBody ps tmp f issues o (n + 1 + 1) d1).disk tmp with
        | none =>
          simp only [Sys.call, ho, hd2, Sys.ask, Option.map_some]
          exact ⟨.error, rfl, hset _ (o1.trans hoff) hd2⟩
        | some x =>
          simp only [Sys.call, ho, hd2, Sys.ask, Option.map_some]
          exact ⟨.error, rfl, hset _ ((o1.trans hoff).trans (Off.set _ _ _)) (by simp [Disk.set])⟩
  obtain ⟨e, h3, h4⟩ := hbad
  exact (bind_disk h3).trans h4

/-! ## C89 -/

/-- C89, what holds: whatever the dialplan, the answer and the faults, the program changes no file at
any time, but for one temporary entry; when nothing fails from outside, and the entries for temporary
files are free, the disk is in the end as it was. -/
theorem C89_untouched_partial (ps : Paths P) (tmps : Str → P) (u g : Nat) (env : DEnv) (he : ExecIfOnly env.toAEnv)
    (n : Nat) (yes : Bool) (path : Str) (o : Oracle) (k : Nat) (d : Disk P) :
    (∃ f, ∀ d' ∈ (convertProgram ps tmps u g env n yes path o k d).trace, ∀ p, p ≠ tmps f → d' p = d p) ∧
    ((∀ j, o.fail j = none) → (∀ f, d (tmps f) = none) → (convertProgram ps tmps u g env n yes path o k d).disk = d) := by
  unfold convertProgram
  dsimp only
  generalize hr : readDialplan (fun p => nodeContent (d.stat ps p)) env n path = r
  split
  · rename_i st hst
    unfold askAndProcess
    cases hf : convertFiles r.log with
    | nil => simp [Sys.pure]
    | cons f fs =>
      simp only [List.isEmpty_cons, Bool.false_eq_true, if_false, List.map_cons]
      cases yes with
      | false => simp [Sys.pure]
      | true =>
        simp only [if_true, processAll]
        have hne := convertFiles_mem (log := r.log) (f := f) (by simp [hf])
        have hst' := hst
        rw [← hr] at hst'
        have hcalm : ∀ m ∈ r.log, CalmMsg m := by
          rw [← hr]; exact calm_readDialplan _ env he n path st hst'
        have hraise : ∀ i ∈ convertIssues r.log f, ∀ line, i.out line = ([], some .error) := by
          intro i hi line
          obtain ⟨m, hm, _, hmi⟩ := convertIssues_mem hi
          exact convertIssue_raises (hcalm m hm) hmi line
        have hmut : ∀ c, nodeContent (d.stat ps f) = some c → (mutated 0 (convertIssues r.log f) (physLines c)).2 = false := by
          intro c hc
          cases hi : convertIssues r.log f with
          | nil => exact absurd hi hne
          | cons i rest =>
            obtain ⟨m, hm, hmf, hmi⟩ := convertIssues_mem (log := r.log) (f := f) (i := i) (by simp [hi])
            obtain ⟨hk, hl, _⟩ := convertIssue_some hmi
            rw [← hr] at hm
            obtain ⟨bytes, h1, j, h2, h3⟩ := read_located hst' hm hk
            rw [hmf, hc, Option.some.injEq] at h1
            subst h1
            refine mutated_raises i rest (fun line => ?_) _ 0 j (by rw [hl, h2]; omega) h3
            rw [hraise i (by simp [hi]) line]
            rfl
        have hcont : ∃ c, nodeContent (d.stat ps f) = some c := by
          cases hi : convertIssues r.log f with
          | nil => exact absurd hi hne
          | cons i rest =>
            obtain ⟨m, hm, hmf, hmi⟩ := convertIssues_mem (log := r.log) (f := f) (i := i) (by simp [hi])
            obtain ⟨hk, _⟩ := convertIssue_some hmi
            rw [← hr] at hm
            obtain ⟨bytes, h1, _⟩ := read_located hst' hm hk
            rw [hmf] at h1
            exact ⟨bytes, h1⟩
        obtain ⟨c, hc⟩ := hcont
        have hfile : ∃ u' g' m', d.stat ps f = some (.file c u' g' m') := by
          cases hs : d.stat ps f with
          | none => simp [hs, nodeContent] at hc
          | some x =>
            cases x with
            | link t => simp [hs, nodeContent] at hc
            | file c' u' g' m' =>
              simp only [hs, nodeContent, Option.some.injEq] at hc
              exact ⟨u', g', m', by rw [hc]⟩
        obtain ⟨u', g', m', hs⟩ := hfile
        have hfail : ∃ h, (processFile ps (tmps f) u g f (convertIssues r.log f) o k d).val = .error h := by
          cases hv : (processFile ps (tmps f) u g f (convertIssues r.log f) o k d).val with
          | error h => exact ⟨h, rfl⟩
          | ok _ =>
            obtain ⟨tr, _, _, _, _, dst, _, hall⟩ := (ends_file ps (tmps f) u g f (convertIssues r.log f) o k d).2 hv
            have := (hall c u' g' m' hs).1
            rw [hmut c hc] at this
            simp at this
        obtain ⟨h, hv⟩ := hfail
        rw [Sys.bind]
        simp only [hv]
        refine ⟨⟨f, fun d' hd' p hp => C62_failed ps (tmps f) u g f _ o k d h hv d' hd' p hp⟩, fun ho ht => ?_⟩
        refine processFile_back ps (tmps f) u g f _ o k d ho (ht f) (fun i hi line => ?_) (fun o' n' d' hd' v hv' => ?_)
        · rw [hraise i hi line]; simp
        · obtain ⟨_, c', h1, h2, _⟩ := (does_body ps (tmps f) f _ o' n' d').2.2 v hv'
          have := followed_off (ps := ps) (ht f) hd' _ _ _ hs
          rw [Disk.stat, this] at h1
          simp only [nodeContent, Option.some.injEq] at h1
          subst h1
          rw [hmut c hc] at h2
          simp at h2
  · exact ⟨⟨[], by simp⟩, fun _ _ => rfl⟩

/-- The applications that come with the program are such. -/
theorem execIf_shipped {v : Ver} {env : AEnv} (h : Loaded v env) : ExecIfOnly env := by
  intro k a ha hn
  have := ((loaded_apps h k a).1 ha).1
  obtain ⟨m, hm, _, hr⟩ := this
  have key : ∀ m ∈ appModFiles, ∀ a ∈ m.regs, a.name = c! "ExecIf" → a.beh = .execIf := by decide +kernel
  exact key m hm a hr hn

/-- A file with an old-style `ExecIf`, one with an old-style `GotoIf`. -/
def oldDisk : Disk Str := fun p =>
  if p = c! "e" then some (.file (asciiBytes (c! "[a]\nexten => s,1,ExecIf(1,NoOp,y)\n")) 1 2 0o644)
  else if p = c! "g" then some (.file (asciiBytes (c! "[a]\nexten => s,1,GotoIf(${x},1)\n")) 1 2 0o644)
  else none

def oldRun (path : Str) : Run Str Unit :=
  convertProgram demoPaths (fun f => f ++ c! ".tmp") 0 0 condEnv 99 true path lucky 0 oldDisk

/-- C89 is violated: an `ExecIf` in the old style is reported, the program then ends with an exception
and the file is as it was. -/
theorem C89_violated_execif :
    (.E_APP_ARG_IFSTYLE, 2) ∈
      (readDialplan (contentAt demoPaths oldDisk) condEnv 99 (c! "e")).log.map (fun m => (m.kind, m.at_.lineno)) ∧
    (oldRun (c! "e")).val = .error .error ∧ (oldRun (c! "e")).trace.length = 0 ∧
    contentAt demoPaths (oldRun (c! "e")).disk (c! "e") = contentAt demoPaths oldDisk (c! "e") := by
  decide +kernel

/-- C89 is violated: so it is with every other application. -/
theorem C89_violated_other :
    (.E_APP_ARG_IFSTYLE, 2) ∈
      (readDialplan (contentAt demoPaths oldDisk) condEnv 99 (c! "g")).log.map (fun m => (m.kind, m.at_.lineno)) ∧
    (oldRun (c! "g")).val = .error .error ∧ (oldRun (c! "g")).trace.length = 7 ∧
    contentAt demoPaths (oldRun (c! "g")).disk (c! "g") = contentAt demoPaths oldDisk (c! "g") := by
  decide +kernel

/-- Both are cases of the theorem above. -/
example : ExecIfOnly condEnv.toAEnv := by
  intro k a ha hn
  simp only [condEnv] at ha
  repeat' split at ha
  all_goals first
    | (simp only [Option.some.injEq] at ha; subst ha; first | rfl | simp at hn)
    | (revert ha; simp only [demoEnv]; repeat' split
       all_goals (intro ha; first | (simp only [Option.some.injEq] at ha; subst ha; first | rfl | simp at hn) | simp at ha))

end ALint.Props
