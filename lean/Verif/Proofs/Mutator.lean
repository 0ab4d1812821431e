import Verif.Model.Mutator
import Verif.Proofs.Reader

/-!
# Lemmas about rewriting files
-/

namespace ALint

variable {P : Type} [DecidableEq P]

/-- Two disks with the same entries, but for one. -/
def Off (tmp : P) (d d' : Disk P) : Prop := ∀ p, p ≠ tmp → d' p = d p

omit [DecidableEq P] in
theorem Off.refl (tmp : P) (d : Disk P) : Off tmp d d := fun _ _ => rfl

omit [DecidableEq P] in
theorem Off.trans {tmp : P} {d e f : Disk P} (h : Off tmp d e) (h' : Off tmp e f) : Off tmp d f :=
  fun p hp => (h' p hp).trans (h p hp)

theorem Off.set (tmp : P) (d : Disk P) (n : Option Node) : Off tmp d (d.set tmp n) :=
  fun p hp => by simp [Disk.set, hp]

/-- A program that changes nothing but one entry, and what it reaches when it ends well. -/
def Does {α : Type} (tmp : P) (x : Sys P α) (Q : Disk P → α → Disk P → Prop) : Prop :=
  ∀ o n d, (∀ e ∈ (x o n d).trace, Off tmp d e) ∧ Off tmp d (x o n d).disk ∧
    ∀ a, (x o n d).val = .ok a → Q d a (x o n d).disk

omit [DecidableEq P] in
theorem Does.mono {α : Type} {tmp : P} {x : Sys P α} {Q R : Disk P → α → Disk P → Prop} (h : Does tmp x Q)
    (hi : ∀ d a e, Off tmp d e → Q d a e → R d a e) : Does tmp x R := fun o n d =>
  ⟨(h o n d).1, (h o n d).2.1, fun a ha => hi _ _ _ (h o n d).2.1 ((h o n d).2.2 a ha)⟩

omit [DecidableEq P] in
theorem Does.pure {α : Type} (tmp : P) (a : α) : Does tmp (Sys.pure a) (fun d b e => b = a ∧ e = d) := fun o n d =>
  ⟨by simp [Sys.pure], Off.refl _ _, fun b hb => by simp only [Sys.pure, Except.ok.injEq] at hb; exact ⟨hb.symm, rfl⟩⟩

omit [DecidableEq P] in
theorem Does.raise {α : Type} (tmp : P) (h : Halt) {Q : Disk P → α → Disk P → Prop} : Does tmp (Sys.raise h) Q :=
  fun o n d => ⟨by simp [Sys.raise], Off.refl _ _, fun b hb => by simp [Sys.raise] at hb⟩

omit [DecidableEq P] in
theorem Does.bind {α β : Type} {tmp : P} {x : Sys P α} {f : α → Sys P β} {Q : Disk P → α → Disk P → Prop}
    {R : α → Disk P → β → Disk P → Prop} (hx : Does tmp x Q) (hf : ∀ a, Does tmp (f a) (R a)) :
    Does tmp (Sys.bind x f) (fun d b e => ∃ a c, Q d a c ∧ Off tmp d c ∧ R a c b e) := by
  intro o n d
  obtain ⟨h1, h2, h3⟩ := hx o n d
  unfold Sys.bind
  dsimp only
  cases hv : (x o n d).val with
  | error h => exact ⟨h1, h2, fun a ha => nomatch ha⟩
  | ok a =>
    obtain ⟨k1, k2, k3⟩ := hf a o (x o n d).steps (x o n d).disk
    refine ⟨fun e he => ?_, h2.trans k2, fun b hb => ⟨a, _, h3 a hv, h2, k3 b hb⟩⟩
    rcases List.mem_append.1 he with he | he
    · exact h1 e he
    · exact h2.trans (k1 e he)

omit [DecidableEq P] in
theorem Does.call {α : Type} {tmp : P} {f : Disk P → Option (Disk P × α)}
    (h : ∀ d e a, f d = some (e, a) → Off tmp d e) : Does tmp (Sys.call f) (fun d a e => f d = some (e, a)) := by
  intro o n d
  unfold Sys.call
  cases o.fail n with
  | some k => exact ⟨by simp, Off.refl _ _, fun a ha => nomatch ha⟩
  | none =>
    cases hf : f d with
    | none => exact ⟨by simp, Off.refl _ _, fun a ha => nomatch ha⟩
    | some r =>
      obtain ⟨e, a⟩ := r
      refine ⟨by simpa using h d e a hf, h d e a hf, fun b hb => ?_⟩
      simp only [Except.ok.injEq] at hb
      rw [hf, hb]

omit [DecidableEq P] in
theorem Does.ask {α : Type} {tmp : P} (f : Disk P → Option α) :
    Does tmp (Sys.ask f) (fun d a e => f d = some a ∧ e = d) := by
  refine (Does.call (f := fun d => (f d).map fun a => (d, a)) ?_).mono ?_
  · intro d e a h
    simp only [Option.map_eq_some_iff, Prod.mk.injEq] at h
    obtain ⟨_, _, rfl, _⟩ := h
    exact Off.refl _ _
  · intro d a e _ h
    simp only [Option.map_eq_some_iff, Prod.mk.injEq] at h
    obtain ⟨b, h1, h2, rfl⟩ := h
    exact ⟨h1, h2.symm⟩

omit [DecidableEq P] in
theorem Does.orElse {α : Type} {tmp : P} {x : Sys P α} {h : Sys P Unit} {Q : Disk P → α → Disk P → Prop}
    {R : Disk P → Unit → Disk P → Prop} (hx : Does tmp x Q) (hh : Does tmp h R) : Does tmp (Sys.orElse x h) Q := by
  intro o n d
  obtain ⟨h1, h2, h3⟩ := hx o n d
  unfold Sys.orElse
  dsimp only
  cases hv : (x o n d).val with
  | ok a => exact ⟨h1, h2, h3⟩
  | error e =>
    cases e with
    | interrupt => exact ⟨h1, h2, h3⟩
    | error =>
      obtain ⟨k1, k2, k3⟩ := hh o (x o n d).steps (x o n d).disk
      refine ⟨fun e he => ?_, h2.trans k2, fun a ha => ?_⟩
      · rcases List.mem_append.1 he with he | he
        · exact h1 e he
        · exact h2.trans (k1 e he)
      · dsimp only at ha
        split at ha <;> simp at ha

omit [DecidableEq P] in
theorem Does.andFinally {α : Type} {tmp : P} {x : Sys P α} {y : Sys P Unit} {Q : Disk P → α → Disk P → Prop}
    (hx : Does tmp x Q) (hy : Does tmp y (fun d _ e => e = d)) : Does tmp (Sys.andFinally x y) Q := by
  intro o n d
  obtain ⟨h1, h2, h3⟩ := hx o n d
  obtain ⟨k1, k2, k3⟩ := hy o (x o n d).steps (x o n d).disk
  unfold Sys.andFinally
  dsimp only
  refine ⟨fun e he => ?_, h2.trans k2, fun a ha => ?_⟩
  · rcases List.mem_append.1 he with he | he
    · exact h1 e he
    · exact h2.trans (k1 e he)
  · split at ha
    · rename_i u hu
      rw [k3 u hu]
      exact h3 a ha
    · simp at ha

/-! ## The loop -/

theorem off_put (tmp : P) (d : Disk P) (c : Bytes) : Off tmp d (putContent tmp d c) := by
  unfold putContent
  split
  · exact Off.set _ _ _
  · exact Off.refl _ _

/-- What is at the entry is a file still, with the same owner, group and mode. -/
def Still (tmp : P) (d e : Disk P) : Prop := nodeOwner (e tmp) = nodeOwner (d tmp)

theorem still_put (tmp : P) (d : Disk P) (c : Bytes) : Still tmp d (putContent tmp d c) := by
  unfold Still
  cases h : d tmp with
  | none => simp [putContent, h]
  | some x => cases x <;> simp [putContent, h, Disk.set, nodeOwner]

theorem does_write (tmp : P) (written chunk : Bytes) :
    Does tmp (writeTmp tmp written chunk) (fun d a e => a = written ++ chunk ∧ Still tmp d e) := by
  intro o n d
  unfold writeTmp
  dsimp only
  refine ⟨by simpa using off_put _ _ _, off_put _ _ _, fun a ha => ⟨?_, still_put _ _ _⟩⟩
  split at ha
  · simp at ha
  · simpa [eq_comm] using ha

theorem does_writeAll (tmp : P) (cs : List Bytes) : ∀ written,
    Does tmp (writeAll tmp written cs) (fun d a e => a = written ++ cs.flatten ∧ Still tmp d e) := by
  induction cs with
  | nil =>
    intro w
    exact (Does.pure tmp w).mono (by rintro d a e _ ⟨rfl, rfl⟩; exact ⟨by simp, rfl⟩)
  | cons c cs ih =>
    intro w
    rw [writeAll]
    refine (Does.bind (does_write tmp w c) (fun w' => ih w')).mono ?_
    rintro d a e _ ⟨w', c', ⟨rfl, h1⟩, _, rfl, h2⟩
    exact ⟨by simp, h2.trans h1⟩

theorem does_issue (tmp : P) (written line : Bytes) (i : Issue) :
    Does tmp (processIssue tmp written line i)
      (fun d a e => a = written ++ (i.out line).1.flatten ∧ (i.out line).2 = none ∧ Still tmp d e) := by
  unfold processIssue
  cases ho : (i.out line).2 with
  | none =>
    refine (Does.bind (does_writeAll tmp _ written) (fun w => Does.pure tmp w)).mono ?_
    rintro d a e _ ⟨w', c', ⟨rfl, h1⟩, _, rfl, rfl⟩
    exact ⟨rfl, rfl, h1⟩
  | some h =>
    refine (Does.bind (does_writeAll tmp _ written)
      (fun w => Does.raise tmp h (Q := fun _ _ _ => False))).mono ?_
    rintro d a e _ ⟨_, _, _, _, h⟩
    exact h.elim

/-- The lines with the issues applied, and whether none of them raises. -/
def mutated : Int → List Issue → List Bytes → List Bytes × Bool
  | _, _, [] => ([], true)
  | k, [], line :: lines => let r := mutated (k + 1) [] lines; (line :: r.1, r.2)
  | k, i :: rest, line :: lines =>
    if k = i.lineno then let r := mutated (k + 1) rest lines
      ((i.out line).1.flatten :: r.1, (i.out line).2.isNone && r.2)
    else let r := mutated (k + 1) (i :: rest) lines; (line :: r.1, r.2)

theorem does_lines (tmp : P) (lines : List Bytes) : ∀ k todo written,
    Does tmp (mutateLines tmp k todo written lines)
      (fun d a e => a = written ++ (mutated k todo lines).1.flatten ∧ (mutated k todo lines).2 = true ∧
        Still tmp d e) := by
  induction lines with
  | nil =>
    intro k todo w
    rw [mutateLines]
    refine (Does.bind (Does.ask (fun _ => some ())) (fun _ => Does.pure tmp w)).mono ?_
    · rintro d a e _ ⟨_, c, ⟨_, rfl⟩, _, rfl, rfl⟩
      exact ⟨by simp [mutated], by simp [mutated], rfl⟩
  | cons line lines ih =>
    intro k todo w
    cases todo with
    | nil =>
      rw [mutateLines]
      refine (Does.bind (Does.ask (fun _ => some ())) (fun _ =>
        Does.bind (does_write tmp w line) (fun w' => ih (k + 1) [] w'))).mono ?_
      rintro d a e _ ⟨_, c, ⟨_, rfl⟩, _, w', c', ⟨rfl, h1⟩, _, rfl, h2, h3⟩
      exact ⟨by simp [mutated], by simpa [mutated] using h2, h3.trans h1⟩
    | cons i rest =>
      rw [mutateLines]
      by_cases hk : k = i.lineno
      · simp only [hk, if_true]
        refine (Does.bind (Does.ask (fun _ => some ())) (fun _ =>
          Does.bind (does_issue tmp w line i) (fun w' => ih (i.lineno + 1) rest w'))).mono ?_
        rintro d a e _ ⟨_, c, ⟨_, rfl⟩, _, w', c', ⟨rfl, h0, h1⟩, _, rfl, h2, h3⟩
        exact ⟨by simp [mutated], by simp [mutated, h0, h2], h3.trans h1⟩
      · simp only [hk, if_false]
        refine (Does.bind (Does.ask (fun _ => some ())) (fun _ =>
          Does.bind (does_write tmp w line) (fun w' => ih (k + 1) (i :: rest) w'))).mono ?_
        rintro d a e _ ⟨_, c, ⟨_, rfl⟩, _, w', c', ⟨rfl, h1⟩, _, rfl, h2, h3⟩
        exact ⟨by simp [mutated, hk], by simpa [mutated, hk] using h2, h3.trans h1⟩

theorem does_flush (tmp : P) (written : Bytes) :
    Does tmp (flushTmp tmp written) (fun d _ e => e = putContent tmp d written) := by
  intro o n d
  unfold flushTmp
  cases o.fail n with
  | some h => exact ⟨by simpa using off_put _ _ _, off_put _ _ _, fun a ha => nomatch ha⟩
  | none => exact ⟨by simpa using off_put _ _ _, off_put _ _ _, fun a _ => rfl⟩

/-- When the body ends well, the file had a content and the temporary file has the new one. -/
theorem does_body (ps : Paths P) (tmp : P) (filename : Str) (issues : List Issue) :
    Does tmp (mutateBody ps tmp filename issues) (fun d _ e => issues ≠ [] ∧
      ∃ c, nodeContent (d.stat ps filename) = some c ∧ (mutated 0 issues (physLines c)).2 = true ∧
        ∀ u g m, nodeOwner (d tmp) = some (u, g, m) →
          e tmp = some (.file (mutated 0 issues (physLines c)).1.flatten u g m)) := by
  unfold mutateBody
  cases issues with
  | nil => exact Does.raise tmp _
  | cons i rest =>
    dsimp only
    refine (Does.bind (Does.ask _) (fun c => Does.bind (does_lines tmp (physLines c) 0 (i :: rest) [])
      (fun w => does_flush tmp w))).mono ?_
    rintro d a e _ ⟨c, d', ⟨h1, rfl⟩, _, w, d'', ⟨rfl, h2, h3⟩, _, rfl⟩
    refine ⟨by simp, c, h1, h2, fun u g m ho => ?_⟩
    rw [Still, ho] at h3
    unfold putContent
    cases hd : d'' tmp with
    | none => rw [hd] at h3; simp [nodeOwner] at h3
    | some x =>
      cases x with
      | link t => rw [hd] at h3; simp [nodeOwner] at h3
      | file c' u' g' m' =>
        rw [hd] at h3
        simp only [nodeOwner, Option.some.injEq, Prod.mk.injEq] at h3
        obtain ⟨rfl, rfl, rfl⟩ := h3
        simp [Disk.set]

theorem does_owner (ps : Paths P) (tmp : P) (filename : Str) :
    Does tmp (copyOwner ps tmp filename) (fun d _ e => ∃ u g m, nodeOwner (d.stat ps filename) = some (u, g, m) ∧
      ∀ c u' g' m', d tmp = some (.file c u' g' m') → e tmp = some (.file c u g m)) := by
  have hset : ∀ (u g m : Nat) (d e : Disk P) (a : Unit), setOwner tmp u g m d = some (e, a) → Off tmp d e := by
    intro u g m d e a h
    unfold setOwner at h
    split at h
    · simp only [Option.some.injEq, Prod.mk.injEq, and_true] at h
      subst h
      exact Off.set _ _ _
    · simp at h
  have hset' : ∀ {u g m : Nat} {d e : Disk P} {a : Unit}, setOwner tmp u g m d = some (e, a) →
      ∀ c u' g' m', d tmp = some (.file c u' g' m') → e tmp = some (.file c u g m) := by
    intro u g m d e a h c u' g' m' hd
    unfold setOwner at h
    rw [hd] at h
    simp only [Option.some.injEq, Prod.mk.injEq, and_true] at h
    subst h
    simp [Disk.set]
  unfold copyOwner
  refine (Does.bind (Does.ask _) (fun src => Does.bind (Does.ask _) (fun dst => Does.bind
    (Q := fun d _ e => ∀ c u' g', d tmp = some (.file c u' g' src.2.2) → (u', g', src.2.2) = src →
      e tmp = some (.file c dst.1 dst.2.1 src.2.2)) ?_ (fun _ => ?_)
    (R := fun _ d _ e => ∀ c, d tmp = some (.file c dst.1 dst.2.1 src.2.2) →
      e tmp = some (.file c dst.1 dst.2.1 dst.2.2)))) ).mono ?_
  · split
    · refine (Does.call (hset _ _ _)).mono ?_
      intro d a e _ h c u' g' hd _
      exact hset' h _ _ _ _ hd
    · rename_i hne
      refine (Does.pure tmp ()).mono ?_
      rintro d a e _ ⟨_, rfl⟩ c u' g' hd hs
      have h1 : src.1 = dst.1 := by
        by_cases h : src.1 = dst.1
        · exact h
        · exact absurd (Or.inl h) hne
      have h2 : src.2.1 = dst.2.1 := by
        by_cases h : src.2.1 = dst.2.1
        · exact h
        · exact absurd (Or.inr h) hne
      rw [hd, ← h1, ← h2, ← hs]
  · split
    · refine (Does.call (hset _ _ _)).mono ?_
      intro d a e _ h c hd
      exact hset' h _ _ _ _ hd
    · rename_i hne
      refine (Does.pure tmp ()).mono ?_
      rintro d a e _ ⟨_, rfl⟩ c hd
      rw [hd, Decidable.not_not.1 hne]
  · rintro d a e _ ⟨src, d1, ⟨h1, rfl⟩, _, dst, d2, ⟨h2, rfl⟩, _, _, d3, h3, _, h4⟩
    refine ⟨dst.1, dst.2.1, dst.2.2, h2, fun c u' g' m' hd => ?_⟩
    rw [hd] at h1
    simp only [nodeOwner, Option.some.injEq] at h1
    subst h1
    exact h4 c (h3 c u' g' hd rfl)

/-! ## The whole -/

/-- A program that either fails having changed nothing but one entry, or whose last step alone
changes others. -/
def Ends (tmp : P) (x : Sys P Unit) (N : Disk P → Disk P → Prop) : Prop :=
  ∀ o n d, (∀ h, (x o n d).val = .error h → (∀ e ∈ (x o n d).trace, Off tmp d e) ∧ Off tmp d (x o n d).disk) ∧
    ((x o n d).val = .ok () → ∃ tr, (x o n d).trace = tr ++ [(x o n d).disk] ∧ (∀ e ∈ tr, Off tmp d e) ∧
      N d (x o n d).disk)

omit [DecidableEq P] in
theorem Ends.bind {α : Type} {tmp : P} {x : Sys P α} {f : α → Sys P Unit} {Q : Disk P → α → Disk P → Prop}
    {N : α → Disk P → Disk P → Prop} (hx : Does tmp x Q) (hf : ∀ a, Ends tmp (f a) (N a)) :
    Ends tmp (Sys.bind x f) (fun d e => ∃ a c, Q d a c ∧ Off tmp d c ∧ N a c e) := by
  intro o n d
  obtain ⟨h1, h2, h3⟩ := hx o n d
  unfold Sys.bind
  dsimp only
  cases hv : (x o n d).val with
  | error h => exact ⟨fun _ _ => ⟨h1, h2⟩, fun h => nomatch h⟩
  | ok a =>
    obtain ⟨k1, k2⟩ := hf a o (x o n d).steps (x o n d).disk
    dsimp only
    refine ⟨fun h hh => ?_, fun hok => ?_⟩
    · obtain ⟨k3, k4⟩ := k1 h hh
      refine ⟨fun e he => ?_, h2.trans k4⟩
      rcases List.mem_append.1 he with he | he
      · exact h1 e he
      · exact h2.trans (k3 e he)
    · obtain ⟨tr, k3, k4, k5⟩ := k2 hok
      refine ⟨(x o n d).trace ++ tr, by rw [k3, List.append_assoc], fun e he => ?_, a, _, h3 a hv, h2, k5⟩
      rcases List.mem_append.1 he with he | he
      · exact h1 e he
      · exact h2.trans (k4 e he)

omit [DecidableEq P] in
theorem Ends.mono {tmp : P} {x : Sys P Unit} {N M : Disk P → Disk P → Prop} (h : Ends tmp x N)
    (hi : ∀ d e, N d e → M d e) : Ends tmp x M := fun o n d =>
  ⟨(h o n d).1, fun hk => by obtain ⟨tr, h1, h2, h3⟩ := (h o n d).2 hk; exact ⟨tr, h1, h2, hi _ _ h3⟩⟩

theorem ends_rename (tmp dst : P) :
    Ends tmp (.call (renameTo tmp dst)) (fun d e => ∃ x, d tmp = some x ∧
      e = fun p => if p = dst then some x else if p = tmp then none else d p) := by
  intro o n d
  unfold Sys.call
  cases o.fail n with
  | some k => exact ⟨fun _ _ => ⟨by simp, Off.refl _ _⟩, fun h => nomatch h⟩
  | none =>
    unfold renameTo
    cases hd : d tmp with
    | none => exact ⟨fun _ _ => ⟨by simp, Off.refl _ _⟩, fun h => nomatch h⟩
    | some x => exact ⟨fun _ h => (nomatch h), fun _ => ⟨[], rfl, by simp, x, hd, rfl⟩⟩

omit [DecidableEq P] in
theorem does_readLink (ps : Paths P) (tmp : P) (filename : Str) :
    Does tmp (readLink ps filename) (fun d a e => e = d ∧ (a = filename ∨ a = diskName ps filename d)) := by
  intro o n d
  unfold readLink
  split
  · exact ⟨by simp, Off.refl _ _, fun a ha => nomatch ha⟩
  · refine ⟨by simp, Off.refl _ _, fun a ha => ⟨rfl, .inl ?_⟩⟩
    simpa [eq_comm] using ha
  · refine ⟨by simp, Off.refl _ _, fun a ha => ⟨rfl, .inr ?_⟩⟩
    simpa [eq_comm] using ha

theorem does_makeTmp (tmp : P) (u g : Nat) : Does tmp (.call (makeTmp tmp u g))
    (fun d _ e => d tmp = none ∧ e = d.set tmp (some (.file [] u g 0o600))) := by
  refine (Does.call ?_).mono ?_
  · intro d e a h
    unfold makeTmp at h
    split at h
    · simp at h
    · simp only [Option.some.injEq, Prod.mk.injEq, and_true] at h
      subst h
      exact Off.set _ _ _
  · intro d a e _ h
    unfold makeTmp at h
    split at h
    · simp at h
    · rename_i hd
      simp only [Option.some.injEq, Prod.mk.injEq, and_true] at h
      exact ⟨hd, h.symm⟩

theorem does_unlink (tmp : P) : Does tmp (.call fun d => match d tmp with
    | none => none | some _ => some (d.set tmp none, ())) (fun _ _ _ => True) := by
  refine (Does.call ?_).mono (fun _ _ _ _ _ => trivial)
  intro d e a h
  split at h
  · simp at h
  · simp only [Option.some.injEq, Prod.mk.injEq, and_true] at h
    subst h
    exact Off.set _ _ _

omit [DecidableEq P] in
/-- Following links does not depend on an entry that is not there. -/
theorem followed_off {ps : Paths P} {tmp : P} {d e : Disk P} (ht : d tmp = none) (h : Off tmp d e) :
    ∀ n p x, d.followed ps n p = some x → e.followed ps n p = some x := by
  intro n
  induction n with
  | zero => intro p x hx; simp [Disk.followed] at hx
  | succ n ih =>
    intro p x hx
    have hp : p ≠ tmp := by
      rintro rfl
      rw [Disk.followed, ht] at hx
      simp at hx
    rw [Disk.followed] at hx ⊢
    rw [h p hp]
    cases hd : d p with
    | none => rw [hd] at hx; simp at hx
    | some y =>
      rw [hd] at hx
      cases y with
      | file c u g m => exact hx
      | link t => exact ih _ _ hx

omit [DecidableEq P] in
theorem followed_file {ps : Paths P} (d : Disk P) : ∀ n p x, d.followed ps n p = some x →
    ∃ c u g m, x = .file c u g m := by
  intro n
  induction n with
  | zero => intro p x hx; simp [Disk.followed] at hx
  | succ n ih =>
    intro p x hx
    rw [Disk.followed] at hx
    cases hd : d p with
    | none => rw [hd] at hx; simp at hx
    | some y =>
      rw [hd] at hx
      cases y with
      | file c u g m => simp only [Option.some.injEq] at hx; exact ⟨c, u, g, m, hx.symm⟩
      | link t => exact ih _ _ hx

/-- What a rewrite of an existing file that ends well does to the disk. -/
def Rewrites (ps : Paths P) (tmp : P) (filename : Str) (issues : List Issue) (d e : Disk P) : Prop :=
  d tmp = none ∧ issues ≠ [] ∧ ∃ dst, (dst = filename ∨ dst = diskName ps filename d) ∧
    ∀ c u g m, d.stat ps filename = some (.file c u g m) → (mutated 0 issues (physLines c)).2 = true ∧
      e = fun p => if p = ps.name dst then some (.file (mutated 0 issues (physLines c)).1.flatten u g m)
        else if p = tmp then none else d p

theorem ends_file (ps : Paths P) (tmp : P) (u g : Nat) (filename : Str) (issues : List Issue) :
    Ends tmp (processFile ps tmp u g filename issues) (Rewrites ps tmp filename issues) := by
  unfold processFile
  refine (Ends.bind (does_readLink ps tmp filename) (fun df =>
    Ends.bind (does_makeTmp tmp u g) (fun _ =>
    Ends.bind (Does.andFinally (Does.orElse (does_body ps tmp filename issues) (does_unlink tmp))
      ((Does.ask _).mono (fun _ _ _ _ h => h.2))) (fun _ =>
    Ends.bind (does_owner ps tmp filename) (fun _ =>
    Ends.bind (Does.ask _) (fun _ => ends_rename tmp (ps.name df))))))).mono ?_
  rintro d e ⟨df, d1, ⟨rfl, hdf⟩, _, _, d2, ⟨ht, rfl⟩, o2, _, d3, ⟨hne, c, hc, hok, hbody⟩, o3, _, d4,
    ⟨u', g', m', hown, hcopy⟩, o4, _, d5, ⟨_, rfl⟩, _, x, hx, rfl⟩
  have hset : (d1.set tmp (some (.file [] u g 0o600))) tmp = some (.file [] u g 0o600) := by simp [Disk.set]
  have h3 := hbody u g 0o600 (by rw [hset]; rfl)
  have h4 := hcopy _ _ _ _ h3
  rw [h4] at hx
  simp only [Option.some.injEq] at hx
  subst hx
  refine ⟨ht, hne, df, hdf, fun c0 u0 g0 m0 h0 => ?_⟩
  have e2 := followed_off ht o2 _ _ _ h0
  have e3 := followed_off ht (o2.trans o3) _ _ _ h0
  rw [Disk.stat, e2] at hc
  rw [Disk.stat, e3] at hown
  simp only [nodeContent, Option.some.injEq] at hc
  simp only [nodeOwner, Option.some.injEq, Prod.mk.injEq] at hown
  obtain ⟨rfl, rfl, rfl⟩ := hown
  subst hc
  refine ⟨hok, ?_⟩
  funext p
  by_cases h1 : p = ps.name df
  · simp [h1]
  · by_cases h2 : p = tmp
    · simp [h2]
    · simp only [h1, h2, if_false]
      exact ((o2.trans o3).trans o4) p h2

/-- What a path leads to after a rewrite: the same, or the new file. -/
theorem followed_new {ps : Paths P} {tmp dst : P} {d : Disk P} {y : Node} (ht : d tmp = none)
    (hy : ∃ c u g m, y = .file c u g m) : ∀ n p x, d.followed ps n p = some x →
    Disk.followed ps (fun p => if p = dst then some y else if p = tmp then none else d p) n p = some x ∨
    Disk.followed ps (fun p => if p = dst then some y else if p = tmp then none else d p) n p = some y := by
  intro n
  induction n with
  | zero => intro p x hx; simp [Disk.followed] at hx
  | succ n ih =>
    intro p x hx
    have hp : p ≠ tmp := by
      rintro rfl
      rw [Disk.followed, ht] at hx
      simp at hx
    rw [Disk.followed] at hx ⊢
    by_cases hd : p = dst
    · obtain ⟨c, u, g, m, rfl⟩ := hy
      simp [hd]
    · simp only [hd, hp, if_false]
      cases hdp : d p with
      | none => rw [hdp] at hx; simp at hx
      | some z =>
        rw [hdp] at hx
        cases z with
        | file c u g m => exact .inl hx
        | link t => exact ih _ _ hx

/-- If the entry for the temporary file is taken, nothing happens. -/
theorem processFile_taken {ps : Paths P} {tmp : P} {u g : Nat} {filename : Str} {issues : List Issue} {o : Oracle}
    {n : Nat} {d : Disk P} {x : Node} (h : d tmp = some x) :
    (processFile ps tmp u g filename issues o n d).trace = [] := by
  unfold processFile
  have hm : ∀ k, ((Sys.call (makeTmp tmp u g)) o k d).trace = [] ∧
      ∃ e, ((Sys.call (makeTmp tmp u g)) o k d).val = .error e := by
    intro k
    unfold Sys.call
    cases o.fail k with
    | some e => exact ⟨rfl, e, rfl⟩
    | none => simp [makeTmp, h]
  have hr : (readLink ps filename o n d).trace = [] ∧ (readLink ps filename o n d).disk = d := by
    unfold readLink
    split <;> exact ⟨rfl, rfl⟩
  rw [Sys.bind]
  dsimp only
  cases (readLink ps filename o n d).val with
  | error e => exact hr.1
  | ok df =>
    dsimp only
    rw [hr.1, hr.2, Sys.bind]
    obtain ⟨h1, e, h2⟩ := hm (readLink ps filename o n d).steps
    dsimp only
    rw [h2]
    simpa using h1

/-! ## Runs without faults -/

omit [DecidableEq P] in
theorem ok_bind {α β : Type} {x : Sys P α} {f : α → Sys P β} {o : Oracle} {n : Nat} {d : Disk P} {a : α} {b : β}
    (hx : (x o n d).val = .ok a) (hf : (f a o (x o n d).steps (x o n d).disk).val = .ok b) :
    (Sys.bind x f o n d).val = .ok b := by
  unfold Sys.bind
  dsimp only
  rw [hx]
  exact hf

omit [DecidableEq P] in
theorem ok_call {α : Type} {f : Disk P → Option (Disk P × α)} {o : Oracle} {n : Nat} {d e : Disk P} {a : α}
    (ho : ∀ k, o.fail k = none) (hf : f d = some (e, a)) : (Sys.call f o n d).val = .ok a := by
  unfold Sys.call
  rw [ho, hf]

omit [DecidableEq P] in
theorem ok_ask {α : Type} {f : Disk P → Option α} {o : Oracle} {n : Nat} {d : Disk P} {a : α}
    (ho : ∀ k, o.fail k = none) (hf : f d = some a) : (Sys.ask f o n d).val = .ok a :=
  ok_call (e := d) ho (by rw [hf]; rfl)

theorem ok_write (tmp : P) (w c : Bytes) {o : Oracle} (ho : ∀ k, o.fail k = none) (n : Nat) (d : Disk P) :
    (writeTmp tmp w c o n d).val = .ok (w ++ c) := by
  unfold writeTmp
  dsimp only
  rw [ho]

theorem ok_writeAll (tmp : P) {o : Oracle} (ho : ∀ k, o.fail k = none) (cs : List Bytes) : ∀ w n (d : Disk P),
    ∃ a, (writeAll tmp w cs o n d).val = .ok a := by
  induction cs with
  | nil => intro w n d; exact ⟨w, rfl⟩
  | cons c cs ih =>
    intro w n d
    obtain ⟨a, ha⟩ := ih (w ++ c) (writeTmp tmp w c o n d).steps (writeTmp tmp w c o n d).disk
    exact ⟨a, ok_bind (ok_write tmp w c ho n d) ha⟩

theorem ok_lines (tmp : P) {o : Oracle} (ho : ∀ k, o.fail k = none) (lines : List Bytes) :
    ∀ k todo w n (d : Disk P), (mutated k todo lines).2 = true →
      ∃ a, (mutateLines tmp k todo w lines o n d).val = .ok a := by
  induction lines with
  | nil =>
    intro k todo w n d _
    rw [mutateLines]
    exact ⟨w, ok_bind (ok_ask ho rfl) rfl⟩
  | cons line lines ih =>
    intro k todo w n d h
    cases todo with
    | nil =>
      rw [mutateLines]
      obtain ⟨a, ha⟩ := ih (k + 1) [] (w ++ line) _ _ (by simpa [mutated] using h)
      exact ⟨a, ok_bind (ok_ask ho rfl) (ok_bind (ok_write tmp w line ho _ _) ha)⟩
    | cons i rest =>
      rw [mutateLines]
      by_cases hk : k = i.lineno
      · rw [mutated, if_pos hk] at h
        simp only [Bool.and_eq_true, Option.isNone_iff_eq_none] at h
        obtain ⟨a1, h1⟩ := ok_writeAll tmp ho (i.out line).1 w
          (Sys.ask (fun _ => some ()) o n d).steps (Sys.ask (fun _ => some ()) o n d).disk
        obtain ⟨a, ha⟩ := ih (k + 1) rest a1 _ _ h.2
        refine ⟨a, ok_bind (ok_ask ho rfl) ?_⟩
        rw [if_pos hk]
        refine ok_bind (a := a1) ?_ ha
        unfold processIssue
        refine ok_bind h1 ?_
        rw [h.1]
        rfl
      · rw [mutated, if_neg hk] at h
        obtain ⟨a, ha⟩ := ih (k + 1) (i :: rest) (w ++ line) _ _ h
        refine ⟨a, ok_bind (ok_ask ho rfl) ?_⟩
        rw [if_neg hk]
        exact ok_bind (ok_write tmp w line ho _ _) ha

theorem ok_body (ps : Paths P) (tmp : P) (filename : Str) {issues : List Issue} {o : Oracle}
    (ho : ∀ k, o.fail k = none) (n : Nat) {d : Disk P} {c : Bytes} (hc : nodeContent (d.stat ps filename) = some c)
    (hne : issues ≠ []) (h : (mutated 0 issues (physLines c)).2 = true) :
    (mutateBody ps tmp filename issues o n d).val = .ok () := by
  unfold mutateBody
  cases issues with
  | nil => exact absurd rfl hne
  | cons i rest =>
    dsimp only
    refine ok_bind (ok_ask ho hc) ?_
    obtain ⟨a, ha⟩ := ok_lines tmp ho (physLines c) 0 (i :: rest) [] _ _ h
    refine ok_bind ha ?_
    unfold flushTmp
    rw [ho]

theorem ok_owner (ps : Paths P) (tmp : P) (filename : Str) {o : Oracle}
    (ho : ∀ k, o.fail k = none) (n : Nat) {d : Disk P} {u g m : Nat} (hc : nodeOwner (d.stat ps filename) = some (u, g, m))
    {c : Bytes} {u' g' m' : Nat} (ht : d tmp = some (.file c u' g' m')) :
    (copyOwner ps tmp filename o n d).val = .ok () := by
  unfold copyOwner
  refine ok_bind (a := (u', g', m')) (ok_ask ho (by rw [ht]; rfl)) ?_
  have e1 := (Does.ask (tmp := tmp) (fun d : Disk P => nodeOwner (d tmp)) o n d).2.2 (u', g', m')
    (ok_ask ho (by rw [ht]; rfl))
  rw [e1.2]
  refine ok_bind (a := (u, g, m)) (ok_ask ho hc) ?_
  rw [((Does.ask (tmp := tmp) (fun d : Disk P => nodeOwner (d.stat ps filename)) o _ d).2.2 (u, g, m)
    (ok_ask ho hc)).2]
  have hs : ∀ (d : Disk P) u g m, (∃ c u' g' m', d tmp = some (.file c u' g' m')) →
      ∃ e, setOwner tmp u g m d = some (e, ()) ∧ ∃ c u' g' m', e tmp = some (.file c u' g' m') := by
    rintro d u g m ⟨c, u', g', m', h⟩
    unfold setOwner
    rw [h]
    exact ⟨_, rfl, c, u, g, m, by simp [Disk.set]⟩
  have step : ∀ n, (∀ x : Sys P Unit, x = (if (u', g', m').1 ≠ (u, g, m).1 ∨ (u', g', m').2.1 ≠ (u, g, m).2.1
      then .call (setOwner tmp u g m') else .pure ()) →
      (x o n d).val = .ok () ∧ ∃ c u' g' m', (x o n d).disk tmp = some (.file c u' g' m')) := by
    intro n x hx
    subst hx
    split
    · obtain ⟨e, h1, h2⟩ := hs d u g m' ⟨c, u', g', m', ht⟩
      refine ⟨ok_call ho h1, ?_⟩
      unfold Sys.call
      rw [ho, h1]
      exact h2
    · exact ⟨rfl, c, u', g', m', ht⟩
  obtain ⟨k1, k2⟩ := step (Sys.ask (fun d : Disk P => nodeOwner (d.stat ps filename)) o
    (Sys.ask (fun d : Disk P => nodeOwner (d tmp)) o n d).steps d).steps _ rfl
  refine ok_bind k1 ?_
  split
  · obtain ⟨e, h1, h2⟩ := hs _ u g m k2
    exact ok_call ho h1
  · rfl

theorem ok_file (ps : Paths P) (tmp : P) (u g : Nat) (filename : Str) {issues : List Issue} {o : Oracle}
    (ho : ∀ k, o.fail k = none) (n : Nat) {d : Disk P} {c : Bytes} {u' g' m' : Nat}
    (hf : d.stat ps filename = some (.file c u' g' m')) (hne : issues ≠ [])
    (h : (mutated 0 issues (physLines c)).2 = true) (ht : d tmp = none) :
    (processFile ps tmp u g filename issues o n d).val = .ok () := by
  unfold processFile
  have h1 : (readLink ps filename o n d).val = .ok (diskName ps filename d) := by
    unfold readLink
    rw [ho]
  have h1' : (readLink ps filename o n d).disk = d := ((does_readLink ps tmp filename o n d).2.2 _ h1).1
  refine ok_bind h1 ?_
  rw [h1']
  generalize (readLink ps filename o n d).steps = n1
  have h2 : (Sys.call (makeTmp tmp u g) o n1 d).val = .ok () := ok_call ho (by unfold makeTmp; rw [ht])
  have h2' := ((does_makeTmp tmp u g o n1 d).2.2 _ h2).2
  have o2 := (does_makeTmp tmp u g o n1 d).2.1
  refine ok_bind h2 ?_
  generalize (Sys.call (makeTmp tmp u g) o n1 d).steps = n2
  generalize (Sys.call (makeTmp tmp u g) o n1 d).disk = d2 at h2' o2
  have hd := Does.andFinally (Does.orElse (does_body ps tmp filename issues) (does_unlink tmp))
      ((Does.ask (fun _ => some ())).mono (fun _ _ _ _ h => h.2))
  have h3 : (Sys.andFinally (Sys.orElse (mutateBody ps tmp filename issues)
      (.call fun d => match d tmp with | none => none | some _ => some (d.set tmp none, ())))
    (.ask fun _ => some ()) o n2 d2).val = .ok () := by
    have hb : (mutateBody ps tmp filename issues o n2 d2).val = .ok () :=
      ok_body ps tmp filename ho n2 (c := c) (by rw [Disk.stat, followed_off ht o2 _ _ _ hf]; rfl) hne h
    have hb' : Sys.orElse (mutateBody ps tmp filename issues)
        (.call fun d => match d tmp with | none => none | some _ => some (d.set tmp none, ())) o n2 d2 =
        mutateBody ps tmp filename issues o n2 d2 := by
      unfold Sys.orElse
      dsimp only
      rw [hb]
    unfold Sys.andFinally
    dsimp only
    rw [hb', ok_ask (a := ()) ho rfl]
    exact hb
  have h3' := (hd o n2 d2).2.2 _ h3
  have o3 := (hd o n2 d2).2.1
  refine ok_bind h3 ?_
  generalize (Sys.andFinally (Sys.orElse (mutateBody ps tmp filename issues)
      (.call fun d => match d tmp with | none => none | some _ => some (d.set tmp none, ())))
    (.ask fun _ => some ()) o n2 d2).steps = n3
  generalize (Sys.andFinally (Sys.orElse (mutateBody ps tmp filename issues)
      (.call fun d => match d tmp with | none => none | some _ => some (d.set tmp none, ())))
    (.ask fun _ => some ()) o n2 d2).disk = d3 at h3' o3
  obtain ⟨_, c3, _, _, h3t⟩ := h3'
  have h3t' := h3t u g 0o600 (by rw [h2']; simp [Disk.set, nodeOwner])
  have h4 : (copyOwner ps tmp filename o n3 d3).val = .ok () :=
    ok_owner ps tmp filename ho n3 (u := u') (g := g') (m := m')
      (by rw [Disk.stat, followed_off ht (o2.trans o3) _ _ _ hf]; rfl) h3t'
  obtain ⟨_, _, _, _, h4'⟩ := (does_owner ps tmp filename o n3 d3).2.2 _ h4
  have h4t := h4' _ _ _ _ h3t'
  refine ok_bind h4 (ok_bind (a := ()) (ok_ask ho rfl) ?_)
  rw [((Does.ask (tmp := tmp) (fun _ : Disk P => some ()) o _ _).2.2 () (ok_ask ho rfl)).2]
  exact ok_call ho (by unfold renameTo; rw [h4t])

end ALint
