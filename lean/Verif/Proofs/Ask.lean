import Verif.Spec.Ask
import Verif.Proofs.Mutator
import Verif.Proofs.CanonDisk

/-!
# What the rewriting programs say and ask: lemmas
-/

namespace ALint
open Spec

variable {P : Type} [DecidableEq P]

omit [DecidableEq P] in
theorem joinStr_indented (files : List Str) (h : files ≠ []) :
    c! "  " ++ joinStr (c! "\n  ") files = indented files := by
  induction files with
  | nil => exact absurd rfl h
  | cons f fs ih =>
    cases fs with
    | nil => rfl
    | cons g gs =>
      rw [joinStr, indented, ← ih (by simp)]
      · simp [List.append_assoc]
      · simp

/-! ## The same effects -/

/-- The same effects, whatever is said. -/
def SameEffect {α : Type} (t : Talk P α) (s : Sys P α) : Prop :=
  ∀ o n d, (t o n d).disk = (s o n d).disk ∧ (t o n d).steps = (s o n d).steps ∧ (t o n d).val = (s o n d).val

omit [DecidableEq P] in
theorem SameEffect.quiet {α : Type} (s : Sys P α) : SameEffect (.quiet s) s := fun _ _ _ => ⟨rfl, rfl, rfl⟩

omit [DecidableEq P] in
theorem SameEffect.say (text : Str) : SameEffect (P := P) (.say text) (.ask fun _ => some ()) := by
  intro o n d
  unfold Talk.say Sys.ask Sys.call
  cases o.fail n <;> exact ⟨rfl, rfl, rfl⟩

omit [DecidableEq P] in
theorem SameEffect.bind {α β : Type} {t : Talk P α} {s : Sys P α} {f : α → Talk P β} {g : α → Sys P β}
    (h : SameEffect t s) (h' : ∀ a, SameEffect (f a) (g a)) : SameEffect (.bind t f) (.bind s g) := by
  intro o n d
  obtain ⟨h1, h2, h3⟩ := h o n d
  unfold Talk.bind Sys.bind
  dsimp only
  rw [h1, h2, h3]
  cases (s o n d).val with
  | error e => exact ⟨rfl, rfl, rfl⟩
  | ok a => exact h' a o (s o n d).steps (s o n d).disk

omit [DecidableEq P] in
theorem SameEffect.pure {α : Type} (a : α) : SameEffect (P := P) (.pure a) (.pure a) := fun _ _ _ => ⟨rfl, rfl, rfl⟩

omit [DecidableEq P] in
theorem sys_assoc {α β γ : Type} (x : Sys P α) (f : α → Sys P β) (g : β → Sys P γ) :
    Sys.bind (Sys.bind x f) g = Sys.bind x fun a => Sys.bind (f a) g := by
  funext o n d
  unfold Sys.bind
  dsimp only
  cases (x o n d).val with
  | error e => rfl
  | ok a =>
    dsimp only
    cases (f a o (x o n d).steps (x o n d).disk).val with
    | error e => rfl
    | ok b => simp only [List.append_assoc]

omit [DecidableEq P] in
theorem sys_pure {α β : Type} (a : α) (f : α → Sys P β) : Sys.bind (.pure a) f = f a := by
  funext o n d
  simp [Sys.bind, Sys.pure]

theorem processFile_prepare (ps : Paths P) (tmp : P) (u g : Nat) (filename : Str) (issues : List Issue) :
    processFile ps tmp u g filename issues =
      Sys.bind (prepareFile ps tmp u g filename issues) fun df =>
      Sys.bind (.ask fun _ => some ()) fun _ => .call (renameTo tmp (ps.name df)) := by
  unfold processFile prepareFile
  rw [sys_assoc]
  congr 1; funext df
  rw [sys_assoc]
  congr 1; funext _
  rw [sys_assoc]
  congr 1; funext _
  rw [sys_assoc]
  congr 1

theorem fileTalk_effect (ps : Paths P) (tmp : P) (u g : Nat) (filename : Str) (issues : List Issue) :
    SameEffect (fileTalk ps tmp u g filename issues) (processFile ps tmp u g filename issues) := by
  rw [processFile_prepare]
  exact .bind (.quiet _) fun df => .bind (.say _) fun _ => .quiet _

theorem allTalk_effect (ps : Paths P) (tmps : Str → P) (u g : Nat) (issues : Str → List Issue) (files : List Str) :
    SameEffect (allTalk ps tmps u g issues files) (processAll ps u g (files.map fun f => (f, tmps f, issues f))) := by
  induction files with
  | nil => exact .pure ()
  | cons f fs ih => exact .bind (fileTalk_effect ps (tmps f) u g f (issues f)) fun _ => ih

/-! ## One file -/

theorem does_prepare (ps : Paths P) (tmp : P) (u g : Nat) (filename : Str) (issues : List Issue) :
    Does tmp (prepareFile ps tmp u g filename issues) (fun d name e =>
      (name = filename ∨ name = diskName ps filename d) ∧ ∃ c u' g' m', e tmp = some (.file c u' g' m')) := by
  unfold prepareFile
  refine (Does.bind (does_readLink ps tmp filename) (fun df =>
    Does.bind (does_makeTmp tmp u g) (fun _ =>
    Does.bind (Does.andFinally (Does.orElse (does_body ps tmp filename issues) (does_unlink tmp))
      ((Does.ask _).mono (fun _ _ _ _ h => h.2))) (fun _ =>
    Does.bind (does_owner ps tmp filename) (fun _ => Does.pure tmp df))))).mono ?_
  rintro d a e - ⟨df, d1, ⟨rfl, hdf⟩, _, _, d2, ⟨ht, rfl⟩, o2, _, d3, ⟨hne, c, hc, hok, hbody⟩, o3, _, d4,
    ⟨u', g', m', hown, hcopy⟩, o4, rfl, rfl⟩
  have hset : (d1.set tmp (some (.file [] u g 0o600))) tmp = some (.file [] u g 0o600) := by simp [Disk.set]
  have h3 := hbody u g 0o600 (by rw [hset]; rfl)
  exact ⟨hdf, _, _, _, _, hcopy _ _ _ _ h3⟩

omit [DecidableEq P] in
theorem nameFor_of {ps : Paths P} {d : Disk P} {f name : Str} (h : name = f ∨ name = diskName ps f d) :
    NameFor ps d f name := by
  rcases h with h | h
  · exact .inl h
  · unfold diskName at h
    split at h
    · rename_i t ht
      rw [h]; exact .inr ht
    · exact .inl h

/-- No entry has become a link. -/
def NoNewLinks (d e : Disk P) : Prop := ∀ p t, e p = some (.link t) → d p = some (.link t)

/-- What is known of the rewriting of some files. -/
structure Rewriting (ps : Paths P) (tmps : Str → P) (d : Disk P) (files : List Str) (r : TalkRun P Unit) : Prop where
  announced : Announced ps tmps d files r.deeds
  changed : ∀ p, r.disk p ≠ d p → (∃ f ∈ files, p = tmps f) ∨
    ∃ f ∈ files, ∃ name, NameFor ps d f name ∧ p = ps.name name ∧ Deed.said (overwriting name) ∈ r.deeds
  links : r.val = .ok () → NoNewLinks d r.disk
  lines : ∃ names rest, screen r.deeds = names.map (fun n => .said (overwriting n)) ∧
    ∃ files', files = files' ++ rest ∧ Zips (NameFor ps d) files' names ∧ (r.val = .ok () → rest = [])

omit [DecidableEq P] in
theorem screen_disks (ds : List (Disk P)) : screen (ds.map Deed.disk) = [] := by
  induction ds with
  | nil => rfl
  | cons d ds ih => exact ih

omit [DecidableEq P] in
theorem screen_append (a b : List (Deed P)) : screen (a ++ b) = screen a ++ screen b := by
  induction a with
  | nil => rfl
  | cons x a ih => cases x <;> simp [screen, ih]

omit [DecidableEq P] in
theorem said_screen {t : Str} {a : List (Deed P)} (h : Deed.said t ∈ a) : Deed.said t ∈ screen a := by
  induction a with
  | nil => cases h
  | cons x a ih =>
    rcases List.mem_cons.1 h with h' | h'
    · rw [← h']; exact List.mem_cons_self
    · cases x with
      | disk d => exact ih h'
      | said t => exact List.mem_cons_of_mem _ (ih h')
      | asked t => exact List.mem_cons_of_mem _ (ih h')

omit [DecidableEq P] in
theorem screen_subset {x : Deed P} {a : List (Deed P)} (h : x ∈ screen a) : x ∈ a := by
  induction a with
  | nil => cases h
  | cons y a ih =>
    cases y with
    | disk d => exact List.mem_cons_of_mem _ (ih h)
    | said t =>
      rcases List.mem_cons.1 h with h | h
      · rw [h]; exact List.mem_cons_self
      · exact List.mem_cons_of_mem _ (ih h)
    | asked t =>
      rcases List.mem_cons.1 h with h | h
      · rw [h]; exact List.mem_cons_self
      · exact List.mem_cons_of_mem _ (ih h)

omit [DecidableEq P] in
theorem split_append {α : Type} {a b : List α} {before after : List α} {x : α} (h : a ++ b = before ++ x :: after) :
    (∃ after', a = before ++ x :: after') ∨ ∃ before', before = a ++ before' ∧ b = before' ++ x :: after := by
  rcases List.append_eq_append_iff.1 h with ⟨l, h1, h2⟩ | ⟨l, h1, h2⟩
  · exact .inr ⟨l, h1, h2⟩
  · cases l with
    | nil => exact .inr ⟨[], by simpa using h1.symm, by simpa using h2.symm⟩
    | cons y l =>
      simp only [List.cons_append, List.cons.injEq] at h2
      exact .inl ⟨l, by rw [h1, h2.1]⟩

theorem rewriting_file (ps : Paths P) (tmps : Str → P) (u g : Nat) (f : Str) (issues : List Issue) (o : Oracle) (n : Nat)
    (d : Disk P) : Rewriting ps tmps d [f] (fileTalk ps (tmps f) u g f issues o n d) := by
  obtain ⟨h1, h2, h3⟩ := does_prepare ps (tmps f) u g f issues o n d
  unfold fileTalk Talk.bind Talk.quiet
  dsimp only
  have off : ∀ d' : Disk P, Off (tmps f) d d' → ∀ p, d' p ≠ d p → (∃ f' ∈ [f], p = tmps f') := by
    intro d' hd p hp
    refine ⟨f, List.mem_cons_self, ?_⟩
    by_cases h : p = tmps f
    · exact h
    · exact absurd (hd p h) hp
  have quietly : Announced ps tmps d [f] (List.map Deed.disk (prepareFile ps (tmps f) u g f issues o n d).trace) := by
    intro before after d' he p hp
    have : Deed.disk d' ∈ List.map Deed.disk (prepareFile ps (tmps f) u g f issues o n d).trace := by
      rw [he]; simp
    obtain ⟨e, he', hx⟩ := List.mem_map.1 this
    cases hx
    exact .inl (off _ (h1 _ he') p hp)
  cases hv : (prepareFile ps (tmps f) u g f issues o n d).val with
  | error e =>
    exact ⟨quietly, fun p hp => .inl (off _ h2 p hp), (fun h => nomatch h),
      [], [f], screen_disks _, [], rfl, .nil, fun h => nomatch h⟩
  | ok name =>
    obtain ⟨hn, c, u', g', m', htmp⟩ := h3 name hv
    have hN := nameFor_of hn
    dsimp only
    unfold Talk.say
    cases ho : o.fail (prepareFile ps (tmps f) u g f issues o n d).steps with
    | some e =>
      dsimp only
      exact ⟨by rw [List.append_nil]; exact quietly, fun p hp => .inl (off _ h2 p hp), (fun h => nomatch h),
        [], [f], by rw [List.append_nil]; exact screen_disks _, [], rfl, .nil, fun h => nomatch h⟩
    | none =>
      dsimp only
      unfold Sys.call
      cases ho2 : o.fail ((prepareFile ps (tmps f) u g f issues o n d).steps + 1) with
      | some e =>
        dsimp only
        refine ⟨?_, fun p hp => .inl (off _ h2 p hp), (fun h => nomatch h),
          [name], [], ?_, [f], rfl, .cons hN .nil, fun _ => rfl⟩
        · intro before after d' he p hp
          rcases split_append he with ⟨after', h⟩ | ⟨before', -, h⟩
          · exact quietly _ _ _ h p hp
          · simp only [List.map_nil, List.append_nil] at h
            cases before' with
            | nil => simp at h
            | cons y l => simp at h
        · rw [screen_append, screen_disks]; rfl
      | none =>
        unfold renameTo
        rw [htmp]
        dsimp only
        have hch : ∀ p, (if p = ps.name name then some (Node.file c u' g' m') else if p = tmps f then none
            else (prepareFile ps (tmps f) u g f issues o n d).disk p) ≠ d p → (∃ f' ∈ [f], p = tmps f') ∨ p = ps.name name := by
          intro p hp
          by_cases e1 : p = ps.name name
          · exact .inr e1
          · rw [if_neg e1] at hp
            by_cases e2 : p = tmps f
            · exact .inl ⟨f, List.mem_cons_self, e2⟩
            · rw [if_neg e2] at hp
              exact .inl (off _ h2 p hp)
        refine ⟨?_, ?_, ?_, [name], [], ?_, [f], rfl, .cons hN .nil, fun _ => rfl⟩
        · intro before after d' he p hp
          rcases split_append he with ⟨after', h⟩ | ⟨before', hb, h⟩
          · exact quietly _ _ _ h p hp
          · simp only [List.map_cons, List.map_nil] at h
            cases before' with
            | nil => simp at h
            | cons y l =>
              simp only [List.cons_append, List.cons.injEq] at h
              obtain ⟨rfl, h⟩ := h
              cases l with
              | cons z l => simp at h
              | nil =>
                simp only [List.nil_append, List.cons.injEq, Deed.disk.injEq] at h
                obtain ⟨h, -⟩ := h
                rw [← h] at hp
                rcases hch p hp with h' | h'
                · exact .inl h'
                · refine .inr ⟨f, List.mem_cons_self, name, hN, h', ?_⟩
                  rw [hb]
                  exact List.mem_append_right _ List.mem_cons_self
        · intro p hp
          rcases hch p hp with h' | h'
          · exact .inl h'
          · exact .inr ⟨f, List.mem_cons_self, name, hN, h', List.mem_append_right _ (List.mem_append_left _ List.mem_cons_self)⟩
        · intro _ p t hp
          dsimp only at hp
          split at hp
          · cases hp
          · split at hp
            · cases hp
            · rename_i h
              rw [h2 p h] at hp
              exact hp
        · rw [screen_append, screen_disks]; rfl

/-! ## All files -/

omit [DecidableEq P] in
theorem nameFor_back {ps : Paths P} {d e : Disk P} {f name : Str} (h : NameFor ps e f name) (hl : NoNewLinks d e) :
    NameFor ps d f name := by
  rcases h with h | h
  · exact .inl h
  · exact .inr (hl _ _ h)

theorem rewriting_all (ps : Paths P) (tmps : Str → P) (u g : Nat) (issues : Str → List Issue) (files : List Str) :
    ∀ (o : Oracle) (n : Nat) (d : Disk P), Rewriting ps tmps d files (allTalk ps tmps u g issues files o n d) := by
  induction files with
  | nil =>
    intro o n d
    refine ⟨?_, fun p hp => absurd rfl hp, fun _ p t hp => hp, [], [], rfl, [], rfl, .nil, fun _ => rfl⟩
    intro before after d' he
    unfold allTalk Talk.pure at he
    cases before <;> simp at he
  | cons f fs ih =>
    intro o n d
    have h1 := rewriting_file ps tmps u g f (issues f) o n d
    unfold allTalk Talk.bind
    dsimp only
    generalize fileTalk ps (tmps f) u g f (issues f) o n d = r at h1
    have one : ∀ f' : Str, f' ∈ [f] → f' ∈ f :: fs := by
      intro f' hf
      rw [List.mem_singleton.1 hf]; exact List.mem_cons_self
    have wid : ∀ (p : P) (ds ds' : List (Deed P)), (∀ x ∈ ds, x ∈ ds') → ((∃ f' ∈ [f], p = tmps f') ∨
        ∃ f' ∈ [f], ∃ name, NameFor ps d f' name ∧ p = ps.name name ∧ Deed.said (overwriting name) ∈ ds) →
        (∃ f' ∈ f :: fs, p = tmps f') ∨
        ∃ f' ∈ f :: fs, ∃ name, NameFor ps d f' name ∧ p = ps.name name ∧ Deed.said (overwriting name) ∈ ds' := by
      rintro p ds ds' hd (⟨f', g1, g2⟩ | ⟨f', g1, name, g2, g3, g4⟩)
      · exact .inl ⟨f', one f' g1, g2⟩
      · exact .inr ⟨f', one f' g1, name, g2, g3, hd _ g4⟩
    cases hv : r.val with
    | error e =>
      refine ⟨?_, ?_, (fun h => nomatch h), ?_⟩
      · intro before after d' he p hp
        exact wid p _ _ (fun _ h => h) (h1.announced before after d' he p hp)
      · intro p hp
        exact wid p _ _ (fun _ h => h) (h1.changed p hp)
      · obtain ⟨names, rest, a1, files', a2, a3, -⟩ := h1.lines
        exact ⟨names, rest ++ fs, a1, files', by
          rw [← List.append_assoc, ← a2]; rfl, a3, fun h => nomatch h⟩
    | ok w =>
      obtain ⟨⟩ := w
      have hlk := h1.links hv
      have h2 := ih o r.steps r.disk
      dsimp only
      generalize allTalk ps tmps u g issues fs o r.steps r.disk = s at h2
      have wid2 : ∀ (p : P) (ds ds' : List (Deed P)), (∀ x ∈ ds, x ∈ ds') → ((∃ f' ∈ fs, p = tmps f') ∨
          ∃ f' ∈ fs, ∃ name, NameFor ps r.disk f' name ∧ p = ps.name name ∧ Deed.said (overwriting name) ∈ ds) →
          (∃ f' ∈ f :: fs, p = tmps f') ∨
          ∃ f' ∈ f :: fs, ∃ name, NameFor ps d f' name ∧ p = ps.name name ∧ Deed.said (overwriting name) ∈ ds' := by
        rintro p ds ds' hd (⟨f', g1, g2⟩ | ⟨f', g1, name, g2, g3, g4⟩)
        · exact .inl ⟨f', List.mem_cons_of_mem _ g1, g2⟩
        · exact .inr ⟨f', List.mem_cons_of_mem _ g1, name, nameFor_back g2 hlk, g3, hd _ g4⟩
      refine ⟨?_, ?_, ?_, ?_⟩
      · intro before after d' he p hp
        rcases split_append he with ⟨after', h⟩ | ⟨before', hb, h⟩
        · exact wid p _ _ (fun _ h => h) (h1.announced _ _ _ h p hp)
        · by_cases hq : d' p = r.disk p
          · rw [hq] at hp
            exact wid p _ _ (fun x hx => by rw [hb]; exact List.mem_append_left _ hx) (h1.changed p hp)
          · exact wid2 p _ _ (fun x hx => by rw [hb]; exact List.mem_append_right _ hx) (h2.announced _ _ _ h p hq)
      · intro p hp
        by_cases hq : s.disk p = r.disk p
        · dsimp only at hp
          rw [hq] at hp
          exact wid p _ _ (fun x hx => List.mem_append_left _ hx) (h1.changed p hp)
        · exact wid2 p _ _ (fun x hx => List.mem_append_right _ hx) (h2.changed p hq)
      · intro hs p t hp
        exact hlk p t (h2.links hs p t hp)
      · obtain ⟨names, rest, a1, files', a2, a3, a4⟩ := h1.lines
        obtain ⟨names', rest', b1, files'', b2, b3, b4⟩ := h2.lines
        have hr := a4 hv
        subst hr
        rw [List.append_nil] at a2
        refine ⟨names ++ names', rest', ?_, f :: files'', ?_, ?_, b4⟩
        · rw [screen_append, a1, b1, List.map_append]
        · rw [b2]; rfl
        · rw [← a2] at a3
          cases a3 with
          | cons a3 a3' =>
            cases a3'
            have b3' : Zips (NameFor ps d) files'' names' := by
              clear b1 b2
              induction b3 with
              | nil => exact .nil
              | cons h _ ih => exact .cons (nameFor_back h hlk) ih
            exact .cons a3 b3'

end ALint

namespace ALint
open Spec

variable {P : Type} [DecidableEq P]

/-! ## The program -/

/-- What is said when there is nothing to do. -/
def nothingToDo (title : Str) : List (Deed P) :=
  [.said title, .said (c! "Parsing current config..."), .said [], .said (c! "Your dialplan has no issues. We're done here.")]

omit [DecidableEq P] in
theorem say_none {text : Str} {o : Oracle} {k : Nat} {d : Disk P} (h : o.fail k = none) :
    Talk.say text o k d = ⟨[.said text], d, k + 1, .ok ()⟩ := by
  unfold Talk.say; rw [h]

omit [DecidableEq P] in
theorem say_some {text : Str} {o : Oracle} {k : Nat} {d : Disk P} {e : Halt} (h : o.fail k = some e) :
    Talk.say text o k d = ⟨[], d, k + 1, .error e⟩ := by
  unfold Talk.say; rw [h]

omit [DecidableEq P] in
theorem talk_bind_ok {α β : Type} {x : Talk P α} {f : α → Talk P β} {o : Oracle} {k k' : Nat} {d d' : Disk P} {ds : List (Deed P)}
    {a : α} (h : x o k d = ⟨ds, d', k', .ok a⟩) :
    Talk.bind x f o k d = ⟨ds ++ (f a o k' d').deeds, (f a o k' d').disk, (f a o k' d').steps, (f a o k' d').val⟩ := by
  unfold Talk.bind; rw [h]

omit [DecidableEq P] in
theorem talk_bind_error {α β : Type} {x : Talk P α} {f : α → Talk P β} {o : Oracle} {k k' : Nat} {d d' : Disk P} {ds : List (Deed P)}
    {e : Halt} (h : x o k d = ⟨ds, d', k', .error e⟩) :
    Talk.bind x f o k d = ⟨ds, d', k', .error e⟩ := by
  unfold Talk.bind; rw [h]

/-- What may become of asking: nothing is touched, or the answer is `y` and all files are gone through. -/
inductive Asked (ps : Paths P) (tmps : Str → P) (u g : Nat) (answer : Option Str) (files : List Str)
    (issues : Str → List Issue) (o : Oracle) (d : Disk P) : TalkRun P Unit → Prop
  | stopped (ds : List (Deed P)) (k : Nat) (e : Halt) (h : ds <+: [.said (c! "The following files have issues:"),
      .said (indented files), .asked question])
      (hq : (∀ j, o.fail j = none) → files ≠ [] ∧ answer = none ∧ e = .error ∧
        ds = [.said (c! "The following files have issues:"), .said (indented files), .asked question]) :
      Asked ps tmps u g answer files issues o d ⟨ds, d, k, .error e⟩
  | nothing (k : Nat) (h : files = []) :
      Asked ps tmps u g answer files issues o d ⟨[.said (c! "Your dialplan has no issues. We're done here.")], d, k, .ok ()⟩
  | refused (k : Nat) (h : files ≠ []) (a : Str) (ha : answer = some a) (hy : a ≠ c! "y") :
      Asked ps tmps u g answer files issues o d ⟨[.said (c! "The following files have issues:"), .said (indented files),
        .asked question, .said (c! "Aborted.")], d, k, .ok ()⟩
  | failed (k k' : Nat) (h : files ≠ []) (ha : answer = some (c! "y")) (e : Halt) :
      Asked ps tmps u g answer files issues o d ⟨[.said (c! "The following files have issues:"), .said (indented files),
        .asked question] ++ (allTalk ps tmps u g issues files o k d).deeds, (allTalk ps tmps u g issues files o k d).disk, k',
        .error e⟩
  | done (k k' : Nat) (h : files ≠ []) (ha : answer = some (c! "y")) (hv : (allTalk ps tmps u g issues files o k d).val = .ok ()) :
      Asked ps tmps u g answer files issues o d ⟨[.said (c! "The following files have issues:"), .said (indented files),
        .asked question] ++ ((allTalk ps tmps u g issues files o k d).deeds ++ [.said (c! "Done")]),
        (allTalk ps tmps u g issues files o k d).disk, k', .ok ()⟩

theorem asked_talk (ps : Paths P) (tmps : Str → P) (u g : Nat) (answer : Option Str) (files : List Str)
    (issues : Str → List Issue) (o : Oracle) (k : Nat) (d : Disk P) :
    Asked ps tmps u g answer files issues o d (askTalk ps tmps u g answer files issues o k d) := by
  unfold askTalk
  by_cases hf : files = []
  · rw [if_pos (by simp [hf])]
    cases ho : o.fail k with
    | some e => rw [say_some ho]; exact .stopped _ _ _ (List.nil_prefix) fun h => (by rw [h] at ho; cases ho)
    | none => rw [say_none ho]; exact .nothing _ hf
  · rw [if_neg (by simp [hf])]
    cases ho : o.fail k with
    | some e => rw [talk_bind_error (say_some ho)]; exact .stopped _ _ _ (List.nil_prefix) fun h => (by rw [h] at ho; cases ho)
    | none =>
      rw [talk_bind_ok (say_none ho), joinStr_indented files hf]
      cases ho1 : o.fail (k + 1) with
      | some e => rw [talk_bind_error (say_some ho1)]; exact .stopped _ _ _ (by simp) fun h => (by rw [h] at ho1; cases ho1)
      | none =>
        rw [talk_bind_ok (say_none ho1)]
        cases ho2 : o.fail (k + 1 + 1) with
        | some e =>
          rw [talk_bind_error (k' := k + 1 + 1 + 1) (ds := []) (d' := d) (e := e) (by unfold Talk.ask; rw [ho2])]
          exact .stopped _ _ _ (by simp) fun h => (by rw [h] at ho2; cases ho2)
        | none =>
          cases answer with
          | none =>
            rw [talk_bind_error (k' := k + 1 + 1 + 1) (ds := [.asked (c! "Update all [y/n] ? ")]) (d' := d) (e := .error)
              (by unfold Talk.ask; rw [ho2])]
            exact .stopped _ _ _ (by simp [question]) fun _ => ⟨hf, rfl, rfl, rfl⟩
          | some a =>
            rw [talk_bind_ok (k' := k + 1 + 1 + 1) (ds := [.asked (c! "Update all [y/n] ? ")]) (d' := d) (a := a)
              (by unfold Talk.ask; rw [ho2])]
            by_cases ha : a = c! "y"
            · subst ha
              rw [if_neg (by simp)]
              cases hv : (allTalk ps tmps u g issues files o (k + 1 + 1 + 1) d).val with
              | error e =>
                rw [talk_bind_error (ds := (allTalk ps tmps u g issues files o (k + 1 + 1 + 1) d).deeds)
                  (d' := (allTalk ps tmps u g issues files o (k + 1 + 1 + 1) d).disk)
                  (k' := (allTalk ps tmps u g issues files o (k + 1 + 1 + 1) d).steps) (e := e) (by rw [← hv])]
                exact .failed (k + 1 + 1 + 1) _ hf rfl e
              | ok w =>
                rw [talk_bind_ok (ds := (allTalk ps tmps u g issues files o (k + 1 + 1 + 1) d).deeds)
                  (d' := (allTalk ps tmps u g issues files o (k + 1 + 1 + 1) d).disk)
                  (k' := (allTalk ps tmps u g issues files o (k + 1 + 1 + 1) d).steps) (a := ()) (by rw [← hv])]
                cases ho3 : o.fail (allTalk ps tmps u g issues files o (k + 1 + 1 + 1) d).steps with
                | some e =>
                  rw [say_some ho3]
                  dsimp only
                  rw [List.append_nil]
                  exact .failed (k + 1 + 1 + 1) _ hf rfl e
                | none =>
                  rw [say_none ho3]
                  exact .done (k + 1 + 1 + 1) _ hf rfl hv
            · rw [if_pos ha]
              cases ho3 : o.fail (k + 1 + 1 + 1) with
              | some e => rw [say_some ho3]; exact .stopped _ _ _ (by simp [question]) fun h => (by rw [h] at ho3; cases ho3)
              | none => rw [say_none ho3]; exact .refused _ hf a rfl ha

/-- What may become of the program: it stops before the dialplan is read, or goes on to ask. -/
theorem mutatorTalk_cases (title : Str) (filesOf : List Msg → List Str) (issuesOf : List Msg → Str → List Issue)
    (ps : Paths P) (tmps : Str → P) (u g : Nat) (env : DEnv) (n : Nat) (answer : Option Str) (path : Str)
    (o : Oracle) (k : Nat) (d : Disk P) :
    (∃ ds k' e, mutatorTalk title filesOf issuesOf ps tmps u g env n answer path o k d = ⟨ds, d, k', .error e⟩ ∧
      ds <+: [.said title, .said (c! "Parsing current config...")] ∧
      ((∀ j, o.fail j = none) → ∀ st, (readDialplan (fun p => nodeContent (d.stat ps p)) env n path).val ≠ .ok (.ok st))) ∨
    ∃ st, (readDialplan (fun p => nodeContent (d.stat ps p)) env n path).val = .ok (.ok st) ∧
      ∃ r, Asked ps tmps u g answer (filesOf (readDialplan (fun p => nodeContent (d.stat ps p)) env n path).log)
        (issuesOf (readDialplan (fun p => nodeContent (d.stat ps p)) env n path).log) o d r ∧
      mutatorTalk title filesOf issuesOf ps tmps u g env n answer path o k d =
        ⟨[.said title, .said (c! "Parsing current config...")] ++ (match o.fail (k + 3) with | none => [.said []] | some _ => []) ++ r.deeds,
          r.disk, r.steps, r.val⟩ ∧ (o.fail (k + 3) ≠ none → r.deeds = [] ∧ ∃ e, r.val = .error e) := by
  unfold mutatorTalk
  cases ho : o.fail k with
  | some e =>
    left
    rw [talk_bind_error (ds := []) (d' := d) (k' := k + 1) (e := e) (by unfold Talk.openFile; rw [ho])]
    exact ⟨_, _, _, rfl, List.nil_prefix, fun h => by rw [h k] at ho; cases ho⟩
  | none =>
    cases hc : nodeContent (d.stat ps path) with
    | none =>
      left
      rw [talk_bind_error (ds := []) (d' := d) (k' := k + 1) (e := .error) (by unfold Talk.openFile; rw [ho, hc])]
      refine ⟨_, _, _, rfl, List.nil_prefix, fun _ st hst => ?_⟩
      unfold readDialplan opening at hst
      dsimp only at hst
      rw [hc] at hst
      cases hst
    | some c =>
      rw [talk_bind_ok (ds := []) (d' := d) (k' := k + 1) (a := ()) (by unfold Talk.openFile; rw [ho, hc])]
      cases ho1 : o.fail (k + 1) with
      | some e =>
        left
        rw [talk_bind_error (say_some ho1)]
        exact ⟨_, _, _, rfl, List.nil_prefix, fun h => by rw [h (k + 1)] at ho1; cases ho1⟩
      | none =>
        rw [talk_bind_ok (say_none ho1)]
        cases ho2 : o.fail (k + 1 + 1) with
        | some e =>
          left
          rw [talk_bind_error (say_some ho2)]
          exact ⟨_, _, _, rfl, by simp, fun h => by rw [h (k + 1 + 1)] at ho2; cases ho2⟩
        | none =>
          rw [talk_bind_ok (say_none ho2)]
          unfold readTalk
          dsimp only
          cases hv : (readDialplan (fun p => nodeContent (d.stat ps p)) env n path).val with
          | error e =>
            left
            exact ⟨_, _, _, rfl, by simp, fun _ st h => nomatch h⟩
          | ok x =>
            cases x with
            | error e =>
              left
              exact ⟨_, _, _, rfl, by simp, fun _ st h => nomatch h⟩
            | ok st =>
              right
              dsimp only
              refine ⟨st, rfl, ?_⟩
              show ∃ r, _
              cases ho3 : o.fail (k + 3) with
              | some e =>
                rw [talk_bind_error (say_some ho3)]
                exact ⟨⟨[], d, _, .error e⟩, .stopped _ _ _ List.nil_prefix (fun h => (by rw [h (k + 3)] at ho3; cases ho3)),
                  rfl, fun _ => ⟨rfl, e, rfl⟩⟩
              | none =>
                rw [talk_bind_ok (say_none ho3)]
                exact ⟨_, asked_talk ps tmps u g answer _ _ o (k + 3 + 1) d, rfl, fun h => absurd rfl h⟩

end ALint
