import Verif.Spec.Entry
import Verif.Proofs.ArgLine
import Verif.Props.Main

/-!
# C106: `asterisklint` without a command
-/

namespace ALint
open Spec

/-- No option takes a value. -/
def NoValues (p : ArgParser) : Prop := ∀ o ∈ p.opts, ∀ d, o.2 ≠ .unique d

/-- `EntryGoes` for the rest of a line. -/
inductive EntryAt (p : ArgParser) (stray : Bool) (n : Nat) (ws : List Str) : EntryOut → Prop
  | shows {a b : List Str} {w : Str} {act : OptAct} : ws = a ++ w :: b → (∀ x ∈ a, PassedOver p x) → w ≠ c! "--" →
      AsksFor p w act → EntryAt p stray n ws act.exits
  | wrong {a b : List Str} {w : Str} : ws = a ++ w :: b → (∀ x ∈ a, PassedOver p x) → w ≠ c! "--" → GivenWrongly p w →
      EntryAt p stray n ws .refused
  | single : stray = false → (∀ x ∈ beforeDashes ws, WordIs p x .plain) → (ws.erase (c! "--")).length + n = 1 →
      EntryAt p stray n ws .nothing
  | other : (∀ x ∈ beforeDashes ws, PassedOver p x) →
      (stray = true ∨ (∃ x ∈ beforeDashes ws, WordIs p x .unknown) ∨ (ws.erase (c! "--")).length + n ≠ 1) →
      EntryAt p stray n ws .refused

theorem entryLoop_plain (p : ArgParser) (stray : Bool) (n : Nat) (ws : List Str) :
    entryLoop p stray n (ws.map .plain) = if !stray && n + ws.length == 1 then .nothing else .refused := by
  induction ws generalizing n with
  | nil => simp [entryLoop]
  | cons w ws ih =>
    rw [List.map_cons, entryLoop, ih, show n + 1 + ws.length = n + (w :: ws).length by simp; omega]

theorem entryLoop_opt {p : ArgParser} {stray : Bool} {n : Nat} {w : Str} {t : OptTuple} {rest : List ArgItem} {act : OptAct}
    (h : t.act = some act) : entryLoop p stray n (.opt w t :: rest) = match optMatch p t act rest with
      | .error _ => .refused
      | .ok (acts, _, _) => match acts with
        | [] => .refused
        | (a, _) :: _ => a.exits := by
  rw [entryLoop]
  simp only [h]
  rfl

/-- What becomes of an option. -/
theorem entry_asks {p : ArgParser} (hp : TidyParser p) (hu : NoValues p) {w : Str} {act : OptAct} (h : AsksFor p w act)
    {t : Option OptTuple} (ht : parseOptional p w = .ok t) (stray : Bool) (n : Nat) (rest : List ArgItem) :
    entryLoop p stray n (itemOf w t :: rest) = act.exits := by
  rcases h with h | ⟨acts, e, h, he⟩
  · have hpw := parse_word hp h
    have hna : ∀ d, act ≠ .unique d := by
      cases h with
      | option _ hm _ _ => exact hu _ hm
    rw [ht] at hpw
    cases hpw
    rw [itemOf, entryLoop_opt rfl]
    unfold optMatch
    dsimp only
    rw [matchFollowing_plain hna]
  · have hpw := parse_word hp h
    rw [ht] at hpw
    cases hpw with
    | letters hta hg _ =>
      rw [itemOf, entryLoop_opt hta]
      have := hg rest
      generalize optMatch p _ _ rest = m at this
      cases this with
      | fine => rfl
      | unknown x => rfl
      | wrong => exact absurd rfl he

theorem entry_wrong {p : ArgParser} (hp : TidyParser p) (hu : NoValues p) {w : Str} (h : GivenWrongly p w)
    {t : Option OptTuple} (ht : parseOptional p w = .ok t) (stray : Bool) (n : Nat) (rest : List ArgItem) :
    entryLoop p stray n (itemOf w t :: rest) = .refused := by
  rcases h with ⟨act, v, h⟩ | ⟨acts, h⟩
  · have hpw := parse_word hp h
    have hna : ∀ d, act ≠ .unique d := by
      cases h with
      | option _ hm _ _ => exact hu _ hm
    rw [ht] at hpw
    cases hpw with
    | option hn =>
      rw [itemOf, entryLoop_opt rfl]
      unfold optMatch
      dsimp only [Option.map_some, Option.getD_some]
      rw [explicit_eq hna]
  · have hpw := parse_word hp h
    rw [ht] at hpw
    cases hpw with
    | letters hta hg _ =>
      rw [itemOf, entryLoop_opt hta]
      have := hg rest
      generalize optMatch p _ _ rest = m at this
      cases this
      rfl

theorem entry_plain {p : ArgParser} (hp : TidyParser p) {w : Str} (h : WordIs p w .plain)
    {t : Option OptTuple} (ht : parseOptional p w = .ok t) (stray : Bool) (n : Nat) (rest : List ArgItem) :
    entryLoop p stray n (itemOf w t :: rest) = entryLoop p stray (n + 1) rest := by
  have hpw := parse_word hp h
  rw [ht] at hpw
  cases hpw
  rw [itemOf, entryLoop]

theorem entry_unknown {p : ArgParser} (hp : TidyParser p) {w : Str} (h : WordIs p w .unknown)
    {t : Option OptTuple} (ht : parseOptional p w = .ok t) (stray : Bool) (n : Nat) (rest : List ArgItem) :
    entryLoop p stray n (itemOf w t :: rest) = entryLoop p true n rest := by
  have hpw := parse_word hp h
  rw [ht] at hpw
  cases hpw
  rw [itemOf, entryLoop]

theorem erase_cons_ne {w : Str} {ws : List Str} (hw : w ≠ c! "--") :
    ((w :: ws).erase (c! "--")).length = (ws.erase (c! "--")).length + 1 := by
  rw [List.erase_cons_tail (by simpa using hw)]
  rfl

theorem EntryAt.plain {p : ArgParser} {stray : Bool} {n : Nat} {w : Str} {ws : List Str} {o : EntryOut}
    (hw : w ≠ c! "--") (h : WordIs p w .plain) (ha : EntryAt p stray (n + 1) ws o) : EntryAt p stray n (w :: ws) o := by
  have hb := before_cons (ws := ws) hw
  have he := erase_cons_ne (ws := ws) hw
  cases ha with
  | shows h1 h2 h3 h4 =>
    exact .shows (a := w :: _) (by rw [h1]; rfl) (List.forall_mem_cons.2 ⟨⟨hw, .inl h⟩, h2⟩) h3 h4
  | wrong h1 h2 h3 h4 =>
    exact .wrong (a := w :: _) (by rw [h1]; rfl) (List.forall_mem_cons.2 ⟨⟨hw, .inl h⟩, h2⟩) h3 h4
  | single h1 h2 h3 =>
    exact .single h1 (by rw [hb]; exact List.forall_mem_cons.2 ⟨h, h2⟩) (by omega)
  | other h1 h2 =>
    refine .other (by rw [hb]; exact List.forall_mem_cons.2 ⟨⟨hw, .inl h⟩, h1⟩) ?_
    rcases h2 with h2 | ⟨x, hx, h2⟩ | h2
    · exact .inl h2
    · exact .inr (.inl ⟨x, by rw [hb]; exact List.mem_cons_of_mem _ hx, h2⟩)
    · exact .inr (.inr (by omega))

theorem EntryAt.unknown {p : ArgParser} {stray : Bool} {n : Nat} {w : Str} {ws : List Str} {o : EntryOut}
    (hw : w ≠ c! "--") (h : WordIs p w .unknown) (ha : EntryAt p true n ws o) : EntryAt p stray n (w :: ws) o := by
  have hb := before_cons (ws := ws) hw
  cases ha with
  | shows h1 h2 h3 h4 =>
    exact .shows (a := w :: _) (by rw [h1]; rfl) (List.forall_mem_cons.2 ⟨⟨hw, .inr h⟩, h2⟩) h3 h4
  | wrong h1 h2 h3 h4 =>
    exact .wrong (a := w :: _) (by rw [h1]; rfl) (List.forall_mem_cons.2 ⟨⟨hw, .inr h⟩, h2⟩) h3 h4
  | single h1 => cases h1
  | other h1 h2 =>
    exact .other (by rw [hb]; exact List.forall_mem_cons.2 ⟨⟨hw, .inr h⟩, h1⟩)
      (.inr (.inl ⟨w, by rw [hb]; exact List.mem_cons_self .., h⟩))

/-- What the loop does is described. -/
theorem entry_at {p : ArgParser} (hp : TidyParser p) (hu : NoValues p) : ∀ (ws : List Str) (items : List ArgItem)
    (stray : Bool) (n : Nat), classify p ws = .ok items → EntryAt p stray n ws (entryLoop p stray n items) := by
  intro ws
  induction ws with
  | nil =>
    intro items stray n h
    cases h
    rw [entryLoop]
    split
    · rename_i hc
      simp only [Bool.and_eq_true, Bool.not_eq_true', beq_iff_eq] at hc
      exact .single hc.1 (by simp [beforeDashes]) (by simp [hc.2])
    · rename_i hc
      refine .other (by simp [beforeDashes]) ?_
      cases stray with
      | true => exact .inl rfl
      | false => exact .inr (.inr (by simpa using hc))
  | cons w ws ih =>
    intro items stray n h
    by_cases hw : w = c! "--"
    · subst hw
      rw [classify_dashes] at h
      cases h
      rw [entryLoop, entryLoop_plain]
      have he : (c! "--" :: ws).erase (c! "--") = ws := by simp
      split
      · rename_i hc
        simp only [Bool.and_eq_true, Bool.not_eq_true', beq_iff_eq] at hc
        exact .single hc.1 (by simp [before_dashes]) (by rw [he]; omega)
      · rename_i hc
        refine .other (by simp [before_dashes]) ?_
        cases stray with
        | true => exact .inl rfl
        | false =>
          refine .inr (.inr ?_)
          rw [he]
          simp only [Bool.not_false, Bool.true_and, beq_iff_eq] at hc
          omega
    · obtain ⟨t, items', ht, hi, rfl⟩ := classify_cons hw h
      obtain ⟨k, hk⟩ := word_exists p w
      cases k with
      | plain =>
        rw [entry_plain hp hk ht]
        exact .plain hw hk (ih _ _ _ hi)
      | unknown =>
        rw [entry_unknown hp hk ht]
        exact .unknown hw hk (ih _ _ _ hi)
      | ambiguous =>
        have := parse_word hp hk
        rw [ht] at this
        cases this
      | option act v =>
        cases v with
        | none =>
          rw [entry_asks hp hu (.inl hk) ht]
          exact .shows (a := []) rfl (by simp) hw (.inl hk)
        | some v =>
          rw [entry_wrong hp hu (.inl ⟨_, _, hk⟩) ht]
          exact .wrong (a := []) rfl (by simp) hw (.inl ⟨_, _, hk⟩)
      | letters acts e =>
        by_cases he : e = .wrong
        · subst he
          rw [entry_wrong hp hu (.inr ⟨_, hk⟩) ht]
          exact .wrong (a := []) rfl (by simp) hw (.inr ⟨_, hk⟩)
        · cases acts with
          | nil => cases hk
          | cons a acts =>
            rw [entry_asks hp hu (.inr ⟨_, _, hk, he⟩) ht]
            exact .shows (a := []) rfl (by simp) hw (.inr ⟨_, _, hk, he⟩)

/-- A word is of one kind only. -/
theorem asks_not_passed {p : ArgParser} (hp : TidyParser p) {w : Str} {act : OptAct} (h : AsksFor p w act) : ¬ PassedOver p w := by
  rintro ⟨_, h' | h'⟩ <;> rcases h with h | ⟨_, _, h, _⟩ <;> cases word_unique hp h h'

theorem wrong_not_passed {p : ArgParser} (hp : TidyParser p) {w : Str} (h : GivenWrongly p w) : ¬ PassedOver p w := by
  rintro ⟨_, h' | h'⟩ <;> rcases h with ⟨_, _, h⟩ | ⟨_, h⟩ <;> cases word_unique hp h h'

theorem asks_unique {p : ArgParser} (hp : TidyParser p) {w : Str} {act act' : OptAct} (h : AsksFor p w act)
    (h' : AsksFor p w act') : act = act' := by
  rcases h with h | ⟨_, _, h, _⟩ <;> rcases h' with h' | ⟨_, _, h', _⟩ <;> cases word_unique hp h h' <;> rfl

theorem asks_not_wrong {p : ArgParser} (hp : TidyParser p) {w : Str} {act : OptAct} (h : AsksFor p w act) :
    ¬ GivenWrongly p w := by
  intro h'
  rcases h with h | ⟨_, _, h, he⟩ <;> rcases h' with ⟨_, _, h'⟩ | ⟨_, h'⟩ <;> have e := word_unique hp h h' <;> cases e
  exact he rfl

theorem first_stop {P : Str → Prop} {a b a' b' : List Str} {w w' : Str} (h : a ++ w :: b = a' ++ w' :: b')
    (ha : ∀ x ∈ a, P x) (ha' : ∀ x ∈ a', P x) (hw : ¬ P w) (hw' : ¬ P w') : w = w' := by
  induction a generalizing a' with
  | nil =>
    cases a' with
    | nil => simp only [List.nil_append, List.cons.injEq] at h; exact h.1
    | cons x a' =>
      simp only [List.nil_append, List.cons_append, List.cons.injEq] at h
      exact absurd (h.1 ▸ ha' x (by simp)) hw
  | cons x a ih =>
    cases a' with
    | nil =>
      simp only [List.nil_append, List.cons_append, List.cons.injEq] at h
      exact absurd (h.1 ▸ ha x (by simp)) hw'
    | cons y a' =>
      simp only [List.cons_append, List.cons.injEq] at h
      exact ih h.2 (fun x hx => ha x (by simp [hx])) (fun x hx => ha' x (by simp [hx]))

/-- An option behind words that are passed over is before any `--`. -/
theorem mem_before {p : ArgParser} {a b : List Str} {w : Str} (ha : ∀ x ∈ a, PassedOver p x) (hw : w ≠ c! "--") :
    w ∈ beforeDashes (a ++ w :: b) := by
  induction a with
  | nil => rw [List.nil_append, before_cons hw]; exact List.mem_cons_self ..
  | cons x a ih =>
    rw [List.cons_append, before_cons (ha x (by simp)).1]
    exact List.mem_cons_of_mem _ (ih fun x hx => ha x (by simp [hx]))

theorem before_ne {ws : List Str} {x : Str} (h : x ∈ beforeDashes ws) : x ≠ c! "--" := by
  unfold beforeDashes at h
  induction ws with
  | nil => cases h
  | cons w ws ih =>
    rw [List.takeWhile_cons] at h
    split at h
    · rename_i hw
      rcases List.mem_cons.1 h with rfl | h
      · simpa using hw
      · exact ih h
    · cases h

theorem before_all {ws : List Str} (h : ∀ x ∈ ws, x ≠ c! "--") : beforeDashes ws = ws := by
  induction ws with
  | nil => rfl
  | cons w ws ih => rw [before_cons (h w (by simp)), ih fun x hx => h x (by simp [hx])]

theorem shown_unique {act : OptAct} {o o' : EntryOut} (h : ShownFor act o) (h' : ShownFor act o') : o = o' := by
  cases h <;> cases h' <;> rfl

theorem goes_unique {p : ArgParser} (hp : TidyParser p) {ws : List Str} {o o' : EntryOut} (h : EntryGoes p ws o)
    (h' : EntryGoes p ws o') : o = o' := by
  have passed : ∀ {x : Str}, x ∈ beforeDashes ws → WordIs p x .plain → PassedOver p x :=
    fun hx h => ⟨before_ne hx, .inl h⟩
  cases h with
  | shows h1 h2 h3 h4 h5 =>
    cases h' with
    | shows k1 k2 k3 k4 k5 =>
      have := first_stop (h1.symm.trans k1) h2 k2 (asks_not_passed hp h4) (asks_not_passed hp k4)
      subst this
      exact shown_unique h5 (asks_unique hp h4 k4 ▸ k5)
    | wrong k1 k2 k3 k4 =>
      have := first_stop (h1.symm.trans k1) h2 k2 (asks_not_passed hp h4) (wrong_not_passed hp k4)
      subst this
      exact absurd k4 (asks_not_wrong hp h4)
    | single k1 k2 =>
      have hm := mem_before (b := ‹_›) h2 h3
      rw [← h1] at hm
      exact absurd (passed hm (k1 _ hm)) (asks_not_passed hp h4)
    | other k1 k2 =>
      have hm := mem_before (b := ‹_›) h2 h3
      rw [← h1] at hm
      exact absurd (k1 _ hm) (asks_not_passed hp h4)
  | wrong h1 h2 h3 h4 =>
    cases h' with
    | shows k1 k2 k3 k4 k5 =>
      have := first_stop (h1.symm.trans k1) h2 k2 (wrong_not_passed hp h4) (asks_not_passed hp k4)
      subst this
      exact absurd h4 (asks_not_wrong hp k4)
    | wrong => rfl
    | single k1 k2 =>
      have hm := mem_before (b := ‹_›) h2 h3
      rw [← h1] at hm
      exact absurd (passed hm (k1 _ hm)) (wrong_not_passed hp h4)
    | other => rfl
  | single h1 h2 =>
    cases h' with
    | shows k1 k2 k3 k4 k5 =>
      have hm := mem_before (b := ‹_›) k2 k3
      rw [← k1] at hm
      exact absurd (passed hm (h1 _ hm)) (asks_not_passed hp k4)
    | wrong k1 k2 k3 k4 =>
      have hm := mem_before (b := ‹_›) k2 k3
      rw [← k1] at hm
      exact absurd (passed hm (h1 _ hm)) (wrong_not_passed hp k4)
    | single => rfl
    | other k1 k2 =>
      rcases k2 with ⟨x, hx, k2⟩ | k2
      · cases word_unique hp (h1 x hx) k2
      · rw [h2] at k2
        exact absurd rfl k2
  | other h1 h2 =>
    cases h' with
    | shows k1 k2 k3 k4 k5 =>
      have hm := mem_before (b := ‹_›) k2 k3
      rw [← k1] at hm
      exact absurd (h1 _ hm) (asks_not_passed hp k4)
    | wrong => rfl
    | single k1 k2 =>
      rcases h2 with ⟨x, hx, h2⟩ | h2
      · cases word_unique hp (k1 x hx) h2
      · rw [k2] at h2
        exact absurd rfl h2
    | other => rfl

theorem asks_mem {p : ArgParser} {w : Str} {act : OptAct} (h : AsksFor p w act) : ∃ n, (n, act) ∈ p.opts := by
  rcases h with h | ⟨_, _, h, _⟩ <;> cases h
  · exact ⟨_, ‹_›⟩
  · exact ⟨_, ‹_›⟩

theorem entry_line {p : ArgParser} (hp : TidyParser p) (hu : NoValues p) (hsh : ∀ o ∈ p.opts, ShownFor o.2 o.2.exits)
    (ws : List Str) :
    EntryLine p ws (entryParse p ws) := by
  by_cases ha : ∃ w ∈ beforeDashes ws, WordIs p w .ambiguous
  · unfold entryParse
    rw [classify_refused hp ha]
    exact .ambiguous ha
  · have ha : ∀ w ∈ beforeDashes ws, ¬ WordIs p w .ambiguous := fun w hw h => ha ⟨w, hw, h⟩
    obtain ⟨items, hi⟩ := classify_ok hp ha
    unfold entryParse
    rw [hi]
    refine .read ha ?_
    dsimp only
    have := entry_at hp hu ws items false 0 hi
    generalize entryLoop p false 0 items = o at this
    cases this with
    | shows h1 h2 h3 h4 =>
      obtain ⟨n, hn⟩ := asks_mem h4
      exact .shows h1 h2 h3 h4 (hsh _ hn)
    | wrong h1 h2 h3 h4 => exact .wrong h1 h2 h3 h4
    | single _ h2 h3 =>
      obtain ⟨w, hw⟩ := List.length_eq_one_iff.1 h3
      exact .single h2 hw
    | other h1 h2 =>
      refine .other h1 ?_
      rcases h2 with h2 | h2 | h2
      · cases h2
      · exact .inl h2
      · exact .inr h2

end ALint

namespace ALint.Props
open ALint ALint.Spec

theorem entry_tidy (neg : Str → Bool) : TidyParser (entryParser neg) := by
  refine ⟨?_, by show (List.map (fun x => x.1) (entryParser fun _ => false).opts).Nodup; decide⟩
  intro o ho
  simp only [entryParser, helpOpts, List.cons_append, List.nil_append, List.mem_cons, List.not_mem_nil, or_false] at ho
  rcases ho with rfl | rfl | rfl | rfl
  · exact .inl ⟨'h', rfl, by decide, by decide, by simp⟩
  · exact .inr ⟨_, rfl, by decide, by decide⟩
  · exact .inl ⟨'V', rfl, by decide, by decide, by simp⟩
  · exact .inr ⟨_, rfl, by decide, by decide⟩

theorem entry_noValues (neg : Str → Bool) : NoValues (entryParser neg) := by
  intro o ho
  simp only [entryParser, helpOpts, List.cons_append, List.nil_append, List.mem_cons, List.not_mem_nil, or_false] at ho
  rcases ho with rfl | rfl | rfl | rfl <;> simp

theorem entry_shows (neg : Str → Bool) : ∀ o ∈ (entryParser neg).opts, ShownFor o.2 o.2.exits := by
  intro o ho
  simp only [entryParser, helpOpts, List.cons_append, List.nil_append, List.mem_cons, List.not_mem_nil, or_false] at ho
  rcases ho with rfl | rfl | rfl | rfl
  · exact .help
  · exact .help
  · exact .version
  · exact .version

/-- C106: what becomes of a command line without a command, exactly. -/
theorem C106_exact (neg : Str → Bool) (ws : List Str) (o : EntryOut) :
    entryParse (entryParser neg) ws = o ↔ EntryLine (entryParser neg) ws o := by
  have key := entry_line (entry_tidy neg) (entry_noValues neg) (entry_shows neg) ws
  constructor
  · rintro rfl; exact key
  · intro h
    generalize entryParse (entryParser neg) ws = q at key
    cases key with
    | ambiguous ha =>
      cases h with
      | ambiguous => rfl
      | read hn => obtain ⟨w, hw, ha⟩ := ha; exact absurd ha (hn w hw)
    | read hn hg =>
      cases h with
      | ambiguous ha => obtain ⟨w, hw, ha⟩ := ha; exact absurd ha (hn w hw)
      | read _ hg' => exact goes_unique (entry_tidy neg) hg hg'

/-- C106: the status is 0 exactly if help or version are shown or (see below) nothing is done, and 2 with a complaint
otherwise. -/
theorem C106_status (tx : ArgTexts) (version : List Str) (neg : Str → Bool) (ws : List Str) :
    (entryRun tx version (entryParser neg) ws = ⟨tx.help, [], .exit 0⟩ ∨
      entryRun tx version (entryParser neg) ws = ⟨version, [], .exit 0⟩ ∨
      entryRun tx version (entryParser neg) ws = ⟨[], tx.usage ws, .exit 2⟩) ∨
    (entryRun tx version (entryParser neg) ws = ⟨[], [], .exit 0⟩ ∧
      (∀ x ∈ beforeDashes ws, WordIs (entryParser neg) x .plain) ∧ ∃ w, ws.erase (c! "--") = [w]) := by
  unfold entryRun
  cases ho : entryParse (entryParser neg) ws with
  | help => exact .inl (.inl rfl)
  | version => exact .inl (.inr (.inl rfl))
  | refused => exact .inl (.inr (.inr rfl))
  | nothing =>
    refine .inr ⟨rfl, ?_⟩
    have := (C106_exact neg ws _).1 ho
    cases this with
    | read _ hg =>
      generalize hq : EntryOut.nothing = q at hg
      cases hg with
      | @shows _ _ _ act o _ _ _ _ h5 => cases h5 <;> cases hq
      | wrong => cases hq
      | single h1 h2 => exact ⟨h1, _, h2⟩
      | other => cases hq

/-- C106: words that look like options (a dash and more, no blank, no number, not `--`) are never taken silently. -/
theorem C106_options_partial (tx : ArgTexts) (version : List Str) (neg : Str → Bool) (ws : List Str)
    (h : ∀ w ∈ ws, Dashed w ∧ w ≠ c! "--" ∧ ' ' ∉ w ∧ neg w = false) :
    entryRun tx version (entryParser neg) ws = ⟨tx.help, [], .exit 0⟩ ∨
      entryRun tx version (entryParser neg) ws = ⟨version, [], .exit 0⟩ ∨
      entryRun tx version (entryParser neg) ws = ⟨[], tx.usage ws, .exit 2⟩ := by
  rcases C106_status tx version neg ws with h' | ⟨_, h1, w, h2⟩
  · exact h'
  · exfalso
    have hw : w ∈ ws := List.mem_of_mem_erase (by rw [h2]; simp)
    have hb : beforeDashes ws = ws := before_all fun x hx => (h x hx).2.1
    obtain ⟨hd, _, hs, hn⟩ := h w hw
    cases h1 w (by rw [hb]; exact hw) with
    | plain hp => exact hp hd
    | number _ _ hx =>
      rcases hx with hx | hx
      · rw [show (entryParser neg).negNum w = neg w from rfl, hn] at hx
        cases hx
      · exact hs hx

/-- Without any argument the usage is shown; `-V`, `--version`, `-h`, `--help` and abbreviations do what they say, also
behind something unknown. -/
example : entryParse (entryParser fun _ => false) [] = .refused ∧
    entryParse (entryParser fun _ => false) [c! "-V"] = .version ∧
    entryParse (entryParser fun _ => false) [c! "--vers"] = .version ∧
    entryParse (entryParser fun _ => false) [c! "-hV"] = .help ∧
    entryParse (entryParser fun _ => false) [c! "--foo", c! "--help"] = .help ∧
    entryParse (entryParser fun _ => false) [c! "--foo"] = .refused ∧
    entryParse (entryParser fun _ => false) [c! "--help=x"] = .refused ∧
    entryParse (entryParser fun _ => false) [c! "-h", c! "--=x"] = .refused := by
  decide +kernel

/-- C106 is violated: `asterisklint -`, `asterisklint -- -x` and the like end with status 0, and nothing is printed. -/
theorem C106_violated :
    ∃ args : List Str, ∀ tx version w path home,
      mainRun w path home args = .usage args ∧
      entryRun tx version (entryParser fun _ => false) args = ⟨[], [], .exit 0⟩ :=
  ⟨[c! "--", c! "-dialplan-check"], fun tx version w path home =>
    ⟨(C73_usage w path home _ _).2 ⟨rfl, by
      intro a ha
      simp only [List.mem_cons, List.not_mem_nil, or_false] at ha
      rcases ha with rfl | rfl <;> exact ⟨_, rfl⟩⟩, by
    have : entryParse (entryParser fun _ => false) [c! "--", c! "-dialplan-check"] = .nothing := by decide +kernel
    unfold entryRun
    rw [this]⟩⟩

end ALint.Props
