import Verif.Proofs.Wording
import Verif.Proofs.Clean
import Verif.Props.Append

/-!
# C115, C116: the wording of comments and the line terminators do not matter
-/

namespace ALint.Props
open ALint Spec Proofs

theorem zips_of_bare : ∀ {a b : List Msg}, a.map bareM = b.map bareM → Zips SameMsg a b
  | [], [], _ => .nil
  | [], _ :: _, h => by cases h
  | _ :: _, [], h => by cases h
  | m :: a, m' :: b, h => by
    simp only [List.map_cons, List.cons.injEq] at h
    obtain ⟨h1, h2⟩ := h
    refine .cons ?_ (zips_of_bare h2)
    obtain ⟨k, ⟨f, n, l⟩, as, p⟩ := m
    obtain ⟨k', ⟨f', n', l'⟩, as', p'⟩ := m'
    simp only [bareM, reM, bareW, Msg.mk.injEq, Where.mk.injEq, and_true] at h1
    obtain ⟨rfl, ⟨rfl, rfl⟩, rfl, h3⟩ := h1
    refine ⟨rfl, rfl, rfl, ?_⟩
    cases p <;> cases p' <;> simp_all [placeOf, bareW]

theorem dialplanText_bare (dp : Dialplan) : dialplanText (bareDp dp) = dialplanText dp := by
  unfold dialplanText bareDp reDp
  dsimp only
  rw [List.map_map]
  refine List.map_congr_left fun c _ => ?_
  simp only [Function.comp, reCtx, List.map_map]
  rfl

theorem outcome_of_rel {a b : Except Exc (Option DState)}
    (h : (∃ e, a = .error e ∧ b = .error e) ∨ ∃ x y, a = .ok x ∧ b = .ok y ∧ EndRel bareSt x y) : SameOutcome a b := by
  rcases h with ⟨e, rfl, rfl⟩ | ⟨x, y, rfl, rfl, h⟩
  · exact .failed e
  · cases x with
    | none =>
      cases y with
      | none => exact .unfinished
      | some y => cases h
    | some x =>
      cases y with
      | none => cases h
      | some y =>
        simp only [EndRel, Option.map_some, Option.some.injEq] at h
        have : bareDp y.dp = bareDp x.dp := congrArg DState.dp h
        exact .done (by rw [← dialplanText_bare, this, dialplanText_bare])

/-! ## What of a line matters -/

/-- C115: of a line only this matters: the data in front of the comment, whether there is a comment, whether the line
is UTF-8, contains control characters, ends in blanks or has its comment glued to the data, and its terminator.  Everything else
can be changed in all lines of all files: the same messages are issued about the same lines. -/
theorem C115_same_data (fs fs' : FS) (env : DEnv) (sp : Option Str) (n : Nat) (path : Str) (content content' : Bytes)
    (hf : SameFiles (SameLine true) fs fs') (hc : Zips (SameLine true) (physLines content) (physLines content')) :
    Zips SameMsg (checkDialplan fs env sp n path content).log (checkDialplan fs' env sp n path content').log ∧
    SameOutcome (checkDialplan fs env sp n path content).val (checkDialplan fs' env sp n path content').val := by
  obtain ⟨h1, h2⟩ := check_rel hf env sp n path hc
  refine ⟨zips_of_bare ?_, outcome_of_rel h2⟩
  have e : ∀ l : List Msg, seen true l = l.map bareM := by
    intro l
    unfold seen
    rw [List.filter_eq_self.2 (by simp)]
  rwa [e, e] at h1

/-- C116: apart from the messages about terminators, the terminator does not matter, either. -/
theorem C116_same_data (fs fs' : FS) (env : DEnv) (sp : Option Str) (n : Nat) (path : Str) (content content' : Bytes)
    (hf : SameFiles (SameLine false) fs fs') (hc : Zips (SameLine false) (physLines content) (physLines content')) :
    Zips SameMsg ((checkDialplan fs env sp n path content).log.filter fun m => !terminatorKind m.kind)
      ((checkDialplan fs' env sp n path content').log.filter fun m => !terminatorKind m.kind) ∧
    SameOutcome (checkDialplan fs env sp n path content).val (checkDialplan fs' env sp n path content').val := by
  obtain ⟨h1, h2⟩ := check_rel hf env sp n path hc
  refine ⟨zips_of_bare ?_, outcome_of_rel h2⟩
  simpa [seen] using h1

theorem zips_mono {α β : Type} {R R' : α → β → Prop} (h : ∀ a b, R a b → R' a b) {l : List α} {l' : List β} (hz : Zips R l l') :
    Zips R' l l' := by
  induction hz with
  | nil => exact .nil
  | cons h1 _ ih => exact .cons (h _ _ h1) ih

theorem sameFiles_mono {R R' : Bytes → Bytes → Prop} (h : ∀ a b, R a b → R' a b) {fs fs' : FS} (hf : SameFiles R fs fs') :
    SameFiles R' fs fs' := by
  intro q
  rcases hf q with h1 | ⟨c, c', h1, h2, h3⟩
  · exact .inl h1
  · exact .inr ⟨c, c', h1, h2, zips_mono h h3⟩

/-! ## Comments -/

/-- The body of a line with a terminator. -/
theorem unterminated_of {body t : Str} (ht : Terminator t) (hb : ∀ x, body.getLast? = some x → x ≠ '\r' ∧ x ≠ '\n') :
    Unterminated (body ++ t) body := by
  rcases ht with rfl | rfl | rfl
  · have : ¬ Lf body := by
      rintro ⟨u, rfl⟩
      exact (hb '\n' (by simp)).2 rfl
    simpa using Unterminated.none this
  · refine .lf body rfl ?_
    rintro ⟨u, e⟩
    have h1 : body = u ++ ['\r'] := by
      have : body ++ ['\n'] = (u ++ ['\r']) ++ ['\n'] := by simpa using e
      exact List.append_cancel_right this
    exact (hb '\r' (by simp [h1])).1 rfl
  · exact .crlf body rfl

theorem terminator_control {t : Str} (ht : Terminator t) (s : Str) : HasControl (s ++ t) ↔ HasControl s := by
  constructor
  · rintro ⟨c, hc, h⟩
    rcases List.mem_append.1 hc with hc | hc
    · exact ⟨c, hc, h⟩
    · rcases ht with rfl | rfl | rfl
      · cases hc
      · simp only [List.mem_singleton] at hc
        exact absurd hc h.2.2.1
      · simp only [List.mem_cons, List.not_mem_nil, or_false] at hc
        rcases hc with hc | hc
        · exact absurd hc h.2.2.2
        · exact absurd hc h.2.2.1
  · rintro ⟨c, hc, h⟩
    exact ⟨c, List.mem_append_left _ hc, h⟩

/-- A line with a comment that does not end in a blank. -/
theorem comment_parts {a c : Str} (h1 : AllEscaped a) (h2 : a.getLast? ≠ some '\\') (h3 : ∀ x ∈ c, 0x20 ≤ x.toNat)
    (h4 : ¬ EndsBlank c) :
    (∃ x y, Trimmed (unescape a) x y ∧ Content (a ++ ';' :: c) x (y ++ ';' :: c)) ∧ ¬ EndsBlank (a ++ ';' :: c) ∧
    (Glued (a ++ ';' :: c) ↔ ∃ u x, a = u ++ [x] ∧ ¬ Blank x) ∧ (HasControl (a ++ ';' :: c) ↔ HasControl a) ∧
    ∀ x, (a ++ ';' :: c).getLast? = some x → x ≠ '\r' ∧ x ≠ '\n' := by
  have hl : (a ++ ';' :: c).getLast? = (';' :: c).getLast? := by
    rw [List.getLast?_append, List.getLast?_cons]; rfl
  have hcl : ∀ x, (';' :: c).getLast? = some x → (x = ';' ∨ x ∈ c) ∧ ¬ Blank x := by
    intro x hx
    cases c with
    | nil => simp at hx; subst hx; exact ⟨.inl rfl, by simp [Blank]⟩
    | cons d c =>
      rw [List.getLast?_cons_cons] at hx
      exact ⟨.inr (List.mem_of_getLast? hx), fun hb => h4 ⟨x, hx, hb⟩⟩
  have heb : ¬ EndsBlank (a ++ ';' :: c) := by
    rintro ⟨x, hx, hb⟩
    rw [hl] at hx
    exact (hcl x hx).2 hb
  have htr : Trimmed (a ++ ';' :: c) (a ++ ';' :: c) [] := ⟨by simp, by simp, heb⟩
  have hca : CommentAt (a ++ ';' :: c) a c := ⟨rfl, h1, h2⟩
  refine ⟨?_, heb, ?_, ?_, ?_⟩
  · obtain ⟨y, hy⟩ := trimmed_rstrip (unescape a)
    exact ⟨_, y, hy, .comment _ [] a c _ y htr hca hy⟩
  · constructor
    · rintro ⟨d, bl, u, x, b, e1, e2, e3⟩
      obtain ⟨rfl, -⟩ := trimmed_unique e1 htr
      exact ⟨u, x, (commentAt_unique e2 hca).1.symm, e3⟩
    · rintro ⟨u, x, rfl, hx⟩
      exact ⟨_, [], u, x, c, htr, hca, hx⟩
  · constructor
    · rintro ⟨x, hx, hy⟩
      rcases List.mem_append.1 hx with hx | hx
      · exact ⟨x, hx, hy⟩
      · rcases List.mem_cons.1 hx with rfl | hx
        · exact absurd hy.1 (by decide)
        · have := h3 x hx
          omega
    · rintro ⟨x, hx, hy⟩
      exact ⟨x, List.mem_append_left _ hx, hy⟩
  · intro x hx
    rw [hl] at hx
    rcases (hcl x hx).1 with rfl | hx
    · decide
    · have := h3 x hx
      constructor <;> rintro rfl <;> exact absurd this (by decide)

/-- Rewording a comment is such a change. -/
theorem reworded_same {l l' : Bytes} (h : Reworded l l') : SameLine true l l' := by
  cases h with
  | same e => exact .same e
  | mk e1 e2 h1 h2 ht h3 h3' h4 h4' =>
    rename_i a c c' t
    obtain ⟨⟨x, y, hxy, k1⟩, k2, k3, k4, k5⟩ := comment_parts h1 h2 h3 h4
    obtain ⟨⟨x', y', hxy', k1'⟩, k2', k3', k4', k5'⟩ := comment_parts h1 h2 h3' h4'
    obtain ⟨rfl, rfl⟩ := trimmed_unique hxy hxy'
    refine .mk (.utf8 _ e1) (.utf8 _ e2) ?_ (fun _ => ?_) (unterminated_of ht k5) (unterminated_of ht k5') k1 k1' (by simp)
      ⟨fun h => absurd h k2, fun h => absurd h k2'⟩ (k3.trans k3'.symm)
    · rw [terminator_control ht, terminator_control ht, k4, k4']
    · rcases ht with rfl | rfl | rfl
      · have n1 : ∀ {s : Str}, (∀ x, s.getLast? = some x → x ≠ '\r' ∧ x ≠ '\n') → ¬ Lf s := by
          rintro s hs ⟨u, rfl⟩
          exact (hs '\n' (by simp)).2 rfl
        have n2 : ∀ {s : Str}, (∀ x, s.getLast? = some x → x ≠ '\r' ∧ x ≠ '\n') → ¬ CrLf s := by
          rintro s hs ⟨u, rfl⟩
          exact (hs '\n' (by simp)).2 rfl
        simp only [List.append_nil]
        exact ⟨⟨fun h => absurd h (n2 k5), fun h => absurd h (n2 k5')⟩, ⟨fun h => absurd h (n1 k5), fun h => absurd h (n1 k5')⟩⟩
      · have n2 : ∀ {s : Str}, (∀ x, s.getLast? = some x → x ≠ '\r' ∧ x ≠ '\n') → ¬ CrLf (s ++ ['\n']) := by
          rintro s hs ⟨u, e⟩
          have h1 : s = u ++ ['\r'] := by
            have : s ++ ['\n'] = (u ++ ['\r']) ++ ['\n'] := by simpa using e
            exact List.append_cancel_right this
          exact (hs '\r' (by simp [h1])).1 rfl
        exact ⟨⟨fun h => absurd h (n2 k5), fun h => absurd h (n2 k5')⟩, ⟨fun _ => ⟨_, rfl⟩, fun _ => ⟨_, rfl⟩⟩⟩
      · exact ⟨⟨fun _ => ⟨_, rfl⟩, fun _ => ⟨_, rfl⟩⟩, ⟨fun _ => ⟨a ++ ';' :: c' ++ ['\r'], by simp⟩, fun _ => ⟨a ++ ';' :: c ++ ['\r'], by simp⟩⟩⟩

/-- C115: comments can be reworded; the same messages are issued about the same lines, in the same order. -/
theorem C115_comments (fs fs' : FS) (env : DEnv) (sp : Option Str) (n : Nat) (path : Str) (content content' : Bytes)
    (hf : SameFiles Reworded fs fs') (hc : Zips Reworded (physLines content) (physLines content')) :
    Zips SameMsg (checkDialplan fs env sp n path content).log (checkDialplan fs' env sp n path content').log ∧
    SameOutcome (checkDialplan fs env sp n path content).val (checkDialplan fs' env sp n path content').val :=
  C115_same_data fs fs' env sp n path content content' (sameFiles_mono (fun _ _ => reworded_same) hf)
    (zips_mono (fun _ _ => reworded_same) hc)

/-! ## Line terminators -/

theorem reterminated_same {l l' : Bytes} (h : Reterminated l l') : SameLine false l l' := by
  cases h with
  | same e => exact .same e
  | mk e1 e2 ht ht' hb =>
    rename_i body t t'
    obtain ⟨data, comment, hc⟩ := content_exists body
    exact .mk (.utf8 _ e1) (.utf8 _ e2) (by rw [terminator_control ht, terminator_control ht']) (fun h => nomatch h)
      (unterminated_of ht hb) (unterminated_of ht' hb) hc hc Iff.rfl Iff.rfl Iff.rfl

/-- C116: line terminators can be changed; apart from what is said about terminators, the same messages are issued about
the same lines, in the same order. -/
theorem C116_terminators (fs fs' : FS) (env : DEnv) (sp : Option Str) (n : Nat) (path : Str) (content content' : Bytes)
    (hf : SameFiles Reterminated fs fs') (hc : Zips Reterminated (physLines content) (physLines content')) :
    Zips SameMsg ((checkDialplan fs env sp n path content).log.filter fun m => !terminatorKind m.kind)
      ((checkDialplan fs' env sp n path content').log.filter fun m => !terminatorKind m.kind) ∧
    SameOutcome (checkDialplan fs env sp n path content).val (checkDialplan fs' env sp n path content').val :=
  C116_same_data fs fs' env sp n path content content' (sameFiles_mono (fun _ _ => reterminated_same) hf)
    (zips_mono (fun _ _ => reterminated_same) hc)

theorem dosText_line (a : Str) (h : '\n' ∉ a) : dosText a = a := by
  unfold dosText
  induction a with
  | nil => rfl
  | cons c a ih =>
    simp only [List.mem_cons, not_or] at h
    simp only [List.flatMap_cons, ih h.2]
    rw [if_neg (fun e => h.1 e.symm)]
    rfl

theorem lf_not_mem {a : Str} (h : '\n' ∉ a) : 10 ∉ utf8 a := fun hm => h (byte_mem_utf8 (c := '\n') (by decide) hm)

theorem last_of_clean {a : Str} (h : '\n' ∉ a) (hr : '\r' ∉ a) : ∀ x, a.getLast? = some x → x ≠ '\r' ∧ x ≠ '\n' := by
  intro x hx
  have := List.mem_of_getLast? hx
  constructor <;> rintro rfl <;> contradiction

theorem enc_ne_nil (c : Char) : enc c ≠ [] := by
  rw [enc_eq]
  split
  · simp
  · split
    · simp
    · split <;> simp

theorem physLines_lone {l : Bytes} (h : 10 ∉ l) (hne : l ≠ []) : physLines l = [l] := by
  induction l with
  | nil => exact absurd rfl hne
  | cons b l ih =>
    simp only [List.mem_cons, not_or] at h
    rw [physLines, if_neg (fun e => h.1 e.symm)]
    cases l with
    | nil => rfl
    | cons b' l => rw [ih h.2 (by simp)]

theorem dosText_lines : ∀ (k : Nat) (text : Str), text.length ≤ k → '\r' ∉ text →
    Zips Reterminated (physLines (utf8 text)) (physLines (utf8 (dosText text)))
  | k, text, hk, hr => by
    cases hs : splitOnce '\n' text with
    | none =>
      have hn := splitOnce_none_iff.1 hs
      rw [dosText_line text hn]
      by_cases he : text = []
      · subst he; exact .nil
      · rw [physLines_lone (lf_not_mem hn) (by
          intro e
          cases text with
          | nil => exact he rfl
          | cons c t =>
            rw [utf8_cons'] at e
            have := (List.append_eq_nil_iff.1 e).1
            exact absurd this (enc_ne_nil c))]
        exact .cons (.same rfl) .nil
    | some p =>
      obtain ⟨a, b⟩ := p
      obtain ⟨e, hn⟩ := splitOnce_some hs
      subst e
      have hra : '\r' ∉ a := fun h => hr (by simp [h])
      have hrb : '\r' ∉ b := fun h => hr (by simp [h])
      cases k with
      | zero => simp at hk
      | succ k =>
        have ih := dosText_lines k b (by simp at hk; omega) hrb
        have e1 : utf8 (a ++ '\n' :: b) = utf8 a ++ 10 :: utf8 b := by rw [utf8_append, utf8_cons']; rfl
        have e2 : utf8 (dosText (a ++ '\n' :: b)) = utf8 (a ++ ['\r']) ++ 10 :: utf8 (dosText b) := by
          have : dosText (a ++ '\n' :: b) = (a ++ ['\r']) ++ '\n' :: dosText b := by
            have h1 := dosText_line a hn
            unfold dosText at h1 ⊢
            simp [h1]
          rw [this, utf8_append, utf8_cons']
          rfl
        rw [e1, e2, physLines_append _ (lf_not_mem hn), physLines_append _ (lf_not_mem (by simp [hn]))]
        refine .cons (.mk (body := a) (t := ['\n']) (t' := ['\r', '\n']) ?_ ?_ (.inr (.inl rfl)) (.inr (.inr rfl)) (last_of_clean hn hra)) ih
        · rw [utf8_append]; rfl
        · rw [utf8_append, utf8_append]; simp; rfl

/-- C116: files saved with CR LF instead of LF are checked the same way, apart from the messages about terminators. -/
theorem C116_dos (texts : Str → Option Str) (env : DEnv) (sp : Option Str) (n : Nat) (path text : Str)
    (hf : ∀ q s, texts q = some s → '\r' ∉ s) (hc : '\r' ∉ text) :
    Zips SameMsg ((checkDialplan (fun q => (texts q).map utf8) env sp n path (utf8 text)).log.filter fun m => !terminatorKind m.kind)
      ((checkDialplan (fun q => (texts q).map fun s => utf8 (dosText s)) env sp n path (utf8 (dosText text))).log.filter fun m =>
        !terminatorKind m.kind) ∧
    SameOutcome (checkDialplan (fun q => (texts q).map utf8) env sp n path (utf8 text)).val
      (checkDialplan (fun q => (texts q).map fun s => utf8 (dosText s)) env sp n path (utf8 (dosText text))).val := by
  refine C116_terminators _ _ env sp n path _ _ ?_ (dosText_lines _ _ (Nat.le_refl _) hc)
  intro q
  cases hq : texts q with
  | none => exact .inl ⟨by simp [hq], by simp [hq]⟩
  | some s => exact .inr ⟨utf8 s, utf8 (dosText s), by simp [hq], by simp [hq], dosText_lines _ _ (Nat.le_refl _) (hf q s hq)⟩

/-! ## Examples -/

def wordOld : Str := c! "[general]\n\n[globals]\n\n[a]\nexten => 1,1,NoOp() ; old \\; words\n same => n,Foo();x\n same => n,Goto(9)"
def wordNew : Str := c! "[general]\n\n[globals]\n\n[a]\nexten => 1,1,NoOp() ; new\n same => n,Foo();; y\n same => n,Goto(9)"

theorem word_lines : Zips Reworded (physLines (utf8 wordOld)) (physLines (utf8 wordNew)) := by
  have e1 : physLines (utf8 wordOld) = [utf8 (c! "[general]\n"), utf8 (c! "\n"), utf8 (c! "[globals]\n"), utf8 (c! "\n"), utf8 (c! "[a]\n"),
    utf8 (c! "exten => 1,1,NoOp() ; old \\; words\n"), utf8 (c! " same => n,Foo();x\n"), utf8 (c! " same => n,Goto(9)")] := by decide +kernel
  have e2 : physLines (utf8 wordNew) = [utf8 (c! "[general]\n"), utf8 (c! "\n"), utf8 (c! "[globals]\n"), utf8 (c! "\n"), utf8 (c! "[a]\n"),
    utf8 (c! "exten => 1,1,NoOp() ; new\n"), utf8 (c! " same => n,Foo();; y\n"), utf8 (c! " same => n,Goto(9)")] := by decide +kernel
  rw [e1, e2]
  have free : ∀ a : Str, ';' ∉ a → AllEscaped a := fun a h u v e => absurd (by rw [e]; simp) h
  have dark : ∀ s : Str, s.getLast?.all (fun c => c ≠ ' ' ∧ c ≠ '\t') = true → ¬ EndsBlank s := by
    rintro s h ⟨x, hx, hb⟩
    rw [hx] at h
    simp only [Option.all_some, decide_eq_true_eq] at h
    rcases hb with rfl | rfl
    · exact h.1 rfl
    · exact h.2 rfl
  refine .cons (.same rfl) (.cons (.same rfl) (.cons (.same rfl) (.cons (.same rfl) (.cons (.same rfl) (.cons ?_ (.cons ?_ (.cons (.same rfl) .nil)))))))
  · exact .mk (a := c! "exten => 1,1,NoOp() ") (c := c! " old \\; words") (c' := c! " new") (t := ['\n']) rfl rfl
      (free _ (by decide)) (by decide) (.inr (.inl rfl)) (by decide) (by decide) (dark _ (by decide)) (dark _ (by decide))
  · exact .mk (a := c! " same => n,Foo()") (c := c! "x") (c' := c! "; y") (t := ['\n']) rfl rfl
      (free _ (by decide)) (by decide) (.inr (.inl rfl)) (by decide) (by decide) (dark _ (by decide)) (dark _ (by decide))

-- the texts of two comments changed
example : kindsAndLines (checkDialplan (fun _ => none) demoEnv none 99 (c! "e.conf") (utf8 wordOld)).log =
      [(.W_WSH_COMMENT, 7), (.E_APP_MISSING, 7), (.W_FILE_UNIX_NOLF, 8), (.W_DP_GOTO_CONTEXT_NOEXTEN, 8)] ∧
    kindsAndLines (checkDialplan (fun _ => none) demoEnv none 99 (c! "e.conf") (utf8 wordNew)).log =
      [(.W_WSH_COMMENT, 7), (.E_APP_MISSING, 7), (.W_FILE_UNIX_NOLF, 8), (.W_DP_GOTO_CONTEXT_NOEXTEN, 8)] := by decide +kernel

example : Zips SameMsg (checkDialplan (fun _ => none) demoEnv none 99 (c! "e.conf") (utf8 wordOld)).log
    (checkDialplan (fun _ => none) demoEnv none 99 (c! "e.conf") (utf8 wordNew)).log :=
  (C115_comments _ _ demoEnv none 99 _ _ _ (fun _ => .inl ⟨rfl, rfl⟩) word_lines).1

-- saved by a DOS program; without LF at its end this is a proper DOS file
example : '\r' ∉ wordOld ∧
    kindsAndLines (checkDialplan (fun _ => none) demoEnv none 99 (c! "e.conf") (utf8 (dosText wordOld))).log =
      [(.W_WSH_COMMENT, 7), (.E_APP_MISSING, 7), (.W_DP_GOTO_CONTEXT_NOEXTEN, 8)] := by decide +kernel

end ALint.Props
