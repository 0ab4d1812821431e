import Verif.Model.Wrap
import Verif.Spec.Wrap
import Verif.Proofs.Str

/-!
# Lemmas about `wrap`
-/

namespace ALint
open ALint.Spec

theorem splitWs_space {c : Char} {s : Str} (h : isSpace c = true) : splitWs (c :: s) = splitWs s := by
  cases s with
  | nil => simp [splitWs, h]
  | cons d s => simp [splitWs, h]

theorem splitWs_spaces {a s : Str} (h : ∀ c ∈ a, isSpace c = true) : splitWs (a ++ s) = splitWs s := by
  induction a with
  | nil => rfl
  | cons c a ih =>
    rw [List.cons_append, splitWs_space (h c (by simp)), ih (fun d hd => h d (by simp [hd]))]

theorem splitWs_word {w rest : Str} (hne : w ≠ []) (hw : ∀ c ∈ w, isSpace c = false)
    (hr : ∀ c ∈ rest.head?, isSpace c = true) : splitWs (w ++ rest) = w :: splitWs rest := by
  induction w with
  | nil => exact absurd rfl hne
  | cons c w ih =>
    have hc := hw c (by simp)
    cases w with
    | nil =>
      cases rest with
      | nil => simp [splitWs, hc]
      | cons d r =>
        have hd : isSpace d = true := hr d (by simp)
        simp [splitWs, hc, hd]
    | cons d w =>
      have := ih (by simp) (fun e he => hw e (by simp [he]))
      rw [List.cons_append] at this
      rw [List.cons_append, List.cons_append, splitWs]
      simp [hc, hw d (by simp), this]

theorem words_split {s : Str} {ws : List Str} (h : Words s ws) : splitWs s = ws := by
  induction h with
  | nil h =>
    rename_i s
    have := splitWs_spaces (s := []) h
    simpa [splitWs] using this
  | cons ha hne hw hr _ ih =>
    rw [List.append_assoc, splitWs_spaces ha, splitWs_word hne hw hr, ih]

theorem words_exist (s : Str) : ∃ ws, Words s ws := by
  generalize hn : s.length = n
  induction n using Nat.strongRecOn generalizing s with
  | _ n ih =>
    let a := s.takeWhile isSpace
    let t := s.dropWhile isSpace
    let w := t.takeWhile (fun c => !isSpace c)
    let r := t.dropWhile (fun c => !isSpace c)
    have hs : s = a ++ t := (List.takeWhile_append_dropWhile).symm
    have ht : t = w ++ r := (List.takeWhile_append_dropWhile).symm
    have ha : ∀ c ∈ a, isSpace c = true := fun c hc => by
      have := List.all_takeWhile (p := isSpace) (l := s)
      exact List.all_eq_true.1 this c hc
    have hw : ∀ c ∈ w, isSpace c = false := fun c hc => by
      have := List.all_takeWhile (p := fun c => !isSpace c) (l := t)
      simpa using List.all_eq_true.1 this c hc
    by_cases htn : t = []
    · refine ⟨[], .nil ?_⟩
      rw [hs, htn, List.append_nil]
      exact ha
    · have hwn : w ≠ [] := by
        cases ht' : t with
        | nil => exact absurd ht' htn
        | cons c t' =>
          have : isSpace c = false := by
            have := List.head?_dropWhile_not (p := isSpace) (l := s)
            rw [show s.dropWhile isSpace = c :: t' from ht'] at this
            simpa using this
          show t.takeWhile _ ≠ []
          rw [ht']
          simp [this]
      have hr : ∀ c ∈ r.head?, isSpace c = true := by
        intro c hc
        have := List.head?_dropWhile_not (p := fun c => !isSpace c) (l := t)
        rw [show List.head? (t.dropWhile fun c => !isSpace c) = some c from hc] at this
        simpa using this
      have hlt : r.length < n := by
        have : 0 < w.length := List.length_pos_iff.2 hwn
        rw [← hn, hs, ht]
        simp only [List.length_append]
        omega
      obtain ⟨ws, h⟩ := ih r.length hlt r rfl
      refine ⟨w :: ws, ?_⟩
      rw [hs, ht, ← List.append_assoc]
      exact .cons ha hwn hw hr h

theorem split_words (s : Str) : Words s (splitWs s) := by
  obtain ⟨ws, h⟩ := words_exist s
  rw [words_split h]
  exact h

theorem spaced_snoc {g : List Str} (h : g ≠ []) (w : Str) : spaced (g ++ [w]) = spaced g ++ ' ' :: w := by
  unfold spaced
  induction g with
  | nil => exact absurd rfl h
  | cons x g ih =>
    cases g with
    | nil => rfl
    | cons y g =>
      rw [List.cons_append, List.cons_append, joinWith, joinWith, ← List.cons_append, ih (by simp)]
      simp

theorem length_spaced_snoc {g : List Str} (h : g ≠ []) (w : Str) :
    (spaced (g ++ [w])).length = (spaced g).length + 1 + w.length := by
  rw [spaced_snoc h]; simp; omega

/-- A group of words that is one line: fits, or is one word. -/
def FitsW (width : Int) (g : List Str) : Prop := g.length = 1 ∨ ((spaced g).length : Int) ≤ width

/-- The first word of the next line would not have fitted. -/
def TightW (width : Int) : List (List Str) → Prop
  | g :: (w :: h) :: gs => width < ((spaced (g ++ [w])).length : Int) ∧ TightW width ((w :: h) :: gs)
  | _ => True

theorem tight_snoc {width : Int} {gs : List (List Str)} {g : List Str} {w : Str} (h : TightW width (gs ++ [g]))
    (hg : g ≠ []) (hw : width < ((spaced (g ++ [w])).length : Int)) : TightW width (gs ++ [g] ++ [[w]]) := by
  induction gs with
  | nil =>
    cases g with
    | nil => exact absurd rfl hg
    | cons a g => exact ⟨hw, trivial⟩
  | cons x gs ih =>
    cases gs with
    | nil =>
      cases g with
      | nil => exact absurd rfl hg
      | cons a g => exact ⟨h.1, ih h.2⟩
    | cons y gs =>
      cases y with
      | nil => simp [TightW]
      | cons a y => exact ⟨h.1, ih h.2⟩

theorem tight_grow {width : Int} {gs : List (List Str)} {g : List Str} {w : Str} (h : TightW width (gs ++ [g]))
    (hg : g ≠ []) : TightW width (gs ++ [g ++ [w]]) := by
  induction gs with
  | nil => simp [TightW]
  | cons x gs ih =>
    cases gs with
    | nil =>
      cases g with
      | nil => exact absurd rfl hg
      | cons a g => exact ⟨h.1, by simp [TightW]⟩
    | cons y gs =>
      cases y with
      | nil => simp [TightW]
      | cons a y => exact ⟨h.1, ih h.2⟩

theorem wrapGo_spec (width : Int) (ws : List Str) : ∀ (gs : List (List Str)) (g : List Str), g ≠ [] →
    FitsW (width) g → (∀ h ∈ gs, h ≠ [] ∧ FitsW width h) → TightW width (gs ++ [g]) →
    ∃ gs', gs'.flatten = (gs ++ [g]).flatten ++ ws ∧ (∀ h ∈ gs', h ≠ [] ∧ FitsW width h) ∧
      TightW width gs' ∧ wrapGo width (gs.map spaced) (spaced g) ws = gs'.map spaced := by
  induction ws with
  | nil =>
    intro gs g hg hf hgs ht
    refine ⟨gs ++ [g], by simp, ?_, ht, by simp [wrapGo]⟩
    intro h hh
    rcases List.mem_append.1 hh with hh | hh
    · exact hgs h hh
    · simp only [List.mem_singleton] at hh; subst hh; exact ⟨hg, hf⟩
  | cons w ws ih =>
    intro gs g hg hf hgs ht
    rw [wrapGo]
    have hl := length_spaced_snoc hg w
    split
    · rename_i hge
      obtain ⟨gs', h1, h2, h3, h4⟩ := ih (gs ++ [g]) [w] (by simp) (.inl rfl) (by
        intro h hh
        rcases List.mem_append.1 hh with hh | hh
        · exact hgs h hh
        · simp only [List.mem_singleton] at hh; subst hh; exact ⟨hg, hf⟩) (tight_snoc ht hg (by omega))
      refine ⟨gs', by simpa using h1, h2, h3, ?_⟩
      rw [← h4]
      simp [spaced, joinWith]
    · rename_i hge
      obtain ⟨gs', h1, h2, h3, h4⟩ := ih gs (g ++ [w]) (by simp) (.inr (by omega)) hgs (tight_grow ht hg)
      refine ⟨gs', by simpa using h1, h2, h3, ?_⟩
      rw [← h4, spaced_snoc hg]

theorem joinStr_eq (indent : Str) (lines : List Str) : joinStr ('\n' :: indent) lines = paragraph indent lines := by
  unfold paragraph
  induction lines with
  | nil => rfl
  | cons l ls ih =>
    cases ls with
    | nil => rfl
    | cons m ms =>
      rw [joinStr, ih]
      simp only [List.take_succ_cons, List.take_zero, List.drop_succ_cons, List.drop_zero, List.map_cons,
        List.cons_append, List.nil_append, joinWith]
      cases ms with
      | nil => simp [joinWith]
      | cons k ks => simp [joinWith]

theorem isSpace_space : isSpace ' ' = true := by decide
theorem isSpace_nl : isSpace '\n' = true := by decide

theorem words_lead {a s : Str} {ws : List Str} (ha : ∀ c ∈ a, isSpace c = true) (h : Words s ws) :
    Words (a ++ s) ws := by
  cases h with
  | nil h =>
    refine .nil ?_
    intro c hc
    rcases List.mem_append.1 hc with hc | hc
    · exact ha c hc
    · exact h c hc
  | cons ha' hne hw hr hre =>
    rename_i b w r _
    have := Words.cons (a := a ++ b) (by
      intro c hc
      rcases List.mem_append.1 hc with hc | hc
      · exact ha c hc
      · exact ha' c hc) hne hw hr hre
    simpa using this

/-- Words with single white space strings between them. -/
theorem words_spaced {rest : Str} {ws : List Str} (hrest : Words rest ws) (hh : ∀ c ∈ rest.head?, isSpace c = true) :
    ∀ (g : List Str), g ≠ [] → (∀ w ∈ g, w ≠ [] ∧ ∀ c ∈ w, isSpace c = false) →
    Words (spaced g ++ rest) (g ++ ws) := by
  intro g
  induction g with
  | nil => intro h; exact absurd rfl h
  | cons w g ih =>
    intro _ hw
    obtain ⟨h1, h2⟩ := hw w (by simp)
    cases g with
    | nil => exact Words.cons (a := []) (by simp) h1 h2 hh hrest
    | cons v g =>
      have := ih (by simp) (fun u hu => hw u (by simp [hu]))
      have := Words.cons (a := []) (by simp) h1 h2 (rest := ' ' :: (spaced (v :: g) ++ rest)) (by simp [isSpace_space])
        (words_lead (a := [' ']) (by simp [isSpace_space]) this)
      simpa [spaced, joinWith] using this

theorem words_paragraph {indent : Str} (hi : ∀ c ∈ indent, isSpace c = true) :
    ∀ (gs : List (List Str)), (∀ g ∈ gs, g ≠ []) → (∀ g ∈ gs, ∀ w ∈ g, w ≠ [] ∧ ∀ c ∈ w, isSpace c = false) →
    Words (joinStr ('\n' :: indent) (gs.map spaced)) gs.flatten := by
  intro gs
  induction gs with
  | nil => intro _ _; exact .nil (by simp [joinStr])
  | cons g gs ih =>
    intro hne hw
    cases gs with
    | nil =>
      have := words_spaced (rest := []) (ws := []) (.nil (by simp)) (by simp) g (hne g (by simp)) (hw g (by simp))
      simpa [joinStr] using this
    | cons h gs =>
      have := ih (fun g' hg => hne g' (by simp [hg])) (fun g' hg => hw g' (by simp [hg]))
      rw [List.map_cons, List.map_cons, joinStr, List.append_assoc]
      have := words_lead (a := '\n' :: indent) (by simpa [isSpace_nl] using hi) this
      exact words_spaced this (by simp [isSpace_nl]) g (hne g (by simp)) (hw g (by simp))

theorem words_mem {s : Str} {ws : List Str} (h : Words s ws) : ∀ w ∈ ws, w ≠ [] ∧ ∀ c ∈ w, isSpace c = false := by
  induction h with
  | nil => simp
  | cons _ hne hw _ _ ih =>
    intro w' hw'
    rcases List.mem_cons.1 hw' with rfl | hw'
    · exact ⟨hne, hw⟩
    · exact ih w' hw'

theorem wrapLines_spec (skip maxlen : Int) (ws : List Str) :
    ∃ gs, gs.flatten = ws ∧ (∀ g ∈ gs, g ≠ [] ∧ FitsW (maxlen - skip - 1) g) ∧ TightW (maxlen - skip - 1) gs ∧
      wrapLines skip maxlen ws = gs.map spaced := by
  cases ws with
  | nil => exact ⟨[], rfl, by simp, trivial, rfl⟩
  | cons w ws =>
    have e : maxlen - (skip + 1) = maxlen - skip - 1 := by omega
    obtain ⟨gs, h1, h2, h3, h4⟩ := wrapGo_spec (maxlen - skip - 1) ws [] [w] (by simp) (.inl rfl) (by simp)
      (by simp [TightW])
    refine ⟨gs, by simpa using h1, h2, h3, ?_⟩
    rw [wrapLines, e]
    simpa [spaced, joinWith] using h4

end ALint
