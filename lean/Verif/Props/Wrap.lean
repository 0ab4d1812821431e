import Verif.Proofs.Wrap

/-!
# C63: wrapping
-/

namespace ALint.Props
open ALint ALint.Spec

/-- Every text has words, and only one way. -/
theorem C63_words_unique (s : Str) (ws ws' : List Str) (h : Words s ws) (h' : Words s ws') : ws = ws' := by
  rw [← words_split h, words_split h']

/-- C63: the words of the text are kept in order. -/
theorem C63_words (text : Str) (skip maxlen : Int) (ws : List Str) :
    Words (wrap text skip maxlen) ws ↔ Words text ws := by
  have key : Words (wrap text skip maxlen) (splitWs text) := by
    obtain ⟨gs, h1, h2, h3, h4⟩ := wrapLines_spec skip maxlen (splitWs text)
    unfold wrap
    rw [h4]
    have hw := words_mem (split_words text)
    have := words_paragraph (indent := List.replicate skip.toNat ' ')
      (fun c hc => by rw [(List.mem_replicate.1 hc).2]; exact isSpace_space) gs (fun g hg => (h2 g hg).1)
      (fun g hg w hwg => hw w (by rw [← h1]; exact List.mem_flatten.2 ⟨g, hg, hwg⟩))
    rw [h1] at this
    exact this
  constructor
  · intro h
    rw [C63_words_unique _ _ _ h key]
    exact split_words text
  · intro h
    rw [← words_split h]
    exact key

/-- C63: the text becomes lines of words with single spaces, all but the first indented;
each line has one word only or takes at most `maxlen - 1` columns with its indentation; and a
line ends only where the next word would not fit. -/
theorem C63_lines (text : Str) (skip maxlen : Int) (ws : List Str) (h : Words text ws) :
    ∃ lines : List (List Str), lines.flatten = ws ∧ [] ∉ lines ∧
      wrap text skip maxlen = paragraph (List.replicate skip.toNat ' ') (lines.map spaced) ∧
      (∀ l ∈ lines, l.length = 1 ∨ skip + ((spaced l).length : Int) < maxlen) ∧
      (∀ before l w l' after, lines = before ++ l :: (w :: l') :: after →
        maxlen ≤ skip + ((spaced (l ++ [w])).length : Int)) := by
  obtain ⟨gs, h1, h2, h3, h4⟩ := wrapLines_spec skip maxlen (splitWs text)
  rw [words_split h] at h1
  refine ⟨gs, h1, fun hn => (h2 [] hn).1 rfl, ?_, fun l hl => ?_, ?_⟩
  · unfold wrap
    rw [h4, joinStr_eq]
  · rcases (h2 l hl).2 with h | h
    · exact .inl h
    · exact .inr (by omega)
  · intro before
    have hne : ∀ g ∈ gs, g ≠ [] := fun g hg => (h2 g hg).1
    clear h1 h2 h4
    induction before generalizing gs with
    | nil =>
      intro l w l' after he
      subst he
      have := h3.1
      omega
    | cons b before ih =>
      intro l w l' after he
      subst he
      cases before with
      | nil =>
        cases l with
        | nil => exact absurd rfl (hne [] (by simp))
        | cons a l => exact ih _ h3.2 (fun g hg => hne g (List.mem_cons_of_mem _ hg)) _ _ _ _ rfl
      | cons b' before =>
        cases b' with
        | nil => exact absurd rfl (hne [] (by simp))
        | cons a b' => exact ih _ h3.2 (fun g hg => hne g (List.mem_cons_of_mem _ hg)) _ _ _ _ rfl

example : wrap (c! "List  the\tavailable\nfunctions and so on") 4 20 = c! "List the\n    available\n    functions and\n    so on" := by
  decide

example : Words (c! " a b\tc ") [c! "a", c! "b", c! "c"] :=
  .cons (a := c! " ") (w := c! "a") (rest := c! " b\tc ") (by decide) (by decide) (by decide) (by decide)
    (.cons (a := c! " ") (w := c! "b") (rest := c! "\tc ") (by decide) (by decide) (by decide) (by decide)
      (.cons (a := c! "\t") (w := c! "c") (rest := c! " ") (by decide) (by decide) (by decide) (by decide)
        (.nil (by decide))))

end ALint.Props
