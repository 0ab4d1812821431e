import Verif.Props.Command

/-!
# C98: the line shown below a message
-/

namespace ALint.Props
open ALint ALint.Spec

/-- C98: a line is shown in one way only, the one described: between quotes, with what is not
printable written in printable characters, and cut after 63 characters. -/
theorem C98_shown {bs : Bytes} (h : IsBytes bs) (t : Str) : ShownLine bs t ↔ shownLine bs = t := by
  rw [shownLine_iff h]; exact eq_comm

/-- C98: what is shown consists of printable characters on one line, whatever is in the file. -/
theorem C98_printable {bs : Bytes} (h : IsBytes bs) : ∀ c ∈ shownLine bs, ' ' ≤ c ∧ c ≤ '~' := by
  have hs := (shownLine_iff h _).2 rfl
  revert hs
  generalize shownLine bs = t
  intro hs
  cases hs with
  | whole hq _ => exact quotedBytes_printable hq
  | cut hq _ =>
    intro c hc
    rcases List.mem_append.1 hc with hc | hc
    · exact quotedBytes_printable hq c (List.mem_of_mem_take hc)
    · have : ∀ c ∈ c! "...", ' ' ≤ c ∧ c ≤ '~' := by decide
      exact this c hc

theorem quotedBytes_ends {bs : Bytes} {t : Str} (h : QuotedBytes bs t) : t.getLast? = some '\'' ∨ t.getLast? = some '"' := by
  cases h with
  | mk hq _ =>
    rw [List.getLast?_append]
    rcases quote_char hq with rfl | rfl <;> simp

/-- C98: the line can be read back from what is shown, to the last byte, unless it was cut (which
is seen from the dots at the end): different lines are shown differently. -/
theorem C98_read_back {a b : Bytes} (ha : IsBytes a) (hb : IsBytes b) (h : shownLine a = shownLine b)
    (hd : (shownLine a).getLast? ≠ some '.') : a = b := by
  have h1 := (shownLine_iff ha _).2 rfl
  have h2 := (shownLine_iff hb _).2 rfl
  rw [← h] at h2
  revert h1 h2 hd
  generalize shownLine a = t
  intro hd h1 h2
  have cutEnd : ∀ {u : Str}, (u.take 63 ++ c! "...").getLast? = some '.' := by
    intro u
    rw [List.getLast?_append]
    rfl
  cases h1 with
  | cut => exact absurd cutEnd hd
  | whole h1 _ =>
    generalize ht : t = u at h2
    cases h2 with
    | cut => rw [ht] at hd; exact absurd cutEnd hd
    | whole h2 _ => rw [← ht] at h2; exact quotedBytes_inj h1 h2

/-- C98: the dots mean that it was cut, and nothing else: a line of at most 15 bytes never is. -/
theorem C98_cut {bs : Bytes} (h : IsBytes bs) :
    ((shownLine bs).getLast? = some '.' ↔ ∃ t, QuotedBytes bs t ∧ 63 < t.length) ∧
    (bs.length ≤ 15 → (shownLine bs).getLast? ≠ some '.') := by
  have h1 := (shownLine_iff h _).2 rfl
  have main : (shownLine bs).getLast? = some '.' ↔ ∃ t, QuotedBytes bs t ∧ 63 < t.length := by
    revert h1
    generalize shownLine bs = t
    intro h1
    cases h1 with
    | whole hq hn =>
      refine ⟨fun hd => ?_, ?_⟩
      · rcases quotedBytes_ends hq with h | h <;> rw [h] at hd <;> simp at hd
      · rintro ⟨u, hu, hl⟩
        have := (quotedBytes_only hu).1.trans (quotedBytes_only hq).1.symm
        subst this
        omega
    | cut hq hn =>
      refine ⟨fun _ => ⟨_, hq, hn⟩, fun _ => ?_⟩
      rw [List.getLast?_append]
      rfl
  refine ⟨main, fun hl hd => ?_⟩
  obtain ⟨t, ht, hn⟩ := main.1 hd
  cases ht with
  | @mk q body _ hb =>
    have : ∀ {bs body}, BytesShown q bs body → body.length ≤ 4 * bs.length := by
      intro bs body hb
      induction hb with
      | nil => simp
      | cons h1 _ ih =>
        have : ∀ {b s}, ByteShown q b s → s.length ≤ 4 := by
          intro b s h
          cases h <;> simp
        have := this h1
        simp only [List.length_append, List.length_cons]
        omega
    have := this hb
    simp at hn
    omega

/-! ## Examples -/

/-- Characters of all kinds. -/
example : shownLine (asciiBytes (c! "a\t'b'\\ ") ++ [233, 127, 13, 10]) = c! "\"a\\t'b'\\\\ \\xe9\\x7f\\r\\n\"" ∧
    shownLine (asciiBytes (c! "'\"")) = c! "'\\'\"'" := by
  decide +kernel

/-- 61 characters are shown as they are, one more is too many. -/
example : shownLine (List.replicate 61 97) = ['\''] ++ List.replicate 61 'a' ++ ['\''] ∧
    shownLine (List.replicate 62 97) = ['\''] ++ List.replicate 62 'a' ++ c! "..." := by
  decide +kernel

end ALint.Props
