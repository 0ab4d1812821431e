import Verif.Spec.File
import Verif.Proofs.Str

namespace ALint
open ALint.Spec

theorem isBlank_iff (c : Char) : isBlank c = true ↔ Blank c := by simp [isBlank, Blank]

theorem isBlank_false_iff (c : Char) : isBlank c = false ↔ ¬ Blank c := by
  rw [← isBlank_iff]; simp

theorem not_endsBlank_iff (s : Str) : ¬ EndsBlank s ↔ ∀ c, s.getLast? = some c → isBlank c = false := by
  constructor
  · intro h c hc
    rw [isBlank_false_iff]
    exact fun hb => h ⟨c, hc, hb⟩
  · rintro h ⟨c, hc, hb⟩
    exact (isBlank_false_iff c).1 (h c hc) hb

theorem trimmed_rstrip (s : Str) : ∃ b, Trimmed s (rstripP isBlank s) b := by
  obtain ⟨post, h1, h2, h3⟩ := rstripP_spec isBlank s
  exact ⟨post, h1, fun c hc => (isBlank_iff c).1 (h2 c hc), (not_endsBlank_iff _).2 h3⟩

theorem trimmed_eq {s d b : Str} (h : Trimmed s d b) : rstripP isBlank s = d ∧ s.drop d.length = b := by
  obtain ⟨rfl, h2, h3⟩ := h
  exact ⟨rstripP_append isBlank d b (fun c hc => (isBlank_iff c).2 (h2 c hc)) ((not_endsBlank_iff _).1 h3),
    by simp⟩

theorem unescape_no {s : Str} (h : ';' ∉ s) : unescape s = s := by
  induction s with
  | nil => rfl
  | cons c r ih =>
    simp only [List.mem_cons, not_or] at h
    rw [unescape, ih h.2]
    rintro r' rfl rfl
    simp at h

theorem unescape_bs (p r : Str) (h : ';' ∉ p) :
    unescape (p ++ '\\' :: ';' :: r) = p ++ ';' :: unescape r := by
  induction p with
  | nil => simp [unescape]
  | cons c p ih =>
    simp only [List.mem_cons, not_or] at h
    rw [List.cons_append, unescape, ih h.2, List.cons_append]
    intro r' h1 h2
    cases p with
    | nil => simp at h2
    | cons x p => simp at h2 h; exact h.2.1 h2.1.symm

theorem allEscaped_split {p r : Str} (h : AllEscaped (p ++ ';' :: r)) :
    p.getLast? = some '\\' ∧ AllEscaped r := by
  refine ⟨h p r rfl, ?_⟩
  intro a b hab
  have := h (p ++ ';' :: a) b (by rw [hab]; simp)
  rw [List.getLast?_append] at this
  cases a with
  | nil => simp at this
  | cons x a => simpa using this

theorem lookback_all : ∀ (n : Nat) (s : Str), s.length < n → AllEscaped s →
    lookbackFuel n s = (unescape s, []) := by
  intro n
  induction n with
  | zero => intro s h; omega
  | succ n ih =>
    intro s hn hs
    simp only [lookbackFuel]
    cases hsp : splitOnce ';' s with
    | none => simp only; rw [unescape_no (splitOnce_none_iff.1 hsp)]
    | some ab =>
      obtain ⟨p, r⟩ := ab
      obtain ⟨rfl, hp⟩ := splitOnce_some hsp
      obtain ⟨h1, h2⟩ := allEscaped_split hs
      simp only [h1, if_true]
      obtain ⟨p', rfl⟩ := List.getLast?_eq_some_iff.1 h1
      rw [ih r (by simp at hn; omega) h2]
      simp only [List.dropLast_concat, List.append_assoc, List.cons_append, List.nil_append]
      rw [unescape_bs p' r (by simp at hp; exact hp)]

theorem lookback_comment : ∀ (n : Nat) (a b : Str), (a ++ ';' :: b).length < n → AllEscaped a →
    a.getLast? ≠ some '\\' → lookbackFuel n (a ++ ';' :: b) = (unescape a, ';' :: b) := by
  intro n
  induction n with
  | zero => intro a b h; omega
  | succ n ih =>
    intro a b hn ha hl
    simp only [lookbackFuel]
    cases hsp : splitOnce ';' a with
    | none =>
      have hna := splitOnce_none_iff.1 hsp
      rw [splitOnce_append hna]
      simp only [hl, if_false]
      rw [unescape_no hna]
    | some ab =>
      obtain ⟨p, r⟩ := ab
      obtain ⟨rfl, hp⟩ := splitOnce_some hsp
      obtain ⟨h1, h2⟩ := allEscaped_split ha
      rw [List.append_assoc, List.cons_append, splitOnce_append hp]
      simp only [h1, if_true]
      obtain ⟨p', rfl⟩ := List.getLast?_eq_some_iff.1 h1
      rw [ih r b (by simp at hn ⊢; omega) h2 (by
        intro hr
        apply hl
        rw [List.getLast?_append, List.getLast?_cons, hr]
        rfl)]
      simp only [List.dropLast_concat, List.append_assoc, List.cons_append, List.nil_append]
      rw [unescape_bs p' r (by simp at hp; exact hp)]

/-- Every text is of one of the two kinds. -/
theorem comment_cases (s : Str) : AllEscaped s ∨ ∃ a b, CommentAt s a b := by
  induction hn : s.length using Nat.strongRecOn generalizing s with
  | ind n ih =>
    subst hn
    cases hsp : splitOnce ';' s with
    | none =>
      left
      intro a b h
      exact absurd (by rw [h]; simp) (splitOnce_none_iff.1 hsp)
    | some ab =>
      obtain ⟨p, r⟩ := ab
      obtain ⟨rfl, hp⟩ := splitOnce_some hsp
      by_cases hl : p.getLast? = some '\\'
      · rcases ih r.length (by simp; omega) r rfl with h | ⟨a, b, h1, h2, h3⟩
        · left
          intro a b hab
          rcases List.append_eq_append_iff.1 hab with ⟨t, rfl, ht⟩ | ⟨t, rfl, ht⟩
          · cases t with
            | nil => simpa using hl
            | cons x t =>
              simp at ht
              have := h t b ht.2
              rw [List.getLast?_append, List.getLast?_cons, this]
              rfl
          · cases t with
            | nil => simpa using hl
            | cons x t => simp at ht hp; exact absurd ht.1 hp.2.1
        · right
          refine ⟨p ++ ';' :: a, b, by rw [h1]; simp, ?_, ?_⟩
          · intro x y hxy
            rcases List.append_eq_append_iff.1 hxy with ⟨t, rfl, ht⟩ | ⟨t, rfl, ht⟩
            · cases t with
              | nil => simpa using hl
              | cons z t =>
                simp at ht
                have := h2 t y ht.2
                rw [List.getLast?_append, List.getLast?_cons, this]
                rfl
            · cases t with
              | nil => simpa using hl
              | cons z t => simp at ht hp; exact absurd ht.1 hp.2.1
          · rw [List.getLast?_append, List.getLast?_cons]
            cases ha : a.getLast? with
            | none => simp
            | some c => simp; intro hc; rw [hc] at ha; exact h3 ha
      · right
        exact ⟨p, r, rfl, fun a b h => absurd (by rw [h]; simp) hp, hl⟩

theorem allEscaped_not_commentAt {s a b : Str} (h : AllEscaped s) (h' : CommentAt s a b) : False :=
  h'.plain (h a b h'.parts)

theorem commentAt_unique {s a b a' b' : Str} (h : CommentAt s a b) (h' : CommentAt s a' b') :
    a = a' ∧ b = b' := by
  have e := h.parts.symm.trans h'.parts
  rcases List.append_eq_append_iff.1 e with ⟨t, rfl, ht⟩ | ⟨t, rfl, ht⟩
  · cases t with
    | nil => simpa using ht
    | cons z t =>
      simp at ht
      have := h'.before a t (by rw [← ht.1])
      exact absurd this h.plain
  · cases t with
    | nil => simp at ht; simp [ht]
    | cons z t =>
      simp at ht
      have := h.before a' t (by rw [← ht.1])
      exact absurd this h'.plain

theorem unescape_getLast (a : Str) (hl : a.getLast? ≠ some '\\') :
    (unescape a).getLast? = a.getLast? := by
  fun_induction unescape a with
  | case1 r ih =>
    cases r with
    | nil => rfl
    | cons x r =>
      have e : ('\\' :: ';' :: x :: r).getLast? = (x :: r).getLast? := by simp [List.getLast?_cons]
      rw [e] at hl ⊢
      have := ih hl
      rw [List.getLast?_cons, this]
      cases h : (x :: r).getLast? with
      | none => simp at h
      | some y => rfl
  | case2 c r hne ih =>
    cases r with
    | nil => simp [unescape]
    | cons x r =>
      have e : (c :: x :: r).getLast? = (x :: r).getLast? := by simp [List.getLast?_cons]
      rw [e] at hl ⊢
      have := ih hl
      rw [List.getLast?_cons, this]
      cases h : (x :: r).getLast? with
      | none => simp at h
      | some y => rfl
  | case3 => rfl

theorem unescape_endsBlank (a : Str) (hl : a.getLast? ≠ some '\\') :
    EndsBlank (unescape a) ↔ EndsBlank a := by
  simp only [EndsBlank, unescape_getLast a hl]

/-- For escaped text the last character may be a backslash. -/
theorem unescape_getLast_bs (a : Str) (h : a.getLast? = some '\\') :
    (unescape a).getLast? = some '\\' := by
  fun_induction unescape a with
  | case1 r ih =>
    cases r with
    | nil => simp at h
    | cons x r =>
      have e : ('\\' :: ';' :: x :: r).getLast? = (x :: r).getLast? := by simp [List.getLast?_cons]
      rw [e] at h
      rw [List.getLast?_cons, ih h]; rfl
  | case2 c r hne ih =>
    cases r with
    | nil => simpa [unescape] using h
    | cons x r =>
      have e : (c :: x :: r).getLast? = (x :: r).getLast? := by simp [List.getLast?_cons]
      rw [e] at h
      rw [List.getLast?_cons, ih h]; rfl
  | case3 => simp at h

theorem unescape_last (a : Str) : (unescape a).getLast? = a.getLast? := by
  by_cases h : a.getLast? = some '\\'
  · rw [h, unescape_getLast_bs a h]
  · exact unescape_getLast a h

theorem moveMiddle_eq (data comment d b : Str) (h : Trimmed data d b) :
    moveMiddle data comment =
      (match data.getLast? with
        | some c => !comment.isEmpty && !isBlank c
        | none => false, d, b ++ comment) := by
  obtain ⟨h1, h2⟩ := trimmed_eq h
  simp only [moveMiddle, h1, h2]
  cases data.getLast? <;> rfl

theorem lookbackSplit_all (s : Str) (h : AllEscaped s) (hb : ¬ EndsBlank s) :
    lookbackSplit s = (false, unescape s, []) := by
  simp only [lookbackSplit]
  rw [lookback_all _ s (by omega) h]
  have : Trimmed (unescape s) (unescape s) [] :=
    ⟨by simp, by simp, by simp only [EndsBlank, unescape_last]; exact hb⟩
  rw [moveMiddle_eq _ _ _ _ this]
  cases (unescape s).getLast? <;> rfl

theorem lookbackSplit_comment (s a b d bl : Str) (h : CommentAt s a b) (ht : Trimmed (unescape a) d bl) :
    lookbackSplit s = (match a.getLast? with | some c => !isBlank c | none => false,
      d, bl ++ ';' :: b) := by
  simp only [lookbackSplit]
  rw [h.parts, lookback_comment _ a b (by omega) h.before h.plain, moveMiddle_eq _ _ _ _ ht, unescape_last]
  cases a.getLast? <;> rfl

theorem no_bs_comment {s : Str} (h : '\\' ∉ s) :
    (AllEscaped s ↔ ';' ∉ s) ∧ ∀ a b, CommentAt s a b ↔ (s = a ++ ';' :: b ∧ ';' ∉ a) := by
  have nl : ∀ a : Str, (∀ c ∈ a, c ∈ s) → a.getLast? ≠ some '\\' := by
    intro a ha hl
    exact h (ha _ (List.mem_of_getLast? hl))
  have mem_split : ∀ (t : Str), ';' ∈ t → ∃ a b, t = a ++ ';' :: b := by
    intro t ht
    exact List.append_of_mem ht
  refine ⟨⟨fun hs hm => ?_, fun hm a b hab => absurd (by rw [hab]; simp) hm⟩, fun a b => ⟨fun hc => ⟨hc.parts, fun hm => ?_⟩,
    fun ⟨hp, hm⟩ => ⟨hp, fun x y hxy => absurd (by rw [hxy]; simp) hm, nl a (by rw [hp]; simp; exact fun c hc => .inl hc)⟩⟩⟩
  · obtain ⟨a, b, hab⟩ := mem_split s hm
    exact nl a (by rw [hab]; simp; exact fun c hc => .inl hc) (hs a b hab)
  · obtain ⟨x, y, hxy⟩ := mem_split a hm
    refine nl x ?_ (hc.before x y hxy)
    rw [hc.parts, hxy]; simp; exact fun c hc => .inl hc

/-- The fast path and the general path agree. -/
theorem simple_eq_lookback (s : Str) (h : '\\' ∉ s) (hb : ¬ EndsBlank s) :
    simpleSplit s = lookbackSplit s := by
  obtain ⟨h1, h2⟩ := no_bs_comment h
  simp only [simpleSplit]
  cases hsp : splitOnce ';' s with
  | none =>
    have hn := splitOnce_none_iff.1 hsp
    rw [lookbackSplit_all s (h1.2 hn) hb, unescape_no hn]
  | some ab =>
    obtain ⟨a, b⟩ := ab
    obtain ⟨rfl, hp⟩ := splitOnce_some hsp
    obtain ⟨bl, hbl⟩ := trimmed_rstrip a
    have hbl' : Trimmed (unescape a) (rstripP isBlank a) bl := by rw [unescape_no hp]; exact hbl
    rw [lookbackSplit_comment _ a b _ bl ((h2 a b).2 ⟨rfl, hp⟩) hbl']
    have : (a ++ ';' :: b).drop (rstripP isBlank a).length = bl ++ ';' :: b := by
      have e : a ++ ';' :: b = rstripP isBlank a ++ (bl ++ ';' :: b) := by
        rw [← List.append_assoc, ← hbl.parts]
      rw [e, List.drop_left]
    simp only [this]
    cases a.getLast? <;> rfl

theorem commentSplit_eq (s : Str) (hb : ¬ EndsBlank s) : commentSplit s = lookbackSplit s := by
  simp only [commentSplit]
  split
  · rfl
  · rename_i h
    exact simple_eq_lookback s (by simpa [List.contains_iff_mem] using h) hb

theorem unescape_escape (s : Str) : unescape (escape s) = s := by
  induction s with
  | nil => rfl
  | cons c r ih =>
    simp only [escape]
    split
    · rename_i hc; subst hc; simp [unescape, ih]
    · rename_i hc
      rw [unescape, ih]
      intro r' h1 h2
      cases r with
      | nil => simp [escape] at h2
      | cons x r =>
        simp only [escape] at h2
        split at h2
        · simp at h2
        · rename_i hx; simp at h2; exact hx h2.1

theorem allEscaped_escape (s : Str) : AllEscaped (escape s) := by
  induction s with
  | nil => intro a b h; simp [escape] at h
  | cons c r ih =>
    intro a b h
    simp only [escape] at h
    split at h
    · match a, h with
      | [], h => simp at h
      | [x], h => simp at h; simp [← h.1]
      | x :: y :: a, h =>
        simp at h
        have := ih a b h.2.2
        cases a with
        | nil => simp at this
        | cons z a => simpa [List.getLast?_cons] using this
    · rename_i hc
      cases a with
      | nil => simp at h; exact absurd h.1 hc
      | cons x a =>
        simp at h
        have := ih a b h.2
        cases a with
        | nil => simp at this
        | cons z a => simpa [List.getLast?_cons] using this

theorem escape_last (s : Str) : (escape s).getLast? = s.getLast? := by
  have := unescape_last (escape s)
  rw [unescape_escape] at this
  exact this.symm

theorem commentStage_eq (w : Where) (s d bl : Str) (h : Trimmed s d bl) :
    commentStage w s =
      ((if bl = [] then [] else [⟨.W_WSH_EOL, w, [], none⟩]) ++
        (if (lookbackSplit d).1 then [⟨.W_WSH_COMMENT, w, [], none⟩] else []), (lookbackSplit d).2) := by
  obtain ⟨h1, h2⟩ := trimmed_eq h
  have hb := (not_endsBlank_iff d).1 h.end_
  simp only [commentStage]
  rw [← commentSplit_eq d h.end_]
  by_cases hbl : bl = []
  · subst hbl
    have hs : s = d := by rw [h.parts]; simp
    subst hs
    simp only [if_true]
    cases hl : s.getLast? with
    | none => simp
    | some c => rw [hl] at hb; simp [hb c rfl]
  · have : ∃ c, s.getLast? = some c ∧ isBlank c = true := by
      rw [h.parts, List.getLast?_append]
      cases hl : bl.getLast? with
      | none => simp at hl; exact absurd hl hbl
      | some c => exact ⟨c, rfl, (isBlank_iff c).2 (h.blank c (List.mem_of_getLast? hl))⟩
    obtain ⟨c, hc, hcb⟩ := this
    simp only [hc, hcb, if_true, hbl, if_false, h1]

end ALint
