import Verif.Model.File

namespace ALint

/-- The bytes of one character, as numbers. -/
def enc (c : Char) : List Nat := (String.utf8EncodeChar c).map UInt8.toNat

theorem utf8_cons' (c : Char) (s : Str) : utf8 (c :: s) = enc c ++ utf8 s := by
  simp [utf8, enc]

theorem char_valid (c : Char) : c.toNat < 0xd800 ∨ (0xdfff < c.toNat ∧ c.toNat < 0x110000) := c.valid

theorem enc_eq (c : Char) : enc c =
    if c.toNat ≤ 0x7f then [c.toNat]
    else if c.toNat ≤ 0x7ff then [c.toNat / 64 % 32 + 0xc0, c.toNat % 64 + 0x80]
    else if c.toNat ≤ 0xffff then
      [c.toNat / 4096 % 16 + 0xe0, c.toNat / 64 % 64 + 0x80, c.toNat % 64 + 0x80]
    else [c.toNat / 262144 % 8 + 0xf0, c.toNat / 4096 % 64 + 0x80, c.toNat / 64 % 64 + 0x80,
      c.toNat % 64 + 0x80] := by
  have hv : c.val.toNat = c.toNat := rfl
  simp only [enc, String.utf8EncodeChar, hv]
  have hu : ∀ n : Nat, n < 256 → (UInt8.ofNat n).toNat = n := by
    intro n h
    rw [UInt8.toNat_ofNat']
    exact Nat.mod_eq_of_lt h
  split
  · simp only [List.map_cons, List.map_nil]; rw [hu _ (by omega)]
  · split
    · simp only [List.map_cons, List.map_nil]; rw [hu _ (by omega), hu _ (by omega)]
    · split
      · simp only [List.map_cons, List.map_nil]
        rw [hu _ (by omega), hu _ (by omega), hu _ (by omega)]
      · simp only [List.map_cons, List.map_nil]
        rw [hu _ (by omega), hu _ (by omega), hu _ (by omega), hu _ (by omega)]

theorem isCont_iff (b : Nat) : isCont b = true ↔ 0x80 ≤ b ∧ b ≤ 0xbf := by
  simp [isCont]

theorem ofNat_toNat' (c : Char) (n : Nat) (h : n = c.toNat) : Char.ofNat n = c := by
  rw [h, Char.ofNat_toNat]

theorem utf8Decode_enc (c : Char) (r : Bytes) :
    utf8Decode (enc c ++ r) = (utf8Decode r).map (c :: ·) := by
  have hv := char_valid c
  rw [enc_eq]
  split
  · simp only [List.cons_append, List.nil_append]
    rw [utf8Decode.eq_def]
    simp only
    rw [if_pos (by omega), Char.ofNat_toNat]
  · split
    · simp only [List.cons_append, List.nil_append]
      rw [utf8Decode.eq_def]
      simp only
      rw [if_neg (by omega), if_neg (by omega), if_pos (by omega),
        if_pos ((isCont_iff _).2 (by omega)), ofNat_toNat' c _ (by omega)]
    · split
      · simp only [List.cons_append, List.nil_append]
        rw [utf8Decode.eq_def]
        simp only
        rw [if_neg (by omega), if_neg (by omega), if_neg (by omega), if_pos (by omega),
          if_pos (by
            simp only [Bool.and_eq_true, Bool.not_eq_true', isCont_iff, decide_eq_true_eq,
              Bool.and_eq_false_iff, decide_eq_false_iff_not]
            omega), ofNat_toNat' c _ (by omega)]
      · simp only [List.cons_append, List.nil_append]
        rw [utf8Decode.eq_def]
        simp only
        rw [if_neg (by omega), if_neg (by omega), if_neg (by omega), if_neg (by omega),
          if_pos (by
            simp only [Bool.and_eq_true, isCont_iff, decide_eq_true_eq]
            omega), ofNat_toNat' c _ (by omega)]

theorem utf8Decode_utf8 (s : Str) : utf8Decode (utf8 s) = some s := by
  induction s with
  | nil => rfl
  | cons c s ih => rw [utf8_cons', utf8Decode_enc, ih]; rfl

theorem toNat_ofNat_valid (n : Nat) (h : n < 0xd800 ∨ (0xdfff < n ∧ n < 0x110000)) :
    (Char.ofNat n).toNat = n := by
  have : n.isValidChar := h
  rw [Char.ofNat, dif_pos this]
  rfl

theorem utf8_of_decode : ∀ (bs : Bytes) (s : Str), utf8Decode bs = some s → utf8 s = bs := by
  intro bs
  induction hn : bs.length using Nat.strongRecOn generalizing bs with
  | ind n ih =>
    intro s h
    subst hn
    cases bs with
    | nil => simp [utf8Decode] at h; subst h; rfl
    | cons b0 rest =>
      rw [utf8Decode.eq_def] at h
      simp only at h
      have step : ∀ (r : Bytes) (cp : Nat), r.length < (b0 :: rest).length →
          (utf8Decode r).map (Char.ofNat cp :: ·) = some s →
          utf8 s = enc (Char.ofNat cp) ++ r := by
        intro r cp hr h
        cases hd : utf8Decode r with
        | none => simp [hd] at h
        | some t =>
          simp [hd] at h
          subst h
          rw [utf8_cons', ih r.length hr r rfl t hd]
      split at h
      · rename_i h0
        rw [step rest b0 (by simp) h, enc_eq, toNat_ofNat_valid _ (by omega), if_pos (by omega)]
        rfl
      split at h
      · simp at h
      split at h
      · rename_i h0 h1 h2
        cases rest with
        | nil => simp at h
        | cons b1 r =>
          simp only at h
          split at h
          · rename_i hc
            rw [isCont_iff] at hc
            rw [step r _ (by simp; omega) h, enc_eq, toNat_ofNat_valid _ (by omega), if_neg (by omega),
              if_pos (by omega)]
            simp only [List.cons_append, List.nil_append]
            congr 1
            · omega
            · congr 1; omega
          · simp at h
      split at h
      · rename_i h0 h1 h2 h3
        match rest, h with
        | [], h => simp at h
        | [b1], h => simp at h
        | b1 :: b2 :: r, h =>
          simp only at h
          split at h
          · rename_i hc
            simp only [Bool.and_eq_true, Bool.not_eq_true', isCont_iff, decide_eq_true_eq,
              Bool.and_eq_false_iff, decide_eq_false_iff_not] at hc
            rw [step r _ (by simp; omega) h, enc_eq, toNat_ofNat_valid _ (by omega), if_neg (by omega),
              if_neg (by omega), if_pos (by omega)]
            simp only [List.cons_append, List.nil_append]
            congr 1
            · omega
            · congr 1
              · omega
              · congr 1; omega
          · simp at h
      · rename_i h0 h1 h2 h3
        match rest, h with
        | [], h => simp at h
        | [b1], h => simp at h
        | [b1, b2], h => simp at h
        | b1 :: b2 :: b3 :: r, h =>
          simp only at h
          split at h
          · rename_i hc
            simp only [Bool.and_eq_true, isCont_iff, decide_eq_true_eq] at hc
            rw [step r _ (by simp; omega) h, enc_eq, toNat_ofNat_valid _ (by omega), if_neg (by omega),
              if_neg (by omega), if_neg (by omega)]
            simp only [List.cons_append, List.nil_append]
            congr 1
            · omega
            · congr 1
              · omega
              · congr 1
                · omega
                · congr 1; omega
          · simp at h

theorem utf8Decode_iff (bs : Bytes) (s : Str) : utf8Decode bs = some s ↔ utf8 s = bs :=
  ⟨utf8_of_decode bs s, fun h => h ▸ utf8Decode_utf8 s⟩

end ALint
