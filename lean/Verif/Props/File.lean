import Verif.Proofs.Utf8
import Verif.Proofs.Comment
import Verif.Proofs.Fileformat

/-!
# C04–C10: decoding, control characters, file formats, comments
-/

namespace ALint.Props
open ALint ALint.Spec

/-! ## C04 -/

/-- C04: a line that is the UTF-8 form of a text is decoded to that text, silently. -/
theorem C04_valid (w : Where) (s : Str) (h : w.line = utf8 s) : encodingStage w = ([], .ok s) := by
  simp only [encodingStage, h, utf8Decode_utf8]

/-- C04: any other line gives exactly one E_FILE_UTF8_BAD, for that line; if every
byte of it is defined in cp1252 it is read as cp1252, otherwise the run aborts. -/
theorem C04_invalid (w : Where) (h : ¬ ∃ s, w.line = utf8 s) :
    (encodingStage w).1 = [⟨.E_FILE_UTF8_BAD, w, [], none⟩] ∧
      (∀ s, (encodingStage w).2 = .ok s ↔ w.line.map cp1252Byte = s.map some) ∧
      ((∃ b ∈ w.line, cp1252Byte b = none) ↔ (encodingStage w).2 = .error .unicodeDecodeError) := by
  have hd : utf8Decode w.line = none := by
    cases hd : utf8Decode w.line with
    | none => rfl
    | some s => exact absurd ⟨s, (utf8_of_decode _ _ hd).symm⟩ h
  have cp : ∀ (bs : Bytes) (s : Str), cp1252Decode bs = some s ↔ bs.map cp1252Byte = s.map some := by
    intro bs
    induction bs with
    | nil => intro s; cases s <;> simp [cp1252Decode]
    | cons b bs ih =>
      intro s
      simp only [cp1252Decode]
      cases hb : cp1252Byte b with
      | none => cases s <;> simp [hb]
      | some c =>
        cases hr : cp1252Decode bs with
        | none =>
          cases s with
          | nil => simp
          | cons x xs =>
            simp only [List.map_cons, List.cons.injEq, hb]
            constructor
            · intro h; simp at h
            · rintro ⟨_, h⟩
              rw [(ih xs).2 h] at hr; simp at hr
        | some cs =>
          cases s with
          | nil => simp
          | cons x xs =>
            have h0 := (ih xs)
            rw [hr] at h0
            simp only [List.map_cons, List.cons.injEq, hb, Option.some.injEq, ← h0]
  have cpn : ∀ (bs : Bytes), cp1252Decode bs = none ↔ ∃ b ∈ bs, cp1252Byte b = none := by
    intro bs
    induction bs with
    | nil => simp [cp1252Decode]
    | cons b bs ih =>
      simp only [cp1252Decode]
      cases hb : cp1252Byte b with
      | none => simp [hb]
      | some c =>
        cases hr : cp1252Decode bs with
        | none => rw [hr] at ih; simp at ih; simp [hb]; exact ih
        | some cs => rw [hr] at ih; simp at ih; simp [hb]; exact ih
  refine ⟨by simp only [encodingStage, hd], ?_, ?_⟩
  · intro s
    rw [← cp]
    simp only [encodingStage, hd]
    cases cp1252Decode w.line <;> simp
  · rw [← cpn]
    simp only [encodingStage, hd]
    cases cp1252Decode w.line <;> simp

/-- C04: what the bytes of such a line stand for is what Windows-1252 says. -/
theorem C04_cp1252 (w : Where) (hb : ∀ b ∈ w.line, b < 256) (h : ¬ ∃ s, w.line = utf8 s) (s : Str) :
    (encodingStage w).2 = .ok s ↔ w.line.length = s.length ∧ ∀ p ∈ w.line.zip s, Windows1252 p.1 p.2 := by
  have tab : ∀ b < 256, (∀ c, cp1252Byte b = some c → Windows1252 b c) ∧ ∀ c, Windows1252 b c → cp1252Byte b = some c := by
    have h1 : ∀ b < 256, ∀ c ∈ cp1252Byte b, (b < 0x80 ∨ 0xa0 ≤ b) ∧ b < 256 ∧ c.toNat = b ∨ (b, c) ∈ windowsOnly := by decide +kernel
    have h2 : ∀ b < 256, (b < 0x80 ∨ 0xa0 ≤ b) → cp1252Byte b = some (Char.ofNat b) := by decide +kernel
    have h3 : ∀ p ∈ windowsOnly, cp1252Byte p.1 = some p.2 := by decide +kernel
    intro b hb
    refine ⟨fun c hc => h1 b hb c hc, fun c hc => ?_⟩
    rcases hc with ⟨k1, _, k3⟩ | k
    · rw [h2 b hb k1, ← k3, Char.ofNat_toNat]
    · exact h3 _ k
  rw [(C04_invalid w h).2.1 s]
  revert hb
  clear h
  generalize w.line = l
  intro hb
  induction l generalizing s with
  | nil => cases s <;> simp
  | cons b bs ih =>
    cases s with
    | nil => simp
    | cons c cs =>
      have ih := ih cs fun x hx => hb x (List.mem_cons_of_mem _ hx)
      have tb := tab b (hb b List.mem_cons_self)
      simp only [List.map_cons, List.cons.injEq, ih, List.length_cons, Nat.add_right_cancel_iff, List.zip_cons_cons, List.mem_cons,
        forall_eq_or_imp]
      constructor
      · rintro ⟨h1, h2, h3⟩; exact ⟨h2, tb.1 c h1, h3⟩
      · rintro ⟨h1, h2, h3⟩; exact ⟨tb.2 c h2, h1, h3⟩

-- a line in this code page
example : ¬ (∃ s, ([0x80, 0x20, 0xe9, 10] : Bytes) = utf8 s) ∧
    (encodingStage ⟨c! "f", 1, [0x80, 0x20, 0xe9, 10]⟩).2 = .ok (c! "€ é\n") := by
  refine ⟨?_, by decide +kernel⟩
  rintro ⟨s, hs⟩
  have := utf8Decode_utf8 s
  rw [← hs] at this
  exact absurd this (by rw [show utf8Decode [0x80, 0x20, 0xe9, 10] = none by decide +kernel]; simp)

/-- C04 fails: some line of bytes aborts the run (0x81 is neither UTF-8 nor defined
in cp1252). -/
theorem C04_violated : ∃ w : Where, (∀ b ∈ w.line, b < 256) ∧
    (encodingStage w).2 = .error .unicodeDecodeError :=
  ⟨⟨c! "f", 1, [0x81, 10]⟩, by decide, rfl⟩

/-- C04 holds for lines without the five bytes undefined in cp1252. -/
theorem C04_decodes_partial (w : Where) (hb : ∀ b ∈ w.line, b < 256)
    (h : ∀ b ∈ w.line, b ≠ 0x81 ∧ b ≠ 0x8d ∧ b ≠ 0x8f ∧ b ≠ 0x90 ∧ b ≠ 0x9d) :
    ∃ s, (encodingStage w).2 = .ok s := by
  have tab : ∀ b : Fin 256, (b.val ≠ 0x81 ∧ b.val ≠ 0x8d ∧ b.val ≠ 0x8f ∧ b.val ≠ 0x90 ∧ b.val ≠ 0x9d) →
      (cp1252Byte b.val).isSome = true := by decide +kernel
  by_cases hu : ∃ s, w.line = utf8 s
  · obtain ⟨s, hs⟩ := hu
    exact ⟨s, by rw [C04_valid w s hs]⟩
  · obtain ⟨_, _, h3⟩ := C04_invalid w hu
    cases hv : (encodingStage w).2 with
    | ok s => exact ⟨s, rfl⟩
    | error e =>
      have : e = .unicodeDecodeError := by
        simp only [encodingStage] at hv
        split at hv
        · simp at hv
        · simp only at hv
          split at hv
          · simp at hv
          · simp at hv; exact hv.symm
      subst this
      obtain ⟨b, hm, hn⟩ := h3.2 hv
      have := tab ⟨b, hb b hm⟩ (h b hm)
      rw [hn] at this
      simp at this

-- é in UTF-8, and in Latin-1
example : encodingStage ⟨c! "f", 1, [0x63, 0xc3, 0xa9, 10]⟩ = ([], .ok (c! "cé\n")) := by decide
example : encodingStage ⟨c! "f", 1, [0x63, 0xe9, 10]⟩ =
  ([⟨.E_FILE_UTF8_BAD, ⟨c! "f", 1, [0x63, 0xe9, 10]⟩, [], none⟩], .ok (c! "cé\n")) := by decide
example : ¬ ∃ s, [0x63, 0xe9, 10] = utf8 s := by
  rintro ⟨s, h⟩
  have := utf8Decode_utf8 s
  rw [← h] at this
  exact absurd this (by simp [show utf8Decode [0x63, 0xe9, 10] = none by decide])

/-! ## C05 -/

/-- C05: one warning iff the line has a code point below 0x20 other than TAB, LF and
CR (the reader passes the line on as it is). -/
theorem C05_ctrl (w : Where) (data : Str) :
    ((∃ c ∈ data, c.toNat < 0x20 ∧ c ≠ '\t' ∧ c ≠ '\n' ∧ c ≠ '\r') →
        ctrlStage w data = [⟨.W_FILE_CTRL_CHAR, w, [], none⟩]) ∧
      ((¬ ∃ c ∈ data, c.toNat < 0x20 ∧ c ≠ '\t' ∧ c ≠ '\n' ∧ c ≠ '\r') → ctrlStage w data = []) := by
  have key : ∀ c : Char, isIllegalCtrl c = true ↔ c.toNat < 0x20 ∧ c ≠ '\t' ∧ c ≠ '\n' ∧ c ≠ '\r' := by
    intro c
    have e : ∀ d : Char, c = d ↔ c.toNat = d.toNat := fun d => ⟨fun h => by rw [h], fun h => Char.toNat_inj.1 h⟩
    rw [ne_eq, ne_eq, ne_eq, e, e, e]
    simp only [isIllegalCtrl, List.contains_iff_mem, List.mem_cons, List.not_mem_nil, or_false]
    have : ('\t' : Char).toNat = 9 := rfl
    have : ('\n' : Char).toNat = 10 := rfl
    have : ('\r' : Char).toNat = 13 := rfl
    omega
  have any : data.any isIllegalCtrl = true ↔ ∃ c ∈ data, c.toNat < 0x20 ∧ c ≠ '\t' ∧ c ≠ '\n' ∧ c ≠ '\r' := by
    simp only [List.any_eq_true, key]
  rw [← any]
  simp only [ctrlStage]
  constructor
  · intro h; rw [if_pos h]
  · intro h; rw [if_neg h]

example : ∃ c ∈ (c! "a\x07b\n"), c.toNat < 0x20 ∧ c ≠ '\t' ∧ c ≠ '\n' ∧ c ≠ '\r' :=
  ⟨'\x07', by decide, by decide⟩
example : ctrlStage ⟨[], 1, []⟩ (c! "a\tb\r\n") = [] := by decide

/-! ## C06 -/

/-- C06: exactly a final CR LF or a final LF is removed, whatever was read before. -/
theorem C06_terminator (st : List FInfo) (w : Where) (t : Str) :
    (ffStage st w (t ++ ['\r', '\n'])).2.2 = t ∧
      (t.getLast? ≠ some '\r' → (ffStage st w (t ++ ['\n'])).2.2 = t) ∧
      (t.getLast? ≠ some '\n' → (ffStage st w t).2.2 = t) := by
  refine ⟨?_, ?_, ?_⟩
  · have h : endsWith (c! "\r\n") (t ++ ['\r', '\n']) = true := (endsWith_iff _ _).2 ⟨t, rfl⟩
    simp only [ffStage, h, if_true]
    simp
  · intro ht
    have h : endsWith (c! "\r\n") (t ++ ['\n']) = false := by
      rw [← Bool.not_eq_true, endsWith_iff]
      rintro ⟨s, hs⟩
      have : t ++ ['\n'] = (s ++ ['\r']) ++ ['\n'] := by rw [hs]; simp
      rw [List.append_cancel_right this] at ht
      simp at ht
    have h2 : endsWith (c! "\n") (t ++ ['\n']) = true := (endsWith_iff _ _).2 ⟨t, rfl⟩
    simp only [ffStage, h, h2]
    simp
  · intro ht
    have h : endsWith (c! "\r\n") t = false := by
      rw [← Bool.not_eq_true, endsWith_iff]
      rintro ⟨s, rfl⟩
      simp at ht
    have h2 : endsWith (c! "\n") t = false := by
      rw [← Bool.not_eq_true, endsWith_iff]
      rintro ⟨s, rfl⟩
      simp at ht
    simp only [ffStage, h, h2]
    simp

-- every line is of one of the three forms
example (data : Str) : (∃ t, data = t ++ ['\r', '\n']) ∨
    (∃ t, data = t ++ ['\n'] ∧ t.getLast? ≠ some '\r') ∨ data.getLast? ≠ some '\n' := by
  by_cases h : data.getLast? = some '\n'
  · obtain ⟨t, rfl⟩ := List.getLast?_eq_some_iff.1 h
    by_cases h' : t.getLast? = some '\r'
    · obtain ⟨t', rfl⟩ := List.getLast?_eq_some_iff.1 h'
      exact .inl ⟨t', by simp⟩
    · exact .inr (.inl ⟨t, rfl, h'⟩)
  · exact .inr (.inr h)

example : (ffStage [] ⟨[], 1, []⟩ (c! "ab \r\r\n")).2.2 = c! "ab \r" := by decide

/-! ## C07 -/

/-- C07: over a finite include expansion the file format messages are those of the
files: for each file the messages of its own lines, those of an included file
(with its end-of-file message) directly after the including line, and the
end-of-file message of the file itself after its last line.  `Items.formats` spells
this out. -/
theorem C07_formats (text : Where → Str) (fs : FS) (inc : Where → Option Str) (root : Str)
    (content : Bytes) (hf : fs root = some content) (t : Items)
    (h : Expand fs inc root 0 (physLines content) t) :
    (ffRun text [] t.flatten).2 ++ ffEnd (ffRun text [] t.flatten).1 = t.formats text none := by
  have hacc := acc_of_expand hf h
  have hr : NoRepeat [root] t := by
    apply noRepeat_of_expand h
    rintro q ⟨i, l, hl, c, hc⟩ a ha
    simp at ha; subst ha
    exact .one ⟨content, hf, i, l, hl, c, by simpa using hc⟩
  obtain ⟨js, h1, _, h3⟩ := (ffRun_tree text h [] hr (by simp)).2
  rw [ffEnd, h1, List.append_nil, popFileinfo_none]
  exact h3

/-- C07: the messages about the root file itself are those it gets when linted alone,
in the same order; likewise for any included file, whose messages form a block
`sub.formats text none`. -/
theorem C07_own (text : Where → Str) (t : Items) :
    (ownFormat text t.own).Sublist (t.formats text none) := by
  cases t with
  | nil => simp [Items.own, ownFormat, Items.formats]
  | line w rest =>
    simp only [Items.own, ownFormat, List.head?_cons, List.getLast?_eq_some_getLast (List.cons_ne_nil w rest.own), Items.formats,
      Option.map_none, Option.getD_none, List.flatMap_cons, List.append_assoc]
    exact List.Sublist.append (List.Sublist.refl _) (formats_append_own text rest _ w)
  | incl w p sub rest =>
    simp only [Items.own, ownFormat, List.head?_cons, List.getLast?_eq_some_getLast (List.cons_ne_nil w rest.own), Items.formats,
      Option.map_none, Option.getD_none, List.flatMap_cons, List.append_assoc]
    exact List.Sublist.append (List.Sublist.refl _)
      ((formats_append_own text rest _ w).trans (List.sublist_append_right _ _))

/-- C07: a file that includes nothing gets its own messages and no others. -/
theorem C07_alone (text : Where → Str) (ws : List Where) :
    (ws.foldr Items.line .nil).formats text none = ownFormat text ws := by
  have key : ∀ (ws : List Where) (d : Bool) (w : Where),
      (ws.foldr Items.line .nil).formats text (some (d, w)) =
        ws.flatMap (fun w => formatMsg d w (text w)) ++
          eofMsg d ((w :: ws).getLast (by simp)) (text ((w :: ws).getLast (by simp))) := by
    intro ws
    induction ws with
    | nil => intro d w; simp [Items.formats]
    | cons x xs ih =>
      intro d w
      simp only [List.foldr_cons, Items.formats, Option.map_some, Option.getD_some, ih,
        List.flatMap_cons, List.append_assoc, List.getLast_cons_cons]
  cases ws with
  | nil => rfl
  | cons w ws =>
    simp only [List.foldr_cons, Items.formats, Option.map_none, Option.getD_none, key, ownFormat,
      List.head?_cons, List.getLast?_eq_some_getLast (List.cons_ne_nil w ws), List.flatMap_cons, List.append_assoc]

/-- A DOS file with a Unix file in the middle: two warnings, for its own bare LF and
its final CRLF; the included Unix file lacks its final LF. -/
example :
    let text : Where → Str := fun w => latin1Decode w.line
    let a : Where := ⟨c! "r", 1, utf8 (c! "a=b\r\n")⟩
    let i : Where := ⟨c! "r", 2, utf8 (c! "#include b\n")⟩
    let z : Where := ⟨c! "r", 3, utf8 (c! "k=v\r\n")⟩
    let x : Where := ⟨c! "b", 1, utf8 (c! "x=1\n")⟩
    let y : Where := ⟨c! "b", 2, utf8 (c! "y=2")⟩
    (ffRun text [] [a, i, x, y, z]).2 ++ ffEnd (ffRun text [] [a, i, x, y, z]).1 =
      [⟨.W_FILE_DOS_BARELF, i, [], none⟩, ⟨.W_FILE_UNIX_NOLF, y, [], none⟩,
        ⟨.W_FILE_DOS_EOFCRLF, z, [], none⟩] := by decide

/-! ## C08 -/

/-- C08: a text without trailing blank, its semicolons escaped, is read back as it
is, without comment and without message. -/
theorem C08_roundtrip (w : Where) (s : Str) (h : ¬ EndsBlank s) :
    commentStage w (escape s) = ([], s, []) := by
  have hb : ¬ EndsBlank (escape s) := by simp only [EndsBlank, escape_last]; exact h
  rw [commentStage_eq w (escape s) (escape s) [] ⟨by simp, by simp, hb⟩,
    lookbackSplit_all _ (allEscaped_escape s) hb, unescape_escape]
  rfl

example : ¬ EndsBlank (c! "a;\\;b\\") := by
  rintro ⟨c, h, hb⟩
  simp at h; subst h
  rcases hb with h | h <;> simp at h
example : escape (c! "a;\\;b\\") = c! "a\\;\\\\;b\\" := by decide
example : commentStage ⟨[], 1, []⟩ (c! "a\\;\\\\;b\\") = ([], c! "a;\\;b\\", []) := by decide

/-! ## C09 -/

/-- C09: a line has no comment (all semicolons escaped) or a comment at exactly one
place. -/
theorem C09_cases (s : Str) :
    (AllEscaped s ∧ ¬ ∃ a b, CommentAt s a b) ∨
      (¬ AllEscaped s ∧ ∃ a b, CommentAt s a b ∧ ∀ a' b', CommentAt s a' b' → a' = a ∧ b' = b) := by
  rcases comment_cases s with h | ⟨a, b, h⟩
  · exact .inl ⟨h, fun ⟨a, b, h'⟩ => allEscaped_not_commentAt h h'⟩
  · exact .inr ⟨fun h' => allEscaped_not_commentAt h' h, a, b, h, fun a' b' h' => commentAt_unique h' h⟩

/-- C09: without comment, the data are the unescaped line (the line being
right-stripped: `s` is `d` and trailing blanks). -/
theorem C09_no_comment (w : Where) (s d bl : Str) (ht : Trimmed s d bl) (h : AllEscaped d) :
    (commentStage w s).2 = (unescape d, []) := by
  rw [commentStage_eq w s d bl ht, lookbackSplit_all d h ht.end_]

/-- C09: with a comment at `; b` after `a`: the data are `a` unescaped and trimmed,
the comment is what was trimmed, the semicolon and `b`, verbatim. -/
theorem C09_comment (w : Where) (s d bl a b x y : Str) (ht : Trimmed s d bl) (h : CommentAt d a b)
    (hx : Trimmed (unescape a) x y) : (commentStage w s).2 = (x, y ++ ';' :: b) := by
  rw [commentStage_eq w s d bl ht, lookbackSplit_comment d a b x y h hx]

/-- C09: the fast path for lines without a backslash agrees with the general path. -/
theorem C09_fast_path (s : Str) (h : '\\' ∉ s) (hb : ¬ EndsBlank s) : simpleSplit s = lookbackSplit s :=
  simple_eq_lookback s h hb

example : Trimmed (c! "a\\;b ;c; \t") (c! "a\\;b ;c;") (c! " \t") ∧
    CommentAt (c! "a\\;b ;c;") (c! "a\\;b ") (c! "c;") ∧
    Trimmed (unescape (c! "a\\;b ")) (c! "a;b") (c! " ") := by
  refine ⟨⟨rfl, ?_, ?_⟩, ⟨rfl, ?_, by decide⟩, ⟨by decide, ?_, ?_⟩⟩
  · simp [Blank]
  · rintro ⟨c, h, hb⟩; simp at h; subst h; rcases hb with h | h <;> simp at h
  · intro a b h
    match a, h with
    | [], h => simp at h
    | [_], h => simp at h
    | [x, y], h => simp at h; simp [← h.2.1]
    | [_, _, _], h => simp at h
    | [_, _, _, _], h => simp at h
    | [_, _, _, _, _], h => simp at h
    | _ :: _ :: _ :: _ :: _ :: _ :: _, h => simp at h
  · simp [Blank]
  · rintro ⟨c, h, hb⟩; simp at h; subst h; rcases hb with h | h <;> simp at h

example : (commentStage ⟨[], 1, []⟩ (c! "a\\;b ;c; \t")).2 = (c! "a;b", c! " ;c;") := by decide

/-! ## C10 -/

/-- C10: W_WSH_EOL iff the line ends in a blank; W_WSH_COMMENT iff (trailing blanks
removed) a comment directly follows a non-blank character; each at most once, in
this order. -/
theorem C10_messages (w : Where) (s d bl : Str) (ht : Trimmed s d bl) :
    ∃ eol com : Bool,
      (commentStage w s).1 = (if eol then [⟨.W_WSH_EOL, w, [], none⟩] else []) ++
        (if com then [⟨.W_WSH_COMMENT, w, [], none⟩] else []) ∧
      (eol = true ↔ EndsBlank s) ∧
      (com = true ↔ ∃ a b c, CommentAt d (a ++ [c]) b ∧ ¬ Blank c) := by
  refine ⟨!(bl.isEmpty), (lookbackSplit d).1, ?_, ?_, ?_⟩
  · rw [commentStage_eq w s d bl ht]
    cases bl <;> simp
  · cases hl : bl with
    | nil =>
      subst hl
      have : s = d := by rw [ht.parts]; simp
      subst this
      simp
      exact ht.end_
    | cons x xs =>
      simp only [List.isEmpty_cons, Bool.not_false, true_iff]
      have : bl.getLast? = some (bl.getLast (by simp [hl])) := List.getLast?_eq_some_getLast _
      refine ⟨bl.getLast (by simp [hl]), ?_, ht.blank _ (List.getLast_mem _)⟩
      rw [ht.parts, List.getLast?_append, this]
      rfl
  · rcases comment_cases d with h | ⟨a, b, h⟩
    · rw [lookbackSplit_all d h ht.end_]
      simp only [Bool.false_eq_true, false_iff]
      rintro ⟨a, b, c, h', _⟩
      exact allEscaped_not_commentAt h h'
    · obtain ⟨y, hy⟩ := trimmed_rstrip (unescape a)
      rw [lookbackSplit_comment d a b _ y h hy]
      simp only
      constructor
      · intro hc
        cases hl : a.getLast? with
        | none => simp [hl] at hc
        | some c =>
          simp only [hl, Bool.not_eq_true'] at hc
          obtain ⟨a', rfl⟩ := List.getLast?_eq_some_iff.1 hl
          exact ⟨a', b, c, h, (isBlank_false_iff c).1 hc⟩
      · rintro ⟨a', b', c, h', hc⟩
        obtain ⟨rfl, _⟩ := commentAt_unique h h'
        simp only [List.getLast?_concat, Bool.not_eq_true']
        exact (isBlank_false_iff c).2 hc

/-- C10: the data handed to the parser never end in a blank. -/
theorem C10_data_end (w : Where) (s : Str) : ¬ EndsBlank (commentStage w s).2.1 := by
  obtain ⟨bl, ht⟩ := trimmed_rstrip s
  rw [commentStage_eq w s _ bl ht]
  rcases comment_cases (rstripP isBlank s) with h | ⟨a, b, h⟩
  · rw [lookbackSplit_all _ h ht.end_]
    simp only [EndsBlank, unescape_last]
    exact ht.end_
  · obtain ⟨y, hy⟩ := trimmed_rstrip (unescape a)
    rw [lookbackSplit_comment _ a b _ y h hy]
    exact hy.end_

-- every text can be trimmed
example (s : Str) : ∃ d bl, Trimmed s d bl := by
  obtain ⟨bl, h⟩ := trimmed_rstrip s
  exact ⟨_, bl, h⟩
example : (commentStage ⟨[], 1, []⟩ (c! "a;b ")).1 =
    [⟨.W_WSH_EOL, ⟨[], 1, []⟩, [], none⟩, ⟨.W_WSH_COMMENT, ⟨[], 1, []⟩, [], none⟩] := by decide

end ALint.Props
