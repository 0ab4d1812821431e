import Verif.Model.Canon
import Verif.Proofs.Comment
import Verif.Proofs.Config
import Verif.Proofs.Utf8
import Verif.Proofs.PatternOrder

namespace ALint
open Spec

/-! ## Line ends, blanks and comments behind a comma -/

/-- The text without its line end. -/
def withoutEol (data : Str) : Str :=
  if endsWith (c! "\r\n") data then data.take (data.length - 2)
  else if endsWith (c! "\n") data then data.take (data.length - 1)
  else data

theorem ffStage_text (st : List FInfo) (w : Where) (data : Str) : (ffStage st w data).2.2 = withoutEol data := rfl

theorem withoutEol_prefix (data : Str) : withoutEol data <+: data := by
  unfold withoutEol
  split
  · exact List.take_prefix _ _
  · split
    · exact List.take_prefix _ _
    · exact List.prefix_refl _

theorem withoutEol_comma (t : Str) : ∃ z, ∀ y : Str, withoutEol (y ++ ',' :: t) = y ++ ',' :: z := by
  rcases t.eq_nil_or_concat with rfl | ⟨t, a, rfl⟩
  · exact ⟨[], fun y => by simp [withoutEol, endsWith]⟩
  · rcases t.eq_nil_or_concat with rfl | ⟨t, b, rfl⟩
    · by_cases ha : a = '\n'
      · subst ha
        refine ⟨[], fun y => ?_⟩
        have : withoutEol (y ++ c! ",\n") = (y ++ c! ",\n").take ((y ++ c! ",\n").length - 1) := by
          simp [withoutEol, endsWith]
        rw [show (([] : Str).concat '\n') = ['\n'] from rfl, this]
        have e : y ++ c! ",\n" = (y ++ [',']) ++ ['\n'] := by simp
        rw [e, List.length_append]
        exact List.take_left' rfl
      · refine ⟨[a], fun y => ?_⟩
        simp [withoutEol, endsWith, Ne.symm ha]
    · by_cases ha : a = '\n'
      · subst ha
        by_cases hb : b = '\r'
        · subst hb
          refine ⟨t, fun y => ?_⟩
          have e : y ++ ',' :: (t.concat '\r').concat '\n' = (y ++ ',' :: t) ++ c! "\r\n" := by simp
          rw [e]
          have : withoutEol ((y ++ ',' :: t) ++ c! "\r\n") =
              ((y ++ ',' :: t) ++ c! "\r\n").take (((y ++ ',' :: t) ++ c! "\r\n").length - 2) := by
            simp [withoutEol, endsWith]
          rw [this, List.length_append]
          exact List.take_left' rfl
        · refine ⟨t ++ [b], fun y => ?_⟩
          have e : y ++ ',' :: (t.concat b).concat '\n' = (y ++ ',' :: (t ++ [b])) ++ ['\n'] := by simp
          rw [e]
          have : withoutEol ((y ++ ',' :: (t ++ [b])) ++ ['\n']) =
              ((y ++ ',' :: (t ++ [b])) ++ ['\n']).take (((y ++ ',' :: (t ++ [b])) ++ ['\n']).length - 1) := by
            simp [withoutEol, endsWith, Ne.symm hb]
          rw [this, List.length_append]
          exact List.take_left' rfl
      · refine ⟨(t.concat b).concat a, fun y => ?_⟩
        simp [withoutEol, endsWith, Ne.symm ha]

theorem rstripP_comma {p : Char → Bool} (hp : p ',' = false) (y t : Str) :
    rstripP p (y ++ ',' :: t) = y ++ ',' :: rstripP p t := by
  obtain ⟨post, h1, h2, h3⟩ := rstripP_spec p t
  have e : y ++ ',' :: t = (y ++ ',' :: rstripP p t) ++ post := by
    rw [List.append_assoc, List.cons_append]
    exact congrArg (fun s => y ++ ',' :: s) h1
  rw [e, rstripP_append p _ _ h2]
  intro c hc
  cases hd : rstripP p t with
  | nil => rw [hd] at hc; simp at hc; rw [← hc]; exact hp
  | cons a s =>
    rw [hd] at hc
    apply h3
    rw [hd]
    simpa using hc

theorem lookback_fuel : ∀ (n m : Nat) (s : Str), s.length < n → s.length < m → lookbackFuel n s = lookbackFuel m s := by
  intro n
  induction n with
  | zero => intro m s h; omega
  | succ n ih =>
    intro m s hn hm
    cases m with
    | zero => omega
    | succ m =>
      rw [lookbackFuel, lookbackFuel]
      cases h : splitOnce ';' s with
      | none => rfl
      | some p =>
        obtain ⟨a, b⟩ := p
        dsimp only
        have := congrArg List.length (splitOnce_some h).1
        simp at this
        rw [ih m b (by omega) (by omega)]

theorem lookback_comma {y : Str} (hy : ';' ∉ y) (n : Nat) (t : Str) :
    lookbackFuel (n + 1) (y ++ ',' :: t) =
      (y ++ ',' :: (lookbackFuel (n + 1) t).1, (lookbackFuel (n + 1) t).2) := by
  rw [lookbackFuel, lookbackFuel]
  cases h : splitOnce ';' t with
  | none =>
    rw [splitOnce_none]
    have := splitOnce_none_iff.1 h
    simp [hy, this]
  | some p =>
    obtain ⟨a, b⟩ := p
    obtain ⟨h1, h2⟩ := splitOnce_some h
    have e : y ++ ',' :: t = (y ++ ',' :: a) ++ ';' :: b := by rw [h1]; simp
    rw [e, splitOnce_append (by simp [hy, h2])]
    dsimp only
    cases a with
    | nil => simp
    | cons c a =>
      have e2 : (y ++ ',' :: c :: a).getLast? = (c :: a).getLast? := by simp [List.getLast?_append, List.getLast?_cons]
      have e3 : (y ++ ',' :: c :: a).dropLast = y ++ ',' :: (c :: a).dropLast := by simp
      rw [e2, e3]
      split <;> simp

theorem commentStage_comma (w : Where) (t : Str) : ∃ z k, ∀ (y : Str), ';' ∉ y →
    (commentStage w (y ++ ',' :: t)).2 = (y ++ ',' :: z, k) := by
  obtain ⟨r, hr⟩ : ∃ r, rstripP isBlank t = r := ⟨_, rfl⟩
  obtain ⟨d, hd⟩ : ∃ d, lookbackFuel (r.length + 1) r = d := ⟨_, rfl⟩
  refine ⟨rstripP isBlank d.1, d.1.drop (rstripP isBlank d.1).length ++ d.2, fun y hy => ?_⟩
  have hb : ',' ∉ ([] : Str) := by simp
  obtain ⟨b, ht⟩ := trimmed_rstrip (y ++ ',' :: t)
  have hf := rstripP_comma (p := isBlank) (by decide) y t
  rw [commentStage_eq w _ _ _ ht, hf, hr]
  have hl : lookbackFuel ((y ++ ',' :: r).length + 1) (y ++ ',' :: r) = (y ++ ',' :: d.1, d.2) := by
    rw [lookback_comma hy, lookback_fuel _ (r.length + 1) r (by simp; omega) (by omega), hd]
  show (lookbackSplit (y ++ ',' :: r)).2 = _
  rw [lookbackSplit, hl]
  show (rstripP isBlank (y ++ ',' :: d.1), (y ++ ',' :: d.1).drop (rstripP isBlank (y ++ ',' :: d.1)).length ++ d.2) = _
  rw [rstripP_comma (by decide)]
  congr 2
  rw [List.length_append, List.drop_append]
  simp

theorem rstripP_prefix (p : Char → Bool) (s : Str) : rstripP p s <+: s := by
  obtain ⟨post, h1, _, _⟩ := rstripP_spec p s
  exact ⟨post, h1.symm⟩

theorem lookback_prefix : ∀ (n : Nat) (q s : Str), ';' ∉ q → q <+: (lookbackFuel n s).1 → q <+: s := by
  intro n q s hq h
  cases n with
  | zero => exact h
  | succ n =>
    rw [lookbackFuel] at h
    cases hs : splitOnce ';' s with
    | none => rw [hs] at h; exact h
    | some p =>
      obtain ⟨a, b⟩ := p
      rw [hs] at h
      dsimp only at h
      obtain ⟨h1, h2⟩ := splitOnce_some hs
      have ha : a <+: s := ⟨_, h1.symm⟩
      split at h
      · dsimp only at h
        refine List.IsPrefix.trans ?_ ha
        refine List.IsPrefix.trans ?_ (List.dropLast_prefix a)
        rcases Nat.le_total q.length a.dropLast.length with hle | hle
        · exact List.prefix_of_prefix_length_le h (List.prefix_append _ _) hle
        · by_cases he : q.length = a.dropLast.length
          · exact List.prefix_of_prefix_length_le h (List.prefix_append _ _) (by omega)
          · exfalso
            have h3 : a.dropLast ++ [';'] <+: q :=
              List.prefix_of_prefix_length_le (l₃ := a.dropLast ++ ';' :: (lookbackFuel n b).1)
                ⟨(lookbackFuel n b).1, by simp⟩ h (by simp at *; omega)
            exact hq (h3.subset (by simp))
      · exact h.trans ha

theorem comment_prefix {q : Str} {w : Where} {s : Str} (hq : ';' ∉ q) (h : q <+: (commentStage w s).2.1) : q <+: s := by
  obtain ⟨b, ht⟩ := trimmed_rstrip s
  rw [commentStage_eq w _ _ _ ht] at h
  have h1 : q <+: rstripP isBlank (lookbackFuel ((rstripP isBlank s).length + 1) (rstripP isBlank s)).1 := h
  exact (lookback_prefix _ _ _ hq (h1.trans (rstripP_prefix _ _))).trans (rstripP_prefix _ _)

/-! ## Bytes -/

theorem byte_mem_utf8 {c : Char} (hc : c.toNat < 128) {s : Str} (h : c.toNat ∈ utf8 s) : c ∈ s := by
  induction s with
  | nil => simp [utf8] at h
  | cons d s ih =>
    rw [utf8_cons'] at h
    rcases List.mem_append.1 h with h | h
    · rw [enc_eq] at h
      have hd : d.toNat = c.toNat := by
        split at h
        · simp at h; exact h.symm
        · split at h
          · simp at h; omega
          · split at h
            · simp at h; omega
            · simp at h; omega
      rw [show d = c from Char.toNat_inj.1 hd]
      simp
    · exact List.mem_cons_of_mem _ (ih h)

theorem utf8_append (a b : Str) : utf8 (a ++ b) = utf8 a ++ utf8 b := by simp [utf8]

theorem splitByte_append {b : Nat} {x y : Bytes} (h : b ∉ x) : splitByte b (x ++ b :: y) = some (x, y) := by
  induction x with
  | nil => simp [splitByte]
  | cons a x ih =>
    simp only [List.mem_cons, not_or] at h
    rw [List.cons_append, splitByte, if_neg (Ne.symm h.1), ih h.2]
    rfl

theorem replaceFirst_append {n : Nat} {ns r : Bytes} {x y : Bytes} (h : n ∉ x) :
    replaceFirst (n :: ns) r (x ++ (n :: ns) ++ y) = x ++ r ++ y := by
  induction x with
  | nil =>
    show replaceFirst (n :: ns) r (n :: (ns ++ y)) = r ++ y
    rw [replaceFirst, if_pos]
    · simp
    · rw [List.isPrefixOf_iff_prefix]; exact ⟨y, rfl⟩
  | cons a x ih =>
    simp only [List.mem_cons, not_or] at h
    rw [List.cons_append, List.cons_append, replaceFirst, if_neg, ih h.2]
    · simp
    · rw [List.isPrefixOf_iff_prefix]
      rintro ⟨z, hz⟩
      simp only [List.cons_append, List.cons.injEq] at hz
      exact h.1 hz.1

/-! ## The line -/

theorem lead_exten {var lead : Str} (h : var = lead ++ c! "exten") (hl : ∀ c ∈ lead, isBlank c = true) :
    (if startsBlank var then lstripP isBlank var else var) = c! "exten" := by
  subst h
  have : lstripP isBlank (lead ++ c! "exten") = c! "exten" :=
    lstripP_append _ _ _ hl (by intro c hc; simp at hc; subst hc; decide)
  cases lead with
  | nil => simp [startsBlank, isBlank]
  | cons a l => rw [if_pos, this]; simp [startsBlank, hl a (by simp)]

theorem exten_lead {var : Str} (h : (if startsBlank var then lstripP isBlank var else var) = c! "exten") :
    ∃ lead, var = lead ++ c! "exten" ∧ ∀ c ∈ lead, isBlank c = true := by
  split at h
  · obtain ⟨pre, h1, h2, _⟩ := lstripP_spec isBlank var
    exact ⟨pre, by rw [← h]; exact h1, h2⟩
  · exact ⟨[], by simpa using h, by simp⟩

theorem exten_noHeader {lead x : Str} (hl : ∀ c ∈ lead, isBlank c = true) : ¬ SomeHeader (lead ++ c! "exten" ++ x) := by
  rw [← header_none_iff]
  have hs : lstripP isSpace (lead ++ c! "exten" ++ x) = c! "exten" ++ x := by
    rw [List.append_assoc]
    refine lstripP_append _ _ _ (fun c hc => ?_) (by intro c hc; simp at hc; subst hc; decide)
    have := hl c hc
    simp only [isBlank, Bool.or_eq_true, beq_iff_eq] at this
    rcases this with rfl | rfl <;> decide
  refine ⟨?_, ?_⟩
  · rw [reTemplate, hs]; rfl
  · rw [reHeader, hs]; rfl

theorem commentStage_where (w w' : Where) (s : Str) : (commentStage w s).2 = (commentStage w' s).2 := rfl

theorem lineStep_utf8 {fs : FS} {ff : List FInfo} {frames : List Frame} {w : Where} {d : Str}
    (hd : utf8Decode w.line = some d) {r : Reading} {text comment : Str}
    (hc : (commentStage w (withoutEol d)).2 = (text, comment)) (hr : readLine text = some r) :
    ∃ ff', (lineStep fs ff frames w).2 = .ok (⟨frames, ff'⟩, some (mkElem (!comment.isEmpty) w r).1) := by
  refine ⟨(ffStage ff w d).1, ?_⟩
  rw [← ffStage_text ff w d] at hc
  unfold lineStep fileStage encodingStage
  rw [hd]
  dsimp only
  rw [show (commentStage w (ffStage ff w d).2.2).2.1 = text from congrArg Prod.fst hc,
    show (commentStage w (ffStage ff w d).2.2).2.2 = comment from congrArg Prod.snd hc]
  unfold parserStage
  rw [hr]

theorem lineStep_var {fs : FS} {ff : List FInfo} {frames : List Frame} {w : Where} {d : Str} {rs : RState} {v : VarE}
    (hd : utf8Decode w.line = some d) (h : (lineStep fs ff frames w).2 = .ok (rs, some (.var v))) :
    ∃ var sep, readLine (commentStage w (withoutEol d)).2.1 = some (.assign var sep v.value) ∧
      v = ⟨if startsBlank var then lstripP isBlank var else var, v.value, stripP isSpace sep = c! "=>",
        !(commentStage w (withoutEol d)).2.2.isEmpty, w⟩ := by
  unfold lineStep fileStage encodingStage at h
  rw [hd] at h
  dsimp only at h
  rw [ffStage_text] at h
  obtain ⟨x, hx⟩ : ∃ x, commentStage w (withoutEol d) = x := ⟨_, rfl⟩
  rw [hx] at h ⊢
  unfold parserStage at h
  cases hr : readLine x.2.1 with
  | none =>
    rw [hr] at h
    dsimp only at h
    split at h
    · rename_i hh; split at hh <;> simp at hh
    · split at h <;> simp at h
  | some r =>
    rw [hr] at h
    dsimp only at h
    cases r with
    | header a b c => simp [mkElem] at h
    | blank => simp [mkElem] at h
    | assign var sep value =>
      simp only [mkElem, Except.ok.injEq, Prod.mk.injEq, Option.some.injEq, Elem.var.injEq] at h
      obtain ⟨_, rfl⟩ := h
      exact ⟨var, sep, rfl, rfl⟩

/-- A pattern may be replaced by any text that can stand there. -/
theorem swap_line {fs : FS} {ff : List FInfo} {frames : List Frame} {w : Where} {d p q rest : Str} {rs : RState} {v : VarE}
    (hd : utf8Decode w.line = some d) (h : (lineStep fs ff frames w).2 = .ok (rs, some (.var v)))
    (hk : v.key = c! "exten") (hv : v.value = '_' :: p ++ ',' :: rest) (hp : ';' ∉ p)
    (hq : ';' ∉ q) (hq1 : NoLead q) (hq2 : q ≠ []) (hq3 : q.head? ≠ some '>') :
    ∃ line ff' a b, w.line = a ++ utf8 ('_' :: p) ++ 0x2c :: b ∧ line = a ++ utf8 q ++ 0x2c :: b ∧ 0x2c ∉ a ∧
      canonOut (utf8 ('_' :: p)) (utf8 q) w.line = ([line], none) ∧
      (lineStep fs ff frames { w with line := line }).2 =
        .ok (⟨frames, ff'⟩, some (.var { v with value := q ++ ',' :: rest, at_ := { w with line := line } })) := by
  obtain ⟨var, sep, h1, h2⟩ := lineStep_var hd h
  have hvar : (if startsBlank var then lstripP isBlank var else var) = c! "exten" := by rw [← hk, h2]
  obtain ⟨lead, rfl, hlead⟩ := exten_lead hvar
  obtain ⟨text, htext⟩ : ∃ t, (commentStage w (withoutEol d)).2.1 = t := ⟨_, rfl⟩
  rw [htext] at h1
  obtain ⟨hnh, ha⟩ := (readLine_assign _ _ _ _).1 h1
  have ha' : ∃ arrow, IsAssign text (lead ++ c! "exten") sep v.value arrow := by
    rcases ha with h | h
    · exact ⟨_, h⟩
    · exact ⟨_, h⟩
  clear ha
  obtain ⟨arrow, ⟨s1, s2, hs1, hs2, hsep, hdata, harr⟩, hneq, hend, hstart⟩ := ha'
  have hlead' : ';' ∉ lead := fun hm => absurd (hlead _ hm) (by decide)
  have hsp : ∀ s, Spaces s → ';' ∉ s := fun s hs hm => absurd (hs _ hm) (by decide)
  have hy : ';' ∉ lead ++ c! "exten" ++ sep := by
    rw [hsep]
    simp only [List.mem_append, not_or]
    refine ⟨⟨hlead', by decide⟩, ⟨hsp _ hs1, ?_⟩, hsp _ hs2⟩
    cases arrow <;> decide
  have hyc : ',' ∉ lead ++ c! "exten" ++ sep := by
    rw [hsep]
    simp only [List.mem_append, not_or]
    refine ⟨⟨fun hm => absurd (hlead _ hm) (by decide), by decide⟩, ⟨fun hm => absurd (hs1 _ hm) (by decide), ?_⟩,
      fun hm => absurd (hs2 _ hm) (by decide)⟩
    cases arrow <;> decide
  generalize hyd : lead ++ c! "exten" ++ sep = y at hy hyc
  -- the physical line
  have hpre : y ++ '_' :: p ++ [','] <+: d := by
    refine (comment_prefix (w := w) (s := withoutEol d) ?_ ?_).trans (withoutEol_prefix d)
    · simp only [List.mem_append, List.mem_cons, not_or]
      exact ⟨⟨hy, by decide, hp⟩, by decide, by simp⟩
    · rw [htext, hdata, hv, hyd]
      exact ⟨rest, by simp⟩
  obtain ⟨t, ht⟩ := hpre
  have hdt : d = (y ++ '_' :: p) ++ ',' :: t := by rw [← ht]; simp
  obtain ⟨z, hz⟩ := withoutEol_comma t
  obtain ⟨u, k, hu⟩ := commentStage_comma w z
  have hnp : ';' ∉ y ++ '_' :: p := by
    simp only [List.mem_append, List.mem_cons, not_or]
    exact ⟨hy, by decide, hp⟩
  have hold := hu _ hnp
  rw [← hz, ← hdt] at hold
  rw [hold] at htext
  dsimp only at htext
  have hrest : rest = u := by
    rw [hdata, hv, hyd] at htext
    simp only [List.append_assoc, List.cons_append, List.append_cancel_left_eq, List.cons.injEq, true_and] at htext
    exact htext.symm
  subst hrest
  have hnq : ';' ∉ y ++ q := by
    simp only [List.mem_append, not_or]
    exact ⟨hy, hq⟩
  have hnew := hu _ hnq
  rw [← hz] at hnew
  -- the new line
  refine ⟨utf8 (y ++ q ++ ',' :: t), ?_⟩
  have hread : readLine (y ++ q ++ ',' :: rest) = some (.assign (lead ++ c! "exten") sep (q ++ ',' :: rest)) := by
    rw [readLine_assign]
    refine ⟨by rw [← hyd]; simpa [List.append_assoc] using exten_noHeader (x := sep ++ (q ++ ',' :: rest)) hlead, ?_⟩
    have : IsAssign (y ++ q ++ ',' :: rest) (lead ++ c! "exten") sep (q ++ ',' :: rest) arrow := by
      refine ⟨⟨s1, s2, hs1, hs2, hsep, by rw [← hyd]; simp, fun _ _ => ?_⟩, hneq, hend, ?_⟩
      · cases q with
        | nil => exact absurd rfl hq2
        | cons a q => simpa using hq3
      · intro c r hc
        cases q with
        | nil => exact absurd rfl hq2
        | cons a q =>
          simp only [List.cons_append, List.cons.injEq] at hc
          exact hc.1 ▸ hq1 a q rfl
    cases arrow
    · exact .inr this
    · exact .inl this
  obtain ⟨ff', hl⟩ := lineStep_utf8 (fs := fs) (ff := ff) (frames := frames)
    (w := { w with line := utf8 (y ++ q ++ ',' :: t) }) (utf8Decode_utf8 _)
    (by rw [commentStage_where _ w]; exact hnew) hread
  refine ⟨ff', utf8 y, utf8 t, ?_, ?_, fun h => hyc (byte_mem_utf8 (c := ',') (by decide) h), ?_, ?_⟩
  · rw [← utf8_of_decode _ _ hd, hdt, utf8_append, utf8_append]; rfl
  · rw [utf8_append, utf8_append]; rfl
  · have hb : w.line = utf8 (lead ++ c! "exten" ++ s1) ++
        0x3d :: (utf8 ((if arrow then c! ">" else []) ++ s2) ++ utf8 ('_' :: p) ++ utf8 (',' :: t)) := by
      rw [← utf8_of_decode _ _ hd, hdt, ← hyd, hsep]
      have : (0x3d :: (utf8 ((if arrow then c! ">" else []) ++ s2) ++ utf8 ('_' :: p) ++ utf8 (',' :: t)) : Bytes) =
        utf8 ('=' :: ((if arrow then c! ">" else []) ++ s2 ++ '_' :: p ++ ',' :: t)) := by
        rw [utf8_cons' '=', utf8_append _ (',' :: t), utf8_append _ ('_' :: p)]; rfl
      rw [this, ← utf8_append]
      congr 1
      cases arrow <;> simp
    have hn1 : 0x3d ∉ utf8 (lead ++ c! "exten" ++ s1) := by
      intro hm
      have := byte_mem_utf8 (c := '=') (by decide) hm
      rw [List.mem_append] at this
      rcases this with h | h
      · exact hneq h
      · exact absurd (hs1 _ h) (by decide)
    have hn2 : 0x5f ∉ utf8 ((if arrow then c! ">" else []) ++ s2) := by
      intro hm
      have := byte_mem_utf8 (c := '_') (by decide) hm
      rw [List.mem_append] at this
      rcases this with h | h
      · cases arrow <;> simp at h
      · exact absurd (hs2 _ h) (by decide)
    rw [canonOut, hb, splitByte_append hn1]
    have hu : utf8 ('_' :: p) = 0x5f :: utf8 p := rfl
    have hrep := replaceFirst_append (r := utf8 q) (ns := utf8 p) (y := utf8 (',' :: t)) hn2
    rw [← hu] at hrep
    have hne : ∃ a as, utf8 ((if arrow then c! ">" else []) ++ s2) ++ utf8 ('_' :: p) ++ utf8 (',' :: t) = a :: as := by
      cases hx : utf8 ((if arrow then c! ">" else []) ++ s2) with
      | nil => exact ⟨0x5f, _, rfl⟩
      | cons a as => exact ⟨a, _, rfl⟩
    obtain ⟨a, as, has⟩ := hne
    rw [has] at hrep ⊢
    dsimp only
    rw [hrep, ← hyd, hsep]
    have : (utf8 (lead ++ c! "exten" ++ s1) ++ [0x3d] ++
        (utf8 ((if arrow then c! ">" else []) ++ s2) ++ utf8 q ++ utf8 (',' :: t)) : Bytes) =
        utf8 (lead ++ c! "exten" ++ s1 ++ c! "=" ++ ((if arrow then c! ">" else []) ++ s2 ++ q ++ ',' :: t)) := by
      simp only [utf8_append]; rfl
    rw [this]
    congr 3
    cases arrow <;> simp
  · rw [hl, h2]
    have hcom : (commentStage w (withoutEol d)).2.2 = k := by rw [hold]
    rw [hcom]
    rfl

end ALint
