import Verif.Proofs.CanonHints
import Verif.Proofs.Canon
import Verif.Proofs.Sort
import Verif.Props.Mutator
import Verif.Spec.CanonProgram

/-!
# Making the patterns of a dialplan canonical: the program
-/

namespace ALint
open Spec Props
open Pattern (parse canonical isCanonical Values)

/-! ## ReadsAll -/

/-- A reading to the end: the files, the lines, the elements. -/
structure ReadsAll (fs : FS) (env : DEnv) (n : Nat) (path : Str) (st : DState) (content : Bytes) (t : Items)
    (told : List Told) (es : List Elem) : Prop where
  root : fs path = some content
  tree : Expand fs opens path 0 (physLines content) t
  anyInc : ∀ inc, KnowsIncludes fs inc → Expand fs inc path 0 (physLines content) t
  lines : told.map (·.line) = t.flatten
  tells : ∀ x ∈ told, LineTells fs x.line x.msgs x.gives
  elems : es.filter notBlank = (elemsOf told).filter notBlank
  fed : (feed (dialplanStep env) (.init none) es).val = .ok st
  hints : hintsOf (readDialplan fs env n path).log = hintsOf (feed (dialplanStep env) (.init none) es).log

theorem readDialplan_all {fs : FS} {env : DEnv} {n : Nat} {path : Str} {st : DState}
    (h : (readDialplan fs env n path).val = .ok (.ok st)) :
    ∃ content t told es, ReadsAll fs env n path st content t told es := by
  have h0 := h
  unfold readDialplan opening at h
  cases hp : fs path with
  | none => simp [hp] at h
  | some content =>
    simp only [hp, finished] at h
    obtain ⟨o, h1, h2, h3⟩ := Res.bind_ok h
    cases o with
    | none => simp at h2
    | some s =>
      obtain ⟨u, h4, h5, h6⟩ := Res.bind_ok h2
      simp only [Res.pure_val, Except.ok.injEq] at h5
      subst h5
      obtain ⟨es, ms, e1, e2, e3⟩ := pipeRun_merges fs (dialplanStep env) n _ s h1
      have e2' := e2 []
      simp only [PState.with_, List.nil_append] at e2'
      obtain ⟨told, ⟨t1, t, t2, t3, -⟩, t4⟩ := C96_files fs n path content hp ms es e2'
      refine ⟨content, t, told, es, hp, t2 _ (C96_knows fs).1, t2, t3, t1, t4, e1, ?_⟩
      have hlog : (readDialplan fs env n path).log =
          (pipeRun fs (dialplanStep env) n ⟨[openFrame path content], [], [], .init none⟩).log ++
            ((onComplete s.dp).bind fun _ => Res.pure (Except.ok s : Except Stopped DState)).log := by
        unfold readDialplan opening
        simp only [hp, finished]
        exact h3
      rw [hlog, hintsOf_append, (NoHint.bind (nohint_onComplete s.dp) fun _ => NoHint.pure _).out, List.append_nil]
      refine hintsOf_merges e3 ?_
      have := nohint_files fs n path content
      rw [e2'] at this
      exact this

/-- A hint comes from a line of one of the files. -/
theorem ReadsAll.hint {fs : FS} {env : DEnv} {n : Nat} {path : Str} {st : DState} {content : Bytes} {t : Items}
    {told : List Told} {es : List Elem} (h : ReadsAll fs env n path st content t told es) {m : Msg}
    (hm : m ∈ hintsOf (readDialplan fs env n path).log) :
    ∃ v pat rest vals ms, LineTells fs v.at_ ms (.elem (.var v)) ∧ v.at_ ∈ t.flatten ∧ PatLine v pat rest vals ∧
      m = hintMsg v.at_ pat vals := by
  rw [h.hints] at hm
  obtain ⟨v, pat, rest, vals, h1, h2, h3⟩ := (feed_hints es _ _ h.fed).2 m hm
  have h4 : Elem.var v ∈ (elemsOf told).filter notBlank := by
    rw [← h.elems]; exact List.mem_filter.2 ⟨h1, rfl⟩
  have h5 := (List.mem_filter.1 h4).1
  unfold elemsOf at h5
  obtain ⟨x, hx, hg⟩ := List.mem_filterMap.1 h5
  have ht := h.tells x hx
  have hat := lineTells_at ht hg
  have hgv : x.gives = .elem (.var v) := by
    cases hgi : x.gives with
    | elem e => rw [hgi] at hg; simpa [Gives.elem?] using hg
    | file p => rw [hgi] at hg; cases hg
    | nothing => rw [hgi] at hg; cases hg
  rw [hgv, ← show v.at_ = x.line from hat] at ht
  refine ⟨v, pat, rest, vals, _, ht, ?_, h2, h3⟩
  rw [← h.lines, show v.at_ = x.line from hat]
  exact List.mem_map.2 ⟨x, hx, rfl⟩

theorem ReadsAll.places {fs : FS} {env : DEnv} {n : Nat} {path : Str} {st : DState} {content : Bytes} {t : Items}
    {told : List Told} {es : List Elem} (h : ReadsAll fs env n path st content t told es) :
    ((hintsOf (readDialplan fs env n path).log).map (·.at_)).Sublist t.flatten := by
  rw [h.hints]
  refine (feed_hints es _ _ h.fed).1.trans ?_
  rw [h.elems, ← h.lines]
  refine (List.filter_sublist.map _).trans ?_
  have ht := h.tells
  clear h
  induction told with
  | nil => exact List.Sublist.refl _
  | cons x xs ih =>
    have ih' := ih fun y hy => ht y (by simp [hy])
    have hx := ht x (by simp)
    unfold elemsOf at ih' ⊢
    rw [List.filterMap_cons, List.map_cons]
    cases hg : x.gives.elem? with
    | none => exact ih'.cons _
    | some e =>
      rw [List.map_cons, lineTells_at hx hg]
      exact ih'.cons_cons _

/-! ## A line -/

theorem splitByte_some {b : Nat} : ∀ {l x y : Bytes}, splitByte b l = some (x, y) → l = x ++ b :: y ∧ b ∉ x
  | [], _, _, h => by simp [splitByte] at h
  | a :: l, x, y, h => by
    rw [splitByte] at h
    split at h
    · rename_i hab
      simp only [Option.some.injEq, Prod.mk.injEq] at h
      obtain ⟨rfl, rfl⟩ := h
      simp [hab]
    · rename_i hab
      simp only [Option.map_eq_some_iff, Prod.mk.injEq] at h
      obtain ⟨⟨x', y'⟩, h1, rfl, rfl⟩ := h
      obtain ⟨i1, i2⟩ := splitByte_some h1
      exact ⟨by rw [i1]; rfl, by simp [Ne.symm hab, i2]⟩

theorem splitByte_exists {b : Nat} : ∀ {x y : Bytes}, ∃ x' y', splitByte b (x ++ b :: y) = some (x', y') ∧ y.length ≤ y'.length
  | [], y => ⟨[], y, by simp [splitByte], Nat.le_refl _⟩
  | a :: x, y => by
    obtain ⟨x', y', h1, h2⟩ := splitByte_exists (b := b) (x := x) (y := y)
    rw [List.cons_append, splitByte]
    split
    · exact ⟨[], _, rfl, by simp only [List.length_append, List.length_cons]; omega⟩
    · exact ⟨a :: x', y', by rw [h1]; rfl, h2⟩

theorem replaceFirst_spec {needle r : Bytes} (hn : needle ≠ []) : ∀ (l : Bytes),
    (∃ a b, l = a ++ needle ++ b ∧ (∀ a' b', l = a' ++ needle ++ b' → a.length ≤ a'.length) ∧
      replaceFirst needle r l = a ++ r ++ b) ∨
    ((¬ ∃ a b, l = a ++ needle ++ b) ∧ replaceFirst needle r l = l)
  | [] => by
    right
    refine ⟨?_, by simp [replaceFirst, hn]⟩
    rintro ⟨a, b, h⟩
    have := congrArg List.length h
    simp only [List.length_nil, List.length_append] at this
    exact hn (List.length_eq_zero_iff.1 (by omega))
  | x :: xs => by
    rw [replaceFirst]
    by_cases hp : needle.isPrefixOf (x :: xs) = true
    · rw [if_pos hp]
      left
      obtain ⟨b, hb⟩ := List.isPrefixOf_iff_prefix.1 hp
      refine ⟨[], b, by rw [List.nil_append, hb], fun _ _ _ => Nat.zero_le _, ?_⟩
      rw [← hb]; simp
    · rw [if_neg hp]
      have hz : ∀ a b, x :: xs = a ++ needle ++ b → ∃ a', a = x :: a' ∧ xs = a' ++ needle ++ b := by
        intro a b h
        cases a with
        | nil => exact absurd (List.isPrefixOf_iff_prefix.2 ⟨b, by rw [h]; simp⟩) hp
        | cons y a' =>
          simp only [List.cons_append, List.cons.injEq] at h
          exact ⟨a', by rw [h.1], h.2⟩
      rcases replaceFirst_spec (r := r) hn xs with ⟨a, b, h1, h2, h3⟩ | ⟨h1, h2⟩
      · left
        refine ⟨x :: a, b, by rw [h1]; rfl, ?_, by rw [h3]; rfl⟩
        intro a' b' h
        obtain ⟨a'', rfl, h'⟩ := hz a' b' h
        simpa using h2 a'' b' h'
      · right
        refine ⟨?_, by rw [h2]⟩
        rintro ⟨a, b, h⟩
        obtain ⟨a', -, h'⟩ := hz a b h
        exact h1 ⟨a', b, h'⟩

theorem canonOut_swapped {old new line : Bytes} (ho : old ≠ []) (h : ∃ x y, line = x ++ 0x3d :: y ∧ y ≠ []) :
    ∃ line', canonOut old new line = ([line'], none) ∧ Swapped old new line line' := by
  obtain ⟨x, y, rfl, hy⟩ := h
  obtain ⟨x', y', h1, h2⟩ := splitByte_exists (b := 0x3d) (x := x) (y := y)
  obtain ⟨e, hx⟩ := splitByte_some h1
  have hy' : 0 < y'.length := by
    have := List.length_pos_iff.2 hy
    omega
  cases y' with
  | nil => simp at hy'
  | cons c cs =>
    refine ⟨x' ++ [0x3d] ++ replaceFirst old new (c :: cs), by unfold canonOut; rw [h1], ?_⟩
    rw [e]
    generalize c :: cs = tl
    rcases replaceFirst_spec (r := new) ho tl with ⟨a, b, rfl, g2, g3⟩ | ⟨g1, g2⟩
    · rw [g3]
      have := Swapped.found (old := old) (new := new) x' a b hx g2
      simpa using this
    · rw [g2]
      have := Swapped.absent (old := old) (new := new) x' tl hx g1
      simpa using this

theorem unescape_length : ∀ (s : Str), (unescape s).length ≤ s.length := by
  intro s
  fun_induction unescape s with
  | case1 r ih => simp only [List.length_cons]; omega
  | case2 c r _ ih => simp only [List.length_cons]; omega
  | case3 => simp

theorem content_noSemi {body data comment : Str} (h : Content body data comment) (hs : ';' ∉ body) :
    data.length ≤ body.length := by
  cases h with
  | plain d blanks h1 h2 =>
    have := unescape_length d
    rw [h1.parts, List.length_append]
    omega
  | comment d blanks a b x y h1 h2 h3 =>
    exact absurd (by rw [h1.parts, h2.parts]; simp) hs

theorem cp1252_eq {b : Nat} (h : cp1252Byte b = some '=') : b = 0x3d := by
  unfold cp1252Byte at h
  split at h
  · rename_i hb
    have : ∀ i < 32, ((cp1252High[i]?).getD none).map Char.ofNat ≠ some '=' := by decide
    exact absurd h (this (b - 0x80) (by omega))
  · simp only [Option.some.injEq] at h
    have h' := congrArg Char.toNat h
    by_cases hv : b.isValidChar
    · simpa [Char.ofNat, hv, Char.ofNatAux, Char.toNat] using h'
    · rw [Char.ofNat, dif_neg hv] at h'
      cases h'

theorem decoded_equals {bytes : Bytes} {text x y : Str} {bad : Bool} (h : DecodesAs bytes text bad)
    (ht : text = x ++ '=' :: y) (hy : y ≠ []) : ∃ a b, bytes = a ++ 0x3d :: b ∧ b ≠ [] := by
  subst ht
  cases h with
  | utf8 h =>
    refine ⟨utf8 x, utf8 y, by rw [h, utf8_append]; rfl, ?_⟩
    cases y with
    | nil => exact absurd rfl hy
    | cons c y =>
      intro h
      have := utf8Decode_utf8 (c :: y)
      rw [h] at this
      simp [utf8Decode] at this
  | cp1252 h1 h2 =>
    have h3 := congrArg List.length h2
    simp only [List.length_map, List.length_append, List.length_cons] at h3
    have hlt : x.length < bytes.length := by omega
    refine ⟨bytes.take x.length, bytes.drop (x.length + 1), ?_, ?_⟩
    · have hb : bytes[x.length]? = some 0x3d := by
        have := congrArg (fun l => l[x.length]?) h2
        simp only [List.getElem?_map, List.getElem?_append_right (Nat.le_refl _), Nat.sub_self,
          List.getElem?_cons_zero, Option.map_some] at this
        rw [List.getElem?_eq_getElem hlt] at this ⊢
        simp only [Option.map_some, Option.some.injEq] at this ⊢
        exact cp1252_eq this
      obtain ⟨_, hb'⟩ := List.getElem?_eq_some_iff.1 hb
      rw [← hb', ← List.drop_eq_getElem_cons, List.take_append_drop]
    · intro h
      have := congrArg List.length h
      simp only [List.length_drop, List.length_nil] at this
      have := List.length_pos_iff.2 hy
      omega

theorem patLine_equals {fs : FS} {v : VarE} {ms : List Msg} {pat rest : Str} {vals : Values}
    (h : LineTells fs v.at_ ms (.elem (.var v))) (hp : PatLine v pat rest vals) :
    ∃ a b, v.at_.line = a ++ 0x3d :: b ∧ b ≠ [] := by
  obtain ⟨w, hw⟩ : ∃ w, v.at_ = w := ⟨_, rfl⟩
  rw [hw] at h ⊢
  generalize hg : Gives.elem (.var v) = g at h
  cases h with
  | mk h1 h2 h3 _ _ _ _ h5 =>
    rename_i text body data comment _ _ _ _ _ _ _ _ _ _
    have hass : ∃ indent sep arrow, IsAssign data (indent ++ v.key) sep v.value arrow ∧ Blanks indent := by
      cases h5 <;> try cases hg
      · rename_i i1 i2 i3 i4 i5 i6; exact ⟨_, _, _, i2, i3⟩
      · rename_i i1 i2 i3 i4 i5 i6; exact ⟨_, _, _, i2, i3⟩
    obtain ⟨indent, sep, arrow, ⟨⟨s1, s2, hs1, hs2, hsep, hdata, -⟩, -, -, -⟩, hbl⟩ := hass
    -- up to the value
    have hq : ';' ∉ indent ++ v.key ++ sep := by
      rw [hp.key, hsep]
      simp only [List.mem_append, not_or]
      refine ⟨⟨fun hm => ?_, by decide⟩, ⟨fun hm => absurd (hs1 _ hm) (by decide), ?_⟩, fun hm => absurd (hs2 _ hm) (by decide)⟩
      · rcases hbl _ hm with h | h <;> cases h
      · cases arrow <;> decide
    have hst := content_stage h3 w
    have hpre : indent ++ v.key ++ sep <+: body := by
      refine comment_prefix (w := w) hq ?_
      rw [hst]
      exact ⟨v.value, hdata.symm⟩
    obtain ⟨r, hr⟩ := hpre
    have hrne : r ≠ [] := by
      rintro rfl
      rw [List.append_nil] at hr
      have := content_noSemi h3 (hr ▸ hq)
      rw [hdata, ← hr, hp.value] at this
      simp only [List.length_append, List.length_cons] at this
      omega
    have hbody : body <+: text := by
      cases h2 with
      | crlf s h => exact ⟨_, h.symm⟩
      | lf s h _ => exact ⟨_, h.symm⟩
      | none _ => exact List.prefix_refl _
    obtain ⟨z, hz⟩ := hbody
    refine decoded_equals h1 (x := indent ++ v.key ++ s1) (y := (if arrow then c! ">" else []) ++ s2 ++ r ++ z) ?_ ?_
    · rw [← hz, ← hr, hsep]
      cases arrow <;> simp
    · intro h
      simp only [List.append_eq_nil_iff] at h
      exact hrne h.1.2

end ALint
