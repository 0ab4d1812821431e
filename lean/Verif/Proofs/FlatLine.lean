import Verif.Proofs.FlatRun
import Verif.Proofs.Supplies
import Verif.Proofs.Utf8
import Verif.Proofs.Clean
import Verif.Proofs.Vsw

/-!
# Lines have no line feeds inside
-/

namespace ALint
open Spec

theorem physLines_inner (bs : Bytes) : ∀ l ∈ physLines bs, 10 ∉ l.dropLast ∧ l ≠ [] := by
  induction bs with
  | nil => simp [physLines]
  | cons b bs ih =>
    rw [physLines]
    split
    · intro l hl
      rcases List.mem_cons.1 hl with rfl | hl
      · simp
      · exact ih l hl
    · rename_i hb
      split
      · intro l hl
        rw [List.mem_singleton.1 hl]; simp
      · rename_i l0 ls hl0
        rw [hl0] at ih
        intro l hl
        rcases List.mem_cons.1 hl with rfl | hl
        · obtain ⟨h1, h2⟩ := ih l0 (by simp)
          refine ⟨?_, by simp⟩
          cases l0 with
          | nil => exact absurd rfl h2
          | cons x xs =>
            rw [List.dropLast_cons_of_ne_nil (by simp)]
            intro hm
            rcases List.mem_cons.1 hm with hm | hm
            · exact hb hm.symm
            · exact h1 hm
        · exact ih l (by simp [hl])

theorem dropLast_snoc {α : Type} (a : List α) (x : α) : (a ++ [x]).dropLast = a := by simp

theorem enc_snoc (c : Char) : ∃ a x, utf8 [c] = a ++ [x] := by
  have hne : utf8 [c] ≠ [] := by
    intro h
    have := utf8Decode_utf8 [c]
    rw [h] at this
    simp [utf8Decode] at this
  exact ⟨_, _, (List.dropLast_concat_getLast hne).symm⟩

theorem lf_mem_utf8 {s : Str} (h : '\n' ∈ s) : 10 ∈ utf8 s := by
  unfold utf8
  exact List.mem_flatMap.2 ⟨'\n', h, by decide⟩

theorem utf8_dropLast {s : Str} (h : 10 ∉ (utf8 s).dropLast) : Flat s.dropLast := by
  rcases List.eq_nil_or_concat s with rfl | ⟨a, c, rfl⟩
  · exact .nil
  · simp only [List.concat_eq_append] at h ⊢
    rw [dropLast_snoc]
    intro hm
    obtain ⟨x, y, hxy⟩ := enc_snoc c
    rw [utf8_append, hxy, ← List.append_assoc, dropLast_snoc] at h
    exact h (List.mem_append.2 (.inl (lf_mem_utf8 hm)))

theorem cp1252High_lf : ∀ o ∈ cp1252High, o ≠ some 10 := by decide

theorem cp1252Byte_lf {b : Nat} (h : cp1252Byte b = some '\n') : b = 10 := by
  unfold cp1252Byte at h
  split at h
  · rename_i hb
    exfalso
    cases hg : cp1252High[b - 0x80]? with
    | none => simp [hg] at h
    | some o =>
      have := cp1252High_lf o (List.mem_of_getElem? hg)
      cases o with
      | none => simp [hg] at h
      | some n =>
        simp only [hg, Option.getD_some, Option.map_some, Option.some.injEq] at h
        exact this (by rw [ofNat_lf h])
  · exact ofNat_lf (Option.some.inj h)

theorem cp1252_dropLast {bs : Bytes} {s : Str} (hs : cp1252Decode bs = some s) (h : 10 ∉ bs.dropLast) : Flat s.dropLast := by
  induction bs generalizing s with
  | nil => simp only [cp1252Decode, Option.some.injEq] at hs; subst hs; exact .nil
  | cons b bs ih =>
    rw [cp1252Decode] at hs
    cases h1 : cp1252Byte b with
    | none => simp [h1] at hs
    | some c =>
      cases h2 : cp1252Decode bs with
      | none => simp [h1, h2] at hs
      | some cs =>
        simp only [h1, h2, Option.some.injEq] at hs
        subst hs
        cases bs with
        | nil =>
          simp only [cp1252Decode, Option.some.injEq] at h2
          subst h2
          exact .nil
        | cons b' bs =>
          rw [List.dropLast_cons_of_ne_nil (by simp)] at h
          have hcs : cs ≠ [] := by
            rw [cp1252Decode] at h2
            rintro rfl
            split at h2 <;> simp at h2
          rw [List.dropLast_cons_of_ne_nil hcs]
          refine .cons ?_ (ih h2 fun hm => h (by simp [hm]))
          rintro rfl
          exact h (by rw [cp1252Byte_lf h1]; simp)

/-- A line as delivered by the reader: a line feed at the end only. -/
def LineShape (bs : Bytes) : Prop := 10 ∉ bs.dropLast

theorem flat_encoding {w : Where} {data : Str} (h : LineShape w.line) (hd : (encodingStage w).2 = .ok data) :
    Flat data.dropLast := by
  unfold encodingStage at hd
  split at hd
  · rename_i s hs
    cases hd
    rw [utf8Decode_iff] at hs
    exact utf8_dropLast (by rw [hs]; exact h)
  · dsimp only at hd
    split at hd
    · rename_i s hs
      cases hd
      exact cp1252_dropLast hs h
    · cases hd

theorem endsWith_lf {data : Str} (h : endsWith (c! "\n") data = false) (hd : Flat data.dropLast) : Flat data := by
  rcases List.eq_nil_or_concat data with rfl | ⟨a, c, rfl⟩
  · exact .nil
  · simp only [List.concat_eq_append] at h hd ⊢
    rw [dropLast_snoc] at hd
    refine hd.append (.cons ?_ .nil)
    rintro rfl
    simp [endsWith] at h

theorem flat_ff {st : List FInfo} {w : Where} {data : Str} (h : Flat data.dropLast) : Flat (ffStage st w data).2.2 := by
  unfold ffStage
  dsimp only
  split
  · refine h.sub fun c hc => ?_
    have : data.take (data.length - 2) = data.dropLast.take (data.length - 2) := by
      rw [List.dropLast_eq_take, List.take_take]; congr 1; omega
    rw [this] at hc
    exact List.mem_of_mem_take hc
  · split
    · rw [← List.dropLast_eq_take]; exact h
    · rename_i hl
      exact endsWith_lf (by simpa using hl) h

theorem flat_lookback {fuel : Nat} {data : Str} (h : Flat data) : Flat (lookbackFuel fuel data).1 := by
  induction fuel generalizing data with
  | zero => exact h
  | succ n ih =>
    rw [lookbackFuel]
    split
    · exact h
    · rename_i a b hs
      obtain ⟨h1, h2⟩ := h.splitOnce hs
      split
      · exact h1.dropLast.append (.cons (by decide) (ih h2))
      · exact h1

theorem flat_comment {w : Where} {data : Str} (h : Flat data) : Flat (commentStage w data).2.1 := by
  have key : ∀ d : Str, Flat d → Flat (commentSplit d).2.1 := by
    intro d hd
    unfold commentSplit
    split
    · exact (flat_lookback hd).rstrip _
    · unfold simpleSplit
      split
      · exact hd
      · rename_i a b hs
        exact (hd.splitOnce hs).1.rstrip _
  unfold commentStage
  dsimp only
  split
  · split
    · exact key _ (h.rstrip _)
    · exact key _ h
  · exact key _ h

/-- No line feed in what is read of a line. -/
def ReadingFlat : Reading → Prop
  | .header _ name _ => Flat name
  | .assign key _ value => Flat key ∧ Flat value
  | .blank => True

theorem flat_dropWhile {s : Str} (h : Flat s) (p : Char → Bool) : Flat (s.dropWhile p) :=
  h.sub fun _ hc => (List.dropWhile_sublist _).subset hc

theorem flat_readLine {data : Str} (h : Flat data) {r : Reading} (hr : readLine data = some r) : ReadingFlat r := by
  have h1 : ∀ r, reTemplate data = some r → ReadingFlat r := by
    intro r hr
    unfold reTemplate at hr
    split at hr
    · rename_i q hq
      have hf : Flat ('[' :: q) := hq ▸ h.lstrip isSpace
      split at hr
      · rename_i name tail hs
        split at hr
        · split at hr
          · cases hr
          · cases hr; exact (hf.tail.splitOnce hs).1
        · cases hr
      · cases hr
    · cases hr
  have h2 : ∀ r, reHeader data = some r → ReadingFlat r := by
    intro r hr
    unfold reHeader at hr
    split at hr
    · rename_i q hq
      have hf : Flat ('[' :: q) := hq ▸ h.lstrip isSpace
      split at hr
      · rename_i name hs
        cases hr; exact (hf.tail.splitOnce hs).1
      · cases hr
    · cases hr
  have h3 : ∀ r, reArrow data = some r → ReadingFlat r := by
    intro r hr
    unfold reArrow at hr
    split at hr
    · rename_i p q hs
      obtain ⟨f1, f2⟩ := h.splitOnce hs
      cases hr
      exact ⟨f1.rstrip _, flat_dropWhile f2.tail _⟩
    · cases hr
  have h4 : ∀ r, reEquals data = some r → ReadingFlat r := by
    intro r hr
    unfold reEquals at hr
    split at hr
    · rename_i p q hs
      obtain ⟨f1, f2⟩ := h.splitOnce hs
      cases hr
      exact ⟨f1.rstrip _, flat_dropWhile f2 _⟩
    · cases hr
  have h5 : ∀ r, reBlank data = some r → ReadingFlat r := by
    intro r hr
    unfold reBlank at hr
    split at hr
    · cases hr; trivial
    · cases hr
  unfold readLine at hr
  cases q1 : reTemplate data with
  | some x => simp only [q1, Option.orElse, Option.some.injEq] at hr; exact hr ▸ h1 x q1
  | none =>
    cases q2 : reHeader data with
    | some x => simp only [q1, q2, Option.orElse, Option.some.injEq] at hr; exact hr ▸ h2 x q2
    | none =>
      cases q3 : reArrow data with
      | some x => simp only [q1, q2, q3, Option.orElse, Option.some.injEq] at hr; exact hr ▸ h3 x q3
      | none =>
        cases q4 : reEquals data with
        | some x => simp only [q1, q2, q3, q4, Option.orElse, Option.some.injEq] at hr; exact hr ▸ h4 x q4
        | none => simp only [q1, q2, q3, q4, Option.orElse] at hr; exact h5 r hr

/-- No line feed in an element. -/
def ElemFlat : Elem → Prop
  | .ctx c => Flat c.name
  | .var v => Flat v.key ∧ Flat v.value
  | .empty _ _ => True

theorem flat_mkElem {c : Bool} {w : Where} {r : Reading} (h : ReadingFlat r) : ElemFlat (mkElem c w r).1 := by
  cases r with
  | header bol name tmpl => exact h
  | assign key sep value =>
    refine ⟨?_, h.2⟩
    dsimp only
    split
    · exact h.1.lstrip _
    · exact h.1
  | blank => trivial

theorem flat_dirname {p : Str} (h : Flat p) : Flat (dirname p) := by
  have hh : Flat (p.reverse.dropWhile (· ≠ '/')).reverse := h.sub fun c hc => by
    have := (List.dropWhile_sublist _).subset (List.mem_reverse.1 hc)
    exact List.mem_reverse.1 this
  unfold dirname
  dsimp only
  split
  · exact hh
  · exact hh.rstrip _

theorem flat_pathJoin {a b : Str} (ha : Flat a) (hb : Flat b) : Flat (pathJoin a b) := by
  unfold pathJoin
  split
  · exact hb
  · split
    · exact hb
    · exact ha.append hb
    · exact ha.append (.cons (by decide) hb)

theorem flat_unquote {s : Str} (h : Flat s) : Flat (ppUnquote s).2 := by
  unfold ppUnquote
  split
  · split
    · exact (h.drop 1).dropLast
    · split
      · exact (h.drop 1).dropLast
      · split <;> exact h
  · exact h

theorem flat_ppCommand {text cmd rest : Str} (h : Flat text) (hc : ppCommand text = some (cmd, rest)) : Flat rest := by
  unfold ppCommand at hc
  split at hc
  · cases hc; exact h.drop _
  · split at hc
    · cases hc; exact h.drop _
    · split at hc
      · cases hc; exact h.drop _
      · cases hc

theorem flat_preprocessor {w : Where} {data : Str} (hw : Flat w.filename) (h : Flat data) {path name : Str} {must : Bool}
    (hp : (preprocessor w data).2 = .open_ path must name) : Flat path := by
  unfold preprocessor at hp
  dsimp only at hp
  cases hc : ppCommand (lstripP isSpace data) with
  | none => simp [hc] at hp
  | some cr =>
    obtain ⟨cmd, rest⟩ := cr
    have hr := flat_ppCommand (h.lstrip _) hc
    simp only [hc] at hp
    cases rest with
    | nil => cases hp
    | cons r0 rs =>
      dsimp only at hp
      split at hp
      · cases hp
      · split at hp
        · cases hp
        · split at hp
          · cases hp
          · cases hp
            exact flat_pathJoin (flat_dirname hw) (flat_unquote (flat_dropWhile hr _))

/-- The places used: names and lines without line feeds. -/
def FlatWhere (w : Where) : Prop := Flat w.filename ∧ LineShape w.line

theorem flat_frame {q : Str} (hq : Flat q) (c : Bytes) : FrameIn FlatWhere (openFrame q c) := by
  intro i l hl
  exact ⟨hq, (physLines_inner c l (List.mem_of_getElem? hl)).1⟩

/-- One line: files opened have names without line feeds, elements have texts without. -/
theorem flat_lineStep {fs : FS} {ff : List FInfo} {w : Where} {frames : List Frame} {r : RState} {oe : Option Elem}
    (hw : FlatWhere w) (h : ∀ fr ∈ frames, FrameIn FlatWhere fr)
    (hr : (lineStep fs ff frames w).2 = .ok (r, oe)) :
    (∀ fr ∈ r.frames, FrameIn FlatWhere fr) ∧ ∀ e, oe = some e → ElemFlat e := by
  unfold lineStep fileStage at hr
  dsimp only at hr
  cases he : (encodingStage w).2 with
  | error x => simp [he] at hr
  | ok data =>
    simp only [he] at hr
    have hd := flat_comment (w := w) (flat_ff (st := ff) (w := w) (flat_encoding hw.2 he))
    generalize (commentStage w (ffStage ff w data).2.2).2.1 = d at hr hd
    generalize (commentStage w (ffStage ff w data).2.2).2.2 = c at hr
    have hps : ∀ e, (parserStage w d c).2 = .elem e → ElemFlat e := by
      intro e hp
      unfold parserStage at hp
      split at hp
      · rename_i rd hrd
        cases hp
        exact flat_mkElem (flat_readLine hd hrd)
      · split at hp <;> cases hp
    have hpo : ∀ path must name, (parserStage w d c).2 = .pp (.open_ path must name) → Flat path := by
      intro path must name hp
      unfold parserStage at hp
      split at hp
      · cases hp
      · split at hp
        · simp only [LineOut.pp.injEq] at hp
          exact flat_preprocessor hw.1 hd hp
        · cases hp
    cases hp : (parserStage w d c).2 with
    | elem e =>
      simp only [hp, Except.ok.injEq, Prod.mk.injEq] at hr
      obtain ⟨rfl, rfl⟩ := hr
      exact ⟨h, fun e' he' => by cases he'; exact hps e hp⟩
    | pp p =>
      simp only [hp] at hr
      cases hq : (runPP fs w frames p).2 with
      | error x => simp [hq] at hr
      | ok frames' =>
        simp only [hq, Except.ok.injEq, Prod.mk.injEq] at hr
        obtain ⟨rfl, rfl⟩ := hr
        refine ⟨?_, by simp⟩
        cases p with
        | nothing => simp only [runPP, Except.ok.injEq] at hq; exact hq ▸ h
        | open_ path must name =>
          simp only [runPP] at hq
          split at hq
          · cases hq
          · split at hq
            · rename_i content hc
              cases hq
              intro fr hfr
              rcases List.mem_cons.1 hfr with rfl | hfr
              · exact flat_frame (hpo _ _ _ hp) _
              · exact h fr hfr
            · cases hq; exact h

/-! ## The pipeline -/

/-- A consumer of elements without line feeds keeps `J`, and what it reports has `P`. -/
def ConsumesFlat {σ : Type} (P : Msg → Prop) (J : σ → Prop) (agg : σ → Elem → Res σ) : Prop :=
  ∀ s e, J s → FlatWhere e.at_ → ElemFlat e → LogAll P (agg s e) ∧ ∀ t, (agg s e).val = .ok t → J t

section
variable {σ : Type} {P : Msg → Prop} {J : σ → Prop} {agg : σ → Elem → Res σ}

theorem feed_flat (ha : ConsumesFlat P J agg) {s : σ} {es : List Elem} (hs : J s) (he : ∀ e ∈ es, FlatWhere e.at_)
    (hf : ∀ e ∈ es, ElemFlat e) : LogAll P (feed agg s es) ∧ ∀ t, (feed agg s es).val = .ok t → J t := by
  induction es generalizing s with
  | nil =>
    refine ⟨.pure _, fun t ht => ?_⟩
    simp only [feed, Res.pure_val, Except.ok.injEq] at ht
    exact ht ▸ hs
  | cons e es ih =>
    obtain ⟨h1, h2⟩ := ha s e hs (he e (by simp)) (hf e (by simp))
    have ih' := fun {t} (ht : J t) => ih ht (fun e he' => he e (by simp [he'])) (fun e he' => hf e (by simp [he']))
    constructor
    · exact LogAll.bind_ok (LogAll.wrap h1) fun t ht => (ih' (h2 t (wrapExc_ok.1 ht))).1
    · intro t ht
      obtain ⟨s', h3, h4, _⟩ := feed_cons_ok ht
      exact (ih' (h2 s' h3)).2 t h4

theorem elemFlat_blank {e : Elem} (h : notBlank e = false) : ElemFlat e := by
  cases e with
  | empty => trivial
  | ctx => cases h
  | var => cases h

theorem vswStep_flat {st : List Vsw} {e : Elem} (h : ElemFlat e) : ∀ x ∈ (vswStep st e).2.1, ElemFlat x := by
  intro x hx
  cases hb : notBlank x with
  | false => exact elemFlat_blank hb
  | true =>
    have : x ∈ (vswStep st e).2.1.filter notBlank := List.mem_filter.2 ⟨hx, hb⟩
    rw [vswStep_blank] at this
    have := (List.mem_filter.1 this).1
    rw [List.mem_singleton.1 this]
    exact h

theorem vswEnd_flat {st : List Vsw} : ∀ x ∈ (vswEnd st).1, ElemFlat x := by
  intro x hx
  cases hb : notBlank x with
  | false => exact elemFlat_blank hb
  | true =>
    have : x ∈ (vswEnd st).1.filter notBlank := List.mem_filter.2 ⟨hx, hb⟩
    rw [show (vswEnd st).1.filter notBlank = [] from vswEndFrom_blank true st] at this
    cases this

theorem pipeStep_flat {fs : FS} (hP : ∀ m, Fine FlatWhere m → P m) (ha : ConsumesFlat P J agg) {st : PState σ}
    (hst : PipeIn FlatWhere st) (hJ : J st.agg) {r : Res (PState σ)} (h : pipeStep fs agg st = some r) :
    LogAll P r ∧ ∀ st', r.val = .ok st' → PipeIn FlatWhere st' ∧ J st'.agg := by
  unfold pipeStep at h
  cases hn : nextLine st.frames with
  | none => simp [hn] at h
  | some p =>
    obtain ⟨w, frames⟩ := p
    obtain ⟨hw, hfr⟩ := nextLine_in hst.frames hn
    obtain ⟨l1, l2⟩ := fine_lineStep hst.ff hw fs frames
    simp only [hn, Option.some.injEq] at h
    subst h
    have hlog := LogAll.emitAll fun m hm => hP m (l1 m hm)
    cases hl : (lineStep fs st.ff frames w).2 with
    | error e =>
      refine ⟨hlog.bind fun _ => .raise _, ?_⟩
      rw [Res.bind_of_ok (emitAll_fine l1)]
      simp
    | ok q =>
      obtain ⟨r, oe⟩ := q
      obtain ⟨l3, l4⟩ := l2 r oe hl
      obtain ⟨l5, l6⟩ := flat_lineStep hw hfr hl
      cases oe with
      | none =>
        refine ⟨hlog.bind fun _ => .pure _, ?_⟩
        rw [Res.bind_of_ok (emitAll_fine l1)]
        intro st' hst'
        simp only [Res.pure_val, Except.ok.injEq] at hst'
        subst hst'
        exact ⟨⟨l5, l3, hst.vsw⟩, hJ⟩
      | some e =>
        have he := l4 e rfl
        obtain ⟨v1, v2, v3⟩ := fine_vswStep hst.vsw (e := e) (by rw [he]; exact hw)
        obtain ⟨f1, f2⟩ := feed_flat ha hJ v3 (vswStep_flat (l6 e rfl))
        refine ⟨hlog.bind fun _ => (LogAll.emitAll fun m hm => hP m (v1 m hm)).bind fun _ =>
          f1.bind fun _ => .pure _, ?_⟩
        rw [Res.bind_of_ok (emitAll_fine l1)]
        intro st' hst'
        dsimp only at hst'
        rw [Res.bind_of_ok (emitAll_fine v1)] at hst'
        dsimp only at hst'
        obtain ⟨s, h1, h2, _⟩ := Res.bind_ok hst'
        simp only [Res.pure_val, Except.ok.injEq] at h2
        subst h2
        exact ⟨⟨l5, l3, v2⟩, f2 s h1⟩

theorem pipeRun_flat {fs : FS} (hP : ∀ m, Fine FlatWhere m → P m) (ha : ConsumesFlat P J agg) (n : Nat) {st : PState σ}
    (hst : PipeIn FlatWhere st) (hJ : J st.agg) :
    LogAll P (pipeRun fs agg n st) ∧ ∀ s, (pipeRun fs agg n st).val = .ok (some s) → J s := by
  induction n generalizing st with
  | zero => exact ⟨.pure _, by simp [pipeRun]⟩
  | succ n ih =>
    rw [pipeRun]
    cases hp : pipeStep fs agg st with
    | none =>
      dsimp only
      obtain ⟨v1, v2⟩ := fine_vswEnd hst.vsw
      have v0 := fine_ffEnd hst.ff
      obtain ⟨f1, f2⟩ := feed_flat ha hJ v2 vswEnd_flat
      refine ⟨LogAll.bind ((LogAll.emitAll fun m hm => hP m (v0 m hm)).bind fun _ =>
        (LogAll.emitAll fun m hm => hP m (v1 m hm)).bind fun _ => f1) fun _ => .pure _, ?_⟩
      intro s hs
      obtain ⟨a, h1, h2, _⟩ := Res.bind_ok hs
      simp only [Res.pure_val, Except.ok.injEq, Option.some.injEq] at h2
      subst h2
      unfold pipeEnd at h1
      rw [Res.bind_of_ok (emitAll_fine v0)] at h1
      dsimp only at h1
      rw [Res.bind_of_ok (emitAll_fine v1)] at h1
      exact f2 a h1
    | some r =>
      dsimp only
      obtain ⟨r1, r2⟩ := pipeStep_flat hP ha hst hJ hp
      constructor
      · exact LogAll.bind_ok r1 fun st' h' => (ih (r2 st' h').1 (r2 st' h').2).1
      · intro s hs
        obtain ⟨st', h1, h2, _⟩ := Res.bind_ok hs
        exact (ih (r2 st' h1).1 (r2 st' h1).2).2 s h2

end

end ALint
