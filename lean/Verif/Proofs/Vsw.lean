import Verif.Spec.Vsw

namespace ALint
open ALint.Spec

/-! ### the elements -/

theorem filter_blankElem (bs : List (Bool × Where)) : (bs.map blankElem).filter notBlank = [] := by
  induction bs with
  | nil => rfl
  | cons b bs ih => simp only [List.map_cons]; rw [List.filter_cons_of_neg (by simp [blankElem, notBlank]), ih]

theorem eof_blank (s : Vsw) (r : Bool) : (s.eof r).1.filter notBlank = [] := by
  simp only [Vsw.eof]
  split
  · rfl
  · split
    · exact filter_blankElem _
    · split
      · exact filter_blankElem _
      · exact filter_blankElem _

theorem vswPop_blank (name : Str) (st : List Vsw) : (vswPop name st).2.1.filter notBlank = [] := by
  induction st with
  | nil => rfl
  | cons s ss ih =>
    simp only [vswPop]
    split
    · rfl
    · simp only [List.filter_append, ih, eof_blank, List.append_nil]

theorem handle_blank (s : Vsw) (e : Elem) : (s.handle e).2.1.filter notBlank = [e].filter notBlank := by
  cases e with
  | empty c w => rfl
  | ctx c => simp only [Vsw.handle, List.filter_append, filter_blankElem, List.nil_append]
  | var v => simp only [Vsw.handle, List.filter_append, filter_blankElem, List.nil_append]

theorem vswPop_ne_nil (name : Str) (st : List Vsw) (h : st.any (fun s => s.filename = name) = true) :
    (vswPop name st).1 ≠ [] := by
  induction st with
  | nil => simp at h
  | cons s ss ih =>
    simp only [vswPop]
    split
    · simp
    · rename_i hs
      simp only [List.any_cons, hs, decide_false, Bool.false_or] at h
      exact ih h

theorem vswStep_blank (st : List Vsw) (e : Elem) :
    (vswStep st e).2.1.filter notBlank = [e].filter notBlank := by
  simp only [vswStep]
  split
  · rename_i h
    have hne := vswPop_ne_nil _ _ h
    split
    · rename_i hp; exact absurd hp hne
    · simp only [List.filter_append, vswPop_blank, handle_blank, List.nil_append]
  · exact handle_blank _ e

theorem vswEndFrom_blank (f : Bool) (st : List Vsw) : (vswEndFrom f st).1.filter notBlank = [] := by
  induction st generalizing f with
  | nil => rfl
  | cons s ss ih => simp only [vswEndFrom, List.filter_append, eof_blank, ih, List.append_nil]

theorem vswRun_filter (st : List Vsw) (es : List Elem) :
    (vswRun st es).1.filter notBlank = es.filter notBlank := by
  induction es generalizing st with
  | nil => exact vswEndFrom_blank _ _
  | cons e es ih =>
    simp only [vswRun, List.filter_append, vswStep_blank, ih]
    rw [← List.filter_append]
    rfl

theorem aggRun_filter (st : AggState) (es : List Elem) : aggRun st es = aggRun st (es.filter notBlank) := by
  induction es generalizing st with
  | nil => rfl
  | cons e es ih =>
    cases e with
    | empty c w =>
      rw [List.filter_cons_of_neg (by simp [notBlank])]
      simp only [aggRun, aggStep, List.nil_append]
      exact ih st
    | ctx c =>
      rw [List.filter_cons_of_pos (by simp [notBlank])]
      simp only [aggRun]
      rw [ih]
    | var v =>
      rw [List.filter_cons_of_pos (by simp [notBlank])]
      simp only [aggRun]
      rw [ih]

/-! ### one file -/

theorem groupBlanks_ne {bs : List (Bool × Where)} : ∀ g ∈ groupBlanks bs, g.2 ≠ [] := by
  induction bs with
  | nil => simp [groupBlanks]
  | cons b bs ih =>
    obtain ⟨c, w⟩ := b
    simp only [groupBlanks]
    split
    · rename_i c' ws gs h
      rw [h] at ih
      split
      · intro g hg
        rcases List.mem_cons.1 hg with rfl | hg
        · simp
        · exact ih g (by simp [hg])
      · intro g hg
        rcases List.mem_cons.1 hg with rfl | hg
        · simp
        · exact ih g hg
    · simp

/-- The comment-less groups are the pure runs. -/
def pureGroups (gs : List (Bool × List Where)) : List (List Where) :=
  (gs.filter (fun g => !g.1)).map (·.2)

theorem groupBlanks_head (bs : List (Bool × Where)) :
    (groupBlanks bs).head?.map (fun g => (g.1, g.2.head?)) = bs.head?.map (fun b => (b.1, some b.2)) := by
  cases bs with
  | nil => rfl
  | cons b bs =>
    obtain ⟨c, w⟩ := b
    simp only [groupBlanks]
    split
    · split <;> simp
    · simp

theorem pureRuns_group (bs : List (Bool × Where)) : pureRuns bs = pureGroups (groupBlanks bs) := by
  induction bs with
  | nil => rfl
  | cons b bs ih =>
    obtain ⟨c, w⟩ := b
    cases c with
    | true =>
      simp only [pureRuns, ih, groupBlanks]
      cases hg : groupBlanks bs with
      | nil => simp [pureGroups]
      | cons g gs =>
        obtain ⟨c', ws⟩ := g
        cases c' <;> simp [pureGroups]
    | false =>
      cases bs with
      | nil => simp [pureRuns, groupBlanks, pureGroups]
      | cons b2 bs =>
        obtain ⟨c2, w2⟩ := b2
        have hh := groupBlanks_head ((c2, w2) :: bs)
        rw [groupBlanks]
        cases hg : groupBlanks ((c2, w2) :: bs) with
        | nil => rw [hg] at hh; simp at hh
        | cons g gs =>
          obtain ⟨c', ws⟩ := g
          rw [hg] at hh ih
          simp at hh
          obtain ⟨rfl, _⟩ := hh
          cases c' with
          | false =>
            rw [pureRuns]
            simp only [if_true]
            rw [ih]
            simp [pureGroups]
          | true =>
            have e : pureRuns ((false, w) :: (true, w2) :: bs) = [w] :: pureRuns ((true, w2) :: bs) := by
              simp only [pureRuns]
            rw [e, ih]
            simp [pureGroups]

theorem longGroups_runs (kind : MK) (max : Nat) (gs : List (Bool × List Where)) :
    longGroups kind max gs = longRuns kind max (pureGroups gs) := by
  induction gs with
  | nil => rfl
  | cons g gs ih =>
    obtain ⟨c, ws⟩ := g
    have e : longGroups kind max ((c, ws) :: gs) =
        (if !c && decide (max < ws.length) then
          match ws.getLast? with
          | some w => [⟨kind, w, [], none⟩]
          | none => []
        else []) ++ longGroups kind max gs := by
      simp only [longGroups, List.flatMap_cons]
      rfl
    rw [e, ih]
    cases c with
    | true => simp [pureGroups]
    | false =>
      simp only [pureGroups, Bool.not_false, Bool.true_and, List.filter_cons, if_true, List.map_cons]
      by_cases hl : max < ws.length
      · simp only [hl, decide_true, if_true, longRuns, List.filter_cons, List.filterMap_cons]
        cases ws.getLast? <;> simp
      · simp [hl, longRuns]

theorem flushMsgs_gap (bof : Bool) (gap : List (Bool × Where)) (w : Where) (kind : MK) (max : Nat) :
    flushMsgs bof gap w kind 0 max = gapHints bof gap kind max := by
  have hh := groupBlanks_head gap
  simp only [flushMsgs, Nat.not_lt_zero, if_false]
  cases gap with
  | nil => cases bof <;> rfl
  | cons b gap =>
    obtain ⟨c, w0⟩ := b
    have hr := pureRuns_group ((c, w0) :: gap)
    cases hg : groupBlanks ((c, w0) :: gap) with
    | nil => rw [hg] at hh; simp at hh
    | cons g gs =>
      obtain ⟨c', ws⟩ := g
      rw [hg] at hh hr
      simp at hh
      obtain ⟨rfl, hw⟩ := hh
      simp only
      cases bof with
      | false =>
        simp only [Bool.false_and, Bool.false_eq_true, if_false]
        rw [longGroups_runs, ← hr]
        cases c' <;> rfl
      | true =>
        cases c' with
        | true =>
          simp only [Bool.not_true, Bool.and_false, Bool.false_eq_true, if_false]
          rw [longGroups_runs, ← hr]
          rfl
        | false =>
          simp only [Bool.not_false, Bool.and_self, if_true, hw]
          rw [longGroups_runs]
          simp only [gapHints, hr]
          rfl

theorem flushMsgs_min (bof : Bool) (gap : List (Bool × Where)) (w : Where) (kind : MK) (max : Nat) :
    flushMsgs bof gap w kind 1 max =
      if gap.isEmpty then [⟨kind, w, [], none⟩] else gapHints bof gap kind max := by
  cases gap with
  | nil => simp [flushMsgs]
  | cons b gap =>
    have : ¬ (b :: gap).length < 1 := by simp
    have h0 := flushMsgs_gap bof (b :: gap) w kind max
    simp only [flushMsgs, Nat.not_lt_zero, if_false] at h0
    simp only [flushMsgs, this, if_false, List.isEmpty_cons, Bool.false_eq_true]
    exact h0

theorem groupBlanks_getLast (bs : List (Bool × Where)) :
    (groupBlanks bs).getLast?.map (fun g => (g.1, g.2.getLast?)) = bs.getLast?.map (fun b => (b.1, some b.2)) := by
  induction bs with
  | nil => rfl
  | cons b bs ih =>
    obtain ⟨c, w⟩ := b
    simp only [groupBlanks]
    cases hg : groupBlanks bs with
    | nil =>
      have : bs = [] := by
        cases bs with
        | nil => rfl
        | cons b bs =>
          have := groupBlanks_head (b :: bs)
          rw [hg] at this; simp at this
      subst this
      simp
    | cons g gs =>
      obtain ⟨c', ws⟩ := g
      have hws : ws ≠ [] := groupBlanks_ne (bs := bs) (c', ws) (by rw [hg]; simp)
      have hbs : bs ≠ [] := by rintro rfl; simp [groupBlanks] at hg
      rw [hg] at ih
      have e : ((c, w) :: bs).getLast? = bs.getLast? := by
        rw [List.getLast?_cons]
        cases hl : bs.getLast? with
        | none => simp at hl; exact absurd hl hbs
        | some x => rfl
      rw [e, ← ih]
      by_cases hc : c = c'
      · simp only [hc, if_true]
        cases gs with
        | nil =>
          obtain ⟨y, ys, rfl⟩ := List.exists_cons_of_ne_nil hws
          simp
        | cons g2 gs => simp [List.getLast?_cons]
      · simp only [hc, if_false]
        simp [List.getLast?_cons]

theorem eof_hints (s : Vsw) : (s.eof true).2 = endHints s.blanks := by
  have hl := groupBlanks_getLast s.blanks
  simp only [Vsw.eof, endHints]
  cases hg : (groupBlanks s.blanks).getLast? with
  | none =>
    rw [hg] at hl
    cases hb : s.blanks.getLast? with
    | none => rfl
    | some b => rw [hb] at hl; simp at hl
  | some g =>
    obtain ⟨c, ws⟩ := g
    rw [hg] at hl
    cases hb : s.blanks.getLast? with
    | none => rw [hb] at hl; simp at hl
    | some b =>
      obtain ⟨c', w⟩ := b
      rw [hb] at hl
      simp at hl
      obtain ⟨rfl, hw⟩ := hl
      cases c with
      | true =>
        simp only [if_true]
        rw [longGroups_runs, ← pureRuns_group]
      | false =>
        simp only [Bool.false_eq_true, if_false, if_true]
        rw [longGroups_runs, pureRuns_group]
        congr 2
        obtain ⟨init, hi⟩ := List.getLast?_eq_some_iff.1 hg
        rw [hi]
        simp [pureGroups]

theorem handle_gap (s : Vsw) (gap : List BlankLine) :
    ∀ (f : Str) (rest : List Elem), s.filename = f → (∀ b ∈ gap, b.2.filename = f) →
    (vswRun [s] (gap.map BlankLine.elem ++ rest)).2 =
      (vswRun [{ s with blanks := s.blanks ++ gap }] rest).2 := by
  induction gap generalizing s with
  | nil => intro f rest _ _; simp
  | cons b gap ih =>
    intro f rest hs hb
    simp only [List.map_cons, List.cons_append, vswRun]
    have h1 : vswStep [s] (BlankLine.elem b) =
        ([{ s with blanks := s.blanks ++ [b] }], [], []) := by
      have hf : s.filename = b.2.filename := by rw [hs, hb b (by simp)]
      simp [vswStep, BlankLine.elem, Elem.at_, hf, vswPop, Vsw.handle]
    rw [h1]
    simp only [List.nil_append]
    rw [ih { s with blanks := s.blanks ++ [b] } f rest hs (fun b' hb' => hb b' (by simp [hb']))]
    simp

theorem vswRun_layout (f : Str) (l : Layout) (hf : ∀ e ∈ l.elems, e.at_.filename = f) :
    (vswRun [⟨f, true, [], 0⟩] l.elems).2 = l.hints := by
  obtain ⟨segs, tail⟩ := l
  simp only [Layout.elems, Layout.hints] at hf ⊢
  have main : ∀ (segs : List (List BlankLine × Item)) (bof : Bool) (n : Nat),
      (∀ e ∈ segs.flatMap (fun s => s.1.map BlankLine.elem ++ [s.2.elem]) ++ tail.map BlankLine.elem,
        e.at_.filename = f) →
      (vswRun [⟨f, bof, [], n⟩]
        (segs.flatMap (fun s => s.1.map BlankLine.elem ++ [s.2.elem]) ++ tail.map BlankLine.elem)).2 =
      segHints bof n segs ++ endHints tail := by
    intro segs
    induction segs with
    | nil =>
      intro bof n hf
      have h1 := handle_gap ⟨f, bof, [], n⟩ tail f [] rfl (by
        intro b hb
        exact hf (BlankLine.elem b) (List.mem_append.2 (.inr (List.mem_map.2 ⟨b, hb, rfl⟩))))
      simp only [List.append_nil] at h1
      simp only [List.flatMap_nil, List.nil_append]
      rw [h1]
      have h2 := eof_hints { filename := f, bof := bof, blanks := [] ++ tail, lastVarsets := n }
      simp only [vswRun, vswEnd, vswEndFrom, List.append_nil, segHints]
      rw [h2]
      simp
    | cons sg segs ih =>
      obtain ⟨gap, item⟩ := sg
      intro bof n hf
      have hgap : ∀ b ∈ gap, b.2.filename = f := by
        intro b hb
        exact hf (BlankLine.elem b) (by
          simp only [List.flatMap_cons, List.mem_append, List.mem_map]
          exact .inl (.inl (.inl ⟨b, hb, rfl⟩)))
      have hitem : item.elem.at_.filename = f := hf _ (by simp [List.flatMap_cons])
      simp only [List.flatMap_cons, List.append_assoc]
      rw [handle_gap ⟨f, bof, [], n⟩ gap f _ rfl hgap]
      simp only [List.nil_append, List.cons_append, vswRun]
      have rest := fun b m => ih b m (fun e he => hf e (by
        simp only [List.flatMap_cons, List.append_assoc, List.mem_append] at he ⊢
        rcases he with he | he
        · exact .inr (.inr (.inl he))
        · exact .inr (.inr (.inr he))))
      cases item with
      | ctx c =>
        have hs : vswStep [⟨f, bof, gap, n⟩] (.ctx c) =
            ([⟨f, false, [], 0⟩], gap.map blankElem ++ [.ctx c],
              flushMsgs bof gap c.at_ .H_WSV_CTX_BETWEEN (if n ≤ 2 then 0 else 1) 2) := by
          have : f = c.at_.filename := hitem.symm
          simp [vswStep, Elem.at_, this, vswPop, Vsw.handle]
        rw [show (Item.ctx c).elem = Elem.ctx c from rfl, hs]
        simp only [rest, segHints, List.append_assoc]
        congr 1
        by_cases hn : n ≤ 2
        · simp only [hn, if_true, flushMsgs_gap]
          have : ¬ 3 ≤ n := by omega
          simp [this]
        · simp only [hn, if_false, flushMsgs_min]
          have : 3 ≤ n := by omega
          simp [this]
      | var v =>
        have hs : vswStep [⟨f, bof, gap, n⟩] (.var v) =
            ([⟨f, false, [], n + 1⟩], gap.map blankElem ++ [.var v],
              flushMsgs bof gap v.at_ .H_WSV_VARSET_BETWEEN 0 1) := by
          have : f = v.at_.filename := hitem.symm
          simp [vswStep, Elem.at_, this, vswPop, Vsw.handle]
        rw [show (Item.var v).elem = Elem.var v from rfl, hs]
        simp only [rest, segHints, List.append_assoc, flushMsgs_gap]
  exact main segs true 0 hf

theorem layout_exists (es : List Elem) : ∃ l : Layout, l.elems = es := by
  induction es with
  | nil => exact ⟨⟨[], []⟩, rfl⟩
  | cons e es ih =>
    obtain ⟨⟨segs, tail⟩, rfl⟩ := ih
    cases e with
    | ctx c => exact ⟨⟨([], .ctx c) :: segs, tail⟩, by simp [Layout.elems, Item.elem]⟩
    | var c => exact ⟨⟨([], .var c) :: segs, tail⟩, by simp [Layout.elems, Item.elem]⟩
    | empty c w =>
      cases segs with
      | nil => exact ⟨⟨[], (c, w) :: tail⟩, by simp [Layout.elems, BlankLine.elem]⟩
      | cons s segs => exact ⟨⟨((c, w) :: s.1, s.2) :: segs, tail⟩, by simp [Layout.elems, BlankLine.elem]⟩

/-- Starting with an empty stack or with a fresh entry is the same. -/
theorem vswRun_fresh (f : Str) (es : List Elem) (hne : es ≠ []) (hf : ∀ e ∈ es, e.at_.filename = f) :
    vswRun [] es = vswRun [⟨f, true, [], 0⟩] es := by
  obtain ⟨e, es, rfl⟩ := List.exists_cons_of_ne_nil hne
  have he : f = e.at_.filename := (hf e (by simp)).symm
  have : vswStep [] e = vswStep [⟨f, true, [], 0⟩] e := by
    simp [vswStep, he, vswPop]
  simp only [vswRun, this]

/-! ### grouping -/

theorem addToLast_snoc (v : VarE) (st : AggState) (c : CtxE) (vs : List VarE) :
    addToLast v (st ++ [(c, vs)]) = st ++ [(c, vs ++ [v])] := by
  induction st with
  | nil => rfl
  | cons x xs ih =>
    cases xs with
    | nil => rfl
    | cons y ys =>
      simp only [List.cons_append, addToLast]
      rw [show y :: (ys ++ [(c, vs)]) = (y :: ys) ++ [(c, vs)] from rfl, ih]
      simp

theorem aggRun_append (st : AggState) (a b : List Elem) :
    aggRun st (a ++ b) = ((aggRun (aggRun st a).1 b).1, (aggRun st a).2 ++ (aggRun (aggRun st a).1 b).2) := by
  induction a generalizing st with
  | nil => rfl
  | cons e es ih => simp only [List.cons_append, aggRun, ih, List.append_assoc]

theorem aggRun_pre (es : List Elem) (h : ∀ e ∈ es, isCtx e = false) :
    aggRun [] es = ([], (varsOf es).map fun v => ⟨.E_CONF_CTX_MISSING, v.at_, [], none⟩) := by
  induction es with
  | nil => rfl
  | cons e es ih =>
    have hi := ih (fun e' he' => h e' (by simp [he']))
    cases e with
    | ctx c => have := h (.ctx c) (by simp); simp [isCtx] at this
    | var v => simp [aggRun, aggStep, hi, varsOf]
    | empty c w => simp [aggRun, aggStep, hi, varsOf]

theorem aggRun_body (st : AggState) (c : CtxE) (vs : List VarE) (es : List Elem)
    (h : ∀ e ∈ es, isCtx e = false) :
    aggRun (st ++ [(c, vs)]) es = (st ++ [(c, vs ++ varsOf es)], []) := by
  induction es generalizing vs with
  | nil => simp [aggRun, varsOf]
  | cons e es ih =>
    have hi := fun vs => ih vs (fun e' he' => h e' (by simp [he']))
    cases e with
    | ctx c => have := h (.ctx c) (by simp); simp [isCtx] at this
    | var v =>
      have hs : aggStep (st ++ [(c, vs)]) (.var v) = (st ++ [(c, vs ++ [v])], []) := by
        simp only [aggStep]
        split
        · rename_i hst; simp at hst
        · rw [addToLast_snoc]
      simp only [aggRun, hs, hi, varsOf]
      simp
    | empty c w => simp [aggRun, aggStep, hi, varsOf]

theorem aggRun_blocks (st : AggState) (blocks : List (CtxE × List Elem))
    (h : ∀ b ∈ blocks, ∀ e ∈ b.2, isCtx e = false) :
    aggRun st (blocks.flatMap fun b => .ctx b.1 :: b.2) =
      (st ++ blocks.map (fun b => (b.1, varsOf b.2)), []) := by
  induction blocks generalizing st with
  | nil => simp [aggRun]
  | cons b bs ih =>
    simp only [List.flatMap_cons, List.cons_append]
    have h1 : aggRun st (Elem.ctx b.1 :: (b.2 ++ bs.flatMap fun b => .ctx b.1 :: b.2)) =
        aggRun (st ++ [(b.1, [])]) (b.2 ++ bs.flatMap fun b => .ctx b.1 :: b.2) := by
      simp [aggRun, aggStep]
    rw [h1, aggRun_append, aggRun_body st b.1 [] b.2 (h b (by simp))]
    simp only [List.nil_append]
    rw [ih _ (fun b' hb' => h b' (by simp [hb']))]
    simp

theorem blocks_exist (es : List Elem) : ∃ (pre : List Elem) (blocks : List (CtxE × List Elem)),
    es = pre ++ blocks.flatMap (fun b => .ctx b.1 :: b.2) ∧ (∀ e ∈ pre, isCtx e = false) ∧
      ∀ b ∈ blocks, ∀ e ∈ b.2, isCtx e = false := by
  induction es with
  | nil => exact ⟨[], [], rfl, by simp, by simp⟩
  | cons e es ih =>
    obtain ⟨pre, blocks, rfl, h1, h2⟩ := ih
    cases hc : isCtx e with
    | false => exact ⟨e :: pre, blocks, rfl, by simpa [hc] using h1, h2⟩
    | true =>
      cases e with
      | ctx c => exact ⟨[], (c, pre) :: blocks, by simp, by simp, by
          intro b hb
          rcases List.mem_cons.1 hb with rfl | hb
          · exact h1
          · exact h2 b hb⟩
      | var v => simp [isCtx] at hc
      | empty c w => simp [isCtx] at hc

/-! ### begin-of-file and end-of-file hints -/

theorem longRuns_filter (k kind : MK) (max : Nat) (rs : List (List Where)) (h : kind ≠ k) :
    (longRuns kind max rs).filter (fun m => decide (m.kind = k)) = [] := by
  rw [List.filter_eq_nil_iff]
  intro m hm
  simp only [longRuns, List.mem_filterMap, Option.map_eq_some_iff] at hm
  obtain ⟨r, _, w, _, rfl⟩ := hm
  simpa using h

theorem gapHints_other (k : MK) (b : Bool) (gap : List BlankLine) (kind : MK) (max : Nat)
    (h : kind ≠ k) (hb : k ≠ .W_WSV_BOF ∨ b = false) :
    (gapHints b gap kind max).filter (fun m => decide (m.kind = k)) = [] := by
  unfold gapHints
  split
  · rename_i w gap'
    rcases hb with hb | hb
    · rw [List.filter_cons_of_neg (by simpa using Ne.symm hb)]
      exact longRuns_filter k kind max _ h
    · simp at hb
  · exact longRuns_filter k kind max _ h

theorem segHints_other (k : MK) (segs : List (List BlankLine × Item)) (b : Bool) (n : Nat)
    (h1 : MK.H_WSV_CTX_BETWEEN ≠ k) (h2 : MK.H_WSV_VARSET_BETWEEN ≠ k)
    (hb : k ≠ .W_WSV_BOF ∨ b = false) :
    (segHints b n segs).filter (fun m => decide (m.kind = k)) = [] := by
  induction segs generalizing b n with
  | nil => rfl
  | cons s segs ih =>
    obtain ⟨gap, item⟩ := s
    cases item with
    | ctx c =>
      simp only [segHints, List.filter_append, ih false 0 (.inr rfl), List.append_nil]
      split
      · simp [h1]
      · exact gapHints_other k b gap _ _ h1 hb
    | var v =>
      simp only [segHints, List.filter_append, ih false (n + 1) (.inr rfl), List.append_nil]
      exact gapHints_other k b gap _ _ h2 hb

theorem endHints_bof (gap : List BlankLine) :
    (endHints gap).filter (fun m => decide (m.kind = .W_WSV_BOF)) = [] := by
  unfold endHints
  split
  · rfl
  · exact longRuns_filter _ _ _ _ (by decide)
  · rw [List.filter_append, longRuns_filter _ _ _ _ (by decide)]; simp

theorem gapHints_bof (gap : List BlankLine) (kind : MK) (max : Nat) (h : kind ≠ .W_WSV_BOF) :
    (gapHints true gap kind max).filter (fun m => decide (m.kind = .W_WSV_BOF)) =
      match gap with
      | (false, w) :: _ => [⟨.W_WSV_BOF, w, [], none⟩]
      | _ => [] := by
  unfold gapHints
  split
  · rename_i w gap' _
    rw [List.filter_cons_of_pos (by simp), longRuns_filter _ kind max _ h]
  · rename_i hx
    rw [longRuns_filter _ kind max _ h]
    split
    · exact (hx _ _ rfl rfl).elim
    · rfl

end ALint
