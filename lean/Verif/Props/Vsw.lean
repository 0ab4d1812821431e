import Verif.Model.Dialplan
import Verif.Proofs.Vsw

/-!
# C16–C18: blank lines, layout hints, grouping
-/

namespace ALint.Props
open ALint ALint.Spec

/-! Example elements: line `n` of the file `f`. -/
private def wh (f : String) (n : Int) : Where := ⟨f.toList, n, []⟩
private def bl (f : String) (n : Int) : Elem := .empty false (wh f n)
private def cm (f : String) (n : Int) : Elem := .empty true (wh f n)
private def hd (f : String) (n : Int) : Elem := .ctx ⟨c! "c", [], false, wh f n⟩
private def as_ (f : String) (n : Int) : Elem := .var ⟨c! "k", c! "v", false, false, wh f n⟩

/-! ## C16 -/

/-- C16: the headers and assignments delivered by the vertical-space checker are those
it received, in order — for elements of any mix of files. -/
theorem C16_delivered (es : List Elem) :
    (vswRun [] es).1.filter notBlank = es.filter notBlank := vswRun_filter [] es

/-- C16: the contexts built (and the messages about assignments outside any context)
are the same as without all blank and comment-only lines and without the checker. -/
theorem C16_contexts (es : List Elem) :
    aggRun [] (vswRun [] es).1 = aggRun [] (es.filter notBlank) := by
  rw [aggRun_filter, C16_delivered]

/-- C16: the same holds for a dialplan: contexts, steps, jumps and messages are those without all blank and comment-only lines. -/
theorem C16_dialplan (env : DEnv) (st : DState) (es : List Elem) :
    feed (dialplanStep env) st (vswRun [] es).1 = feed (dialplanStep env) st (es.filter notBlank) := by
  have key : ∀ (l : List Elem) (st : DState), feed (dialplanStep env) st l = feed (dialplanStep env) st (l.filter notBlank) := by
    intro l
    induction l with
    | nil => intro st; rfl
    | cons e l ih =>
      intro st
      cases e with
      | empty b w => exact (ih st).trans rfl
      | ctx c => simp only [List.filter, notBlank, feed]; congr 1; funext x; exact ih x
      | var v => simp only [List.filter, notBlank, feed]; congr 1; funext x; exact ih x
  rw [key, C16_delivered]

/-- Two files; the trailing blank lines of the outer one are dropped at the end. -/
example : (vswRun [] [bl "a" 1, hd "a" 2, bl "a" 3, hd "b" 1, as_ "b" 2, bl "b" 3]).1 =
    [bl "a" 1, hd "a" 2, hd "b" 1, as_ "b" 2, bl "b" 3] := by decide

/-! ## C17 -/

/-- C17: for the lines of one file, in any layout, the hints are exactly those of the
layout rule (`Layout.hints`), in that order. -/
theorem C17_hints (f : Str) (l : Layout) (hf : ∀ e ∈ l.elems, e.at_.filename = f) :
    (vswRun [] l.elems).2 = l.hints := by
  by_cases h : l.elems = []
  · have h0 := vswRun_layout f l hf
    rw [h] at h0 ⊢
    rw [← h0]
    rfl
  · rw [vswRun_fresh f l.elems h hf, vswRun_layout f l hf]

/-- C17: every sequence of lines has a layout. -/
theorem C17_layout_exists (es : List Elem) : ∃ l : Layout, l.elems = es := layout_exists es

/-- C17: a file that starts with blank lines before its first header or assignment gets
exactly one begin-of-file hint; other files get none. -/
theorem C17_bof (f : Str) (es : List Elem) (hf : ∀ e ∈ es, e.at_.filename = f) :
    ((vswRun [] es).2.filter fun m => decide (m.kind = .W_WSV_BOF)) = bofHint es := by
  obtain ⟨⟨segs, tail⟩, rfl⟩ := layout_exists es
  rw [C17_hints f _ hf, Layout.hints, List.filter_append, endHints_bof, List.append_nil]
  clear hf
  cases segs with
  | nil =>
    simp only [segHints, List.filter_nil, Layout.elems, List.flatMap_nil, List.nil_append]
    have hall : (tail.map BlankLine.elem).any notBlank = false := by
      simp [BlankLine.elem, notBlank]
    unfold bofHint
    split
    · rename_i w rest h
      rw [h] at hall
      simp only [List.any_cons, notBlank, Bool.false_or] at hall
      simp [hall]
    · rfl
  | cons s segs =>
    obtain ⟨gap, item⟩ := s
    have key : (segHints true 0 ((gap, item) :: segs)).filter (fun m => decide (m.kind = .W_WSV_BOF)) =
        match gap with
        | (false, w) :: _ => [⟨.W_WSV_BOF, w, [], none⟩]
        | _ => [] := by
      cases item with
      | ctx c =>
        simp only [segHints, List.filter_append]
        rw [segHints_other _ _ _ _ (by decide) (by decide) (.inr rfl), List.append_nil]
        rw [if_neg (by simp)]
        exact gapHints_bof gap _ _ (by decide)
      | var v =>
        simp only [segHints, List.filter_append]
        rw [segHints_other _ _ _ _ (by decide) (by decide) (.inr rfl), List.append_nil]
        exact gapHints_bof gap _ _ (by decide)
    rw [key]
    simp only [Layout.elems, List.flatMap_cons]
    cases gap with
    | nil => cases item <;> simp [bofHint, Item.elem]
    | cons b gap =>
      obtain ⟨c, w⟩ := b
      cases c with
      | true => simp [bofHint, BlankLine.elem]
      | false => cases item <;> simp [bofHint, BlankLine.elem, Item.elem, notBlank]

/-- C17: a file whose last line is a pure blank line gets exactly one end-of-file hint,
at that line; other files get none. -/
theorem C17_eof (f : Str) (es : List Elem) (hf : ∀ e ∈ es, e.at_.filename = f) :
    ((vswRun [] es).2.filter fun m => decide (m.kind = .W_WSV_EOF)) = eofHint es := by
  obtain ⟨⟨segs, tail⟩, rfl⟩ := layout_exists es
  rw [C17_hints f _ hf, Layout.hints, List.filter_append,
    segHints_other _ _ _ _ (by decide) (by decide) (.inl (by decide)), List.nil_append]
  clear hf
  simp only [Layout.elems, eofHint, List.getLast?_append, List.getLast?_map]
  unfold endHints
  cases h : tail.getLast? with
  | none =>
    simp only [Option.map_none, Option.none_or, List.filter_nil]
    split
    · rename_i w hw
      exfalso
      obtain ⟨init, hi⟩ := List.getLast?_eq_some_iff.1 hw
      cases hs : segs.reverse with
      | nil => simp at hs; subst hs; simp at hi
      | cons s ss =>
        have : segs = ss.reverse ++ [s] := by rw [← List.reverse_reverse segs, hs]; simp
        subst this
        obtain ⟨gap, item⟩ := s
        cases item <;> simp [List.flatMap_append, Item.elem] at hw
    · rfl
  | some b =>
    obtain ⟨c, w⟩ := b
    cases c with
    | true => simp [BlankLine.elem, longRuns_filter]
    | false => simp [BlankLine.elem, longRuns_filter]

/-- Every rule at work. -/
example : (vswRun [] [bl "f" 1, bl "f" 2, cm "f" 3, bl "f" 4, bl "f" 5, bl "f" 6, hd "f" 7,
    as_ "f" 8, bl "f" 9, as_ "f" 10, bl "f" 11, bl "f" 12, as_ "f" 13, hd "f" 14, bl "f" 15,
    bl "f" 16, bl "f" 17, cm "f" 18, bl "f" 19, bl "f" 20]).2 =
    [⟨.W_WSV_BOF, wh "f" 1, [], none⟩, ⟨.H_WSV_CTX_BETWEEN, wh "f" 6, [], none⟩,
      ⟨.H_WSV_VARSET_BETWEEN, wh "f" 12, [], none⟩, ⟨.H_WSV_CTX_BETWEEN, wh "f" 14, [], none⟩,
      ⟨.H_WSV_CTX_BETWEEN, wh "f" 17, [], none⟩, ⟨.W_WSV_EOF, wh "f" 20, [], none⟩] := by
  decide

/-! ## C18 -/

/-- C18: elements up to the first header, then headers each with the elements up to the
next one: the contexts are those headers, each with its assignments; the assignments
before the first header are reported, one message each. -/
theorem C18_grouping (pre : List Elem) (blocks : List (CtxE × List Elem))
    (hpre : ∀ e ∈ pre, isCtx e = false) (hb : ∀ b ∈ blocks, ∀ e ∈ b.2, isCtx e = false) :
    aggRun [] (pre ++ blocks.flatMap fun b => .ctx b.1 :: b.2) =
      (blocks.map (fun b => (b.1, varsOf b.2)),
        (varsOf pre).map fun v => ⟨.E_CONF_CTX_MISSING, v.at_, [], none⟩) := by
  rw [aggRun_append, aggRun_pre pre hpre]
  simp only
  rw [aggRun_blocks [] blocks hb]
  simp

/-- C18: every sequence is of that form. -/
theorem C18_exhaustive (es : List Elem) : ∃ (pre : List Elem) (blocks : List (CtxE × List Elem)),
    es = pre ++ blocks.flatMap (fun b => .ctx b.1 :: b.2) ∧ (∀ e ∈ pre, isCtx e = false) ∧
      ∀ b ∈ blocks, ∀ e ∈ b.2, isCtx e = false := blocks_exist es

theorem varsOf_append (a b : List Elem) : varsOf (a ++ b) = varsOf a ++ varsOf b := by
  induction a with
  | nil => rfl
  | cons e es ih => cases e <;> simp [varsOf, ih]

/-- C18: nothing is lost, duplicated or reordered: reported assignments, then those of
the contexts, are all assignments. -/
theorem C18_conserved (es : List Elem) :
    (aggRun [] es).2.length + ((aggRun [] es).1.flatMap (·.2)).length = (varsOf es).length ∧
    (aggRun [] es).1.flatMap (·.2) = (varsOf es).drop (aggRun [] es).2.length ∧
    (aggRun [] es).1.map (·.1) = es.filterMap (fun e => match e with | .ctx c => some c | _ => none) := by
  obtain ⟨pre, blocks, rfl, h1, h2⟩ := blocks_exist es
  rw [C18_grouping pre blocks h1 h2]
  have hv : varsOf (blocks.flatMap fun b => Elem.ctx b.1 :: b.2) =
      (blocks.map fun b => (b.1, varsOf b.2)).flatMap (·.2) := by
    clear h1 h2
    induction blocks with
    | nil => rfl
    | cons b bs ih => simp [List.flatMap_cons, varsOf, varsOf_append, ih]
  have hn : ∀ l : List Elem, (∀ e ∈ l, isCtx e = false) →
      l.filterMap (fun e => match e with | .ctx c => some c | _ => none) = ([] : List CtxE) := by
    intro l hl
    induction l with
    | nil => rfl
    | cons e es ih =>
      have := ih (fun e' he' => hl e' (by simp [he']))
      have h0 := hl e (by simp)
      cases e <;> simp_all [isCtx]
  refine ⟨?_, ?_, ?_⟩
  · rw [varsOf_append, hv]; simp
  · rw [varsOf_append, hv]; simp
  · simp only [List.filterMap_append, hn pre h1, List.nil_append]
    clear hv h1
    induction blocks with
    | nil => rfl
    | cons b bs ih =>
      have := ih (fun b' hb' => h2 b' (by simp [hb']))
      simp [List.flatMap_cons, hn b.2 (h2 b (by simp)), ← this]

example : aggRun [] [as_ "f" 1, bl "f" 2, hd "f" 3, as_ "f" 4, cm "f" 5, as_ "f" 6, hd "g" 7, hd "f" 8, as_ "f" 9] =
    ([(⟨c! "c", [], false, wh "f" 3⟩,
        [⟨c! "k", c! "v", false, false, wh "f" 4⟩, ⟨c! "k", c! "v", false, false, wh "f" 6⟩]),
      (⟨c! "c", [], false, wh "g" 7⟩, []),
      (⟨c! "c", [], false, wh "f" 8⟩, [⟨c! "k", c! "v", false, false, wh "f" 9⟩])],
      [⟨.E_CONF_CTX_MISSING, wh "f" 1, [], none⟩]) := by decide

end ALint.Props
