import Verif.Props.Dialplan
import Verif.Proofs.DialplanList
import Verif.Model.Show
import Verif.Spec.App

/-!
# C52, C67: listings
-/

namespace ALint.Props
open ALint ALint.Spec

/-! ## C52 -/

/-- C52: the listing of a context has every step once, by extension in the order of the
patterns, however additions and listings were interleaved before. -/
theorem C52_listing (c : DCtx) (h : Built c) : Listing c.steps c.byPattern.1 :=
  listing_of (built_sorted h)

/-- C52: the same for the contexts of a dialplan that was read. -/
theorem C52_listing_read (env : DEnv) (sp : Option Str) (es : List Elem) (log : List Msg) (st : DState)
    (h : After env sp es log st) (c : DCtx) (hc : c ∈ st.dp.contexts) : Listing c.steps c.byPattern.1 :=
  listing_of ((after_inv h).1.ctxs c hc).sorted

/-- C52: an extension is listed in one piece. -/
theorem C52_grouped (steps l : List Step) (h : Listing steps l) (a m b : List Step) (s t : Step)
    (hl : l = a ++ s :: m ++ t :: b) (hst : s.pat = t.pat) : ∀ u ∈ m, u.pat = s.pat := by
  intro u hu
  obtain ⟨m1, m2, rfl⟩ := List.append_of_mem hu
  have ho := h.ordered
  rw [hl, List.pairwise_iff_forall_sublist] at ho
  have h1 : s.pat = u.pat ∨ Pattern.patLt s.pat u.pat = true := ho (by
    refine List.Sublist.trans ?_ (List.sublist_append_left _ _)
    refine List.Sublist.trans ?_ (List.sublist_append_right _ _)
    refine List.Sublist.cons_cons _ ?_
    refine List.Sublist.trans ?_ (List.sublist_append_right _ _)
    exact List.Sublist.cons_cons _ (List.nil_sublist _))
  have h2 : u.pat = t.pat ∨ Pattern.patLt u.pat t.pat = true := ho (by
    have : a ++ s :: (m1 ++ u :: m2) ++ t :: b = (a ++ s :: m1) ++ (u :: (m2 ++ t :: b)) := by simp
    rw [this]
    refine List.Sublist.trans ?_ (List.sublist_append_right _ _)
    refine List.Sublist.cons_cons _ ?_
    refine List.Sublist.trans ?_ (List.sublist_append_right _ _)
    exact List.Sublist.cons_cons _ (List.nil_sublist _))
  rcases h1 with h1 | h1
  · exact h1.symm
  · rcases h2 with h2 | h2
    · exact h2.trans hst.symm
    · rw [hst] at h1
      have := Pattern.patLt_STO.trans _ _ _ h1 h2
      rw [Pattern.patLt_STO.irrefl] at this
      exact absurd this (by simp)

/-- Three lines, the priorities of one extension not in order. -/
def disorder : List Elem := [demoHead 1 (c! "a"), demoExten 2 (c! "s,2,NoOp()"), demoExten 3 (c! "s,1,NoOp()")]

/-- C52 as stated is violated: the steps of an extension are listed in the order of the
file, and priorities out of order are reported but kept. -/
theorem C52_violated_order : ∃ (es : List Elem) (log : List Msg) (st : DState) (c : DCtx),
    After demoEnv none es log st ∧ c ∈ st.dp.contexts ∧
    ¬ c.byPattern.1.Pairwise fun s t => s.pat = t.pat → s.prio ≤ t.prio := by
  let r := feed (dialplanStep demoEnv) (.init none) disorder
  let st := (r.val.toOption).getD (.init none)
  refine ⟨disorder, r.log, st, (st.dp.get (c! "a")).getD ⟨[], demoW 0, [], [], none, [], none⟩, ?_, ?_, ?_⟩
  · have h : r.val.toOption.isSome = true := by decide
    unfold After
    cases hx : r.val with
    | error e => rw [hx] at h; simp [Except.toOption] at h
    | ok s =>
      have : st = s := by simp [st, hx, Except.toOption]
      rw [this, ← hx]
  · decide
  · decide

/-- C52, the part that holds: if neither a priority out of order nor a duplicate was reported, the
steps of every extension are listed as 1, 2, 3, …. -/
theorem C52_priorities_partial (env : DEnv) (sp : Option Str) (es : List Elem) (log : List Msg) (st : DState)
    (h : After env sp es log st) (hq : ∀ m ∈ log, m.kind ≠ .W_DP_PRIO_BADORDER ∧ m.kind ≠ .E_DP_PRIO_DUPE)
    (c : DCtx) (hc : c ∈ st.dp.contexts) (p : Pattern.Values) :
    (c.byPattern.1.filter (·.pat = p)).map (·.prio) = List.range' 1 (c.byPattern.1.filter (·.pat = p)).length := by
  have hN := feed_numbered (DpInv.init sp) (Numbered.init sp) h hq
  have := hN.groups c.name p
  rw [stepsOf_get (get_of_mem (after_inv h).1.names hc)] at this
  rw [(C52_listing_read env sp es log st h c hc).stable]
  exact this

-- a dialplan without such reports, with two extensions in turn
example : let es := [demoHead 1 (c! "a"), demoExten 2 (c! "s,1,NoOp()"), demoExten 3 (c! "1,1,NoOp()"),
      demoSame 4 (c! "n,NoOp()"), demoExten 5 (c! "s,2,NoOp()")]
    let r := feed (dialplanStep demoEnv) (.init none) es
    (∀ m ∈ r.log, m.kind ≠ .W_DP_PRIO_BADORDER ∧ m.kind ≠ .E_DP_PRIO_DUPE) ∧
    r.val.toOption.map (fun st => st.dp.contexts.map fun c => c.byPattern.1.map fun s => (s.raw, s.prio)) =
      some [[(c! "1", 1), (c! "1", 2), (c! "s", 1), (c! "s", 2)]] := by decide

/-! ## C67 -/

/-- The text filled up with blanks to a width; longer texts stay as they are. -/
def Column (n : Nat) (s t : Str) : Prop :=
  ∃ k, t = s ++ List.replicate k ' ' ∧ (t.length = n ∨ k = 0 ∧ n ≤ s.length)

theorem padRight_column (n : Nat) (s : Str) : Column n s (padRight n s) := by
  refine ⟨n - s.length, rfl, ?_⟩
  unfold padRight
  rw [List.length_append, List.length_replicate]
  omega

/-- An application as it is shown: a parenthesis that is nowhere in it is added at the end. -/
inductive Parenthesised : Str → Str → Prop
  | both {s : Str} : '(' ∈ s → ')' ∈ s → Parenthesised s s
  | opened {s : Str} : '(' ∈ s → ')' ∉ s → Parenthesised s (s ++ c! ")")
  | closed {s : Str} : '(' ∉ s → ')' ∈ s → Parenthesised s (s ++ c! "(")
  | neither {s : Str} : '(' ∉ s → ')' ∉ s → Parenthesised s (s ++ c! "()")

theorem parens_shown (s : Str) : Parenthesised s (appWithParens s) := by
  unfold appWithParens
  by_cases h1 : '(' ∈ s <;> by_cases h2 : ')' ∈ s <;> simp only [h1, h2, if_true, if_false, List.append_nil]
  · exact .both h1 h2
  · exact .opened h1 h2
  · exact .closed h1 h2
  · rw [List.append_assoc]; exact .neither h1 h2

/-- The line of a step: at the left the extension, for its first step, or the label of the
step if it has one; then priority and application. -/
structure ShowsStep (first : Bool) (s : Step) (line : Str) : Prop where
  shown : ∃ left right app, line = left ++ c! " " ++ right ++ c! " [pbx_config]" ∧
    Parenthesised s.app app ∧ Column 45 (natStr s.prio ++ c! ". " ++ app) right ∧
    (first = true → ∃ x, Column 17 (c! "'" ++ s.raw ++ c! "' =>") x ∧ left = c! "  " ++ x) ∧
    (first = false → ∀ l, Labelled s l → ∃ x, Column 14 (c! "[" ++ l ++ c! "]") x ∧ left = c! "     " ++ x) ∧
    (first = false → (∀ l, ¬ Labelled s l) → left = List.replicate 19 ' ')

theorem showFirst_shows (s : Step) : ShowsStep true s (showFirst s) :=
  ⟨⟨c! "  " ++ padRight 17 (c! "'" ++ s.raw ++ c! "' =>"), padRight 45 (showApp s), appWithParens s.app, rfl,
    parens_shown _, padRight_column _ _, fun _ => ⟨_, padRight_column _ _, rfl⟩, by simp, by simp⟩⟩

theorem showNext_shows (s : Step) : ShowsStep false s (showNext s) := by
  refine ⟨⟨c! "     " ++ padRight 14 (showLabel s), padRight 45 (showApp s), appWithParens s.app, rfl,
    parens_shown _, padRight_column _ _, by simp, fun _ l hl => ?_, fun _ hl => ?_⟩⟩
  · refine ⟨_, padRight_column _ _, ?_⟩
    unfold showLabel
    rw [realLabel_iff.2 hl]
  · have : showLabel s = [] := by
      unfold showLabel
      cases h : realLabel s.label with
      | none => rfl
      | some l => exact absurd (realLabel_iff.1 h) (hl l)
    rw [this]
    rfl

theorem showSteps_length (last : Option Pattern.Values) (l : List Step) : (showSteps last l).length = l.length := by
  induction l generalizing last with
  | nil => rfl
  | cons s l ih => unfold showSteps; split <;> simp [ih]

/-- The step before this one (or `last`) has the extension. -/
theorem showSteps_at (last : Option Pattern.Values) (pre post : List Step) (s : Step) :
    (showSteps last (pre ++ s :: post))[pre.length]? =
      some (if some s.pat = (pre.getLast?.map (·.pat)).or last then showNext s else showFirst s) := by
  induction pre generalizing last with
  | nil =>
    simp only [List.nil_append, List.length_nil, showSteps]
    split <;> simp [*]
  | cons t pre ih =>
    have hl : ((t :: pre).getLast?.map (·.pat)).or last = (pre.getLast?.map (·.pat)).or (some t.pat) := by
      cases pre with
      | nil => simp
      | cons u us =>
        rw [List.getLast?_cons_cons]
        cases h : (u :: us).getLast? with
        | none => simp at h
        | some x => rfl
    rw [hl]
    simp only [List.cons_append, List.length_cons, showSteps]
    split
    · rename_i h
      rw [List.getElem?_cons_succ, ih, ← h]
    · rw [List.getElem?_cons_succ, ih]

/-- The lines for a context: header, one line for each step, one for each include, an
empty one.  The extension is on the line of its first step and only there. -/
structure ShowsCtx (repr : Str → Str) (c : DCtx) (block : List Str) : Prop where
  lines : ∃ l steps incls, Listing c.steps l ∧
    block = (c! "[ Context " ++ repr c.name ++ c! " created by 'pbx_config' ]") :: (steps ++ incls ++ [[]]) ∧
    steps.length = l.length ∧
    (∀ pre s post, l = pre ++ s :: post → ∃ line, steps[pre.length]? = some line ∧
      ShowsStep (decide (∀ t ∈ pre, t.pat ≠ s.pat)) s line) ∧
    Zips (fun i line => ∃ x y, Column 17 (c! "Include =>") x ∧ Column 45 (c! "'" ++ i.1 ++ c! "'") y ∧
      line = c! "  " ++ x ++ c! " " ++ y ++ c! " [pbx_config]") c.includes incls

theorem last_of_group {steps l pre post : List Step} {s : Step} (h : Listing steps l) (hl : l = pre ++ s :: post) :
    (some s.pat = (pre.getLast?.map (·.pat)).or none) ↔ ¬ ∀ t ∈ pre, t.pat ≠ s.pat := by
  constructor
  · intro h1 h2
    cases hp : pre.getLast? with
    | none => rw [hp] at h1; simp at h1
    | some t =>
      rw [hp] at h1
      simp at h1
      exact h2 t (List.mem_of_getLast? hp) h1.symm
  · intro h1
    have : ∃ t ∈ pre, t.pat = s.pat := by
      apply Classical.byContradiction
      intro hh
      exact h1 fun t ht he => hh ⟨t, ht, he⟩
    obtain ⟨t, ht, he⟩ := this
    cases hp : pre.getLast? with
    | none => rw [List.getLast?_eq_none_iff] at hp; subst hp; simp at ht
    | some u =>
      simp
      obtain ⟨ys, rfl⟩ := List.getLast?_eq_some_iff.1 hp
      rcases List.mem_append.1 ht with ht | ht
      · obtain ⟨y1, y2, rfl⟩ := List.append_of_mem ht
        have := C52_grouped steps l h y1 (y2 ++ [u]) post t s (by rw [hl]; simp) he u (by simp)
        rw [this, he]
      · simp at ht; subst ht; exact he.symm

/-- C67: what `dialplan-show` prints: the contexts in the order of the file (or reversed),
each with all its steps in the order of C52 and its includes. -/
theorem C67_show (env : DEnv) (sp : Option Str) (es : List Elem) (log : List Msg) (st : DState)
    (h : After env sp es log st) (repr : Str → Str) (reverse : Bool) :
    ∃ blocks : List (List Str), showDialplan repr reverse st.dp = joinWith '\n' blocks.flatten ∧
      Zips (ShowsCtx repr) (if reverse then st.dp.contexts.reverse else st.dp.contexts) blocks := by
  have hall : ∀ c ∈ (if reverse then st.dp.contexts.reverse else st.dp.contexts), ShowsCtx repr c (showCtx repr c) := by
    intro c hc
    have hc : c ∈ st.dp.contexts := by
      split at hc
      · exact List.mem_reverse.1 hc
      · exact hc
    have hL := C52_listing_read env sp es log st h c hc
    refine ⟨c.byPattern.1, showSteps none c.byPattern.1, c.includes.map showInclude, hL, ?_, showSteps_length _ _, ?_, ?_⟩
    · unfold showCtx showHeader; simp
    · intro pre s post hl
      refine ⟨_, by rw [hl]; exact showSteps_at none pre post s, ?_⟩
      by_cases hg : ∀ t ∈ pre, t.pat ≠ s.pat
      · rw [if_neg (fun hh => (last_of_group hL hl).1 hh hg), decide_eq_true hg]
        exact showFirst_shows s
      · rw [if_pos ((last_of_group hL hl).2 hg), decide_eq_false hg]
        exact showNext_shows s
    · induction c.includes with
      | nil => exact .nil
      | cons i is ih =>
        refine .cons ?_ ih
        exact ⟨_, _, padRight_column _ _, padRight_column _ _, rfl⟩
  refine ⟨(if reverse then st.dp.contexts.reverse else st.dp.contexts).map (showCtx repr), ?_, ?_⟩
  · unfold showDialplan showLines
    rw [List.flatMap_def]
  · generalize (if reverse then st.dp.contexts.reverse else st.dp.contexts) = l at hall ⊢
    induction l with
    | nil => exact .nil
    | cons c l ih => exact .cons (hall c (by simp)) (ih fun d hd => hall d (by simp [hd]))

example : (showLines (fun n => c! "'" ++ n ++ c! "'") false demoState.dp).map String.ofList =
    ["[ Context 'a' created by 'pbx_config' ]",
     "  '_X-X' =>         1. NoOp()                                     [pbx_config]",
     "                    2. Goto(top)                                  [pbx_config]",
     "                    3. NoOp()                                     [pbx_config]",
     "",
     "[ Context 'b' created by 'pbx_config' ]",
     "  's' =>            1. NoOp()                                     [pbx_config]",
     "  Include =>        'a'                                           [pbx_config]",
     ""] := by decide +kernel

end ALint.Props
