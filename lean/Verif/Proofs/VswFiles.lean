import Verif.Proofs.Vsw
import Verif.Proofs.Separate

/-!
# Blank lines in several files: lemmas
-/

namespace ALint
open Spec

/-- `vswRun` without the end. -/
def vswFold : List Vsw → List Elem → List Vsw × List Msg
  | st, [] => (st, [])
  | st, e :: es => ((vswFold (vswStep st e).1 es).1, (vswStep st e).2.2 ++ (vswFold (vswStep st e).1 es).2)

theorem vswRun_fold (st : List Vsw) (es : List Elem) :
    (vswRun st es).2 = (vswFold st es).2 ++ (vswEnd (vswFold st es).1).2 := by
  induction es generalizing st with
  | nil => rfl
  | cons e es ih => simp only [vswRun, vswFold, ih, List.append_assoc]

theorem vswFold_snoc (st : List Vsw) (es : List Elem) (e : Elem) :
    vswFold st (es ++ [e]) = ((vswStep (vswFold st es).1 e).1, (vswFold st es).2 ++ (vswStep (vswFold st es).1 e).2.2) := by
  induction es generalizing st with
  | nil => simp [vswFold]
  | cons x es ih => simp only [List.cons_append, vswFold, ih, List.append_assoc]

/-- One file on its own. -/
def oneFold (s : Vsw) : List Elem → Vsw × List Msg
  | [] => (s, [])
  | e :: es => ((oneFold (s.handle e).1 es).1, (s.handle e).2.2 ++ (oneFold (s.handle e).1 es).2)

theorem oneFold_snoc (s : Vsw) (es : List Elem) (e : Elem) :
    oneFold s (es ++ [e]) = (((oneFold s es).1.handle e).1, (oneFold s es).2 ++ ((oneFold s es).1.handle e).2.2) := by
  induction es generalizing s with
  | nil => simp [oneFold]
  | cons x es ih => simp only [List.cons_append, oneFold, ih, List.append_assoc]

theorem handle_filename (s : Vsw) (e : Elem) : (s.handle e).1.filename = s.filename := by
  cases e <;> rfl

theorem vswStep_one (s : Vsw) (e : Elem) (h : e.at_.filename = s.filename) :
    vswStep [s] e = ([(s.handle e).1], (s.handle e).2.1, (s.handle e).2.2) := by
  simp [vswStep, vswPop, h]

theorem vswFold_one (s : Vsw) (es : List Elem) (h : ∀ e ∈ es, e.at_.filename = s.filename) :
    vswFold [s] es = ([(oneFold s es).1], (oneFold s es).2) := by
  induction es generalizing s with
  | nil => rfl
  | cons e es ih =>
    simp only [vswFold, oneFold, vswStep_one s e (h e (by simp))]
    rw [ih _ (fun x hx => by rw [handle_filename]; exact h x (by simp [hx]))]

def freshVsw (f : Str) : Vsw := ⟨f, true, [], 0⟩

/-- State and messages of a file on its own. -/
theorem vswRun_own (f : Str) (es : List Elem) (hne : es ≠ []) (h : ∀ e ∈ es, e.at_.filename = f) :
    (vswRun [] es).2 = (oneFold (freshVsw f) es).2 ++ ((oneFold (freshVsw f) es).1.eof true).2 := by
  rw [vswRun_fresh f es hne h, vswRun_fold]
  have := vswFold_one (freshVsw f) es h
  unfold freshVsw at this ⊢
  rw [this]
  simp [vswEnd, vswEndFrom]

/-- All blank lines that are kept are of the file itself. -/
def OwnBlanks (s : Vsw) : Prop := ∀ b ∈ s.blanks, b.2.filename = s.filename

theorem groupBlanks_mem {bs : List (Bool × Where)} : ∀ g ∈ groupBlanks bs, ∀ w ∈ g.2, ∃ b ∈ bs, b.2 = w := by
  induction bs with
  | nil => simp [groupBlanks]
  | cons b bs ih =>
    intro g hg w hw
    obtain ⟨c, v⟩ := b
    simp only [groupBlanks] at hg
    cases hgs : groupBlanks bs with
    | nil =>
      rw [hgs] at hg
      simp only [List.mem_singleton] at hg
      subst hg
      simp only [List.mem_singleton] at hw
      exact ⟨(c, v), by simp, hw.symm⟩
    | cons g' gs =>
      rw [hgs] at hg ih
      obtain ⟨c', ws⟩ := g'
      simp only at hg
      split at hg
      · rcases List.mem_cons.1 hg with rfl | hg
        · rcases List.mem_cons.1 hw with rfl | hw
          · exact ⟨(c, w), by simp, rfl⟩
          · obtain ⟨b, hb, e⟩ := ih (c', ws) (by simp) w hw
            exact ⟨b, by simp [hb], e⟩
        · obtain ⟨b, hb, e⟩ := ih g (by simp [hg]) w hw
          exact ⟨b, by simp [hb], e⟩
      · rcases List.mem_cons.1 hg with rfl | hg
        · simp only [List.mem_singleton] at hw
          exact ⟨(c, v), by simp, hw.symm⟩
        · obtain ⟨b, hb, e⟩ := ih g hg w hw
          exact ⟨b, by simp [hb], e⟩

/-- All messages are about the file. -/
def AllOf (f : Str) (ms : List Msg) : Prop := ∀ m ∈ ms, m.at_.filename = f

theorem AllOf.append {f : Str} {a b : List Msg} (h1 : AllOf f a) (h2 : AllOf f b) : AllOf f (a ++ b) := fun m hm =>
  (List.mem_append.1 hm).elim (h1 m) (h2 m)

theorem longGroups_of {f : Str} {kind : MK} {n : Nat} {gs : List (Bool × List Where)}
    (h : ∀ g ∈ gs, ∀ w ∈ g.2, w.filename = f) : AllOf f (longGroups kind n gs) := by
  intro m hm
  obtain ⟨g, hg, hm⟩ := List.mem_flatMap.1 hm
  split at hm
  · cases hl : g.2.getLast? with
    | none => rw [hl] at hm; simp at hm
    | some w =>
      rw [hl] at hm
      simp only [List.mem_singleton] at hm
      subst hm
      exact h g hg w (List.mem_of_getLast? hl)
  · simp at hm

theorem groups_own {s : Vsw} (h : OwnBlanks s) : ∀ g ∈ groupBlanks s.blanks, ∀ w ∈ g.2, w.filename = s.filename := by
  intro g hg w hw
  obtain ⟨b, hb, rfl⟩ := groupBlanks_mem g hg w hw
  exact h b hb

theorem flush_of {s : Vsw} (h : OwnBlanks s) {w : Where} (hw : w.filename = s.filename) (kind : MK) (mn mx : Nat) :
    AllOf s.filename (flushMsgs s.bof s.blanks w kind mn mx) := by
  have hg := groups_own h
  unfold flushMsgs
  split
  · intro m hm
    simp only [List.mem_singleton] at hm
    subst hm; exact hw
  · cases hx : groupBlanks s.blanks with
    | nil => intro m hm; simp at hm
    | cons g gs =>
      rw [hx] at hg
      simp only
      split
      · refine .append ?_ (longGroups_of fun g' hg' => hg g' (by simp [hg']))
        intro m hm
        cases hl : g.2.head? with
        | none => rw [hl] at hm; simp at hm
        | some w =>
          rw [hl] at hm
          simp only [List.mem_singleton] at hm
          subst hm
          exact hg g (by simp) w (List.mem_of_mem_head? (by rw [hl]; rfl))
      · exact longGroups_of hg

theorem handle_own {s : Vsw} (h : OwnBlanks s) {e : Elem} (he : e.at_.filename = s.filename) :
    OwnBlanks (s.handle e).1 ∧ AllOf s.filename (s.handle e).2.2 := by
  cases e with
  | empty c w =>
    refine ⟨fun b hb => ?_, fun m hm => by simp [Vsw.handle] at hm⟩
    rcases List.mem_append.1 hb with hb | hb
    · exact h b hb
    · simp only [List.mem_singleton] at hb
      subst hb; exact he
  | ctx c => exact ⟨fun b hb => by simp [Vsw.handle] at hb, flush_of h he _ _ _⟩
  | var v => exact ⟨fun b hb => by simp [Vsw.handle] at hb, flush_of h he .H_WSV_VARSET_BETWEEN 0 1⟩

theorem eof_of {s : Vsw} (h : OwnBlanks s) (r : Bool) : AllOf s.filename (s.eof r).2 := by
  have hg := groups_own h
  unfold Vsw.eof
  cases hl : (groupBlanks s.blanks).getLast? with
  | none => simp only [hl]; intro m hm; simp at hm
  | some g =>
    obtain ⟨c, ws⟩ := g
    simp only [hl]
    split
    · exact longGroups_of hg
    · have hf : AllOf s.filename (longGroups .H_WSV_CTX_BETWEEN 2 (groupBlanks s.blanks).dropLast) :=
        longGroups_of fun g hg' => hg g (List.dropLast_subset _ hg')
      split
      · refine .append hf ?_
        intro m hm
        cases hb : s.blanks.getLast? with
        | none => rw [hb] at hm; simp at hm
        | some b =>
          rw [hb] at hm
          simp only [List.mem_singleton] at hm
          subst hm
          exact h b (List.mem_of_getLast? hb)
      · exact hf

/-- Without the end-of-file hint it makes no difference whether it is wanted. -/
theorem eof_report (s : Vsw) : (s.eof false).2 = (s.eof true).2.filter fun m => m.kind ≠ .W_WSV_EOF := by
  have hk : ∀ gs, (longGroups .H_WSV_CTX_BETWEEN 2 gs).filter (fun m => decide (m.kind ≠ .W_WSV_EOF)) =
      longGroups .H_WSV_CTX_BETWEEN 2 gs := by
    intro gs
    rw [List.filter_eq_self]
    intro m hm
    obtain ⟨g, hg, hm⟩ := List.mem_flatMap.1 hm
    split at hm
    · cases hl : g.2.getLast? with
      | none => rw [hl] at hm; simp at hm
      | some w =>
        rw [hl] at hm
        simp only [List.mem_singleton] at hm
        subst hm
        simp
    · simp at hm
  unfold Vsw.eof
  cases hl : (groupBlanks s.blanks).getLast? with
  | none => simp only [hl]; rfl
  | some g =>
    obtain ⟨c, ws⟩ := g
    simp only [hl]
    split
    · exact (hk _).symm
    · simp only [Bool.false_eq_true, if_false, if_true, List.filter_append, hk]
      cases s.blanks.getLast? <;> simp

theorem oneFold_own (f : Str) (es : List Elem) (h : ∀ e ∈ es, e.at_.filename = f) :
    (oneFold (freshVsw f) es).1.filename = f ∧ OwnBlanks (oneFold (freshVsw f) es).1 ∧
      AllOf f (oneFold (freshVsw f) es).2 := by
  induction es using snocInd with
  | nil => exact ⟨rfl, fun b hb => by simp [oneFold, freshVsw] at hb, fun m hm => by simp [oneFold] at hm⟩
  | snoc es e ih =>
    obtain ⟨h1, h2, h3⟩ := ih fun x hx => h x (by simp [hx])
    rw [oneFold_snoc]
    have := handle_own h2 (e := e) (by rw [h1]; exact h e (by simp))
    rw [h1] at this
    exact ⟨by rw [handle_filename, h1], this.1, h3.append this.2⟩

theorem oneFold_kinds (f : Str) (es : List Elem) :
    (oneFold (freshVsw f) es).2.filter (fun m => m.kind ≠ .W_WSV_EOF) = (oneFold (freshVsw f) es).2 := by
  have hlong : ∀ kind n gs, kind ≠ MK.W_WSV_EOF → ∀ m ∈ longGroups kind n gs, m.kind ≠ .W_WSV_EOF := by
    intro kind n gs hk m hm
    obtain ⟨g, _, hm⟩ := List.mem_flatMap.1 hm
    split at hm
    · cases hl : g.2.getLast? with
      | none => rw [hl] at hm; simp at hm
      | some w =>
        rw [hl] at hm
        simp only [List.mem_singleton] at hm
        subst hm; exact hk
    · simp at hm
  have hflush : ∀ b bl w kind mn mx, kind ≠ MK.W_WSV_EOF → ∀ m ∈ flushMsgs b bl w kind mn mx, m.kind ≠ .W_WSV_EOF := by
    intro b bl w kind mn mx hk m hm
    unfold flushMsgs at hm
    split at hm
    · simp only [List.mem_singleton] at hm
      subst hm; exact hk
    · split at hm
      · simp at hm
      · rename_i g gs _
        split at hm
        · rcases List.mem_append.1 hm with hm | hm
          · cases hl : g.2.head? with
            | none => rw [hl] at hm; simp at hm
            | some w =>
              rw [hl] at hm
              simp only [List.mem_singleton] at hm
              subst hm; simp
          · exact hlong _ _ _ hk m hm
        · exact hlong _ _ _ hk m hm
  have hh : ∀ (s : Vsw) e, ∀ m ∈ (s.handle e).2.2, m.kind ≠ .W_WSV_EOF := by
    intro s e m hm
    cases e with
    | empty c w => simp [Vsw.handle] at hm
    | ctx c => exact hflush _ _ _ _ _ _ (by decide) m hm
    | var v => exact hflush s.bof s.blanks v.at_ .H_WSV_VARSET_BETWEEN 0 1 (by decide) m hm
  rw [List.filter_eq_self]
  induction es using snocInd with
  | nil => intro m hm; simp [oneFold] at hm
  | snoc es e ih =>
    rw [oneFold_snoc]
    intro m hm
    rcases List.mem_append.1 hm with hm | hm
    · exact ih m hm
    · exact decide_eq_true (hh _ _ m hm)

/-! ## Sublists of the files -/

theorem sub_snoc {l : List Str} {z : Str} {xs : List Str} {a : Str} :
    List.Sublist (xs ++ [a]) (l ++ [z]) ↔ List.Sublist (xs ++ [a]) l ∨ (a = z ∧ List.Sublist xs l) := by
  constructor
  · intro h
    have h' : List.Sublist (a :: xs.reverse) (z :: l.reverse) := by
      have := List.reverse_sublist.2 h
      simpa using this
    cases h' with
    | cons _ h' => left; have := List.reverse_sublist.2 h'; simpa using this
    | cons_cons _ h' => right; exact ⟨rfl, by have := List.reverse_sublist.2 h'; simpa using this⟩
  · rintro (h | ⟨rfl, h⟩)
    · exact h.trans (List.sublist_append_left _ _)
    · exact List.Sublist.append h (List.Sublist.refl _)

theorem sub3 {l : List Str} {z y x : Str} :
    List.Sublist [y, x, y] (l ++ [z]) ↔ List.Sublist [y, x, y] l ∨ (y = z ∧ List.Sublist [y, x] l) :=
  sub_snoc (xs := [y, x]) (a := y)

/-- `y` is seen before `x`. -/
def Before (y x : Str) (l : List Str) : Prop := ∃ a b, l = a ++ y :: b ∧ x ∉ a ∧ x ∈ b

theorem Before.sub {y x : Str} {l : List Str} (h : Before y x l) : List.Sublist [y, x] l := by
  obtain ⟨a, b, rfl, _, hb⟩ := h
  exact (List.Sublist.cons_cons y (List.singleton_sublist.2 hb)).trans (List.sublist_append_right _ _)

theorem Before.snoc {y x : Str} {l : List Str} (h : Before y x l) (z : Str) : Before y x (l ++ [z]) := by
  obtain ⟨a, b, rfl, h1, h2⟩ := h
  exact ⟨a, b ++ [z], by simp, h1, by simp [h2]⟩

theorem Before.again {y x : Str} {l : List Str} (h : Before y x l) (hne : x ≠ y) (hs : List.Sublist [x, y] l) :
    List.Sublist [y, x, y] l := by
  obtain ⟨a, b, rfl, h1, _⟩ := h
  have : ∀ a : List Str, x ∉ a → List.Sublist [x, y] (a ++ y :: b) → List.Sublist [x, y] b := by
    intro a
    induction a with
    | nil =>
      intro _ h
      cases h with
      | cons _ h => exact h
      | cons_cons _ _ => exact absurd rfl hne
    | cons c a ih =>
      intro hn h
      simp only [List.mem_cons, not_or] at hn
      cases h with
      | cons _ h => exact ih hn.2 h
      | cons_cons _ _ => exact absurd rfl hn.1
  exact (List.Sublist.cons_cons y (this a h1 hs)).trans (List.sublist_append_right _ _)

/-! ## Popping -/

theorem vswPop_split (z : Str) (above below : List Vsw) (s : Vsw) (hs : s.filename = z)
    (ha : ∀ a ∈ above, a.filename ≠ z) :
    (vswPop z (above ++ s :: below)).1 = s :: below ∧
      (vswPop z (above ++ s :: below)).2.2 = above.flatMap fun a => (a.eof true).2 := by
  induction above with
  | nil => simp [vswPop, hs]
  | cons a above ih =>
    obtain ⟨h1, h2⟩ := ih fun b hb => ha b (by simp [hb])
    have hne := ha a (by simp)
    simp only [List.cons_append, vswPop, if_neg hne, h1, h2, List.flatMap_cons]
    exact ⟨trivial, trivial⟩

theorem vsw_split {z : Str} {st : List Vsw} (h : z ∈ st.map (·.filename)) :
    ∃ above s below, st = above ++ s :: below ∧ s.filename = z ∧ ∀ a ∈ above, a.filename ≠ z := by
  induction st with
  | nil => simp at h
  | cons a st ih =>
    by_cases ha : a.filename = z
    · exact ⟨[], a, st, rfl, ha, by simp⟩
    · have : z ∈ st.map (·.filename) := by
        rcases List.mem_cons.1 h with h | h
        · exact absurd h.symm ha
        · exact h
      obtain ⟨above, s, below, rfl, h2, h3⟩ := ih this
      refine ⟨a :: above, s, below, rfl, h2, fun b hb => ?_⟩
      rcases List.mem_cons.1 hb with rfl | hb
      · exact ha
      · exact h3 b hb

theorem vswStep_on {z : Str} {above below : List Vsw} {s : Vsw} {e : Elem} (he : e.at_.filename = z)
    (hs : s.filename = z) (ha : ∀ a ∈ above, a.filename ≠ z) :
    (vswStep (above ++ s :: below) e).1 = (s.handle e).1 :: below ∧
      (vswStep (above ++ s :: below) e).2.2 = (above.flatMap fun a => (a.eof true).2) ++ (s.handle e).2.2 := by
  have hany : (above ++ s :: below).any (fun s => s.filename = e.at_.filename) = true := by
    simp [he, hs]
  obtain ⟨h1, h2⟩ := vswPop_split z above below s hs ha
  unfold vswStep
  rw [if_pos hany, he]
  simp only [h1, h2]
  exact ⟨trivial, trivial⟩

theorem vswStep_off {st : List Vsw} {e : Elem} (h : e.at_.filename ∉ st.map (·.filename)) :
    (vswStep st e).1 = ((freshVsw e.at_.filename).handle e).1 :: st ∧
      (vswStep st e).2.2 = ((freshVsw e.at_.filename).handle e).2.2 := by
  have hany : st.any (fun s => s.filename = e.at_.filename) = false := by
    rw [List.any_eq_false]
    intro s hs hx
    exact h (List.mem_map.2 ⟨s, hs, by simpa using hx⟩)
  unfold vswStep
  rw [hany]
  exact ⟨rfl, rfl⟩

/-- The messages about one file. -/
def about (x : Str) (ms : List Msg) : List Msg := ms.filter fun m => m.at_.filename = x

theorem ofFile_append (x : Str) (a b : List Msg) : about x (a ++ b) = about x a ++ about x b := by
  simp [about]

theorem ofFile_all {x : Str} {ms : List Msg} (h : AllOf x ms) : about x ms = ms := by
  unfold about
  rw [List.filter_eq_self]
  intro m hm
  simpa using h m hm

theorem ofFile_none {x y : Str} {ms : List Msg} (h : AllOf y ms) (hne : y ≠ x) : about x ms = [] := by
  unfold about
  rw [List.filter_eq_nil_iff]
  intro m hm
  rw [h m hm]
  simpa using hne

/-- The messages of what is popped. -/
theorem ofFile_pops {x : Str} {above : List Vsw} (f : Vsw → List Msg) (hf : ∀ a ∈ above, AllOf a.filename (f a))
    (hn : (above.map (·.filename)).Nodup) :
    (∀ a ∈ above, a.filename = x → about x (above.flatMap f) = f a) ∧
    (x ∉ above.map (·.filename) → about x (above.flatMap f) = []) := by
  induction above with
  | nil => simp [about]
  | cons a above ih =>
    rw [List.map_cons, List.nodup_cons] at hn
    obtain ⟨h1, h2⟩ := ih (fun b hb => hf b (by simp [hb])) hn.2
    rw [List.flatMap_cons, ofFile_append]
    refine ⟨fun b hb hx => ?_, fun hx => ?_⟩
    · rcases List.mem_cons.1 hb with rfl | hb
      · subst hx
        rw [ofFile_all (hf b (by simp)), h2 hn.1, List.append_nil]
      · have : a.filename ≠ x := fun h => hn.1 (by rw [h, ← hx]; exact List.mem_map.2 ⟨b, hb, rfl⟩)
        rw [ofFile_none (hf a (by simp)) this, h1 b hb hx, List.nil_append]
    · simp only [List.map_cons, List.mem_cons, not_or] at hx
      rw [ofFile_none (hf a (by simp)) (Ne.symm hx.1), h2 hx.2, List.nil_append]

/-! ## The invariant -/

theorem own_snoc_same {x : Str} {es : List Elem} {e : Elem} (h : e.at_.filename = x) :
    ownLines x (es ++ [e]) = ownLines x es ++ [e] := by
  simp [ownLines, h]

theorem own_snoc_other {x : Str} {es : List Elem} {e : Elem} (h : e.at_.filename ≠ x) :
    ownLines x (es ++ [e]) = ownLines x es := by
  simp [ownLines, h]

theorem own_all (x : Str) (es : List Elem) : ∀ e ∈ ownLines x es, e.at_.filename = x := by
  intro e he
  simpa using (List.mem_filter.1 he).2

theorem filesOf_snoc (es : List Elem) (e : Elem) : filesOf (es ++ [e]) = filesOf es ++ [e.at_.filename] := by
  simp [filesOf]

theorem own_nil {x : Str} {es : List Elem} (h : x ∉ filesOf es) : ownLines x es = [] := by
  unfold ownLines
  rw [List.filter_eq_nil_iff]
  intro e he hx
  exact h (List.mem_map.2 ⟨e, he, by simpa using hx⟩)

/-- The own state and messages. -/
def ownState (x : Str) (es : List Elem) : Vsw × List Msg := oneFold (freshVsw x) (ownLines x es)

structure VswInv (es : List Elem) (st : List Vsw) (log : List Msg) : Prop where
  nodup : (st.map (·.filename)).Nodup
  order : ∀ x y, List.Sublist [x, y] (st.map (·.filename)) → Before y x (filesOf es)
  seen : ∀ s ∈ st, s.filename ∈ filesOf es
  on : ∀ s ∈ st, s = (ownState s.filename es).1 ∧ about s.filename log = (ownState s.filename es).2
  still : ∀ s ∈ st, ∀ y, y ≠ s.filename → ¬ List.Sublist [y, s.filename, y] (filesOf es)
  off : ∀ x ∈ filesOf es, x ∉ st.map (·.filename) →
    about x log = (ownState x es).2 ++ ((ownState x es).1.eof true).2 ∧ ∃ y, y ≠ x ∧ List.Sublist [y, x, y] (filesOf es)
  none : ∀ x, x ∉ filesOf es → about x log = []
  top : (st.head?.map (·.filename)) = (filesOf es).getLast?

theorem noReturn_init {es : List Elem} {e : Elem} (h : NoReturn (es ++ [e])) : NoReturn es := fun x y hne hs =>
  h x y hne (hs.trans (by rw [filesOf_snoc]; exact List.sublist_append_left _ _))

theorem vswInv (es : List Elem) (h : NoReturn es) : VswInv es (vswFold [] es).1 (vswFold [] es).2 := by
  induction es using snocInd with
  | nil =>
    constructor <;> simp [vswFold, filesOf, about]
  | snoc es e ih =>
    have hi := ih (noReturn_init h)
    rw [vswFold_snoc]
    generalize hst : (vswFold [] es).1 = st at hi ⊢
    generalize hlog : (vswFold [] es).2 = log at hi ⊢
    generalize hz : e.at_.filename = z
    have hzs : z ∈ filesOf (es ++ [e]) := by rw [filesOf_snoc, hz]; simp
    have hfe : filesOf (es ++ [e]) = filesOf es ++ [z] := by rw [filesOf_snoc, hz]
    by_cases hon : z ∈ st.map (·.filename)
    · -- on the stack
      obtain ⟨above, s, below, rfl, hs, ha⟩ := vsw_split hon
      obtain ⟨e1, e2⟩ := vswStep_on (below := below) hz hs ha
      rw [e1, e2]
      have hss := hi.on s (by simp)
      rw [hs] at hss
      have howns : ownState z (es ++ [e]) = ((s.handle e).1, (ownState z es).2 ++ (s.handle e).2.2) := by
        unfold ownState at hss ⊢
        rw [own_snoc_same hz, oneFold_snoc, ← hss.1]
      have hother : ∀ x, x ≠ z → ownState x (es ++ [e]) = ownState x es := by
        intro x hx
        unfold ownState
        rw [own_snoc_other (by rw [hz]; exact Ne.symm hx)]
      have hob : ∀ a ∈ above ++ s :: below, OwnBlanks a := by
        intro a ha'
        rw [(hi.on a ha').1]
        exact (oneFold_own _ _ (own_all _ _)).2.1
      have hev : AllOf z (s.handle e).2.2 := by
        have := (handle_own (hob s (by simp)) (e := e) (by rw [hz, hs])).2
        rw [hs] at this; exact this
      have hnd := hi.nodup
      rw [List.map_append, List.nodup_append] at hnd
      have hpops := fun x => ofFile_pops (x := x) (above := above) (fun a => (a.eof true).2)
        (fun a ha' => eof_of (hob a (by simp [ha'])) true) hnd.1
      have hza : z ∉ above.map (·.filename) := by
        intro hm
        obtain ⟨a, ha1, ha2⟩ := List.mem_map.1 hm
        exact ha a ha1 ha2
      have hnb : ∀ b ∈ below, b.filename ≠ z ∧ b.filename ∉ above.map (·.filename) := by
        intro b hb
        constructor
        · intro hx
          have := hnd.2.1
          rw [List.map_cons, List.nodup_cons] at this
          exact this.1 (by rw [hs, ← hx]; exact List.mem_map.2 ⟨b, hb, rfl⟩)
        · intro hm
          exact hnd.2.2 _ hm _ (List.mem_map.2 ⟨b, by simp [hb], rfl⟩) rfl
      have hnames : ((s.handle e).1 :: below).map (·.filename) = (s :: below).map (·.filename) := by
        simp [handle_filename]
      have hsubnames : List.Sublist ((s :: below).map (·.filename)) ((above ++ s :: below).map (·.filename)) := by
        rw [List.map_append]; exact List.sublist_append_right _ _
      refine ⟨?_, ?_, ?_, ?_, ?_, ?_, ?_, ?_⟩
      · rw [hnames]; exact hnd.2.1
      · intro x y hxy
        rw [hnames] at hxy
        rw [hfe]
        exact (hi.order x y (hxy.trans hsubnames)).snoc z
      · intro t ht
        rw [hfe]
        rcases List.mem_cons.1 ht with rfl | ht
        · rw [handle_filename, hs]; simp
        · exact List.mem_append.2 (.inl (hi.seen t (by simp [ht])))
      · intro t ht
        rw [ofFile_append, ofFile_append]
        rcases List.mem_cons.1 ht with rfl | ht
        · rw [handle_filename, hs, howns, hss.2, (hpops z).2 hza, ofFile_all hev]
          exact ⟨rfl, rfl⟩
        · obtain ⟨n1, n2⟩ := hnb t ht
          rw [hother _ n1, (hpops _).2 n2, ofFile_none hev (Ne.symm n1), List.append_nil, List.append_nil]
          exact hi.on t (by simp [ht])
      · intro t ht y hy hsub
        rw [hfe, sub3] at hsub
        rcases List.mem_cons.1 ht with rfl | ht
        · rw [handle_filename, hs] at hy hsub
          rcases hsub with hsub | ⟨hyz, _⟩
          · exact hi.still s (by simp) y (by rw [hs]; exact hy) (by rw [hs]; exact hsub)
          · exact hy hyz
        · rcases hsub with hsub | ⟨rfl, hsub⟩
          · exact hi.still t (by simp [ht]) y hy hsub
          · -- `t` is below `y`
            have hb : Before t.filename y (filesOf es) := hi.order y t.filename (by
              refine List.Sublist.trans ?_ hsubnames
              rw [List.map_cons, hs]
              exact List.Sublist.cons_cons _ (List.singleton_sublist.2 (List.mem_map.2 ⟨t, ht, rfl⟩)))
            have h3 := hb.again hy hsub
            refine h y t.filename hy ?_
            rw [hfe]
            exact List.Sublist.append (l₁ := [t.filename, y, t.filename]) h3 (List.Sublist.refl _)
      · intro x hx hxn
        rw [hnames] at hxn
        rw [ofFile_append, ofFile_append]
        have hxz : x ≠ z := fun hh => hxn (by rw [hh, ← hs]; simp)
        have hxe : x ∈ filesOf es := by
          rw [hfe] at hx
          rcases List.mem_append.1 hx with hx | hx
          · exact hx
          · simp only [List.mem_singleton] at hx; exact absurd hx hxz
        rw [hother x hxz, ofFile_none hev (Ne.symm hxz), List.append_nil]
        by_cases hxa : x ∈ above.map (·.filename)
        · obtain ⟨a, ha1, ha2⟩ := List.mem_map.1 hxa
          have hona := hi.on a (by simp [ha1])
          rw [ha2] at hona
          rw [(hpops x).1 a ha1 ha2, hona.2, ← hona.1]
          refine ⟨rfl, z, Ne.symm hxz, ?_⟩
          rw [hfe, sub3]
          right
          refine ⟨rfl, (hi.order x z ?_).sub⟩
          rw [List.map_append, List.map_cons, hs]
          exact List.Sublist.append (l₁ := [x]) (List.singleton_sublist.2 hxa)
            (List.Sublist.cons_cons _ (List.nil_sublist _))
        · have hxo : x ∉ (above ++ s :: below).map (·.filename) := by
            rw [List.map_append, List.mem_append, not_or]
            exact ⟨hxa, hxn⟩
          obtain ⟨o1, y, o2, o3⟩ := hi.off x hxe hxo
          rw [(hpops x).2 hxa, List.append_nil]
          exact ⟨o1, y, o2, by rw [hfe]; exact o3.trans (List.sublist_append_left _ _)⟩
      · intro x hx
        rw [hfe, List.mem_append, not_or, List.mem_singleton] at hx
        have hxa : x ∉ above.map (·.filename) := by
          intro hm
          obtain ⟨a, ha1, ha2⟩ := List.mem_map.1 hm
          exact hx.1 (by rw [← ha2]; exact hi.seen a (by simp [ha1]))
        rw [ofFile_append, ofFile_append, hi.none x hx.1, (hpops x).2 hxa, ofFile_none hev (Ne.symm hx.2)]
        rfl
      · rw [hfe]
        simp [handle_filename, hs]
    · -- not on the stack, hence new
      have hnew : z ∉ filesOf es := by
        intro hm
        obtain ⟨_, y, hy, hsub⟩ := hi.off z hm hon
        refine h z y (Ne.symm hy) ?_
        rw [hfe]
        exact List.Sublist.append (l₁ := [y, z, y]) hsub (List.Sublist.refl _)
      obtain ⟨e1, e2⟩ := vswStep_off (st := st) (e := e) (by rw [hz]; exact hon)
      rw [e1, e2, hz]
      have hfr : ownState z (es ++ [e]) = (((freshVsw z).handle e).1, ((freshVsw z).handle e).2.2) := by
        unfold ownState
        rw [own_snoc_same hz, own_nil hnew]
        simp [oneFold]
      have hother : ∀ x, x ≠ z → ownState x (es ++ [e]) = ownState x es := by
        intro x hx
        unfold ownState
        rw [own_snoc_other (by rw [hz]; exact Ne.symm hx)]
      have hev : AllOf z ((freshVsw z).handle e).2.2 :=
        (handle_own (s := freshVsw z) (fun b hb => by simp [freshVsw] at hb) hz).2
      have hfn : ((freshVsw z).handle e).1.filename = z := handle_filename _ _
      have hst_ne : ∀ t ∈ st, t.filename ≠ z := fun t ht hx => hon (List.mem_map.2 ⟨t, ht, hx⟩)
      refine ⟨?_, ?_, ?_, ?_, ?_, ?_, ?_, ?_⟩
      · rw [List.map_cons, List.nodup_cons, hfn]
        exact ⟨hon, hi.nodup⟩
      · intro x y hxy
        rw [List.map_cons, hfn] at hxy
        rw [hfe]
        cases hxy with
        | cons _ hxy => exact (hi.order x y hxy).snoc z
        | cons_cons _ hy =>
          have hy' := List.singleton_sublist.1 hy
          obtain ⟨t, ht, rfl⟩ := List.mem_map.1 hy'
          obtain ⟨a, b, hab⟩ := List.append_of_mem (hi.seen t ht)
          refine ⟨a, b ++ [z], by rw [hab]; simp, ?_, by simp⟩
          intro hm
          exact hnew (by rw [hab]; simp [hm])
      · intro t ht
        rw [hfe]
        rcases List.mem_cons.1 ht with rfl | ht
        · rw [hfn]; simp
        · exact List.mem_append.2 (.inl (hi.seen t ht))
      · intro t ht
        rw [ofFile_append]
        rcases List.mem_cons.1 ht with rfl | ht
        · rw [hfn, hfr, hi.none z hnew, ofFile_all hev]
          exact ⟨rfl, rfl⟩
        · rw [hother _ (hst_ne t ht), ofFile_none hev (Ne.symm (hst_ne t ht)), List.append_nil]
          exact hi.on t ht
      · intro t ht y hy hsub
        rw [hfe, sub3] at hsub
        rcases List.mem_cons.1 ht with rfl | ht
        · rw [hfn] at hy hsub
          rcases hsub with hsub | ⟨hyz, _⟩
          · exact hnew (hsub.subset (by simp))
          · exact hy hyz
        · rcases hsub with hsub | ⟨rfl, hsub⟩
          · exact hi.still t ht y hy hsub
          · exact hnew (hsub.subset (by simp))
      · intro x hx hxn
        rw [List.map_cons, hfn, List.mem_cons, not_or] at hxn
        have hxe : x ∈ filesOf es := by
          rw [hfe] at hx
          rcases List.mem_append.1 hx with hx | hx
          · exact hx
          · simp only [List.mem_singleton] at hx; exact absurd hx hxn.1
        obtain ⟨o1, y, o2, o3⟩ := hi.off x hxe hxn.2
        rw [ofFile_append, hother x hxn.1, ofFile_none hev (Ne.symm hxn.1), List.append_nil]
        exact ⟨o1, y, o2, by rw [hfe]; exact o3.trans (List.sublist_append_left _ _)⟩
      · intro x hx
        rw [hfe, List.mem_append, not_or, List.mem_singleton] at hx
        rw [ofFile_append, hi.none x hx.1, ofFile_none hev (Ne.symm hx.2)]
        rfl
      · rw [hfe]
        simp [hfn]

end ALint
