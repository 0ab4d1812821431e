import Verif.Proofs.VswFiles
import Verif.Props.Located

/-!
# C72: blank lines in files that include each other
-/

namespace ALint.Props
open ALint ALint.Spec

/-- C72: reading every file once never comes back to a file that was left. -/
theorem C72_nested (f : Str) (es : List Elem) (h : Nested f es) : NoReturn es := by
  have hno : ∀ {f : Str} {es : List Elem}, Nested f es → ∀ x, x ≠ f → ¬ List.Sublist [x, f, x] (filesOf es) := by
    intro f es h
    induction h with
    | nil f => intro x _ hs; simp [filesOf] at hs
    | line f e es he _ ih =>
      intro x hx hs
      have hs' : List.Sublist [x, f, x] (f :: filesOf es) := by simpa [filesOf, he] using hs
      cases hs' with
      | cons _ hs' => exact ih x hx hs'
      | cons_cons _ _ => exact hx rfl
    | incl f g sub rest hf hd _ _ _ ih =>
      intro x hx hs
      have hs' : List.Sublist [x, f, x] (filesOf sub ++ filesOf rest) := by simpa [filesOf] using hs
      obtain ⟨r1, r2, he, h1, h2⟩ := List.sublist_append_iff.1 hs'
      match r1, he with
      | [], he => rw [List.nil_append] at he; subst he; exact ih x hx h2
      | [a], he =>
        simp only [List.cons_append, List.nil_append, List.cons.injEq] at he
        obtain ⟨rfl, rfl⟩ := he
        exact hd x (h1.subset (by simp)) (h2.subset (by simp))
      | a :: b :: r, he =>
        simp only [List.cons_append, List.cons.injEq] at he
        exact hf (h1.subset (by simp [he.2.1]))
  induction h with
  | nil f => intro x y _ hs; simp [filesOf] at hs
  | line f e es he hn ih =>
    intro x y hxy hs
    have hs' : List.Sublist [y, x, y, x] (f :: filesOf es) := by simpa [filesOf, he] using hs
    cases hs' with
    | cons _ hs' => exact ih x y hxy hs'
    | cons_cons _ hs' => exact hno hn x hxy hs'
  | incl f g sub rest hf hd _ _ ih1 ih2 =>
    intro x y hxy hs
    have hs' : List.Sublist [y, x, y, x] (filesOf sub ++ filesOf rest) := by simpa [filesOf] using hs
    obtain ⟨r1, r2, he, h1, h2⟩ := List.sublist_append_iff.1 hs'
    match r1, he with
    | [], he => rw [List.nil_append] at he; subst he; exact ih2 x y hxy h2
    | [a], he =>
      simp only [List.cons_append, List.nil_append, List.cons.injEq] at he
      obtain ⟨rfl, rfl⟩ := he
      exact hd y (h1.subset (by simp)) (h2.subset (by simp))
    | [a, b], he =>
      simp only [List.cons_append, List.nil_append, List.cons.injEq] at he
      obtain ⟨rfl, rfl, rfl⟩ := he
      exact hd y (h1.subset (by simp)) (h2.subset (by simp))
    | [a, b, c], he =>
      simp only [List.cons_append, List.nil_append, List.cons.injEq] at he
      obtain ⟨rfl, rfl, rfl, rfl⟩ := he
      exact hd x (h1.subset (by simp)) (h2.subset (by simp))
    | a :: b :: c :: d :: r, he =>
      simp only [List.cons_append, List.cons.injEq] at he
      obtain ⟨rfl, rfl, rfl, rfl, he⟩ := he
      have hr : r = [] := (List.append_eq_nil_iff.1 he.symm).1
      rw [hr] at h1
      exact ih1 x y hxy h1

/-- C72: what is said about the blank lines of a file is what would be said if it were read
alone, whatever other files are read before, after and in between.  Only the hint about a blank
line at its end depends on the others: it is there exactly if the checker has noticed that the
file is over. -/
theorem C72_own_partial (es : List Elem) (h : NoReturn es) (x : Str) :
    let hints := (vswRun [] es).2.filter fun m => m.at_.filename = x
    let alone := (vswRun [] (ownLines x es)).2
    (SeenOver x es → hints = alone) ∧ (¬ SeenOver x es → hints = alone.filter fun m => m.kind ≠ .W_WSV_EOF) := by
  intro hints alone
  have hi := vswInv es h
  have hh : hints = about x (vswFold [] es).2 ++ about x (vswEnd (vswFold [] es).1).2 := by
    show about x (vswRun [] es).2 = _
    rw [vswRun_fold, ofFile_append]
  generalize (vswFold [] es).1 = st at hi hh
  generalize (vswFold [] es).2 = log at hi hh
  have hob : ∀ s ∈ st, OwnBlanks s := by
    intro s hs
    rw [(hi.on s hs).1]
    exact (oneFold_own _ _ (own_all _ _)).2.1
  -- the end
  have hend : ∀ (b : Bool) (l : List Vsw), (∀ s ∈ l, OwnBlanks s) → (l.map (·.filename)).Nodup →
      (x ∉ l.map (·.filename) → about x (vswEndFrom b l).2 = []) ∧
      (∀ s ∈ l.head?, s.filename = x → about x (vswEndFrom b l).2 = (s.eof b).2) ∧
      (∀ s ∈ l.tail, s.filename = x → about x (vswEndFrom b l).2 = (s.eof false).2) := by
    intro b l
    induction l generalizing b with
    | nil => intro _ _; simp [vswEndFrom, about]
    | cons s l ih =>
      intro ho hn
      rw [List.map_cons, List.nodup_cons] at hn
      obtain ⟨i1, i2, i3⟩ := ih false (fun t ht => ho t (by simp [ht])) hn.2
      simp only [vswEndFrom, ofFile_append]
      have hs := eof_of (ho s (by simp)) b
      refine ⟨fun hx => ?_, fun t ht hx => ?_, fun t ht hx => ?_⟩
      · simp only [List.map_cons, List.mem_cons, not_or] at hx
        rw [ofFile_none hs (Ne.symm hx.1), i1 hx.2]; rfl
      · simp only [List.head?_cons, Option.mem_def, Option.some.injEq] at ht
        subst ht
        subst hx
        rw [ofFile_all hs, i1 hn.1, List.append_nil]
      · simp only [List.tail_cons] at ht
        have hne : s.filename ≠ x := fun h => hn.1 (by rw [h, ← hx]; exact List.mem_map.2 ⟨t, ht, rfl⟩)
        rw [ofFile_none hs hne, List.nil_append]
        cases l with
        | nil => simp at ht
        | cons u l =>
          rcases List.mem_cons.1 ht with rfl | ht
          · exact i2 t (by simp) hx
          · exact i3 t (by simpa using ht) hx
  obtain ⟨e1, e2, e3⟩ := hend true st hob hi.nodup
  have halone : x ∈ filesOf es → alone = (ownState x es).2 ++ ((ownState x es).1.eof true).2 := by
    intro hx
    refine vswRun_own x _ ?_ (own_all x es)
    obtain ⟨e, he, hex⟩ := List.mem_map.1 hx
    intro hnil
    have : e ∈ ownLines x es := List.mem_filter.2 ⟨he, by simpa using hex⟩
    rw [hnil] at this
    simp at this
  by_cases hx : x ∈ filesOf es
  · by_cases hon : x ∈ st.map (·.filename)
    · obtain ⟨s, hs, hsx⟩ := List.mem_map.1 hon
      have hso := hi.on s hs
      rw [hsx] at hso
      by_cases htop : (filesOf es).getLast? = some x
      · have hso' : s ∈ st.head? := by
          have ht := hi.top
          rw [htop] at ht
          cases st with
          | nil => simp at hs
          | cons t st =>
            simp only [List.head?_cons, Option.map_some, Option.some.injEq] at ht
            rcases List.mem_cons.1 hs with rfl | hs
            · rfl
            · have hn := hi.nodup
              rw [List.map_cons, List.nodup_cons] at hn
              exact absurd (List.mem_map.2 ⟨s, hs, by rw [hsx, ht]⟩) hn.1
        refine ⟨fun _ => ?_, fun hn => absurd (.inl htop) hn⟩
        rw [hh, hso.2]
        show _ ++ about x (vswEndFrom true st).2 = _
        rw [e2 s hso' hsx, halone hx, ← hso.1]
      · have hst : s ∈ st.tail := by
          have ht := hi.top
          cases st with
          | nil => simp at hs
          | cons t st =>
            rcases List.mem_cons.1 hs with rfl | hs
            · rw [← hsx, ← ht] at htop
              exact absurd rfl htop
            · exact hs
        refine ⟨fun hsee => ?_, fun _ => ?_⟩
        · rcases hsee with h1 | ⟨y, h1, h2⟩
          · exact absurd h1 htop
          · exact absurd (by rw [hsx]; exact h2) (hi.still s hs y (by rw [hsx]; exact h1))
        · rw [hh, hso.2]
          show _ ++ about x (vswEndFrom true st).2 = _
          rw [e3 s hst hsx, eof_report, halone hx, ← hso.1, List.filter_append]
          congr 1
          exact (oneFold_kinds x (ownLines x es)).symm
    · obtain ⟨o1, o2⟩ := hi.off x hx hon
      refine ⟨fun _ => ?_, fun hn => absurd (.inr o2) hn⟩
      rw [hh, o1]
      show _ ++ about x (vswEndFrom true st).2 = _
      rw [e1 hon, List.append_nil, halone hx]
  · have hon : x ∉ st.map (·.filename) := by
      intro hm
      obtain ⟨s, hs, rfl⟩ := List.mem_map.1 hm
      exact hx (hi.seen s hs)
    have h0 : hints = [] := by
      rw [hh, hi.none x hx]
      show _ ++ about x (vswEndFrom true st).2 = _
      rw [e1 hon]; rfl
    have ha : alone = [] := by
      show (vswRun [] (ownLines x es)).2 = []
      rw [own_nil hx]; rfl
    rw [h0, ha]
    exact ⟨fun _ => rfl, fun _ => rfl⟩

/-! ## Examples -/

/-- Three files: the second includes the third. -/
def wsvFs : FS := fun p =>
  if p = c! "b" then some (asciiBytes (c! "[b]\n\n#include d\n"))
  else if p = c! "d" then some (asciiBytes (c! "\n[d]\n"))
  else if p = c! "e" then some (asciiBytes (c! "[e]\n\n"))
  else none

/-- The hints for a file. -/
def wsvHints (s : Str) : List (MK × Str × Int) :=
  (pipeRun wsvFs collect 99 ⟨[openFrame (c! "a") (asciiBytes s)], [], [], []⟩).log.map fun m =>
    (m.kind, m.at_.filename, m.at_.lineno)

/-- C72: the hint about a blank line at the end of a file is missing if another file is included
before a line of a file seen earlier: `e` ends with a blank line. -/
theorem C72_violated_missed :
    wsvHints (c! "#include e\n") = [(.W_WSV_EOF, c! "e", 2)] ∧
    wsvHints (c! "#include e\n#include d\n") = [(.W_WSV_BOF, c! "d", 1)] := by
  decide +kernel

/-- C72: and it is there, although the last line of the file is `#include d`, if a line of the
including file follows (and not otherwise). -/
theorem C72_violated_spurious :
    wsvHints (c! "[a]\n#include b\n[c]\n") = [(.W_WSV_BOF, c! "d", 1), (.W_WSV_EOF, c! "b", 2)] ∧
    wsvHints (c! "[a]\n#include b\n") = [(.W_WSV_BOF, c! "d", 1)] := by
  decide +kernel

private def wf (f : Str) (n : Int) : Where := ⟨f, n, []⟩

example : Nested (c! "a") [.ctx ⟨c! "a", [], false, wf (c! "a") 1⟩, .empty false (wf (c! "b") 1),
    .ctx ⟨c! "b", [], false, wf (c! "b") 2⟩, .empty false (wf (c! "a") 3)] :=
  .line _ _ _ rfl (.incl _ (c! "b") [_, _] [_] (by decide) (by decide)
    (.line _ _ _ rfl (.line _ _ _ rfl (.nil _))) (.line _ _ _ rfl (.nil _)))

end ALint.Props
