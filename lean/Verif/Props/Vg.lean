import Verif.Proofs.VgPlain
import Verif.Proofs.VgElems
import Verif.Proofs.VgExact
import Verif.Props.Located

/-!
# C80–C83: the `vg` command
-/

namespace ALint.Props
open ALint Spec

instance : DecidablePred Plain := fun c => inferInstanceAs (Decidable (c ≠ '"' ∧ c ≠ '\'' ∧ c ≠ '(' ∧ c ≠ ')' ∧ c ≠ ';'))
instance : DecidablePred MildDouble := fun q => inferInstanceAs (Decidable ('"' ∉ q ∧ '\'' ∉ q))
instance : DecidablePred MildSingle := fun q => inferInstanceAs (Decidable ('\'' ∉ q ∧ '"' ∉ q ∧ '(' ∉ q))

/-! ## C80: where a comment starts -/

/-- C80: nothing is lost: data and comment make up the line. -/
theorem C80_lossless (s : Str) : (vgSplit s).2.1 ++ (vgSplit s).2.2 = s := by
  unfold vgSplit
  split
  · rename_i h; exact h.symm
  · obtain ⟨d, b, hb⟩ : ∃ d b, EndBlanks (vgCut [] s).1 d b := endBlanks_exists _
    rw [(moveMiddle_blanks hb _).1]
    have h1 := vgCut_append [] s
    have h2 := hb.1
    simp only
    rw [← List.append_assoc, ← h2, h1]

/-- C80: if quotes and parentheses in front of a semicolon are in order, and it is the first one outside
of them, the comment starts there, together with the blanks in front of it.  A warning is due if
something stands in front of it without a blank.  Not covered: single quotes between double ones, double quotes
and opening parentheses between single ones (`C80_violated_double`, `C80_violated_single`). -/
theorem C80_comment_partial {pre post d b : Str} (h : Nests MildDouble MildSingle false pre) (hb : EndBlanks pre d b) :
    (vgSplit (pre ++ ';' :: post)).2 = (d, b ++ ';' :: post) ∧
      ((vgSplit (pre ++ ';' :: post)).1 = true ↔ d ≠ [] ∧ b = []) := by
  have hc : vgCut [] (pre ++ ';' :: post) = (pre, ';' :: post) := by
    rw [vgCut_nests h [] _ (by simp) (by simp) (by simp)]
    simp [vgCut]
  unfold vgSplit
  rw [if_neg (by simp), hc]
  obtain ⟨h1, h2⟩ := moveMiddle_blanks hb (';' :: post)
  exact ⟨h1, by rw [h2]; simp⟩

/-- C80: without such a semicolon there is no comment, only the blanks at the end. -/
theorem C80_nothing_partial {s d b : Str} (h : Nests MildDouble MildSingle false s) (hb : EndBlanks s d b) :
    vgSplit s = (false, d, b) := by
  have hc : vgCut [] s = (s, []) := by
    have := vgCut_nests h [] [] (by simp) (by simp) (by simp)
    simpa [vgCut] using this
  unfold vgSplit
  split
  · rename_i h0
    obtain ⟨rfl, rfl⟩ : d = [] ∧ b = [] := by
      have := hb.1
      rw [h0] at this
      simpa using this.symm
    rfl
  · rw [hc]
    obtain ⟨h1, h2⟩ := moveMiddle_blanks hb []
    refine Prod.ext ?_ (by simpa using h1)
    cases hw : (moveMiddle s []).1 with
    | false => simp only
    | true => simp [hw] at h2

/-- C80: nor is there one after a parenthesis that is not closed. -/
theorem C80_open_partial {pre inner d b : Str} (h : Nests MildDouble MildSingle false pre) (hi : Nests MildDouble MildSingle true inner)
    (hb : EndBlanks (pre ++ '(' :: inner) d b) : vgSplit (pre ++ '(' :: inner) = (false, d, b) := by
  have hc : vgCut [] (pre ++ '(' :: inner) = (pre ++ '(' :: inner, []) := by
    rw [vgCut_nests h [] _ (by simp) (by simp) (by simp), vgCut_cons (by simp)]
    have := vgCut_nests hi ['('] [] (by simp) (by simp) (by simp)
    simp only [List.append_nil] at this
    have e : vgStep [] '(' = ['('] := by decide
    rw [e, this]
    simp [vgCut]
  unfold vgSplit
  rw [if_neg (by simp), hc]
  obtain ⟨h1, h2⟩ := moveMiddle_blanks hb []
  refine Prod.ext ?_ (by simpa using h1)
  cases hw : (moveMiddle (pre ++ '(' :: inner) []).1 with
  | false => simp only
  | true => simp [hw] at h2

/-- C80: these are all cases of text in order. -/
theorem C80_cases {dq sq : Str → Prop} {s : Str} (h : Nests dq sq true s) :
    Nests dq sq false s ∨ ∃ pre post, s = pre ++ ';' :: post ∧ Nests dq sq false pre := by
  generalize hb : true = b at h
  induction h with
  | nil => exact .inl .nil
  | char hc _ ih =>
    rcases ih hb with h | ⟨pre, post, rfl, h⟩
    · exact .inl (.char hc h)
    · exact .inr ⟨_ :: pre, post, rfl, .char hc h⟩
  | semi _ _ => exact .inr ⟨[], _, rfl, .nil⟩
  | double hq _ ih =>
    rcases ih hb with h | ⟨pre, post, rfl, h⟩
    · exact .inl (.double hq h)
    · exact .inr ⟨_, post, by simp, .double hq h⟩
  | single hq _ ih =>
    rcases ih hb with h | ⟨pre, post, rfl, h⟩
    · exact .inl (.single hq h)
    · exact .inr ⟨_, post, by simp, .single hq h⟩
  | paren hq _ _ ih =>
    rcases ih hb with h | ⟨pre, post, rfl, h⟩
    · exact .inl (.paren hq h)
    · exact .inr ⟨_, post, by simp, .paren hq h⟩

/-- Plain text is in order. -/
theorem nests_plain {dq sq : Str → Prop} {semi : Bool} : ∀ {s : Str}, (∀ c ∈ s, Plain c) → Nests dq sq semi s
  | [], _ => .nil
  | _ :: _, h => .char (h _ (by simp)) (nests_plain fun c hc => h c (by simp [hc]))

/-- A semicolon in parentheses and one in quotes; the comment starts at the third. -/
example : Nests MildDouble MildSingle false (c! "a => f(1;2) \";\" ") ∧ EndBlanks (c! "a => f(1;2) \";\" ") (c! "a => f(1;2) \";\"") [' '] ∧
    (vgSplit (c! "a => f(1;2) \";\" ;c")).2 = (c! "a => f(1;2) \";\"", c! " ;c") := by
  refine ⟨?_, ⟨rfl, by simp [isBlank], ?_⟩, by decide⟩
  · have h1 : Nests MildDouble MildSingle false [' '] := nests_plain (by decide)
    have h2 : Nests MildDouble MildSingle false (c! "\";\" ") := .double (q := [';']) (by decide) h1
    have h3 : Nests MildDouble MildSingle true (c! "1;2") := .char (by decide) (.semi (nests_plain (by decide)))
    have h4 : Nests MildDouble MildSingle false (c! "(1;2) \";\" ") := .paren (q := c! "1;2") h3 (.char (by decide) h2)
    exact .char (by decide) (.char (by decide) (.char (by decide) (.char (by decide) (.char (by decide) (.char (by decide) h4)))))
  · intro r c h
    have : (c! "a => f(1;2) \";\"").getLast? = some c := by rw [h]; simp
    have e : c = '"' := by simpa using this.symm
    subst e; rfl

/-- C80 as stated is violated: an apostrophe between double quotes hides the comment. -/
theorem C80_violated_double : ∃ pre post : Str, Nests AnyDouble AnySingle false pre ∧
    (vgSplit (pre ++ ';' :: post)).2 = (pre ++ ';' :: post, []) :=
  ⟨c! "x => \"don't\" ", c! " comment",
    .char (by decide) (.char (by decide) (.char (by decide) (.char (by decide) (.char (by decide)
      (.double (q := c! "don't") (by unfold AnyDouble; decide) (nests_plain (by decide))))))), by decide⟩

/-- And so do a double quote or an opening parenthesis between single quotes. -/
theorem C80_violated_single :
    (∃ pre post : Str, Nests AnyDouble AnySingle false pre ∧ (vgSplit (pre ++ ';' :: post)).2 = (pre ++ ';' :: post, []) ∧ '(' ∉ pre) ∧
    ∃ pre post : Str, Nests AnyDouble AnySingle false pre ∧ (vgSplit (pre ++ ';' :: post)).2 = (pre ++ ';' :: post, []) ∧ '"' ∉ pre :=
  ⟨⟨c! "'a\"b' ", c! " comment", .single (q := c! "a\"b") (by unfold AnySingle; decide) (nests_plain (by decide)), by decide, by decide⟩,
    ⟨c! "':(' ", c! " comment", .single (q := c! ":(") (by unfold AnySingle; decide) (nests_plain (by decide)), by decide, by decide⟩⟩

/-! ## C81: lines are unfolded -/

/-- C81: every list of lines is made of groups of folded lines in exactly one way. -/
theorem C81_groups (ls : List (Where × Str)) : ∃ gs, Folded ls gs ∧ ∀ gs', Folded ls gs' → gs' = gs := by
  obtain ⟨gs, h⟩ := folded_exists ls.length ls (Nat.le_refl _)
  exact ⟨gs, h, fun gs' h' => folded_unique h' h⟩

/-- C81: reading one file (nothing can be included) ends as handing the unfolded lines to the parser does.  If it ends well the
messages are, in some order, those, those about the unfolding, and those about encoding, control
characters and line ends of the lines as they stand in the file. -/
theorem C81_unfold {σ : Type} {fs : FS} (hfs : ∀ p, fs p = none) (agg : σ → Elem → Res σ) {path : Str} {content : Bytes}
    {ls : List (Where × Str)} {gs : List (List (Where × Str))} (h : Texts path 0 (physLines content) ls) (hg : Folded ls gs)
    {n : Nat} (hn : ls.length < n) (s : σ) :
    (vgRun fs agg n ⟨[openFrame path content], [], [], s⟩ none).val =
      (Res.bind (deliverAll fs agg ⟨[], [], [], s⟩ (gs.filterMap unfolded)) (finish agg)).val ∧
    ∀ t, (vgRun fs agg n ⟨[openFrame path content], [], [], s⟩ none).val = .ok t →
      (vgRun fs agg n ⟨[openFrame path content], [], [], s⟩ none).log.Perm
        (lowerMsgs [] (ls.map (·.1)) ++ (gs.map groupMsgs).flatten ++
          (Res.bind (deliverAll fs agg ⟨[], [], [], s⟩ (gs.filterMap unfolded)) (finish agg)).log) := by
  obtain ⟨y, t⟩ := yields_folded hg
  have := vgRun_tells hfs agg h n [] [] s none hn
  rw [y, t] at this
  exact ⟨this.val, this.log⟩

/-- Three lines, the second of which continues the first. -/
def foldedText : Str := c! "[a]
x=1 ;c
 2
y=3
"

/-- The second line goes on in the third. -/
example : ∃ (ls : List (Where × Str)) (gs : List (List (Where × Str))), Texts (c! "f") 0 (physLines (asciiBytes foldedText)) ls ∧ Folded ls gs ∧
    gs.filterMap unfolded = [(⟨c! "f", 1, asciiBytes (c! "[a]\n")⟩, c! "[a]", []),
      (⟨c! "f", 2, asciiBytes (c! "x=1 ;c\n")⟩, c! "x=1 2", c! " ;c"), (⟨c! "f", 4, asciiBytes (c! "y=3\n")⟩, c! "y=3", [])] := by
  have hp : physLines (asciiBytes foldedText) = [asciiBytes (c! "[a]\n"), asciiBytes (c! "x=1 ;c\n"), asciiBytes (c! " 2\n"), asciiBytes (c! "y=3\n")] := by
    decide +kernel
  rw [hp]
  let l (n : Int) (s : Str) : Where × Str := (⟨c! "f", n, asciiBytes (s ++ c! "\n")⟩, s)
  refine ⟨[l 1 (c! "[a]"), l 2 (c! "x=1 ;c"), l 3 (c! " 2"), l 4 (c! "y=3")],
    [[l 1 (c! "[a]")], [l 2 (c! "x=1 ;c"), l 3 (c! " 2")], [l 4 (c! "y=3")]],
    .cons (t := c! "[a]\n") (s := c! "[a]") (.inl (by decide +kernel)) (.inr (.inl (by decide))) <|
    .cons (t := c! "x=1 ;c\n") (s := c! "x=1 ;c") (.inl (by decide +kernel)) (.inr (.inl (by decide))) <|
    .cons (t := c! " 2\n") (s := c! " 2") (.inl (by decide +kernel)) (.inr (.inl (by decide))) <|
    .cons (t := c! "y=3\n") (s := c! "y=3") (.inl (by decide +kernel)) (.inr (.inl (by decide))) .nil, ?_, ?_⟩
  · refine .lines (more := []) (by decide) (by simp) (by simp [l, startsBlank, isBlank]) ?_
    refine .lines (more := [l 3 (c! " 2")]) (by decide) (by simp [l, startsBlank, isBlank]) (by simp [l, startsBlank, isBlank]) ?_
    exact .lines (more := []) (by decide) (by simp) (by simp) .nil
  · decide +kernel

/-- The files of `C81_violated_include`. -/
def foldFiles : FS := fun p => if p = c! "b.conf" then some (asciiBytes (c! "[a]\nx=1\n")) else none

/-- C81 is violated for a line after `#include`: it is appended to the last line of the included file, which it does not follow
there. -/
theorem C81_violated_include :
    (vgRun foldFiles collect 9 ⟨[openFrame (c! "f") (asciiBytes (c! "#include b.conf\n 2\n"))], [], [], []⟩ none).val.toOption =
      some (some [.ctx ⟨c! "a", [], false, ⟨c! "b.conf", 1, asciiBytes (c! "[a]\n")⟩⟩,
        .var ⟨c! "x", c! "1 2", false, false, ⟨c! "b.conf", 2, asciiBytes (c! "x=1\n")⟩⟩]) := by
  decide +kernel

/-! ## C82: a context replaces an earlier one of the same name -/

theorem vgInit (sp : Option Str) : VgInv (.init sp) := ⟨fun n h => by simp [DState.init] at h⟩

/-- C82: in a dialplan, after the header of a context its steps and includes are those of lines after that header; what an
earlier context of that name had is gone.  Not covered: destinations of jumps and labels of the earlier context
(`C82_violated_jumps`), `[general]` and `[globals]` (`C82_violated_general`), other files (`C82_violated_config`). -/
theorem C82_wiped_partial {fs : FS} {env : DEnv} {sp : Option Str} {n : Nat} {path : Str} {content : Bytes} {st : DState}
    (h : (vgCheck fs env sp n path content).val = .ok (some st)) :
    ∃ es, (vgRun fs collect n ⟨[openFrame path content], [], [], []⟩ none).val = .ok (some es) ∧
      ∀ before c after, es = before ++ .ctx c :: after → special c.name = false →
        ∃ d, st.dp.get c.name = some d ∧ (∀ s ∈ d.steps, ∃ v, Elem.var v ∈ after ∧ s.at_ = v.at_) ∧
          ∀ i ∈ d.includes, ∃ v, Elem.var v ∈ after ∧ i.2 = v.at_ := by
  unfold vgCheck at h
  obtain ⟨r, h1, h2, _⟩ := Res.bind_ok h
  cases r with
  | none => simp at h2
  | some s =>
    simp only at h2
    obtain ⟨_, _, h4, _⟩ := Res.bind_ok h2
    obtain ⟨_, _, h5, _⟩ := Res.bind_ok h4
    simp only [Res.pure_val, Except.ok.injEq, Option.some.injEq] at h5
    subst h5
    obtain ⟨es, h6, h7⟩ := vgRun_collect n _ _ _ h1
    refine ⟨es, by simpa [PState.with_] using h7 [], ?_⟩
    rintro before c after rfl hc
    obtain ⟨u, h8, h9⟩ := feed_append_ok h6
    obtain ⟨i1, _⟩ := vg_feed (vgInit sp) h8
    obtain ⟨x, h10, h11, _⟩ := feed_cons_ok h9
    obtain ⟨i2, _⟩ := vg_step i1 h10
    obtain ⟨i3, f3⟩ := vg_feed i2 h11
    have hx : vgDialplanStep env u (.ctx c) = vgOnContext u c := rfl
    rw [hx] at h10
    rcases vgOnContext_cases h10 with ⟨h12, _⟩ | ⟨_, h13, h14⟩
    · rw [hc] at h12; cases h12
    · have hg : x.dp.get c.name = some ⟨c.name, c.at_, [], [], none, [], none⟩ := by
        rw [h14]
        exact (vg_get_fresh (dp := u.dp) (n := c.name) (d := ⟨c.name, c.at_, [], [], none, [], none⟩) rfl).1
      have hf : From (fun _ => False) c.name x := by
        constructor <;> intro d hd <;> rw [hg] at hd <;> simp only [Option.some.injEq] at hd <;> subst hd <;> simp
      obtain ⟨hs, hi⟩ := f3 _ _ hf
      obtain ⟨d, hd⟩ := vg_keeps i2 h11 ⟨_, hg⟩
      refine ⟨d, hd, fun s hs' => ?_, fun i hi' => ?_⟩
      · rcases hs d hd s hs' with h | ⟨v, hv, e⟩
        · exact h.elim
        · exact ⟨v, hv, e⟩
      · rcases hi d hd i hi' with h | ⟨v, hv, e⟩
        · exact h.elim
        · exact ⟨v, hv, e⟩

/-- C82: the contexts there are in the end are those of the last headers of each name, in that order, and each is what reading its
last section alone, without `vg`, gives: header and lines up to the next header.  (Of what was read before only the last priority
matters, for a first line with priority `n`, and the spelling of `Background`.)  Not covered: as for `C82_wiped_partial`. -/
theorem C82_exact_partial {fs : FS} {env : DEnv} {sp : Option Str} {n : Nat} {path : Str} {content : Bytes} {st : DState}
    (h : (vgCheck fs env sp n path content).val = .ok (some st)) :
    ∃ es, (vgRun fs collect n ⟨[openFrame path content], [], [], []⟩ none).val = .ok (some es) ∧
      st.dp.contexts.map (·.name) = lastOnes ((headerNames es).filter (!special ·)) ∧
      ∀ before c body rest, SectionIn es before c body rest → special c.name = false → c.name ∉ headerNames rest →
        ∃ u v d, (feed (vgDialplanStep env) (.init sp) before).val = .ok u ∧
          (feed (dialplanStep env) ⟨{ Dialplan.init with lastPrio := u.dp.lastPrio }, .none, u.sp, []⟩ (.ctx c :: body)).val = .ok v ∧
          v.dp.contexts = [d] ∧ st.dp.get c.name = some d := by
  unfold vgCheck at h
  obtain ⟨r, h1, h2, _⟩ := Res.bind_ok h
  cases r with
  | none => simp at h2
  | some s =>
    simp only at h2
    obtain ⟨_, _, h4, _⟩ := Res.bind_ok h2
    obtain ⟨_, _, h5, _⟩ := Res.bind_ok h4
    simp only [Res.pure_val, Except.ok.injEq, Option.some.injEq] at h5
    subst h5
    obtain ⟨es, h6, h7⟩ := vgRun_collect n _ _ _ h1
    refine ⟨es, by simpa [PState.with_] using h7 [], by simpa [DState.init, Dialplan.init] using vg_names (vgInit sp) h6, ?_⟩
    rintro before c body rest ⟨rfl, hb, hr⟩ hc hn
    obtain ⟨u, h8, h9⟩ := feed_append_ok h6
    obtain ⟨i1, _⟩ := vg_feed (vgInit sp) h8
    obtain ⟨x, h10, h11, _⟩ := feed_cons_ok h9
    obtain ⟨i2, _⟩ := vg_step i1 h10
    obtain ⟨y, h12, h13⟩ := feed_append_ok h11
    obtain ⟨i3, _⟩ := vg_feed i2 h12
    have hsp : x.sp = u.sp ∧ x.dp.lastPrio = u.dp.lastPrio := by
      have hx : (vgOnContext u c).val = .ok x := h10
      unfold vgOnContext onContext at hx
      have n1 : c.name ≠ c! "general" := fun e => by simp [special, e] at hc
      have n2 : c.name ≠ c! "globals" := fun e => by simp [special, e] at hc
      simp only [if_neg n1, if_neg n2] at hx
      obtain ⟨_, _, k1, _⟩ := Res.bind_ok hx
      obtain ⟨dp, k2, k3, _⟩ := Res.bind_ok k1
      simp only [Res.pure_val, Except.ok.injEq] at k3
      subst k3
      refine ⟨rfl, ?_⟩
      simp only [Res.lift] at k2
      unfold onDialplanContext at k2
      unfold Dialplan.get at k2
      dsimp only at k2
      rw [filter_find.1] at k2
      simp only [Except.ok.injEq] at k2
      rw [← k2]
    have hx : vgDialplanStep env u (.ctx c) = vgOnContext u c := rfl
    rw [hx] at h10
    rcases vgOnContext_cases h10 with ⟨g1, _⟩ | ⟨_, g2, g3⟩
    · rw [hc] at g1; cases g1
    · have hg : x.dp.get c.name = some ⟨c.name, c.at_, [], [], none, [], none⟩ := by
        rw [g3]
        exact (vg_get_fresh (dp := u.dp) (n := c.name) (d := ⟨c.name, c.at_, [], [], none, [], none⟩) rfl).1
      let b0 : DState := ⟨{ Dialplan.init with lastPrio := u.dp.lastPrio }, .none, u.sp, []⟩
      let b1 : DState := ⟨{ Dialplan.init with lastPrio := u.dp.lastPrio, contexts := [⟨c.name, c.at_, [], [], none, [], none⟩] },
        .ctx c.name, u.sp, []⟩
      have hb1 : (dialplanStep env b0 (.ctx c)).val = .ok b1 := by
        have n1 : c.name ≠ c! "general" := fun e => by simp [special, e] at hc
        have n2 : c.name ≠ c! "globals" := fun e => by simp [special, e] at hc
        simp only [dialplanStep, onContext, if_neg n1, if_neg n2]
        rw [bind_val_of_ok (a := ()) (by split <;> rfl)]
        rfl
      have hsame : SameCur c.name x b1 := ⟨g2, rfl, by rw [hg]; simp [b1, Dialplan.get], hsp.2, hsp.1⟩
      obtain ⟨v, k1, k2, d, k3⟩ := sameCur_feed hb hsame ⟨_, hg⟩ h12
      have hk : (feed (dialplanStep env) b0 (.ctx c :: body)).val = .ok v := by rw [feed_val_cons hb1]; exact k1
      have hnm : v.dp.contexts.map (·.name) = [c.name] := by
        have hinv : VgInv b1 := ⟨fun m hm => by
          cases hm
          exact ⟨_, by simp [b1, Dialplan.get]; rfl⟩⟩
        exact body_names hb hinv k1
      have hv : v.dp.get c.name = some d := by rw [← k2.get]; exact k3
      obtain ⟨d', hd'⟩ : ∃ d', v.dp.contexts = [d'] := by
        cases hl : v.dp.contexts with
        | nil => rw [hl] at hnm; cases hnm
        | cons a t =>
          rw [hl] at hnm
          simp only [List.map_cons, List.cons.injEq, List.map_eq_nil_iff] at hnm
          exact ⟨a, by rw [hnm.2]⟩
      have hdd : d' = d := by
        have := (get_mem hv).1
        rw [hd'] at this
        exact (List.mem_singleton.1 this).symm
      refine ⟨u, v, d, h8, hk, by rw [hd', hdd], ?_⟩
      rw [vg_feed_other i3 ?_ hn h13, k3]
      rcases hr with rfl | ⟨q, more, rfl⟩
      · exact .inr fun _ => ⟨by simp, by simp⟩
      · exact .inr fun _ => ⟨by simp, by simp⟩

/-- A context that comes twice. -/
def vgTwiceText : Str := c! "[general]
[globals]
[a]
exten => 1,1,NoOp()
exten => 2,1,Goto(zz,1,1)
[a]
exten => 1,1,NoOp()
"

/-- The steps of the first one are gone: their lines are not those of the steps. -/
example : ∃ st d, (vgCheck noFiles demoEnv none 20 (c! "f") (asciiBytes vgTwiceText)).val = .ok (some st) ∧
    st.dp.get (c! "a") = some d ∧ d.steps.map (·.at_.lineno) = [7] := by
  have h : (((vgCheck noFiles demoEnv none 20 (c! "f") (asciiBytes vgTwiceText)).val.toOption.getD none).bind fun st =>
      (st.dp.get (c! "a")).map fun d => d.steps.map (·.at_.lineno)) = some [7] := by decide +kernel
  cases hx : (vgCheck noFiles demoEnv none 20 (c! "f") (asciiBytes vgTwiceText)).val with
  | error e => rw [hx] at h; simp [Except.toOption] at h
  | ok o =>
    rw [hx] at h
    cases o with
    | none => simp [Except.toOption] at h
    | some st =>
      simp only [Except.toOption, Option.getD_some, Option.bind_some, Option.map_eq_some_iff] at h
      obtain ⟨d, h1, h2⟩ := h
      exact ⟨st, d, rfl, h1, h2⟩

/-- Three sections, the last header of `a` being the third. -/
def vgThriceText : Str := c! "[a]
exten => 1,1,NoOp()
[b]
[a]
exten => 2,n,NoOp()
"

/-- The contexts in the end. -/
def vgContexts (r : Except Exc (Option DState)) : List (Str × List (Str × Nat)) :=
  ((r.toOption.getD none).map fun st => st.dp.contexts.map fun d => (d.name, d.steps.map fun s => (s.raw, s.prio))).getD []

/-- They are `b`, `a`; the first priority of `a` follows that of the replaced section. -/
example : vgContexts (vgCheck noFiles demoEnv none 20 (c! "f") (asciiBytes vgThriceText)).val =
      [(c! "b", []), (c! "a", [(c! "2", 2)])] ∧
    lastOnes [c! "a", c! "b", c! "a"] = [c! "b", c! "a"] := by
  constructor <;> decide +kernel

/-- C82 is violated: the jumps of the replaced context are still checked. -/
theorem C82_violated_jumps :
    ((vgCheck noFiles demoEnv none 20 (c! "f") (asciiBytes vgTwiceText)).log.map fun m => (m.kind, m.at_.lineno)) =
      [(.E_DP_GOTO_NOCONTEXT, 5)] := by decide +kernel

/-- C82 is violated: a second `[general]` or `[globals]` ends the program. -/
theorem C82_violated_general :
    (vgCheck noFiles demoEnv none 20 (c! "f") (asciiBytes (c! "[general]\n[general]\n"))).val =
      .error (.programmingError .assertionError) ∧
    (vgCheck noFiles demoEnv none 20 (c! "f") (asciiBytes (c! "[globals]\n[general]\n[globals]\n"))).val =
      .error (.programmingError .assertionError) := by
  constructor <;> decide +kernel

/-- C82 is violated: in all other files the contexts are kept as they are, whatever their names. -/
theorem C82_violated_config (cs : List CtxE) : (vgConfigContexts [] cs).map (·.2.1) = cs := by
  have key : ∀ (cs : List CtxE) (st : List CtxObj), (∀ x ∈ st, x.1 < st.length) →
      (vgConfigContexts st cs).map (·.2.1) = st.map (·.2.1) ++ cs := by
    intro cs
    induction cs with
    | nil => intro st _; simp [vgConfigContexts]
    | cons c cs ih =>
      intro st h
      have e : vgConfigContext st st.length c = st ++ [(st.length, c, [])] := by
        unfold vgConfigContext
        rw [if_neg]
        simp only [List.any_eq_true, decide_eq_true_eq, not_exists, not_and]
        intro x hx he
        have := h x hx
        omega
      rw [vgConfigContexts, e, ih]
      · simp
      · intro x hx
        rcases List.mem_append.1 hx with hx | hx
        · have := h x hx
          simp only [List.length_append, List.length_cons, List.length_nil]
          omega
        · simp only [List.mem_singleton] at hx
          subst hx
          simp
  simpa using key cs [] (by simp)

/-- Two contexts of one name. -/
example : ((vgConfigContexts [] [⟨c! "a", [], false, demoW 1⟩, ⟨c! "a", [], false, demoW 5⟩]).map (·.2.1.name)) = [c! "a", c! "a"] := by
  decide

/-! ## C83: ordinary files are read as without `vg` -/

theorem ordinary_frame {q : Str} {c : Bytes} (h : OrdinaryFile c) : FrameIn OrdAt (openFrame q c) := by
  intro i l hl t s
  exact h l (List.mem_of_getElem? hl) t s

/-- C83: if no line starts with white space or has a backslash, and quotes and parentheses in front of the first semicolon are in
order, then reading with `vg` gives the same result as without it, and the same messages, perhaps in another order. -/
theorem C83_ordinary {σ : Type} {fs : FS} {agg : σ → Elem → Res σ} {n : Nat} {path : Str} {content : Bytes} {s t : σ}
    (hc : OrdinaryFile content) (hfs : ∀ q c, fs q = some c → OrdinaryFile c)
    (h : (pipeRun fs agg n ⟨[openFrame path content], [], [], s⟩).val = .ok (some t)) :
    (vgRun fs agg n ⟨[openFrame path content], [], [], s⟩ none).val = .ok (some t) ∧
    (vgRun fs agg n ⟨[openFrame path content], [], [], s⟩ none).log.Perm
      (pipeRun fs agg n ⟨[openFrame path content], [], [], s⟩).log := by
  have := vgRun_ordinary agg (fun q c hq => ordinary_frame (hfs q c hq)) t n ⟨[openFrame path content], [], [], s⟩ _ none
    (by intro fr hfr; simp only [List.mem_singleton] at hfr; subst hfr; exact ordinary_frame hc) (by simp) rfl h
  simpa [vgDeliverOpt] using this

/-- C83: and a dialplan made of such files, without repeated headers, is checked with the same result and the same messages, perhaps
in another order. -/
theorem C83_check {fs : FS} {env : DEnv} {sp : Option Str} {n : Nat} {path : Str} {content : Bytes} {st : DState}
    (hc : OrdinaryFile content) (hfs : ∀ q c, fs q = some c → OrdinaryFile c)
    (hn : ∀ es, (pipeRun fs collect n ⟨[openFrame path content], [], [], []⟩).val = .ok (some es) → (headerNames es).Nodup)
    (h : (checkDialplan fs env sp n path content).val = .ok (some st)) :
    (vgCheck fs env sp n path content).val = .ok (some st) ∧
    (vgCheck fs env sp n path content).log.Perm (checkDialplan fs env sp n path content).log := by
  obtain ⟨es, _, h2, _⟩ := check_read h
  have hs : Same (dialplanStep env) (vgDialplanStep env) (.init sp) es :=
    same_symm (vg_same_nodup (hs := []) (vgInit sp)
      ⟨by simp [DState.init, Dialplan.init], by simp [DState.init, Dialplan.init], by simp [DState.init, Dialplan.init], by simp [DState.init]⟩ (hn es h2) (by simp))
  have e := pipeRun_same n ⟨[openFrame path content], [], [], DState.init sp⟩ [] es (by simpa [PState.with_] using h2) hs
  unfold checkDialplan at h ⊢
  unfold vgCheck
  rw [e] at h ⊢
  obtain ⟨r, h3, h4, h5⟩ := Res.bind_ok h
  cases r with
  | none => simp at h4
  | some x =>
    obtain ⟨v, p⟩ := C83_ordinary hc hfs h3
    rw [Res.bind_of_ok v, h5]
    refine ⟨h4, ?_⟩
    exact p.append_right _

/-- A line with a comment after plain text is ordinary. -/
theorem ordinary_plain {pre post : Str} (h1 : ∀ c, (pre ++ ';' :: post).head? = some c → isSpace c = false)
    (h2 : '\\' ∉ pre ++ ';' :: post) (h3 : Nests MildDouble MildSingle false pre) (h4 : ';' ∉ pre) : Ordinary (pre ++ ';' :: post) := by
  refine ⟨h1, h2, fun pre' post' h h5 => ?_⟩
  obtain rfl : pre = pre' := by
    have e1 : (pre ++ ';' :: post).takeWhile (· ≠ ';') = pre := by
      rw [List.takeWhile_append_of_pos (fun c hc => by simp only [ne_eq, decide_not, Bool.not_eq_true', decide_eq_false_iff_not]; rintro rfl; exact h4 hc)]; simp
    have e2 : (pre' ++ ';' :: post').takeWhile (· ≠ ';') = pre' := by
      rw [List.takeWhile_append_of_pos (fun c hc => by simp only [ne_eq, decide_not, Bool.not_eq_true', decide_eq_false_iff_not]; rintro rfl; exact h5 hc)]; simp
    rw [← e1, h, e2]
  exact h3

/-- And one without any comment. -/
theorem ordinary_none {s : Str} (h1 : ∀ c, s.head? = some c → isSpace c = false) (h2 : '\\' ∉ s) (h3 : ';' ∉ s) : Ordinary s :=
  ⟨h1, h2, fun pre post h _ => absurd (h ▸ by simp) h3⟩

theorem ordinary_bytes {b : Bytes} {t : Str} (hd : utf8Decode b = some t) (ho : Ordinary (withoutEol t)) :
    ∀ t s, Decodes b t → EolOff t s → Ordinary s := by
  intro t' s' h1 h2
  obtain rfl : t = t' := by
    rcases h1 with h | ⟨h, _⟩
    · rw [hd] at h; simpa using h
    · rw [hd] at h; cases h
  rw [← withoutEol_eq h2]
  exact ho

/-- A dialplan of ordinary lines. -/
def ordinaryText : Str := c! "[general]
[globals]
[a]
exten => s,1,NoOp(1) ; what
"

def ordinaryLines : List Bytes := [asciiBytes (c! "[general]\n"), asciiBytes (c! "[globals]\n"), asciiBytes (c! "[a]\n"),
  asciiBytes (c! "exten => s,1,NoOp(1) ; what\n")]

theorem ordinaryText_lines : physLines (asciiBytes ordinaryText) = ordinaryLines := by decide +kernel

theorem ordinaryText_ordinary : OrdinaryFile (asciiBytes ordinaryText) := by
  intro b hb
  rw [ordinaryText_lines] at hb
  simp only [ordinaryLines, List.mem_cons, List.not_mem_nil, or_false] at hb
  have start : ∀ (c d : Char) (s : Str), isSpace d = false → (d :: s).head? = some c → isSpace c = false := by
    intro c d s hd h; simp only [List.head?_cons, Option.some.injEq] at h; exact h ▸ hd
  rcases hb with rfl | rfl | rfl | rfl
  · exact ordinary_bytes (t := c! "[general]\n") (by decide +kernel) (ordinary_none (fun c => start c _ _ (by decide)) (by decide) (by decide))
  · exact ordinary_bytes (t := c! "[globals]\n") (by decide +kernel) (ordinary_none (fun c => start c _ _ (by decide)) (by decide) (by decide))
  · exact ordinary_bytes (t := c! "[a]\n") (by decide +kernel) (ordinary_none (fun c => start c _ _ (by decide)) (by decide) (by decide))
  · refine ordinary_bytes (t := c! "exten => s,1,NoOp(1) ; what\n") (by decide +kernel) ?_
    refine ordinary_plain (pre := c! "exten => s,1,NoOp(1) ") (post := c! " what") (fun c => start c _ _ (by decide)) (by decide) ?_ (by decide)
    have h1 : Nests MildDouble MildSingle false (c! "(1) ") := .paren (q := ['1']) (nests_plain (by decide)) (nests_plain (by decide))
    have h2 : ∀ (s t : Str), (∀ c ∈ s, Plain c) → Nests MildDouble MildSingle false t → Nests MildDouble MildSingle false (s ++ t) := by
      intro s t hs ht
      induction s with
      | nil => exact ht
      | cons c s ih => exact .char (hs c (by simp)) (ih fun d hd => hs d (by simp [hd]))
    exact h2 (c! "exten => s,1,NoOp") _ (by decide) h1

example : ∃ st, OrdinaryFile (asciiBytes ordinaryText) ∧
    (∀ es, (pipeRun noFiles collect 20 ⟨[openFrame (c! "f") (asciiBytes ordinaryText)], [], [], []⟩).val = .ok (some es) →
      (headerNames es).Nodup) ∧
    (checkDialplan noFiles demoEnv none 20 (c! "f") (asciiBytes ordinaryText)).val = .ok (some st) ∧ st.dp.contexts.length = 1 := by
  have h : ((checkDialplan noFiles demoEnv none 20 (c! "f") (asciiBytes ordinaryText)).val.toOption.getD none).map (·.dp.contexts.length) =
      some 1 := by decide +kernel
  have h' : ((pipeRun noFiles collect 20 ⟨[openFrame (c! "f") (asciiBytes ordinaryText)], [], [], []⟩).val.toOption.getD none).map headerNames =
      some [c! "general", c! "globals", c! "a"] := by decide +kernel
  cases hx : (checkDialplan noFiles demoEnv none 20 (c! "f") (asciiBytes ordinaryText)).val with
  | error e => rw [hx] at h; simp [Except.toOption] at h
  | ok o =>
    rw [hx] at h
    cases o with
    | none => simp [Except.toOption] at h
    | some st =>
      refine ⟨st, ordinaryText_ordinary, fun es he => ?_, rfl, by simpa [Except.toOption] using h⟩
      rw [he] at h'
      simp only [Except.toOption, Option.getD_some, Option.map_some, Option.some.injEq] at h'
      rw [h']
      decide

end ALint.Props
