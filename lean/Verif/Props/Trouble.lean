import Verif.Proofs.TroubleFile
import Verif.Props.Lookup
import Verif.Props.Located
import Verif.Props.Reader

/-!
# C57: internal errors

The claim "every check ends with a report" does not hold.  Here are its violations, the exact
conditions under which reading a dialplan ends with an internal error, and conditions under
which a whole check ends with a report.
-/

namespace ALint.Props
open ALint ALint.Spec

/-! ## Violations -/

/-- The exception a run ends with. -/
def failure {α : Type} (x : Res α) : Option Exc :=
  match x.val with
  | .ok _ => none
  | .error e => some e

/-- C57 is violated by a second `[general]`. -/
theorem C57_violated_general :
    failure (checkText (c! "[general]\n[general]\n")) = some (.programmingError .attributeError) := by decide +kernel

/-- C57 is violated by opening a context again with a comment on the line. -/
theorem C57_violated_reopened :
    failure (checkText (c! "[a]\n[a] ; again\n")) = some (.programmingError .assertionError) := by decide +kernel

/-- C57 is violated by an extension without a comma. -/
theorem C57_violated_noComma :
    failure (checkText (c! "[a]\nexten => s\n")) = some (.programmingError .valueError) := by decide +kernel

/-- C57 is violated by a label without closing parenthesis. -/
theorem C57_violated_label :
    failure (checkText (c! "[a]\nexten => s,1(x,NoOp()\n")) = some (.programmingError .keyError) := by decide +kernel

/-- C57 is violated by the superscript `²` as a priority. -/
theorem C57_violated_digits :
    failure (checkDialplan noFiles demoEnv none 99 (c! "e.conf") (utf8 (c! "[a]\nexten => s,²,NoOp()\n"))) =
      some (.programmingError .valueError) := by decide +kernel

/-- C57 is violated by a pattern. -/
theorem C57_violated_pattern :
    failure (checkText (c! "[a]\nexten => _[,1,NoOp()\n")) = some (.programmingError .valueError) := by decide +kernel

/-- C57 is violated by a variable without a name. -/
theorem C57_violated_app :
    failure (checkText (c! "[a]\nexten => s,1,NoOp(${(x)})\n")) = some (.programmingError .assertionError) := by decide +kernel

/-- C57 is violated by a jump with four arguments: the linter loops forever. -/
theorem C57_violated_hang :
    failure (checkText (c! "[a]\nexten => s,1,Goto(a,b,c,d)\n")) = some (.programmingError .hang) := by decide +kernel

/-- C57 is violated by a byte that means nothing. -/
theorem C57_violated_bytes :
    failure (checkDialplan noFiles demoEnv none 99 (c! "e.conf") [129]) = some .unicodeDecodeError := by decide +kernel

/-- C57 is violated by an include with NUL in the name of the file. -/
theorem C57_violated_nul :
    failure (checkDialplan noFiles demoEnv none 99 (c! "e.conf") (asciiBytes (c! "#include a" ++ [Char.ofNat 0] ++ c! "b\n"))) =
      some .valueError := by decide +kernel

/-! ## Reading -/

/-- What ends reading with an internal error, exactly.  Given that the includes of files are
finite (otherwise see C03), it is a line that cannot be read, or an element of those read
that is trouble for the dialplan made of the elements before it. -/
theorem C57_reading (fs : FS) (env : DEnv) (sp : Option Str) (path : Str) (content : Bytes) (t : Items)
    (ht : Expand fs opens path 0 (physLines content) t) :
    (∃ e, (pipeRun fs (dialplanStep env) (t.flatten.length + 1)
        ⟨[openFrame path content], [], [], .init sp⟩).val = .error e) ↔
    (∃ w ∈ t.flatten, BadLine w) ∨
    ∃ es, (pipeRun fs collect (t.flatten.length + 1) ⟨[openFrame path content], [], [], []⟩).val = .ok (some es) ∧
      ∃ pre el post log st, es = pre ++ el :: post ∧ After env sp pre log st ∧ Trouble env st el := by
  have hread := C02_expansion fs opens path content t ht
  by_cases hb : ∃ w ∈ t.flatten, BadLine w
  · simp only [hb, true_or, iff_true]
    exact pipeRun_bad fs (dialplanStep env) (t.flatten.length + 1) ⟨[openFrame path content], [], [], .init sp⟩
      (by simpa [hread] using hb)
  · simp only [hb, false_or]
    have hgood : ∃ es, (pipeRun fs collect (t.flatten.length + 1)
        ⟨[openFrame path content], [], [], []⟩).val = .ok (some es) := by
      obtain ⟨o, ho⟩ := pipeRun_good fs (t.flatten.length + 1) ⟨[openFrame path content], [], [], []⟩
        (by intro w hw hbad; exact hb ⟨w, by simpa [hread] using hw, hbad⟩)
      have := (pipeRun_reader fs collect _ _ _ ho).2
      rw [hread] at this
      cases o with
      | none => simp at this
      | some es => exact ⟨es, ho⟩
    obtain ⟨es, hes⟩ := hgood
    obtain ⟨es', h1, h2⟩ := pipeRun_feed fs (dialplanStep env) (t.flatten.length + 1)
      ⟨[openFrame path content], [], [], DState.init sp⟩ [] es hes
    simp only [List.nil_append] at h1
    subst h1
    rw [h2]
    have hf := fails_feed (env := env) (DpInv.init sp) (es := es)
    have hmap : (∃ e, (feed (dialplanStep env) (.init sp) es).val.map some = .error e) ↔
        Fails (feed (dialplanStep env) (.init sp) es) := by
      unfold Fails
      cases (feed (dialplanStep env) (.init sp) es).val <;> simp [Except.map]
    rw [hmap, hf]
    constructor
    · rintro ⟨pre, el, post, st', h3, h4, h5⟩
      refine ⟨es, hes, pre, el, post, (feed (dialplanStep env) (.init sp) pre).log, st', h3, ?_, h5⟩
      unfold After
      rw [← h4]
    · rintro ⟨es2, hes2, pre, el, post, log, st', h3, h4, h5⟩
      rw [hes] at hes2
      simp only [Except.ok.injEq, Option.some.injEq] at hes2
      subst hes2
      exact ⟨pre, el, post, st', h3, congrArg Res.val h4, h5⟩

/-- C57, the part that holds.  The file is finite with its includes and has no line that
cannot be read; no element is trouble; contexts do not include each other in a circle; the
depth of calls Python allows is enough for the number of contexts; and every jump recorded is
one that can be looked up.  Then the check ends with a report. -/
theorem C57_report_partial (fs : FS) (env : DEnv) (sp : Option Str) (path : Str) (content : Bytes) (t : Items)
    (ht : Expand fs opens path 0 (physLines content) t)
    (hlines : ∀ w ∈ t.flatten, ¬ BadLine w)
    (helems : ∀ es, (pipeRun fs collect (t.flatten.length + 1) ⟨[openFrame path content], [], [], []⟩).val = .ok (some es) →
      ∀ pre el post log st, es = pre ++ el :: post → After env sp pre log st → ¬ Trouble env st el)
    (hend : ∀ es log st, (pipeRun fs collect (t.flatten.length + 1) ⟨[openFrame path content], [], [], []⟩).val =
        .ok (some es) → After env sp es log st →
      (∀ a b, Includes st.dp a b → ¬ Reaches st.dp b a) ∧ st.dp.contexts.length + 2 ≤ env.depth ∧
      ∀ d ∈ st.dp.dests, Walkable d) :
    ∃ st, (checkDialplan fs env sp (t.flatten.length + 1) path content).val = .ok (some st) := by
  have hno : ¬ ∃ e, (pipeRun fs (dialplanStep env) (t.flatten.length + 1)
      ⟨[openFrame path content], [], [], .init sp⟩).val = .error e := by
    rw [C57_reading fs env sp path content t ht]
    rintro (⟨w, hw, hb⟩ | ⟨es, h1, pre, el, post, log, st, h2, h3, h4⟩)
    · exact hlines w hw hb
    · exact helems es h1 pre el post log st h2 h3 h4
  rcases C03_pipeline_ends fs (dialplanStep env) (.init sp) path content t ht with ⟨st, hst⟩ | h
  · refine ⟨st, ?_⟩
    obtain ⟨es, h1, h2, _⟩ := pipeRun_collect fs (dialplanStep env) _ _ st hst
    have hes := h2 []
    simp only [List.nil_append] at hes
    have hafter : After env sp es (feed (dialplanStep env) (.init sp) es).log st := by
      unfold After
      rw [← h1]
    obtain ⟨hacy, hdeep, hwalk⟩ := hend es _ st hes hafter
    have hd : ∀ ctx exten prio, matchPattern st.dp env.depth ctx exten prio ≠ .error .recursionError := by
      intro ctx exten prio
      obtain ⟨r, hr, hr'⟩ := C54_acyclic_partial env sp es _ st hafter hacy ctx exten prio
      rw [hr' env.depth hdeep]
      exact hr
    unfold checkDialplan
    rw [Res.bind_of_ok hst]
    dsimp only
    rw [Res.bind_of_ok (onComplete_ok st.dp)]
    dsimp only
    rw [Res.bind_of_ok (walkDests_ok hwalk hd)]
    rfl
  · exact absurd h hno

/-! A file that meets these conditions, with a jump. -/

def goodText : Str := c! "[a]\nexten => s,1,Goto(1)\n"
def goodW (n : Nat) (s : Str) : Where := ⟨c! "e.conf", n, asciiBytes s⟩
def goodItems : Items := .line (goodW 1 (c! "[a]\n")) (.line (goodW 2 (c! "exten => s,1,Goto(1)\n")) .nil)
def goodElems : List Elem := [.ctx ⟨c! "a", [], false, goodW 1 (c! "[a]\n")⟩,
  .var ⟨c! "exten", c! "s,1,Goto(1)", true, false, goodW 2 (c! "exten => s,1,Goto(1)\n")⟩]

theorem good_expand : Expand noFiles opens (c! "e.conf") 0 (physLines (asciiBytes goodText)) goodItems :=
  .line (by decide +kernel) (.line (by decide +kernel) .nil)

theorem good_elems : (pipeRun noFiles collect 3 ⟨[openFrame (c! "e.conf") (asciiBytes goodText)], [], [], []⟩).val =
    .ok (some goodElems) := by decide +kernel

theorem good_feed : (feed (dialplanStep demoEnv) (.init none) goodElems).val.toOption.map (fun st =>
      st.dp.contexts.map fun c => (c.name, c.includes)) = some [(c! "a", [])] ∧
    (feed (dialplanStep demoEnv) (.init none) goodElems).val.toOption.map (fun st => st.dp.dests) =
    some [⟨.str (c! "a"), .str (c! "s"), .one (.int 1), goodW 2 (c! "exten => s,1,Goto(1)\n")⟩] := by decide +kernel

example : ∃ st, (checkDialplan noFiles demoEnv none 3 (c! "e.conf") (asciiBytes goodText)).val = .ok (some st) := by
  have hrun : ∃ st, (feed (dialplanStep demoEnv) (.init none) goodElems).val = .ok st := by
    have := good_feed.1
    cases hv : (feed (dialplanStep demoEnv) (.init none) goodElems).val with
    | ok st => exact ⟨st, rfl⟩
    | error e => rw [hv] at this; cases this
  have hel : ∀ es, (pipeRun noFiles collect 3 ⟨[openFrame (c! "e.conf") (asciiBytes goodText)], [], [], []⟩).val =
      .ok (some es) → es = goodElems := by
    intro es h
    rw [good_elems] at h
    simpa using h.symm
  refine C57_report_partial noFiles demoEnv none (c! "e.conf") (asciiBytes goodText) goodItems good_expand ?_ ?_ ?_
  · intro w hw hb
    obtain ⟨e, he⟩ := (fails_lineStep (fs := noFiles) (ff := []) (frames := [])).2 hb
    simp only [goodItems, Items.flatten, List.mem_cons, List.not_mem_nil, or_false] at hw
    rcases hw with rfl | rfl
    · have : (lineStep noFiles [] [] (goodW 1 (c! "[a]\n"))).2.toOption.isSome = true := by decide +kernel
      rw [he] at this; cases this
    · have : (lineStep noFiles [] [] (goodW 2 (c! "exten => s,1,Goto(1)\n"))).2.toOption.isSome = true := by
        decide +kernel
      rw [he] at this; cases this
  · intro es hes pre el post log st h1 h2 h3
    rw [hel es hes] at h1
    obtain ⟨st', h4⟩ := hrun
    obtain ⟨e, h5⟩ := (fails_feed (DpInv.init none) (es := goodElems)).2 ⟨pre, el, post, st, h1, congrArg Res.val h2, h3⟩
    rw [h4] at h5; cases h5
  · intro es log st hes hafter
    rw [hel es hes] at hafter
    have := good_feed
    rw [congrArg Res.val hafter] at this
    simp only [Except.toOption, Option.map_some, Option.some.injEq] at this
    obtain ⟨hc, hd⟩ := this
    refine ⟨?_, ?_, ?_⟩
    · rintro a b ⟨c, i, h1, h2, _, _⟩
      have hm : (c.name, c.includes) ∈ st.dp.contexts.map fun c => (c.name, c.includes) :=
        List.mem_map.2 ⟨c, (get_mem h1).1, rfl⟩
      rw [hc] at hm
      simp only [List.mem_singleton, Prod.mk.injEq] at hm
      rw [hm.2] at h2
      simp at h2
    · have := congrArg List.length hc
      simp only [List.length_map, List.length_singleton] at this
      rw [this]
      decide
    · rw [hd]
      intro d hd
      rw [List.mem_singleton] at hd
      subst hd
      exact ⟨⟨_, rfl⟩, ⟨_, rfl⟩, ⟨.inl ⟨1, rfl⟩, by intro v hv; cases hv; exact ⟨_, rfl⟩⟩,
        .inr ⟨_, rfl, by decide⟩⟩

end ALint.Props
