import Verif.Proofs.LineLog
import Verif.Props.Vsw
import Verif.Props.VswFiles
import Verif.Props.DialplanLog

/-!
# What is said about the lines of the files (C96)
-/

namespace ALint.Props
open ALint ALint.Spec

/-- C96: the specification leaves no choice. -/
theorem C96_unique (fs : FS) (w : Where) (ms ms' : List Msg) (g g' : Gives) (h : LineTells fs w ms g)
    (h' : LineTells fs w ms' g') : ms = ms' ∧ g = g' := by
  have := (lineTells_model h).symm.trans (lineTells_model h')
  simpa using this

/-- C96: it speaks about every line that has a text and does not name a file with a NUL in it. -/
theorem C96_total (fs : FS) (w : Where) (text : Str) (bad : Bool) (hd : DecodesAs w.line text bad)
    (h0 : ∀ path, opens w = some path → '\x00' ∉ path) : ∃ ms g, LineTells fs w ms g := by
  have key : ∃ r, lineModel fs w = some r := by
    obtain ⟨he, _⟩ := decodesAs_stage hd
    unfold lineModel
    unfold opens at h0
    simp only [he] at h0 ⊢
    unfold readModel
    cases hp : (parserStage w (commentStage w (ffStage [] w text).2.2).2.1
        (commentStage w (ffStage [] w text).2.2).2.2).2 with
    | elem e => exact ⟨_, rfl⟩
    | pp p =>
      cases p with
      | nothing => exact ⟨_, rfl⟩
      | open_ path must name =>
        simp only [hp] at h0
        simp only [if_neg (h0 path rfl)]
        exact ⟨_, rfl⟩
  obtain ⟨r, hr⟩ := key
  exact ⟨r.1, r.2, lineTells_exists hr⟩

/-- There is a function that knows which files lines include, and only one (on lines that are
spoken about): the hypotheses about `inc` and `text` can be met. -/
theorem C96_knows (fs : FS) : KnowsIncludes fs opens ∧ KnowsText textOf := by
  constructor
  · intro w ms g h
    exact lineModel_file (lineTells_model h)
  · intro w s bad h
    unfold textOf
    rw [(decodesAs_stage h).1]

/-- C96: when the files have been read, exactly the messages of the specification have been
issued, and the elements handed on are those of the lines (apart from blank lines). -/
theorem C96_files (fs : FS) (n : Nat) (path : Str) (content : Bytes) (hf : fs path = some content) (log : List Msg)
    (es : List Elem) (h : pipeRun fs collect n ⟨[openFrame path content], [], [], []⟩ = ⟨log, .ok (some es)⟩) :
    ∃ told, FilesSay fs path content told log ∧ es.filter notBlank = (elemsOf told).filter notBlank := by
  have hv := congrArg Res.val h
  have hl := congrArg Res.log h
  simp only at hv hl
  obtain ⟨told, t1, t2, t3, rest, t4, t5⟩ := pipeRun_told fs n _ es hv
  obtain ⟨t, ht, hfl⟩ := C02_pipeline fs collect [] path content n es hv
  have hsay : ∀ x ∈ told, LineTells fs x.line x.msgs x.gives := fun x hx => lineTells_exists (t2 x hx)
  have hlines : told.map (·.line) = t.flatten := t1.trans hfl
  simp only [List.nil_append] at t3
  rw [hl] at t5
  have hmem : ∀ w ∈ t.flatten, ∃ x ∈ told, x.line = w := fun w hw => by
    rw [← hlines] at hw; simpa using hw
  refine ⟨told, ⟨hsay, t, ?_, hlines, _, _, rest, ?_, ?_, t4, t5⟩, ?_⟩
  · intro inc hinc
    refine expand_congr ht fun w hw => ?_
    obtain ⟨x, hx, rfl⟩ := hmem w hw
    rw [hinc _ _ _ (hsay x hx), lineModel_file (t2 x hx)]
  · intro text htext
    rw [hlines, ffRun_congr (t := textOf) (t' := text) t.flatten [] ?_]
    · exact C07_formats text fs opens path content hf t ht
    · intro w hw
      obtain ⟨x, hx, rfl⟩ := hmem w hw
      obtain ⟨s, bad, hd⟩ := lineTells_text (hsay x hx)
      rw [htext _ _ _ hd, (C96_knows fs).2 _ _ _ hd]
  · intro hnd
    have hel : elemsOf told = t.flatten.filterMap fun w => (lineModel fs w).bind fun r => r.2.elem? := by
      rw [← hlines]
      exact elemsOf_flatten told t2
    have hnest := (expand_nested (el := fun w => (lineModel fs w).bind fun r => r.2.elem?) (fun w e he => by
      simp only [Option.bind_eq_some_iff] at he
      obtain ⟨r, hr, he⟩ := he
      exact lineTells_at (lineTells_exists hr) he) ht hnd).1
    rw [← hel] at hnest
    intro f l hlay
    have h72 := C72_own_partial (elemsOf told) (C72_nested _ _ hnest) f
    have hone : (vswRun [] (ownLines f (elemsOf told))).2 = l.hints := by
      rw [← hlay]
      refine C17_hints f l fun e he => ?_
      rw [hlay] at he
      simpa using (List.mem_filter.1 he).2
    simp only [hone] at h72
    exact h72
  · rw [t3]; exact C16_delivered _

/-- C96: a whole check of a dialplan.  What is said about the lines of the files and what is said
about the dialplan are put together; then comes what is missing, then what is wrong with the
jumps. -/
theorem C96_check (fs : FS) (env : DEnv) (sp : Option Str) (n : Nat) (path : Str) (content : Bytes)
    (hf : fs path = some content) (log : List Msg) (st : DState)
    (h : checkDialplan fs env sp n path content = ⟨log, .ok (some st)⟩) :
    ∃ told lines both parts, FilesSay fs path content told lines ∧
      Merges lines (dialplanSays env (.none sp) (elemsOf told)).1 both ∧
      Zips (JumpSays st.dp) st.dp.dests parts ∧
      log = both ++ endSays (dialplanSays env (.none sp) (elemsOf told)).2 ++ parts.flatten := by
  obtain ⟨es, lines, both, parts, h1, h2, h3, _, h5⟩ := C94_check fs env sp n path content log st h
  obtain ⟨told, t1, t2⟩ := C96_files fs n path content hf lines es h1
  have e : dialplanSays env (.none sp) es = dialplanSays env (.none sp) (elemsOf told) := by
    rw [dialplanSays_filter, t2, ← dialplanSays_filter]
  rw [e] at h2 h5
  exact ⟨told, lines, both, parts, t1, h2, h3, h5⟩

theorem own_flatten : ∀ (t : Items), ∀ w ∈ t.own, w ∈ t.flatten
  | .nil, _, h => by simp [Items.own] at h
  | .line x rest, w, h => by
    rcases List.mem_cons.1 h with rfl | h
    · simp [Items.flatten]
    · simp [Items.flatten, own_flatten rest w h]
  | .incl x _ sub rest, w, h => by
    rcases List.mem_cons.1 h with rfl | h
    · simp [Items.flatten]
    · simp [Items.flatten, own_flatten rest w h]

/-- The lines of a file that includes nothing. -/
theorem expand_alone {fs : FS} {inc : Where → Option Str} {f : Str} {n : Nat} {ls : List Bytes} {t : Items}
    (h : Expand fs inc f n ls t) : t.own = ls.mapIdx (fun i l => ⟨f, ((n + i : Nat) : Int) + 1, l⟩) ∧
      ((∀ w ∈ t.own, inc w = none) → t = t.own.foldr Items.line .nil ∧ t.flatten = t.own) := by
  have idx : ∀ (n : Nat) (l : Bytes) (ls : List Bytes), (⟨f, (n : Int) + 1, l⟩ : Where) ::
      ls.mapIdx (fun i l => ⟨f, ((n + 1 + i : Nat) : Int) + 1, l⟩) =
      (l :: ls).mapIdx (fun i l => ⟨f, ((n + i : Nat) : Int) + 1, l⟩) := by
    intro n l ls
    rw [List.mapIdx_cons]
    simp only [Nat.add_zero, List.cons.injEq, true_and]
    congr 1
    funext i l
    rw [show n + 1 + i = n + (i + 1) by omega]
  induction h with
  | nil => exact ⟨rfl, fun _ => ⟨rfl, rfl⟩⟩
  | line _ _ ih =>
    obtain ⟨i1, i2⟩ := ih idx
    refine ⟨by rw [Items.own, i1, idx], fun hw => ?_⟩
    obtain ⟨j1, j2⟩ := i2 fun w hm => hw w (by simp [Items.own, hm])
    exact ⟨by rw [Items.own, List.foldr_cons, ← j1], by rw [Items.own, Items.flatten, j2]⟩
  | incl h1 _ _ _ ih =>
    obtain ⟨i1, _⟩ := ih idx
    refine ⟨by rw [Items.own, i1, idx], fun hw => ?_⟩
    unfold pulls at h1
    rw [hw _ (by simp [Items.own])] at h1
    cases h1

/-- C96: for a file without includes: the messages about its lines, about the line terminators
(`ownFormat`) and about its blank lines (`Layout.hints`), put together. -/
theorem C96_alone (fs : FS) (n : Nat) (path : Str) (content : Bytes) (hf : fs path = some content) (log : List Msg)
    (es : List Elem) (h : pipeRun fs collect n ⟨[openFrame path content], [], [], []⟩ = ⟨log, .ok (some es)⟩)
    (hno : ∀ (i : Nat) l ms g, (physLines content)[i]? = some l → LineTells fs ⟨path, (i : Int) + 1, l⟩ ms g → g.file? = none) :
    ∃ told : List Told, (∀ x ∈ told, LineTells fs x.line x.msgs x.gives) ∧
      told.map (·.line) = (physLines content).mapIdx (fun i l => ⟨path, (i : Int) + 1, l⟩) ∧
      ∃ formats hints rest,
        (∀ text, KnowsText text → formats = ownFormat text (told.map (·.line))) ∧
        (∀ l : Layout, l.elems = elemsOf told → hints = l.hints) ∧
        Merges formats hints rest ∧ Merges (told.flatMap (·.msgs)) rest log := by
  have hv := congrArg Res.val h
  have hl := congrArg Res.log h
  simp only at hv hl
  obtain ⟨told, t1, t2, t3, rest, t4, t5⟩ := pipeRun_told fs n _ es hv
  obtain ⟨t, ht, hfl⟩ := C02_pipeline fs collect [] path content n es hv
  have hsay : ∀ x ∈ told, LineTells fs x.line x.msgs x.gives := fun x hx => lineTells_exists (t2 x hx)
  have hlines : told.map (·.line) = t.flatten := t1.trans hfl
  rw [hl] at t5
  obtain ⟨o1, o2⟩ := expand_alone ht
  simp only [Nat.zero_add] at o1
  have hmem : ∀ w ∈ t.flatten, ∃ x ∈ told, x.line = w := fun w hw => by
    rw [← hlines] at hw; simpa using hw
  obtain ⟨o3, o4⟩ := o2 fun w hw => by
    obtain ⟨x, hx, rfl⟩ := hmem w (own_flatten t w hw)
    rw [lineModel_file (t2 x hx)]
    rw [o1, List.mem_mapIdx] at hw
    obtain ⟨i, hi, e⟩ := hw
    refine hno i (physLines content)[i] x.msgs x.gives (by simp [hi]) ?_
    rw [e]
    exact hsay x hx
  refine ⟨told, hsay, by rw [hlines, o4, o1], _, _, rest, ?_, ?_, t4, t5⟩
  · intro text htext
    rw [hlines, ffRun_congr (t := textOf) (t' := text) t.flatten [] ?_]
    · show (ffRun text [] t.flatten).2 ++ ffEnd (ffRun text [] t.flatten).1 = _
      rw [C07_formats text fs opens path content hf t ht, o4, ← C07_alone, ← o3]
    · intro w hw
      obtain ⟨x, hx, rfl⟩ := hmem w hw
      obtain ⟨s, bad, hd⟩ := lineTells_text (hsay x hx)
      rw [htext _ _ _ hd, (C96_knows fs).2 _ _ _ hd]
  · intro l hlay
    rw [← hlay]
    refine C17_hints path l fun e he => ?_
    rw [hlay] at he
    unfold elemsOf at he
    rw [List.mem_filterMap] at he
    obtain ⟨x, hx, he⟩ := he
    rw [lineTells_at (hsay x hx) he]
    have hm : x.line ∈ told.map (·.line) := List.mem_map_of_mem hx
    rw [hlines, o4, o1, List.mem_mapIdx] at hm
    obtain ⟨i, hi, e⟩ := hm
    rw [← e]

/-! ## Examples -/

private def lf96 : FS := fun p =>
  if p = c! "d/a" then some (asciiBytes (c! "\n [a];x\nk=>v \n#include\tb\n#include \"c\nnext\n"))
  else if p = c! "d/b" then some (asciiBytes (c! "x= y")) else none

private def wl (f : Str) (n : Int) (s : Str) : Where := ⟨f, n, asciiBytes s⟩

-- an indented header with a comment glued to it
example : LineTells lf96 (wl (c! "d/a") 2 (c! " [a];x\n"))
    [plainMsg .W_WSH_COMMENT (wl (c! "d/a") 2 (c! " [a];x\n")), plainMsg .W_WSH_BOL (wl (c! "d/a") 2 (c! " [a];x\n"))]
    (.elem (.ctx ⟨c! "a", [], true, wl (c! "d/a") 2 (c! " [a];x\n")⟩)) :=
  lineTells_exists (r := (_, _)) (by decide +kernel)

-- a file that is not there, its name badly quoted
example : LineTells lf96 (wl (c! "d/a") 5 (c! "#include \"c\n"))
    [plainMsg .W_PP_QUOTE_BAD (wl (c! "d/a") 5 (c! "#include \"c\n")),
      ⟨.W_PP_INCLUDE_MISSING, wl (c! "d/a") 5 (c! "#include \"c\n"), [(c! "filename", .one (.str (c! "\"c")))], none⟩]
    (.file (c! "d/\"c")) :=
  lineTells_exists (r := (_, _)) (by decide +kernel)

-- two files
example : ((pipeRun lf96 collect 99 ⟨[openFrame (c! "d/a") ((lf96 (c! "d/a")).getD [])], [], [], []⟩).log.map
      fun m => (m.kind, m.at_.filename, m.at_.lineno)) =
    [(.W_WSH_COMMENT, c! "d/a", 2), (.W_WSH_BOL, c! "d/a", 2), (.W_WSV_BOF, c! "d/a", 1), (.W_WSH_EOL, c! "d/a", 3),
      (.W_WSH_OBJSET, c! "d/a", 3), (.W_WSH_VARSET, c! "d/b", 1), (.W_PP_QUOTE_BAD, c! "d/a", 5),
      (.W_PP_INCLUDE_MISSING, c! "d/a", 5), (.E_CONF_BAD_LINE, c! "d/a", 6)] ∧
    ((pipeRun lf96 collect 99 ⟨[openFrame (c! "d/a") ((lf96 (c! "d/a")).getD [])], [], [], []⟩).val.toOption.isSome = true) := by
  decide +kernel

example : PathFrom (c! "etc//asterisk/x.conf") (c! "y/z") (c! "etc//asterisk/y/z") :=
  .beside (c! "etc//asterisk") (c! "/") (c! "x.conf") (by decide) rfl (by decide) (by decide) (by decide) (by decide) (by decide)

end ALint.Props
