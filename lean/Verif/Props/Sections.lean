import Verif.Proofs.Sections
import Verif.Props.Spelled

/-!
# C121: the order of the contexts
-/

namespace ALint.Props
open ALint Spec Proofs

/-- C121, as far as it holds: the sections of a dialplan file can be put in any order, as long as the first step of every section
has an extension and a priority of its own, and a spelling of `Background` (if any) was chosen before. -/
theorem C121_order_partial (fs fs' : FS) (env : DEnv) (sp : Option Str) (n n0 : Nat) (path : Str) (pre : Bytes)
    (secs secs' : List (Str × Bytes)) (hm : SectionsMoved fs fs' path pre secs secs')
    (hsec : ∀ x ∈ secs, SectionOf fs path x.1 x.2)
    (log0 log : List Msg) (st0 st : DState) (h0 : checkDialplan fs env sp n0 path pre = ⟨log0, .ok (some st0)⟩)
    (h : checkDialplan fs env sp n path (withSections pre secs) = ⟨log, .ok (some st)⟩) (hsp : st.sp = st0.sp) :
    ∃ k log' st', (∀ n', k ≤ n' → checkDialplan fs' env sp n' path (withSections pre secs') = ⟨log', .ok (some st')⟩) ∧
      SameInSomeOrder (substance log) (substance log') ∧ (dialplanText st.dp).Perm (dialplanText st'.dp) :=
  sections_moved hm hsec h0 h hsp

/-! ## Example -/

def sectPre : Str := c! "[general]\n\n[globals]\n\n"
def sectA : Str := c! "[a]\ninclude => b\nexten => 1,1,Goto(b,2,1)\n same => n,Goto(c,3,1)\n\n"
def sectB : Str := c! "[b]\nexten => 2,1,NoOp()\nexten => 2,1,Goto(b,9,1)\n\n"
def sectList : List (Str × Bytes) := [(c! "a", asciiBytes sectA), (c! "b", asciiBytes sectB)]
def sectList' : List (Str × Bytes) := [(c! "b", asciiBytes sectB), (c! "a", asciiBytes sectA)]
def sectFiles (secs : List (Str × Bytes)) : FS :=
  fun p => if p = c! "e.conf" then some (withSections (asciiBytes sectPre) secs) else none

def sectSays (secs : List (Str × Bytes)) : Option (List (MK × Int) × List (Str × List Str × List (Str × Nat × Option Str × Str))) :=
  let r := checkDialplan (sectFiles secs) demoEnv none 99 (c! "e.conf") (withSections (asciiBytes sectPre) secs)
  (ended r).map fun st => (r.log.map fun m => (m.kind, m.at_.lineno), dialplanText st.dp)

-- the same messages, but for their order and the numbers of the lines
example : sectSays sectList = some ([(.E_DP_PRIO_DUPE, 12), (.W_WSV_EOF, 13), (.E_DP_GOTO_NOCONTEXT, 8)],
      [(c! "a", [c! "b"], [(c! "1", 1, none, c! "Goto(b,2,1)"), (c! "1", 2, none, c! "Goto(c,3,1)")]), (c! "b", [], [(c! "2", 1, none, c! "NoOp()")])]) ∧
    sectSays sectList' = some ([(.E_DP_PRIO_DUPE, 7), (.W_WSV_EOF, 13), (.E_DP_GOTO_NOCONTEXT, 12)],
      [(c! "b", [], [(c! "2", 1, none, c! "NoOp()")]), (c! "a", [c! "b"], [(c! "1", 1, none, c! "Goto(b,2,1)"), (c! "1", 2, none, c! "Goto(c,3,1)")])]) := by
  refine ⟨?_, ?_⟩ <;> decide +kernel

/-- The lines of a text and what they say. -/
def modelTold (fs : FS) (path : Str) (n : Nat) (b : Bytes) : List Told :=
  (linesFrom path n (physLines b)).map fun w => ⟨w, ((lineModel fs w).getD ([], .nothing)).1, ((lineModel fs w).getD ([], .nothing)).2⟩

theorem textIs_model {fs : FS} {path : Str} {b : Bytes} {P : List Told → Prop} (n : Nat) (hw : WholeLines b)
    (hs : ((linesFrom path n (physLines b)).all fun w => (lineModel fs w).isSome) = true) (hp : P (modelTold fs path n b)) :
    TextIs fs path b P := by
  refine ⟨hw, n, modelTold fs path n b, by simp [modelTold, Function.comp_def], fun x hx => ?_, hp⟩
  obtain ⟨w, hw, rfl⟩ := List.mem_map.1 hx
  have := List.all_eq_true.1 hs w hw
  obtain ⟨r, hr⟩ := Option.isSome_iff_exists.1 this
  simp only [hr, Option.getD_some]
  exact lineTells_exists hr

/-- Neither a header nor an include. -/
def plainGives : Gives → Bool
  | .elem (.ctx _) | .file _ => false
  | _ => true

def headerName : Gives → Option Str
  | .elem (.ctx c) => some c.name
  | _ => none

theorem shape_of {name : Str} {told : List Told} (hh : (told.head?.bind fun x => headerName x.gives) = some name)
    (hn : name ≠ c! "general" ∧ name ≠ c! "globals") (hb : (told.tail.all fun x => plainGives x.gives) = true) : SectionShape name told where
  header := by
    cases told with
    | nil => cases hh
    | cons x told =>
      simp only [List.head?_cons, Option.bind_some] at hh
      simp only [List.head?_cons, Option.map_some, Option.some.injEq]
      unfold headerName at hh
      split at hh
      · rename_i c hc
        exact ⟨c, hc, by simpa using hh⟩
      · cases hh
  named := hn
  body := by
    intro x hx
    have := List.all_eq_true.1 hb x hx
    constructor
    · intro c hc
      rw [hc] at this
      cases this
    · intro f hf
      rw [hf] at this
      cases this

theorem example_a : SectionOf (sectFiles sectList) (c! "e.conf") (c! "a") (asciiBytes sectA) := by
  refine textIs_model 4 (by unfold WholeLines; decide +kernel) (by decide +kernel) ⟨shape_of (by decide +kernel) (by decide) (by decide +kernel), ?_⟩
  have e : varsOf (elemsOf (modelTold (sectFiles sectList) (c! "e.conf") 4 (asciiBytes sectA))) =
      [⟨c! "include", c! "b", true, false, ⟨c! "e.conf", 6, asciiBytes (c! "include => b\n")⟩⟩,
       ⟨c! "exten", c! "1,1,Goto(b,2,1)", true, false, ⟨c! "e.conf", 7, asciiBytes (c! "exten => 1,1,Goto(b,2,1)\n")⟩⟩,
       ⟨c! "same", c! "n,Goto(c,3,1)", true, false, ⟨c! "e.conf", 8, asciiBytes (c! " same => n,Goto(c,3,1)\n")⟩⟩] := by rfl
  rw [e]
  refine .other (by decide) (by decide) (.step (p := ⟨some (c! "1"), some 1, none, c! "Goto(b,2,1)"⟩)
    ⟨c! "1", rfl, by simp, .num (c! "1") (by simp) (by decide), by simp, .inl rfl⟩ rfl rfl (by decide))

theorem example_b : SectionOf (sectFiles sectList) (c! "e.conf") (c! "b") (asciiBytes sectB) := by
  refine textIs_model 4 (by unfold WholeLines; decide +kernel) (by decide +kernel) ⟨shape_of (by decide +kernel) (by decide) (by decide +kernel), ?_⟩
  have e : varsOf (elemsOf (modelTold (sectFiles sectList) (c! "e.conf") 4 (asciiBytes sectB))) =
      [⟨c! "exten", c! "2,1,NoOp()", true, false, ⟨c! "e.conf", 6, asciiBytes (c! "exten => 2,1,NoOp()\n")⟩⟩,
       ⟨c! "exten", c! "2,1,Goto(b,9,1)", true, false, ⟨c! "e.conf", 7, asciiBytes (c! "exten => 2,1,Goto(b,9,1)\n")⟩⟩] := by rfl
  rw [e]
  exact .step (p := ⟨some (c! "2"), some 1, none, c! "NoOp()"⟩)
    ⟨c! "1", rfl, by simp, .num (c! "1") (by simp) (by decide), by simp, .inl rfl⟩ rfl rfl (by decide)

theorem moved_ex (pre a b : Bytes) (hw : WholeLines pre) (n m : Str) (hne : n ≠ m) :
    SectionsMoved (fun p => if p = c! "e.conf" then some (withSections pre [(n, a), (m, b)]) else none)
      (fun p => if p = c! "e.conf" then some (withSections pre [(m, b), (n, a)]) else none) (c! "e.conf") pre [(n, a), (m, b)] [(m, b), (n, a)] where
  before := by simp
  after := by simp
  others := by intro q hq; simp [hq]
  whole := hw
  same := .swap _ _ _
  names := by simp [hne]

-- the hypotheses of `C121_order_partial`
example : SectionsMoved (sectFiles sectList) (sectFiles sectList') (c! "e.conf") (asciiBytes sectPre) sectList sectList' ∧
    (∀ x ∈ sectList, SectionOf (sectFiles sectList) (c! "e.conf") x.1 x.2) ∧
    ((ended (checkDialplan (sectFiles sectList) demoEnv none 99 (c! "e.conf") (asciiBytes sectPre))).map (·.sp)) = some none ∧
    ((ended (checkDialplan (sectFiles sectList) demoEnv none 99 (c! "e.conf") (withSections (asciiBytes sectPre) sectList))).map (·.sp)) = some none := by
  refine ⟨moved_ex _ _ _ (by unfold WholeLines; decide +kernel) _ _ (by decide), ?_, by decide +kernel, by decide +kernel⟩
  intro x hx
  simp only [sectList, List.mem_cons, List.not_mem_nil, or_false] at hx
  rcases hx with rfl | rfl
  · exact example_a
  · exact example_b

/-! ## Where the order matters -/

def heirA : Str := c! "[a]\nexten => 1,1,NoOp()\n\n"
def heirB : Str := c! "[b]\nexten => 2,n,NoOp()\n\n"
def heirList : List (Str × Bytes) := [(c! "a", asciiBytes heirA), (c! "b", asciiBytes heirB)]
def heirList' : List (Str × Bytes) := [(c! "b", asciiBytes heirB), (c! "a", asciiBytes heirA)]

theorem ended_unlike {r r' : Res (Option DState)}
    (h : ((ended r).bind fun st => (ended r').map fun st' => decide (¬ (dialplanText st.dp).Perm (dialplanText st'.dp))) = some true) :
    ∃ log log' st st', r = ⟨log, .ok (some st)⟩ ∧ r' = ⟨log', .ok (some st')⟩ ∧ ¬ (dialplanText st.dp).Perm (dialplanText st'.dp) := by
  simp only [Option.bind_eq_some_iff, Option.map_eq_some_iff, decide_eq_true_eq] at h
  obtain ⟨st, h1, st', h2, h5⟩ := h
  exact ⟨_, _, st, st', ended_eq h1, ended_eq h2, h5⟩

/-- C121 fails if the first step of a context has the priority `n`: it then takes over the priority of the context above. -/
theorem C121_violated : ∃ (fs fs' : FS) (env : DEnv) (n : Nat) (path : Str) (pre : Bytes) (secs secs' : List (Str × Bytes)),
    SectionsMoved fs fs' path pre secs secs' ∧ (∀ x ∈ secs, TextIs fs path x.2 (SectionShape x.1)) ∧
    ∃ log log' st st', checkDialplan fs env none n path (withSections pre secs) = ⟨log, .ok (some st)⟩ ∧
      checkDialplan fs' env none n path (withSections pre secs') = ⟨log', .ok (some st')⟩ ∧
      ¬ (dialplanText st.dp).Perm (dialplanText st'.dp) := by
  refine ⟨sectFiles heirList, sectFiles heirList', demoEnv, 99, c! "e.conf", asciiBytes sectPre, heirList, heirList',
    moved_ex _ _ _ (by unfold WholeLines; decide +kernel) _ _ (by decide), ?_, ended_unlike (by decide +kernel)⟩
  intro x hx
  simp only [heirList, List.mem_cons, List.not_mem_nil, or_false] at hx
  rcases hx with rfl | rfl
  · exact textIs_model 4 (by unfold WholeLines; decide +kernel) (by decide +kernel) (shape_of (by decide +kernel) (by decide) (by decide +kernel))
  · exact textIs_model 4 (by unfold WholeLines; decide +kernel) (by decide +kernel) (shape_of (by decide +kernel) (by decide) (by decide +kernel))

def bgEnv : DEnv := { demoEnv with
  apps := fun s => if s = c! "background" then some ⟨c! "Background", c! "<builtin>", .background⟩ else demoEnv.apps s }
def bgA : Str := c! "[a]\nexten => 1,1,Background(x)\n\n"
def bgB : Str := c! "[b]\nexten => 2,1,BackGround(x)\n\n"
def bgList : List (Str × Bytes) := [(c! "a", asciiBytes bgA), (c! "b", asciiBytes bgB)]
def bgList' : List (Str × Bytes) := [(c! "b", asciiBytes bgB), (c! "a", asciiBytes bgA)]

theorem zips_has {a b : List Msg} (h : Zips SameWords a b) : ∀ m ∈ a, ∃ m' ∈ b, m'.kind = m.kind ∧ m'.at_.line = m.at_.line := by
  induction h with
  | nil => intro m hm; cases hm
  | cons h1 _ ih =>
    intro m hm
    rcases List.mem_cons.1 hm with rfl | hm
    · exact ⟨_, List.mem_cons_self, h1.kind, h1.line⟩
    · obtain ⟨m', h2, h3⟩ := ih m hm
      exact ⟨m', List.mem_cons_of_mem _ h2, h3⟩

theorem not_same_order {a b : List Msg}
    (h : (a.any fun m => b.all fun m' => decide (¬ (m'.kind = m.kind ∧ m'.at_.line = m.at_.line))) = true) : ¬ SameInSomeOrder a b := by
  rintro ⟨l, h1, h2⟩
  obtain ⟨m, hm, h3⟩ := List.any_eq_true.1 h
  obtain ⟨m', h4, h5⟩ := zips_has h2 m (h1.mem_iff.1 hm)
  have := List.all_eq_true.1 h3 m' h4
  simp only [decide_eq_true_eq] at this
  exact this h5

/-- C121 fails if `Background` is spelled differently in two contexts: the spelling above decides which of them is complained about. -/
theorem C121_violated_spelling : ∃ (fs fs' : FS) (env : DEnv) (n : Nat) (path : Str) (pre : Bytes) (secs secs' : List (Str × Bytes)),
    SectionsMoved fs fs' path pre secs secs' ∧ (∀ x ∈ secs, SectionOf fs path x.1 x.2) ∧
    ∃ log log' st st', checkDialplan fs env none n path (withSections pre secs) = ⟨log, .ok (some st)⟩ ∧
      checkDialplan fs' env none n path (withSections pre secs') = ⟨log', .ok (some st')⟩ ∧
      ¬ SameInSomeOrder (substance log) (substance log') := by
  have ok : ∀ l, (ended (checkDialplan (sectFiles l) bgEnv none 99 (c! "e.conf") (withSections (asciiBytes sectPre) l))).isSome = true →
      ∃ st, checkDialplan (sectFiles l) bgEnv none 99 (c! "e.conf") (withSections (asciiBytes sectPre) l) =
        ⟨(checkDialplan (sectFiles l) bgEnv none 99 (c! "e.conf") (withSections (asciiBytes sectPre) l)).log, .ok (some st)⟩ := by
    intro l h
    obtain ⟨st, hst⟩ := Option.isSome_iff_exists.1 h
    exact ⟨st, ended_eq hst⟩
  obtain ⟨st, h1⟩ := ok bgList (by decide +kernel)
  obtain ⟨st', h2⟩ := ok bgList' (by decide +kernel)
  refine ⟨sectFiles bgList, sectFiles bgList', bgEnv, 99, c! "e.conf", asciiBytes sectPre, bgList, bgList',
    moved_ex _ _ _ (by unfold WholeLines; decide +kernel) _ _ (by decide), ?_, _, _, st, st', h1, h2, not_same_order (by decide +kernel)⟩
  intro x hx
  simp only [bgList, List.mem_cons, List.not_mem_nil, or_false] at hx
  rcases hx with rfl | rfl
  · refine textIs_model 4 (by unfold WholeLines; decide +kernel) (by decide +kernel) ⟨shape_of (by decide +kernel) (by decide) (by decide +kernel), ?_⟩
    rw [show varsOf (elemsOf (modelTold (sectFiles bgList) (c! "e.conf") 4 (asciiBytes bgA))) =
      [⟨c! "exten", c! "1,1,Background(x)", true, false, ⟨c! "e.conf", 6, asciiBytes (c! "exten => 1,1,Background(x)\n")⟩⟩] by rfl]
    exact .step (p := ⟨some (c! "1"), some 1, none, c! "Background(x)"⟩)
      ⟨c! "1", rfl, by simp, .num (c! "1") (by simp) (by decide), by simp, .inl rfl⟩ rfl rfl (by decide)
  · refine textIs_model 4 (by unfold WholeLines; decide +kernel) (by decide +kernel) ⟨shape_of (by decide +kernel) (by decide) (by decide +kernel), ?_⟩
    rw [show varsOf (elemsOf (modelTold (sectFiles bgList) (c! "e.conf") 4 (asciiBytes bgB))) =
      [⟨c! "exten", c! "2,1,BackGround(x)", true, false, ⟨c! "e.conf", 6, asciiBytes (c! "exten => 2,1,BackGround(x)\n")⟩⟩] by rfl]
    exact .step (p := ⟨some (c! "2"), some 1, none, c! "BackGround(x)"⟩)
      ⟨c! "1", rfl, by simp, .num (c! "1") (by simp) (by decide), by simp, .inl rfl⟩ rfl rfl (by decide)

end ALint.Props
