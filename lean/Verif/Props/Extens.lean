import Verif.Proofs.Extens
import Verif.Props.Sections

/-!
# C122: the order of the extensions of a context
-/

namespace ALint.Props
open ALint Spec Proofs

/-- C122, as far as it holds: the extensions at the end of a section can be put in any order, as long as the first step of every
extension has a priority of its own, the context has no other step of these extensions, and a spelling of `Background` (if any) was
chosen before.  Not even the listing of the dialplan changes. -/
theorem C122_order_partial (fs fs' : FS) (env : DEnv) (sp : Option Str) (n n0 : Nat) (path : Str) (above sec : Bytes) (name : Str)
    (blocks blocks' : List (Pattern.Values × Bytes)) (hw : WholeLines above) (hsec : TextIs fs path sec (SectionShape name))
    (hm : BlocksMoved fs fs' path (above ++ sec) blocks blocks') (hb : ∀ x ∈ blocks, BlockOf fs path x.1 x.2)
    (log0 log : List Msg) (st0 st : DState) (h0 : checkDialplan fs env sp n0 path (above ++ sec) = ⟨log0, .ok (some st0)⟩)
    (hnew : NoneOf st0.dp name blocks)
    (h : checkDialplan fs env sp n path (withBlocks (above ++ sec) blocks) = ⟨log, .ok (some st)⟩) (hsp : st.sp = st0.sp) :
    ∃ k log' st', (∀ n', k ≤ n' → checkDialplan fs' env sp n' path (withBlocks (above ++ sec) blocks') = ⟨log', .ok (some st')⟩) ∧
      SameInSomeOrder (substance log) (substance log') ∧
      ∀ repr reverse, showDialplan repr reverse st'.dp = showDialplan repr reverse st.dp :=
  blocks_moved hm hb h0 (file_cur hw hsec h0) hnew h hsp

/-! ## Example -/

def extAbove : Str := c! "[general]\n\n[globals]\n\n"
def extSec : Str := c! "[a]\nexten => s,1,Goto(5,2)\n\n"
def extPre : Bytes := asciiBytes extAbove ++ asciiBytes extSec
def ext5 : Str := c! "exten => 5,1,NoOp()\n same => n(x),Goto(701,1)\n\n"
def ext7 : Str := c! "exten => _7XX,1,NoOp()\nexten => _7XX,1,NoOp()\n same => n,Goto(9,1)\n\n"
def pat5 : Pattern.Values := ⟨0, [(309, none)]⟩
def pat7 : Pattern.Values := ⟨1, [(311, none), (2608, none), (2608, none), (196608, none)]⟩
def extList : List (Pattern.Values × Bytes) := [(pat5, asciiBytes ext5), (pat7, asciiBytes ext7)]
def extList' : List (Pattern.Values × Bytes) := [(pat7, asciiBytes ext7), (pat5, asciiBytes ext5)]
def extFiles (l : List (Pattern.Values × Bytes)) : FS := fun p => if p = c! "e.conf" then some (withBlocks extPre l) else none
def extCheck (l : List (Pattern.Values × Bytes)) : Res (Option DState) :=
  checkDialplan (extFiles l) demoEnv none 99 (c! "e.conf") (withBlocks extPre l)


-- the same messages, but for their order and the numbers of the lines
example : (extCheck extList).log.map (fun m => (m.kind, m.at_.lineno)) = [(.E_DP_PRIO_DUPE, 12), (.W_WSV_EOF, 14), (.W_DP_GOTO_CONTEXT_NOEXTEN, 13)] ∧
    (extCheck extList').log.map (fun m => (m.kind, m.at_.lineno)) = [(.E_DP_PRIO_DUPE, 9), (.W_WSV_EOF, 14), (.W_DP_GOTO_CONTEXT_NOEXTEN, 10)] := by
  refine ⟨?_, ?_⟩ <;> decide +kernel

-- and the same listing
example : (ended (extCheck extList)).map (fun st => showDialplan id false st.dp) = some (
c! "[ Context a created by 'pbx_config' ]
  '5' =>            1. NoOp()                                     [pbx_config]
     [x]            2. Goto(701,1)                                [pbx_config]
  's' =>            1. Goto(5,2)                                  [pbx_config]
  '_7XX' =>         1. NoOp()                                     [pbx_config]
                    2. Goto(9,1)                                  [pbx_config]
") ∧ (ended (extCheck extList')).map (fun st => showDialplan id false st.dp) = (ended (extCheck extList)).map fun st => showDialplan id false st.dp := by
  refine ⟨?_, ?_⟩ <;> decide +kernel

def BlockGives (pat : Pattern.Values) (g : Gives) : Prop :=
  g = .nothing ∨ (∃ b w, g = .elem (.empty b w)) ∨
    ∃ (v : VarE) (p : Parts), g = .elem (.var v) ∧ StepText v p ∧ ∀ raw, p.exten = some raw → Pattern.parse raw = .ok pat

theorem blockShape_of {pat : Pattern.Values} {told : List Told} {v : VarE} {p : Parts} {raw : Str} {gs : List Gives}
    (hg : told.map (·.gives) = .elem (.var v) :: gs) (ht : StepText v p) (hr : p.exten = some raw) (hp : Pattern.parse raw = .ok pat)
    (hrest : ∀ g ∈ gs, BlockGives pat g) : BlockShape pat told where
  named := ⟨v, p, raw, by rw [← List.head?_map, hg]; rfl, ht, hr, hp⟩
  lines := by
    intro x hx
    have : x.gives ∈ told.map (·.gives) := List.mem_map_of_mem hx
    rw [hg] at this
    rcases List.mem_cons.1 this with e | e
    · rw [e]
      exact .inr (.inr ⟨v, p, rfl, ht, fun r h => by rw [hr] at h; cases h; exact hp⟩)
    · exact hrest _ e

theorem blockLines_of {pat : Pattern.Values} {told : List Told} {v : VarE} {p : Parts} {raw : Str} {n : Nat} {gs : List Gives}
    (hg : told.map (·.gives) = .elem (.var v) :: gs) (ht : StepText v p) (hr : p.exten = some raw) (hp : Pattern.parse raw = .ok pat)
    (hn : p.prio = some n) (h1 : 1 ≤ n) (hrest : ∀ g ∈ gs, BlockGives pat g) : BlockLines pat told where
  toBlockShape := blockShape_of hg ht hr hp hrest
  starts := ⟨v, p, raw, n, by rw [← List.head?_map, hg]; rfl, ht, hr, hp, hn, h1⟩

theorem blockGives_blank (pat : Pattern.Values) (b : Bool) (w : Where) : BlockGives pat (.elem (.empty b w)) := .inr (.inl ⟨b, w, rfl⟩)

def extAt (n : Int) (s : Str) : Where := ⟨c! "e.conf", n, asciiBytes s⟩

theorem example_5 : BlockOf (extFiles extList) (c! "e.conf") pat5 (asciiBytes ext5) := by
  refine textIs_model 7 (by unfold WholeLines; decide +kernel) (by decide +kernel) (blockLines_of
    (v := ⟨c! "exten", c! "5,1,NoOp()", true, false, extAt 8 (c! "exten => 5,1,NoOp()\n")⟩)
    (gs := [.elem (.var ⟨c! "same", c! "n(x),Goto(701,1)", true, false, extAt 9 (c! " same => n(x),Goto(701,1)\n")⟩),
      .elem (.empty false (extAt 10 (c! "\n")))])
    (p := ⟨some (c! "5"), some 1, none, c! "NoOp()"⟩) (by rfl)
    ⟨c! "1", rfl, by simp, .num (c! "1") (by simp) (by decide), by simp, .inl rfl⟩ rfl (by decide) rfl (by decide) ?_)
  intro g hg
  simp only [List.mem_cons, List.not_mem_nil, or_false] at hg
  rcases hg with rfl | rfl
  · exact .inr (.inr ⟨_, ⟨none, none, some (c! "x"), c! "Goto(701,1)"⟩, rfl, ⟨c! "n", rfl, by simp, .next, by simp, .inl rfl⟩, by simp⟩)
  · exact blockGives_blank _ _ _

theorem example_7 : BlockOf (extFiles extList) (c! "e.conf") pat7 (asciiBytes ext7) := by
  refine textIs_model 7 (by unfold WholeLines; decide +kernel) (by decide +kernel) (blockLines_of
    (v := ⟨c! "exten", c! "_7XX,1,NoOp()", true, false, extAt 8 (c! "exten => _7XX,1,NoOp()\n")⟩)
    (gs := [.elem (.var ⟨c! "exten", c! "_7XX,1,NoOp()", true, false, extAt 9 (c! "exten => _7XX,1,NoOp()\n")⟩),
      .elem (.var ⟨c! "same", c! "n,Goto(9,1)", true, false, extAt 10 (c! " same => n,Goto(9,1)\n")⟩),
      .elem (.empty false (extAt 11 (c! "\n")))])
    (p := ⟨some (c! "_7XX"), some 1, none, c! "NoOp()"⟩) (by rfl)
    ⟨c! "1", rfl, by simp, .num (c! "1") (by simp) (by decide), by simp, .inl rfl⟩ rfl (by decide) rfl (by decide) ?_)
  intro g hg
  simp only [List.mem_cons, List.not_mem_nil, or_false] at hg
  rcases hg with rfl | rfl | rfl
  · exact .inr (.inr ⟨_, ⟨some (c! "_7XX"), some 1, none, c! "NoOp()"⟩, rfl,
      ⟨c! "1", rfl, by simp, .num (c! "1") (by simp) (by decide), by simp, .inl rfl⟩, fun r h => by cases h; decide⟩)
  · exact .inr (.inr ⟨_, ⟨none, none, none, c! "Goto(9,1)"⟩, rfl, ⟨c! "n", rfl, by simp, .next, by simp, .inl rfl⟩, by simp⟩)
  · exact blockGives_blank _ _ _

theorem extMoved (pre a b : Bytes) (hw : WholeLines pre) (p q : Pattern.Values) (hne : Pattern.canonical p ≠ Pattern.canonical q) :
    BlocksMoved (fun f => if f = c! "e.conf" then some (withBlocks pre [(p, a), (q, b)]) else none)
      (fun f => if f = c! "e.conf" then some (withBlocks pre [(q, b), (p, a)]) else none) (c! "e.conf") pre [(p, a), (q, b)] [(q, b), (p, a)] where
  before := by simp
  after := by simp
  others := by intro q hq; simp [hq]
  whole := hw
  same := .swap _ _ _
  names := by simp [hne]

theorem noneOf_of {r : Res (Option DState)} {name : Str} {blocks : List (Pattern.Values × Bytes)}
    (h : ((ended r).map fun st => (st.dp.get name).all fun c => c.steps.all fun s => blocks.all fun x =>
      decide (Pattern.canonical s.pat ≠ Pattern.canonical x.1)) = some true) :
    ∃ log st, r = ⟨log, .ok (some st)⟩ ∧ NoneOf st.dp name blocks := by
  simp only [Option.map_eq_some_iff] at h
  obtain ⟨st, h1, h2⟩ := h
  refine ⟨_, st, ended_eq h1, fun c hc s hs x hx => ?_⟩
  rw [hc] at h2
  have := List.all_eq_true.1 (List.all_eq_true.1 h2 s hs) x hx
  simpa using this

-- the hypotheses of `C122_order_partial`
example : WholeLines (asciiBytes extAbove) ∧ TextIs (extFiles extList) (c! "e.conf") (asciiBytes extSec) (SectionShape (c! "a")) ∧
    BlocksMoved (extFiles extList) (extFiles extList') (c! "e.conf") extPre extList extList' ∧
    (∀ x ∈ extList, BlockOf (extFiles extList) (c! "e.conf") x.1 x.2) ∧
    (∃ log0 st0, checkDialplan (extFiles extList) demoEnv none 99 (c! "e.conf") extPre = ⟨log0, .ok (some st0)⟩ ∧
      NoneOf st0.dp (c! "a") extList) ∧
    ((ended (checkDialplan (extFiles extList) demoEnv none 99 (c! "e.conf") extPre)).map (·.sp)) = some none ∧
    ((ended (extCheck extList)).map (·.sp)) = some none := by
  refine ⟨by unfold WholeLines; decide +kernel,
    textIs_model 4 (by unfold WholeLines; decide +kernel) (by decide +kernel) (shape_of (by decide +kernel) (by decide) (by decide +kernel)),
    extMoved _ _ _ (by unfold WholeLines; decide +kernel) _ _ (by decide), ?_, noneOf_of (by decide +kernel), by decide +kernel, by decide +kernel⟩
  intro x hx
  simp only [extList, List.mem_cons, List.not_mem_nil, or_false] at hx
  rcases hx with rfl | rfl
  · exact example_5
  · exact example_7

/-! ## Where the order matters -/

def nextExt5 : Str := c! "exten => 5,1,NoOp()\n same => n,NoOp()\n\n"
def nextExt7 : Str := c! "exten => _7XX,n,NoOp()\n\n"
def nextList : List (Pattern.Values × Bytes) := [(pat5, asciiBytes nextExt5), (pat7, asciiBytes nextExt7)]
def nextList' : List (Pattern.Values × Bytes) := [(pat7, asciiBytes nextExt7), (pat5, asciiBytes nextExt5)]

theorem ended_shows {r r' : Res (Option DState)}
    (h : ((ended r).bind fun st => (ended r').map fun st' => decide (showDialplan id false st'.dp ≠ showDialplan id false st.dp)) = some true) :
    ∃ log log' st st', r = ⟨log, .ok (some st)⟩ ∧ r' = ⟨log', .ok (some st')⟩ ∧ showDialplan id false st'.dp ≠ showDialplan id false st.dp := by
  simp only [Option.bind_eq_some_iff, Option.map_eq_some_iff, decide_eq_true_eq] at h
  obtain ⟨st, h1, st', h2, h5⟩ := h
  exact ⟨_, _, st, st', ended_eq h1, ended_eq h2, h5⟩

/-- C122 fails if the first step of an extension has the priority `n`: it then takes over the priority of the extension above. -/
theorem C122_violated : ∃ (fs fs' : FS) (env : DEnv) (n : Nat) (path : Str) (above sec : Bytes) (name : Str)
    (blocks blocks' : List (Pattern.Values × Bytes)), WholeLines above ∧ TextIs fs path sec (SectionShape name) ∧
    BlocksMoved fs fs' path (above ++ sec) blocks blocks' ∧ (∀ x ∈ blocks, TextIs fs path x.2 (BlockShape x.1)) ∧
    (∃ log0 st0, checkDialplan fs env none n path (above ++ sec) = ⟨log0, .ok (some st0)⟩ ∧ NoneOf st0.dp name blocks) ∧
    ∃ log log' st st', checkDialplan fs env none n path (withBlocks (above ++ sec) blocks) = ⟨log, .ok (some st)⟩ ∧
      checkDialplan fs' env none n path (withBlocks (above ++ sec) blocks') = ⟨log', .ok (some st')⟩ ∧
      showDialplan id false st'.dp ≠ showDialplan id false st.dp := by
  refine ⟨extFiles nextList, extFiles nextList', demoEnv, 99, c! "e.conf", asciiBytes extAbove, asciiBytes extSec, c! "a", nextList, nextList',
    by unfold WholeLines; decide +kernel,
    textIs_model 4 (by unfold WholeLines; decide +kernel) (by decide +kernel) (shape_of (by decide +kernel) (by decide) (by decide +kernel)),
    extMoved _ _ _ (by unfold WholeLines; decide +kernel) _ _ (by decide), ?_, noneOf_of (by decide +kernel), ended_shows (by decide +kernel)⟩
  intro x hx
  simp only [nextList, List.mem_cons, List.not_mem_nil, or_false] at hx
  rcases hx with rfl | rfl
  · refine textIs_model 7 (by unfold WholeLines; decide +kernel) (by decide +kernel) (blockShape_of
      (v := ⟨c! "exten", c! "5,1,NoOp()", true, false, extAt 8 (c! "exten => 5,1,NoOp()\n")⟩)
      (gs := [.elem (.var ⟨c! "same", c! "n,NoOp()", true, false, extAt 9 (c! " same => n,NoOp()\n")⟩), .elem (.empty false (extAt 10 (c! "\n")))])
      (p := ⟨some (c! "5"), some 1, none, c! "NoOp()"⟩) (by rfl)
      ⟨c! "1", rfl, by simp, .num (c! "1") (by simp) (by decide), by simp, .inl rfl⟩ rfl (by decide) ?_)
    intro g hg
    simp only [List.mem_cons, List.not_mem_nil, or_false] at hg
    rcases hg with rfl | rfl
    · exact .inr (.inr ⟨_, ⟨none, none, none, c! "NoOp()"⟩, rfl, ⟨c! "n", rfl, by simp, .next, by simp, .inl rfl⟩, by simp⟩)
    · exact blockGives_blank _ _ _
  · refine textIs_model 7 (by unfold WholeLines; decide +kernel) (by decide +kernel) (blockShape_of
      (v := ⟨c! "exten", c! "_7XX,n,NoOp()", true, false, extAt 8 (c! "exten => _7XX,n,NoOp()\n")⟩)
      (gs := [.elem (.empty false (extAt 9 (c! "\n")))])
      (p := ⟨some (c! "_7XX"), none, none, c! "NoOp()"⟩) (by rfl)
      ⟨c! "n", rfl, by simp, .next, by simp, .inl rfl⟩ rfl (by decide) ?_)
    intro g hg
    simp only [List.mem_cons, List.not_mem_nil, or_false] at hg
    subst hg
    exact blockGives_blank _ _ _

def twiceExt5 : Str := c! "exten => 5,1,NoOp()\n same => n,NoOp()\n\n"
def twiceExt6 : Str := c! "exten => 6,1,NoOp()\n\n"
def twiceSec : Str := c! "[a]\nexten => 5,1,Answer()\n same => n,NoOp()\n\n"
def pat6 : Pattern.Values := ⟨0, [(310, none)]⟩
def twiceList : List (Pattern.Values × Bytes) := [(pat5, asciiBytes twiceExt5), (pat6, asciiBytes twiceExt6)]
def twiceList' : List (Pattern.Values × Bytes) := [(pat6, asciiBytes twiceExt6), (pat5, asciiBytes twiceExt5)]
def twicePre : Bytes := asciiBytes extAbove ++ asciiBytes twiceSec
def twiceFiles (l : List (Pattern.Values × Bytes)) : FS := fun p => if p = c! "e.conf" then some (withBlocks twicePre l) else none

/-- C122 fails if the context has steps of one of the extensions already: its first step is refused, and the lines `same` below it
become steps of the extension above, whatever that is. -/
theorem C122_violated_again : ∃ (fs fs' : FS) (env : DEnv) (n : Nat) (path : Str) (above sec : Bytes) (name : Str)
    (blocks blocks' : List (Pattern.Values × Bytes)), WholeLines above ∧ TextIs fs path sec (SectionShape name) ∧
    BlocksMoved fs fs' path (above ++ sec) blocks blocks' ∧ (∀ x ∈ blocks, BlockOf fs path x.1 x.2) ∧
    ∃ log log' st st', checkDialplan fs env none n path (withBlocks (above ++ sec) blocks) = ⟨log, .ok (some st)⟩ ∧
      checkDialplan fs' env none n path (withBlocks (above ++ sec) blocks') = ⟨log', .ok (some st')⟩ ∧
      showDialplan id false st'.dp ≠ showDialplan id false st.dp := by
  refine ⟨twiceFiles twiceList, twiceFiles twiceList', demoEnv, 99, c! "e.conf", asciiBytes extAbove, asciiBytes twiceSec, c! "a", twiceList, twiceList',
    by unfold WholeLines; decide +kernel,
    textIs_model 4 (by unfold WholeLines; decide +kernel) (by decide +kernel) (shape_of (by decide +kernel) (by decide) (by decide +kernel)),
    extMoved _ _ _ (by unfold WholeLines; decide +kernel) _ _ (by decide), ?_, ended_shows (by decide +kernel)⟩
  intro x hx
  simp only [twiceList, List.mem_cons, List.not_mem_nil, or_false] at hx
  rcases hx with rfl | rfl
  · refine textIs_model 7 (by unfold WholeLines; decide +kernel) (by decide +kernel) (blockLines_of
      (v := ⟨c! "exten", c! "5,1,NoOp()", true, false, extAt 8 (c! "exten => 5,1,NoOp()\n")⟩)
      (gs := [.elem (.var ⟨c! "same", c! "n,NoOp()", true, false, extAt 9 (c! " same => n,NoOp()\n")⟩), .elem (.empty false (extAt 10 (c! "\n")))])
      (p := ⟨some (c! "5"), some 1, none, c! "NoOp()"⟩) (by rfl)
      ⟨c! "1", rfl, by simp, .num (c! "1") (by simp) (by decide), by simp, .inl rfl⟩ rfl (by decide) rfl (by decide) ?_)
    intro g hg
    simp only [List.mem_cons, List.not_mem_nil, or_false] at hg
    rcases hg with rfl | rfl
    · exact .inr (.inr ⟨_, ⟨none, none, none, c! "NoOp()"⟩, rfl, ⟨c! "n", rfl, by simp, .next, by simp, .inl rfl⟩, by simp⟩)
    · exact blockGives_blank _ _ _
  · refine textIs_model 7 (by unfold WholeLines; decide +kernel) (by decide +kernel) (blockLines_of
      (v := ⟨c! "exten", c! "6,1,NoOp()", true, false, extAt 8 (c! "exten => 6,1,NoOp()\n")⟩)
      (gs := [.elem (.empty false (extAt 9 (c! "\n")))])
      (p := ⟨some (c! "6"), some 1, none, c! "NoOp()"⟩) (by rfl)
      ⟨c! "1", rfl, by simp, .num (c! "1") (by simp) (by decide), by simp, .inl rfl⟩ rfl (by decide) rfl (by decide) ?_)
    intro g hg
    simp only [List.mem_cons, List.not_mem_nil, or_false] at hg
    subst hg
    exact blockGives_blank _ _ _

end ALint.Props
