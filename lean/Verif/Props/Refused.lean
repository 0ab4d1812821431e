import Verif.Proofs.Refused
import Verif.Props.Disregarded

/-!
# C126: steps that are refused
-/

namespace ALint.Props
open ALint Spec Proofs

/-- C126: lines of a context that have not become part of the dialplan (steps that are refused) can be taken out, if the last priority and
the spelling of `Background` are the same behind them: the messages about them disappear, and nothing else changes. -/
theorem C126_taken_partial (fs fs' : FS) (env : DEnv) (sp : Option Str) (n n0 n1 : Nat) (path a : Str) (above part rest : Bytes)
    (hp : PartAbsent fs fs' path above part rest) (log0 log1 log : List Msg) (st0 st1 st : DState)
    (h0 : checkDialplan fs env sp n0 path above = ⟨log0, .ok (some st0)⟩)
    (h1 : checkDialplan fs env sp n1 path (above ++ part) = ⟨log1, .ok (some st1)⟩)
    (hd : TextIs fs path part AssignmentLines) (hn : NotTaken a st0 st1) (hs : SameForNext a st0 st1)
    (h : checkDialplan fs env sp n path (above ++ (part ++ rest)) = ⟨log, .ok (some st)⟩) :
    ∃ k log' st', (∀ n', k ≤ n' → checkDialplan fs' env sp n' path (above ++ rest) = ⟨log', .ok (some st')⟩) ∧
      LinesLess (linesFrom path (physLines above).length (physLines part)) (substance log) (substance log') ∧
      dialplanText st'.dp = dialplanText st.dp :=
  refused_taken hp h0 h1 hd hn (.inl hs) h

/-- C126: such lines can be put in: there are messages about them, and nothing else changes. -/
theorem C126_added_partial (fs fs' : FS) (env : DEnv) (sp : Option Str) (n n0 n1 : Nat) (path a : Str) (above part rest : Bytes)
    (hp : PartAbsent fs fs' path above part rest) (log0 log1 log' : List Msg) (st0 st1 st' : DState)
    (h0 : checkDialplan fs' env sp n0 path above = ⟨log0, .ok (some st0)⟩)
    (h1 : checkDialplan fs env sp n1 path (above ++ part) = ⟨log1, .ok (some st1)⟩)
    (hd : TextIs fs path part AssignmentLines) (hn : NotTaken a st0 st1) (hs : SameForNext a st0 st1)
    (h : checkDialplan fs' env sp n path (above ++ rest) = ⟨log', .ok (some st')⟩) :
    ∃ k log st, (∀ n', k ≤ n' → checkDialplan fs env sp n' path (above ++ (part ++ rest)) = ⟨log, .ok (some st)⟩) ∧
      LinesLess (linesFrom path (physLines above).length (physLines part)) (substance log) (substance log') ∧
      dialplanText st.dp = dialplanText st'.dp :=
  refused_added hp h0 h1 hd hn (.inl hs) h

/-- C126: the last priority need not be the same if the next line is a step with an extension and a priority of its own, or if there is none:
such lines can be taken out. -/
theorem C126_taken_own_partial (fs fs' : FS) (env : DEnv) (sp : Option Str) (n n0 n1 : Nat) (path a : Str) (above part rest : Bytes)
    (hp : PartAbsent fs fs' path above part rest) (log0 log1 log : List Msg) (st0 st1 st : DState)
    (h0 : checkDialplan fs env sp n0 path above = ⟨log0, .ok (some st0)⟩)
    (h1 : checkDialplan fs env sp n1 path (above ++ part) = ⟨log1, .ok (some st1)⟩)
    (hd : TextIs fs path part AssignmentLines) (hn : NotTaken a st0 st1) (hsp : st1.sp = st0.sp) (hr : OwnStepText fs path rest)
    (h : checkDialplan fs env sp n path (above ++ (part ++ rest)) = ⟨log, .ok (some st)⟩) :
    ∃ k log' st', (∀ n', k ≤ n' → checkDialplan fs' env sp n' path (above ++ rest) = ⟨log', .ok (some st')⟩) ∧
      LinesLess (linesFrom path (physLines above).length (physLines part)) (substance log) (substance log') ∧
      dialplanText st'.dp = dialplanText st.dp :=
  refused_taken hp h0 h1 hd hn (.inr ⟨hsp, hr⟩) h

/-- C126: such lines can be put in. -/
theorem C126_added_own_partial (fs fs' : FS) (env : DEnv) (sp : Option Str) (n n0 n1 : Nat) (path a : Str) (above part rest : Bytes)
    (hp : PartAbsent fs fs' path above part rest) (log0 log1 log' : List Msg) (st0 st1 st' : DState)
    (h0 : checkDialplan fs' env sp n0 path above = ⟨log0, .ok (some st0)⟩)
    (h1 : checkDialplan fs env sp n1 path (above ++ part) = ⟨log1, .ok (some st1)⟩)
    (hd : TextIs fs path part AssignmentLines) (hn : NotTaken a st0 st1) (hsp : st1.sp = st0.sp) (hr : OwnStepText fs path rest)
    (h : checkDialplan fs' env sp n path (above ++ rest) = ⟨log', .ok (some st')⟩) :
    ∃ k log st, (∀ n', k ≤ n' → checkDialplan fs env sp n' path (above ++ (part ++ rest)) = ⟨log, .ok (some st)⟩) ∧
      LinesLess (linesFrom path (physLines above).length (physLines part)) (substance log) (substance log') ∧
      dialplanText st.dp = dialplanText st'.dp :=
  refused_added hp h0 h1 hd hn (.inr ⟨hsp, hr⟩) h

/-! ## Example -/

def assignB (told : List Told) : Bool := told.all fun x =>
  match x.gives with
  | .nothing => true
  | .elem (.empty _ _) => true
  | .elem (.var _) => true
  | _ => false

theorem assign_lines {told : List Told} (h : assignB told = true) : AssignmentLines told := by
  intro x hx
  have := List.all_eq_true.1 h x hx
  revert this
  cases hg : x.gives with
  | nothing => exact fun _ => .inl rfl
  | file f => intro h; cases h
  | elem e =>
    cases e with
    | ctx c => intro h; cases h
    | var v => exact fun _ => .inr (.inr ⟨v, rfl⟩)
    | empty b w => exact fun _ => .inr (.inl ⟨b, w, rfl⟩)

/-- A step again, with a jump to nowhere, and one whose priority is not allowed. -/
def refusedPart : Str := c! "exten => 1,1,Goto(d,1,1)\nexten => 3,0,NoOp()\n"
def refusedWith : Bytes := anyAbove ++ (asciiBytes refusedPart ++ lostRest)
def refusedWithout : Bytes := anyAbove ++ lostRest

theorem refused_lines (fs : FS) : TextIs fs (c! "e.conf") (asciiBytes refusedPart) AssignmentLines :=
  textIs_elsewhere (fs := oneFile refusedWith) assignmentLines_placeless
    (textIs_model 6 (by unfold WholeLines; decide +kernel) (by decide +kernel) (assign_lines (by decide +kernel)))

/-- The state behind the lines. -/
def refusedState (all now : Bytes) : Option DState := ended (checkDialplan (oneFile all) demoEnv none 99 (c! "e.conf") now)

-- the hypotheses
example : PartAbsent (oneFile refusedWith) (oneFile refusedWithout) (c! "e.conf") anyAbove (asciiBytes refusedPart) lostRest ∧
    (∃ st0 st1, refusedState refusedWith anyAbove = some st0 ∧ refusedState refusedWithout anyAbove = some st0 ∧
      refusedState refusedWith (anyAbove ++ asciiBytes refusedPart) = some st1 ∧ NotTaken (c! "a") st0 st1 ∧ SameForNext (c! "a") st0 st1) ∧
    TextIs (oneFile refusedWith) (c! "e.conf") (asciiBytes refusedPart) AssignmentLines ∧
    (refusedState refusedWith refusedWith).isSome = true ∧ (refusedState refusedWithout refusedWithout).isSome = true := by
  have e : (refusedState refusedWith anyAbove).isSome = true := by decide +kernel
  have e' : refusedState refusedWithout anyAbove = refusedState refusedWith anyAbove := by decide +kernel
  have f : (refusedState refusedWith (anyAbove ++ asciiBytes refusedPart)).isSome = true := by decide +kernel
  obtain ⟨st0, h0⟩ := Option.isSome_iff_exists.1 e
  obtain ⟨st1, h1⟩ := Option.isSome_iff_exists.1 f
  refine ⟨lost_absent _ _ _ (by unfold WholeLines; decide +kernel), ⟨st0, st1, h0, by rw [e', h0], h1, ⟨?_, ?_⟩, ⟨?_, ?_, ?_⟩⟩, refused_lines _, by decide +kernel,
    by decide +kernel⟩
  · have : (refusedState refusedWith anyAbove).map (·.cur) = some (.ctx (c! "a")) := by decide +kernel
    rw [h0] at this
    exact Option.some.inj this
  · have : (refusedState refusedWith (anyAbove ++ asciiBytes refusedPart)).map (dialplanText ·.dp) = (refusedState refusedWith anyAbove).map (dialplanText ·.dp) := by
      decide +kernel
    rw [h0, h1] at this
    exact Option.some.inj this
  · have : (refusedState refusedWith (anyAbove ++ asciiBytes refusedPart)).map (·.dp.lastPrio) = (refusedState refusedWith anyAbove).map (·.dp.lastPrio) := by
      decide +kernel
    rw [h0, h1] at this
    exact Option.some.inj this
  · have : (refusedState refusedWith (anyAbove ++ asciiBytes refusedPart)).map (fun s => (s.dp.get (c! "a")).map (·.lastPrio)) =
        (refusedState refusedWith anyAbove).map fun s => (s.dp.get (c! "a")).map (·.lastPrio) := by
      decide +kernel
    rw [h0, h1] at this
    exact Option.some.inj this
  · have : (refusedState refusedWith (anyAbove ++ asciiBytes refusedPart)).map (·.sp) = (refusedState refusedWith anyAbove).map (·.sp) := by decide +kernel
    rw [h0, h1] at this
    exact Option.some.inj this

-- what is said with and without the lines; the same steps
example : (anySays refusedWith).map (·.1) = some [(.E_DP_PRIO_DUPE, 7), (.E_DP_PRIO_INVALID, 8), (.E_DP_GOTO_NOCONTEXT, 10)] ∧
    (anySays refusedWithout).map (·.1) = some [(.E_DP_GOTO_NOCONTEXT, 8)] ∧ (anySays refusedWith).map (·.2) = (anySays refusedWithout).map (·.2) := by
  refine ⟨?_, ?_, ?_⟩ <;> decide +kernel

/-! ## The same, with a last priority that changes -/

def againAbove : Bytes := anyAbove ++ asciiBytes (c! "exten => 1,n,NoOp()\n")
def againPart : Str := c! "exten => 1,1,NoOp()\n"
def againNext : Bytes := asciiBytes (c! "exten => 1,n,NoOp()\n")
def againWith : Bytes := againAbove ++ (asciiBytes againPart ++ againNext)
def againWithout : Bytes := againAbove ++ againNext

/-- Another step, with an extension and a priority of its own, and one that counts from it. -/
def againRest : Bytes := asciiBytes (c! "exten => 2,1,NoOp()\nexten => 2,n,NoOp()\n")
def againOwn : Bytes := againAbove ++ (asciiBytes againPart ++ againRest)
def againOut : Bytes := againAbove ++ againRest

theorem again_own (fs : FS) : OwnStepText fs (c! "e.conf") againRest := by
  intro l hl
  have e : (physLines againRest).head? = some (asciiBytes (c! "exten => 2,1,NoOp()\n")) := by decide +kernel
  rw [e, Option.mem_def, Option.some.injEq] at hl
  subst hl
  have hm : ∃ r, lineModel (oneFile againOwn) ⟨c! "e.conf", 9, asciiBytes (c! "exten => 2,1,NoOp()\n")⟩ = some r ∧
      ∃ v, r.2 = .elem (.var v) ∧ v.key = c! "exten" ∧ v.value = c! "2,1,NoOp()" := by
    have : (match lineModel (oneFile againOwn) ⟨c! "e.conf", 9, asciiBytes (c! "exten => 2,1,NoOp()\n")⟩ with
      | some (_, .elem (.var v)) => decide (v.key = c! "exten" ∧ v.value = c! "2,1,NoOp()")
      | _ => false) = true := by decide +kernel
    revert this
    generalize lineModel (oneFile againOwn) ⟨c! "e.conf", 9, asciiBytes (c! "exten => 2,1,NoOp()\n")⟩ = o
    intro h
    match o, h with
    | some (ms, .elem (.var v)), h => exact ⟨_, rfl, v, rfl, of_decide_eq_true h⟩
  obtain ⟨r, h1, v, h2, h3, h4⟩ := hm
  have hl := lineTells_exists h1
  obtain ⟨ms', h5⟩ := tells_elsewhere fs hl
  rw [h2] at h5
  exact ⟨9, ms', v, ⟨some (c! "2"), some 1, none, c! "NoOp()"⟩, c! "2", 1, h5,
    ⟨c! "1", h3, by simp, .num (c! "1") (by simp) (by decide), by simp, .inl h4⟩, rfl, rfl, Nat.le_refl _⟩

-- the hypotheses, where the last priority is another one behind the step that is refused
example : PartAbsent (oneFile againOwn) (oneFile againOut) (c! "e.conf") againAbove (asciiBytes againPart) againRest ∧
    (∃ st0 st1, refusedState againOwn againAbove = some st0 ∧ refusedState againOut againAbove = some st0 ∧
      refusedState againOwn (againAbove ++ asciiBytes againPart) = some st1 ∧ NotTaken (c! "a") st0 st1 ∧ st1.sp = st0.sp ∧
      st1.dp.lastPrio ≠ st0.dp.lastPrio) ∧
    TextIs (oneFile againOwn) (c! "e.conf") (asciiBytes againPart) AssignmentLines ∧ OwnStepText (oneFile againOwn) (c! "e.conf") againRest ∧
    (refusedState againOwn againOwn).isSome = true ∧ (refusedState againOut againOut).isSome = true := by
  have e : (refusedState againOwn againAbove).isSome = true := by decide +kernel
  have e' : refusedState againOut againAbove = refusedState againOwn againAbove := by decide +kernel
  have f : (refusedState againOwn (againAbove ++ asciiBytes againPart)).isSome = true := by decide +kernel
  obtain ⟨st0, h0⟩ := Option.isSome_iff_exists.1 e
  obtain ⟨st1, h1⟩ := Option.isSome_iff_exists.1 f
  refine ⟨lost_absent _ _ _ (by unfold WholeLines; decide +kernel), ⟨st0, st1, h0, by rw [e', h0], h1, ⟨?_, ?_⟩, ?_, ?_⟩,
    textIs_elsewhere (fs := oneFile againOwn) assignmentLines_placeless
      (textIs_model 7 (by unfold WholeLines; decide +kernel) (by decide +kernel) (assign_lines (by decide +kernel))),
    again_own _, by decide +kernel, by decide +kernel⟩
  · have : (refusedState againOwn againAbove).map (·.cur) = some (.ctx (c! "a")) := by decide +kernel
    rw [h0] at this
    exact Option.some.inj this
  · have : (refusedState againOwn (againAbove ++ asciiBytes againPart)).map (dialplanText ·.dp) = (refusedState againOwn againAbove).map (dialplanText ·.dp) := by
      decide +kernel
    rw [h0, h1] at this
    exact Option.some.inj this
  · have : (refusedState againOwn (againAbove ++ asciiBytes againPart)).map (·.sp) = (refusedState againOwn againAbove).map (·.sp) := by decide +kernel
    rw [h0, h1] at this
    exact Option.some.inj this
  · have : (refusedState againOwn (againAbove ++ asciiBytes againPart)).map (·.dp.lastPrio) ≠ (refusedState againOwn againAbove).map (·.dp.lastPrio) := by
      decide +kernel
    rw [h0, h1] at this
    exact fun e => this (congrArg some e)

/-! ## Violation -/

/-- C126 fails for a step that is refused because there is one with its priority: the priority `n` of the step below is counted from the
one that is refused.  Here, that step is then refused as well. -/
theorem C126_violated : ∃ (fs fs' : FS) (env : DEnv) (n : Nat) (path a : Str) (above part rest : Bytes) (st0 st1 st st' : DState),
    PartAbsent fs fs' path above part rest ∧ TextIs fs path part AssignmentLines ∧
    (∃ log, checkDialplan fs env none n path above = ⟨log, .ok (some st0)⟩) ∧
    (∃ log, checkDialplan fs env none n path (above ++ part) = ⟨log, .ok (some st1)⟩) ∧ NotTaken a st0 st1 ∧ st1.sp = st0.sp ∧
    (∃ log, checkDialplan fs env none n path (above ++ (part ++ rest)) = ⟨log, .ok (some st)⟩) ∧
    (∃ log, checkDialplan fs' env none n path (above ++ rest) = ⟨log, .ok (some st')⟩) ∧
    dialplanText st'.dp ≠ dialplanText st.dp := by
  have ok : ∀ all now, (refusedState all now).isSome = true → ∃ st, refusedState all now = some st ∧
      ∃ log, checkDialplan (oneFile all) demoEnv none 99 (c! "e.conf") now = ⟨log, .ok (some st)⟩ := by
    intro all now h
    obtain ⟨st, hst⟩ := Option.isSome_iff_exists.1 h
    exact ⟨st, hst, _, ended_eq hst⟩
  obtain ⟨st0, a0, h0⟩ := ok againWith againAbove (by decide +kernel)
  obtain ⟨st1, a1, h1⟩ := ok againWith (againAbove ++ asciiBytes againPart) (by decide +kernel)
  obtain ⟨st, a2, h2⟩ := ok againWith againWith (by decide +kernel)
  obtain ⟨st', a3, h3⟩ := ok againWithout againWithout (by decide +kernel)
  refine ⟨oneFile againWith, oneFile againWithout, demoEnv, 99, c! "e.conf", c! "a", againAbove, asciiBytes againPart, againNext, st0, st1, st, st',
    lost_absent _ _ _ (by unfold WholeLines; decide +kernel),
    textIs_elsewhere (fs := oneFile againWith) assignmentLines_placeless
      (textIs_model 7 (by unfold WholeLines; decide +kernel) (by decide +kernel) (assign_lines (by decide +kernel))),
    h0, h1, ⟨?_, ?_⟩, ?_, h2, h3, ?_⟩
  · have : (refusedState againWith againAbove).map (·.cur) = some (.ctx (c! "a")) := by decide +kernel
    rw [a0] at this
    exact Option.some.inj this
  · have : (refusedState againWith (againAbove ++ asciiBytes againPart)).map (dialplanText ·.dp) = (refusedState againWith againAbove).map (dialplanText ·.dp) := by
      decide +kernel
    rw [a0, a1] at this
    exact Option.some.inj this
  · have : (refusedState againWith (againAbove ++ asciiBytes againPart)).map (·.sp) = (refusedState againWith againAbove).map (·.sp) := by decide +kernel
    rw [a0, a1] at this
    exact Option.some.inj this
  · have : (refusedState againWithout againWithout).map (dialplanText ·.dp) ≠ (refusedState againWith againWith).map (dialplanText ·.dp) := by decide +kernel
    rw [a2, a3] at this
    exact fun e => this (congrArg some e)

def spellPart : Str := c! "exten => 1,1,BackGround(x)\n"
def spellRest : Bytes := asciiBytes (c! "exten => 2,1,Background(x)\n")
def spellWith : Bytes := anyAbove ++ (asciiBytes spellPart ++ spellRest)
def spellWithout : Bytes := anyAbove ++ spellRest

/-- C126 fails for a step that is refused and is the first to use `Background`: it settles the spelling for the steps below. -/
theorem C126_violated_spelling : ∃ (fs fs' : FS) (env : DEnv) (n : Nat) (path a : Str) (above part rest : Bytes) (st0 st1 : DState) (log : List Msg),
    PartAbsent fs fs' path above part rest ∧ TextIs fs path part AssignmentLines ∧
    (∃ log, checkDialplan fs env none n path above = ⟨log, .ok (some st0)⟩) ∧
    (∃ log, checkDialplan fs env none n path (above ++ part) = ⟨log, .ok (some st1)⟩) ∧ NotTaken a st0 st1 ∧
    st1.dp.lastPrio = st0.dp.lastPrio ∧ (st1.dp.get a).map (·.lastPrio) = (st0.dp.get a).map (·.lastPrio) ∧
    (∃ st, checkDialplan fs env none n path (above ++ (part ++ rest)) = ⟨log, .ok (some st)⟩) ∧
    (∃ m ∈ log, m.at_ ∉ linesFrom path (physLines above).length (physLines part)) ∧
    ∃ st', checkDialplan fs' env none n path (above ++ rest) = ⟨[], .ok (some st')⟩ := by
  have ok : ∀ all now, (ended (checkDialplan (oneFile all) bgEnv none 99 (c! "e.conf") now)).isSome = true →
      ∃ st, ended (checkDialplan (oneFile all) bgEnv none 99 (c! "e.conf") now) = some st ∧
        checkDialplan (oneFile all) bgEnv none 99 (c! "e.conf") now = ⟨(checkDialplan (oneFile all) bgEnv none 99 (c! "e.conf") now).log, .ok (some st)⟩ := by
    intro all now h
    obtain ⟨st, hst⟩ := Option.isSome_iff_exists.1 h
    exact ⟨st, hst, ended_eq hst⟩
  obtain ⟨st0, a0, h0⟩ := ok spellWith anyAbove (by decide +kernel)
  obtain ⟨st1, a1, h1⟩ := ok spellWith (anyAbove ++ asciiBytes spellPart) (by decide +kernel)
  obtain ⟨st, -, h2⟩ := ok spellWith spellWith (by decide +kernel)
  obtain ⟨st', -, h3⟩ := ok spellWithout spellWithout (by decide +kernel)
  have e : (checkDialplan (oneFile spellWithout) bgEnv none 99 (c! "e.conf") spellWithout).log.map (·.kind) = [] := by decide +kernel
  rw [List.map_eq_nil_iff.1 e] at h3
  refine ⟨oneFile spellWith, oneFile spellWithout, bgEnv, 99, c! "e.conf", c! "a", anyAbove, asciiBytes spellPart, spellRest, st0, st1, _,
    lost_absent _ _ _ (by unfold WholeLines; decide +kernel),
    textIs_elsewhere (fs := oneFile spellWith) assignmentLines_placeless
      (textIs_model 6 (by unfold WholeLines; decide +kernel) (by decide +kernel) (assign_lines (by decide +kernel))),
    ⟨_, h0⟩, ⟨_, h1⟩, ⟨?_, ?_⟩, ?_, ?_, ⟨st, h2⟩, ?_, st', h3⟩
  · have : (ended (checkDialplan (oneFile spellWith) bgEnv none 99 (c! "e.conf") anyAbove)).map (·.cur) = some (.ctx (c! "a")) := by decide +kernel
    rw [a0] at this
    exact Option.some.inj this
  · have : (ended (checkDialplan (oneFile spellWith) bgEnv none 99 (c! "e.conf") (anyAbove ++ asciiBytes spellPart))).map (dialplanText ·.dp) =
        (ended (checkDialplan (oneFile spellWith) bgEnv none 99 (c! "e.conf") anyAbove)).map (dialplanText ·.dp) := by decide +kernel
    rw [a0, a1] at this
    exact Option.some.inj this
  · have : (ended (checkDialplan (oneFile spellWith) bgEnv none 99 (c! "e.conf") (anyAbove ++ asciiBytes spellPart))).map (·.dp.lastPrio) =
        (ended (checkDialplan (oneFile spellWith) bgEnv none 99 (c! "e.conf") anyAbove)).map (·.dp.lastPrio) := by decide +kernel
    rw [a0, a1] at this
    exact Option.some.inj this
  · have : (ended (checkDialplan (oneFile spellWith) bgEnv none 99 (c! "e.conf") (anyAbove ++ asciiBytes spellPart))).map
          (fun s => (s.dp.get (c! "a")).map (·.lastPrio)) =
        (ended (checkDialplan (oneFile spellWith) bgEnv none 99 (c! "e.conf") anyAbove)).map fun s => (s.dp.get (c! "a")).map (·.lastPrio) := by decide +kernel
    rw [a0, a1] at this
    exact Option.some.inj this
  · have : ((checkDialplan (oneFile spellWith) bgEnv none 99 (c! "e.conf") spellWith).log.any fun m =>
        !(linesFrom (c! "e.conf") (physLines anyAbove).length (physLines (asciiBytes spellPart))).contains m.at_) = true := by decide +kernel
    obtain ⟨m, hm, hq⟩ := List.any_eq_true.1 this
    exact ⟨m, hm, by simpa using hq⟩

end ALint.Props
