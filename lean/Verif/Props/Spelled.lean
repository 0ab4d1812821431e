import Verif.Proofs.Spelled

/-!
# C120: `same` is the extension of the line above, `n` the next priority
-/

namespace ALint.Props
open ALint Spec Proofs

/-- **C120**, behind a line that added a step. -/
theorem C120_spelled_partial {fs fs' : FS} {env : DEnv} {sp : Option Str} {n : Nat} {path : Str} {pre above line line' post : Bytes}
    (hr : Replaced fs fs' path (pre ++ above) line line' post) (one : physLines line = [line]) (one' : physLines line' = [line'])
    {s : Step} (hs : AddedAbove fs env sp path pre above s) {v v' : VarE} {p p' : Parts}
    (hl : StepLine fs ⟨path, ((physLines (pre ++ above)).length : Int) + 1, line⟩ v p)
    (hl' : StepLine fs' ⟨path, ((physLines (pre ++ above)).length : Int) + 1, line'⟩ v' p')
    (hn : NextStep s p) (hn' : NextStep s p') (hlabel : p'.label = p.label) (happ : p'.app = p.app) (hc : v'.comment = v.comment)
    {log : List Msg} {st : DState}
    (h : checkDialplan fs env sp n path (pre ++ above ++ (line ++ post)) = ⟨log, .ok (some st)⟩) :
    ∃ k log' st', (∀ n', k ≤ n' → checkDialplan fs' env sp n' path (pre ++ above ++ (line' ++ post)) = ⟨log', .ok (some st')⟩) ∧
      Zips SameMsg (substance log) (substance log') ∧ dialplanText st'.dp = dialplanText st.dp := by
  obtain ⟨n1, log1, st1, name, c, h1, hj⟩ := justAdded_above hs
  refine replaced_line hr one one' hl.reads hl'.reads h1 ?_ h
  have hb := justAdded_bare hj
  have e1 := next_spelled env hb (v := reV bareW v) hl.arrow (stepText_bare hl.parts) (nextStep_bare hn)
  have e2 := next_spelled env hb (v := reV bareW v') hl'.arrow (stepText_bare hl'.parts) (nextStep_bare hn')
  show dialplanStep env (bareSt st1) (.var (reV bareW v)) = dialplanStep env (bareSt st1) (.var (reV bareW v'))
  rw [e1, e2, hlabel, happ]
  have hw : (reV bareW v').at_ = (reV bareW v).at_ := by
    show bareW v'.at_ = bareW v.at_
    rw [show v'.at_ = _ from lineTells_at hl'.reads rfl, show v.at_ = _ from lineTells_at hl.reads rfl]
    rfl
  rw [hw]
  show nextAdded _ _ _ _ _ _ v.comment _ = nextAdded _ _ _ _ _ _ v'.comment _
  rw [hc]

/-! ## Examples -/

def spelledPre : Str := c! "[general]\n\n[globals]\n\n[a]\n"
def spelledAbove : Str := c! "exten => _X,1,NoOp()\n"
def spelledPost : Str := c! "exten => t,1,Goto(8)\n same => n,NoOp()\n"
def spelledText (mid : Str) : Bytes :=
  asciiBytes spelledPre ++ asciiBytes spelledAbove ++ (asciiBytes mid ++ asciiBytes spelledPost)
def spelledFiles (mid : Str) : FS := fun p => if p = c! "e.conf" then some (spelledText mid) else none
def spelledShort : Str := c! " same => n(x),Goto(9)\n"
def spelledLong : Str := c! "exten => _X,2(x),Goto(9)\n"
def spelledV (key value line : Str) : VarE := ⟨key, value, true, false, ⟨c! "e.conf", 7, asciiBytes line⟩⟩
def spelledStep : Step := ⟨c! "_X", ⟨1, [(2608, none), (196608, none)]⟩, 1, none, c! "NoOp()", false, ⟨c! "e.conf", 6, asciiBytes spelledAbove⟩⟩

instance : DecidableEq (Str × Nat × Option Str × Str) := inferInstance
instance : DecidableEq (Str × List Str × List (Str × Nat × Option Str × Str)) := inferInstance

def ended (r : Res (Option DState)) : Option DState := r.val.toOption.join

theorem ended_eq {r : Res (Option DState)} {st : DState} (h : ended r = some st) : r = ⟨r.log, .ok (some st)⟩ := by
  obtain ⟨log, val⟩ := r
  cases val with
  | error e => simp [ended, Except.toOption] at h
  | ok o =>
    cases o with
    | none => simp [ended, Except.toOption] at h
    | some s => simp [ended, Except.toOption] at h; rw [h]

theorem ended_adds {r r' : Res (Option DState)} {name : Str} {s : Step}
    (h : ((ended r).bind fun st => (ended r').bind fun st' => (st.dp.get name).bind fun c => (st'.dp.get name).map fun c' =>
      decide (c'.steps = c.steps ++ [s])) = some true) :
    ∃ log log' st st', r = ⟨log, .ok (some st)⟩ ∧ r' = ⟨log', .ok (some st')⟩ ∧ Adds st.dp st'.dp name s := by
  simp only [Option.bind_eq_some_iff, Option.map_eq_some_iff, decide_eq_true_eq] at h
  obtain ⟨st, h1, st', h2, c, h3, c', h4, h5⟩ := h
  exact ⟨_, _, st, st', ended_eq h1, ended_eq h2, c, c', h3, h4, h5⟩

theorem example_spelled : Replaced (spelledFiles spelledShort) (spelledFiles spelledLong) (c! "e.conf")
    (asciiBytes spelledPre ++ asciiBytes spelledAbove) (asciiBytes spelledShort) (asciiBytes spelledLong) (asciiBytes spelledPost) where
  before := by decide +kernel
  after := by decide +kernel
  preWhole := by unfold WholeLines; decide +kernel
  oldWhole := by unfold WholeLines; decide +kernel
  newWhole := by unfold WholeLines; decide +kernel
  others := by intro q hq; simp [spelledFiles, hq]

theorem example_short : StepLine (spelledFiles spelledShort)
    ⟨c! "e.conf", ((physLines (asciiBytes spelledPre ++ asciiBytes spelledAbove)).length : Int) + 1, asciiBytes spelledShort⟩
    (spelledV (c! "same") (c! "n(x),Goto(9)") spelledShort) ⟨none, none, some (c! "x"), c! "Goto(9)"⟩ where
  reads := lineTells_exists (show lineModel _ _ = some ([], .elem (.var (spelledV (c! "same") (c! "n(x),Goto(9)") spelledShort))) by rfl)
  arrow := rfl
  parts := ⟨c! "n", rfl, by simp, .next, by simp, .inl rfl⟩

theorem example_long : StepLine (spelledFiles spelledLong)
    ⟨c! "e.conf", ((physLines (asciiBytes spelledPre ++ asciiBytes spelledAbove)).length : Int) + 1, asciiBytes spelledLong⟩
    (spelledV (c! "exten") (c! "_X,2(x),Goto(9)") spelledLong) ⟨some (c! "_X"), some 2, some (c! "x"), c! "Goto(9)"⟩ where
  reads := lineTells_exists (show lineModel _ _ = some ([], .elem (.var (spelledV (c! "exten") (c! "_X,2(x),Goto(9)") spelledLong))) by rfl)
  arrow := rfl
  parts := ⟨c! "2", rfl, by simp, .num (c! "2") (by simp) (by decide), by simp, .inl rfl⟩

theorem example_above : AddedAbove (spelledFiles spelledShort) demoEnv none (c! "e.conf") (asciiBytes spelledPre) (asciiBytes spelledAbove) spelledStep where
  whole := by unfold WholeLines; exact ⟨by decide +kernel, by decide +kernel⟩
  one := by decide +kernel
  plain := ⟨_, _, lineTells_exists (r := ([], .elem (.var ⟨c! "exten", c! "_X,1,NoOp()", true, false, ⟨c! "e.conf", 6, asciiBytes spelledAbove⟩⟩))) (by rfl)⟩
  adds := by
    obtain ⟨log, log', st, st', h⟩ := ended_adds (r := checkDialplan (spelledFiles spelledShort) demoEnv none 99 (c! "e.conf") (asciiBytes spelledPre))
      (r' := checkDialplan (spelledFiles spelledShort) demoEnv none 99 (c! "e.conf") (asciiBytes spelledPre ++ asciiBytes spelledAbove))
      (name := c! "a") (s := spelledStep) (by decide +kernel)
    exact ⟨99, 99, log, log', st, st', c! "a", h⟩

example : NextStep spelledStep ⟨none, none, some (c! "x"), c! "Goto(9)"⟩ ∧
    NextStep spelledStep ⟨some (c! "_X"), some 2, some (c! "x"), c! "Goto(9)"⟩ :=
  ⟨⟨.inl rfl, .inl rfl⟩, ⟨.inr ⟨rfl, by decide +kernel⟩, .inr rfl⟩⟩

def spelledSays (mid : Str) : Option (List (MK × Int) × List (Str × List Str × List (Str × Nat × Option Str × Str))) :=
  let r := checkDialplan (spelledFiles mid) demoEnv none 99 (c! "e.conf") (spelledText mid)
  (ended r).map fun st => (r.log.map fun m => (m.kind, m.at_.lineno), dialplanText st.dp)

-- the four ways to write the line
example : spelledSays spelledShort = some ([(.W_DP_GOTO_CONTEXT_NOEXTEN, 7), (.W_DP_GOTO_CONTEXT_NOEXTEN, 8)],
      [(c! "a", [], [(c! "_X", 1, none, c! "NoOp()"), (c! "_X", 2, some (c! "x"), c! "Goto(9)"), (c! "t", 1, none, c! "Goto(8)"), (c! "t", 2, none, c! "NoOp()")])]) ∧
    spelledSays spelledLong = spelledSays spelledShort ∧
    spelledSays (c! "exten => _X,n(x),Goto(9)\n") = spelledSays spelledShort ∧
    spelledSays (c! " same => 2(x),Goto(9)\n") = spelledSays spelledShort := by
  refine ⟨?_, ?_, ?_, ?_⟩ <;> decide +kernel

/-! ## The line above was not accepted -/

def refusedPre : Str := c! "[general]\n\n[globals]\n\n[a]\nexten => 2,1,NoOp()\nexten => 1,1,NoOp()\n"
def refusedAbove : Str := c! "exten => 2,1,NoOp()\n"
def refusedShort : Str := c! " same => n,NoOp()\n"
def refusedLong : Str := c! "exten => 2,n,NoOp()\n"
def refusedText (mid : Str) : Bytes := asciiBytes refusedPre ++ asciiBytes refusedAbove ++ (asciiBytes mid ++ [])
def refusedFiles (mid : Str) : FS := fun p => if p = c! "e.conf" then some (refusedText mid) else none
def refusedV (n : Int) (key value line : Str) : VarE := ⟨key, value, true, false, ⟨c! "e.conf", n, asciiBytes line⟩⟩

theorem ended_differ {r r' : Res (Option DState)}
    (h : ((ended r).bind fun st => (ended r').map fun st' => decide (dialplanText st'.dp ≠ dialplanText st.dp)) = some true) :
    ∃ log log' st st', r = ⟨log, .ok (some st)⟩ ∧ r' = ⟨log', .ok (some st')⟩ ∧ dialplanText st'.dp ≠ dialplanText st.dp := by
  simp only [Option.bind_eq_some_iff, Option.map_eq_some_iff, decide_eq_true_eq] at h
  obtain ⟨st, h1, st', h2, h5⟩ := h
  exact ⟨_, _, st, st', ended_eq h1, ended_eq h2, h5⟩

/-- C120 fails behind a line that was not accepted: there `same` is not the extension of the line above. -/
theorem C120_violated : ∃ (fs fs' : FS) (env : DEnv) (n : Nat) (path : Str) (pre above line line' : Bytes) (va v v' : VarE) (pa p p' : Parts),
    Replaced fs fs' path (pre ++ above) line line' [] ∧ physLines above = [above] ∧ physLines line = [line] ∧ physLines line' = [line'] ∧
    StepLine fs ⟨path, ((physLines pre).length : Int) + 1, above⟩ va pa ∧
    StepLine fs ⟨path, ((physLines (pre ++ above)).length : Int) + 1, line⟩ v p ∧
    StepLine fs' ⟨path, ((physLines (pre ++ above)).length : Int) + 1, line'⟩ v' p' ∧
    p.exten = none ∧ p'.exten = pa.exten ∧ pa.exten.isSome = true ∧ p'.prio = p.prio ∧ p'.label = p.label ∧ p'.app = p.app ∧
    ∃ log log' st st', checkDialplan fs env none n path (pre ++ above ++ (line ++ [])) = ⟨log, .ok (some st)⟩ ∧
      checkDialplan fs' env none n path (pre ++ above ++ (line' ++ [])) = ⟨log', .ok (some st')⟩ ∧
      dialplanText st'.dp ≠ dialplanText st.dp := by
  refine ⟨refusedFiles refusedShort, refusedFiles refusedLong, demoEnv, 99, c! "e.conf", asciiBytes refusedPre, asciiBytes refusedAbove,
    asciiBytes refusedShort, asciiBytes refusedLong, refusedV 8 (c! "exten") (c! "2,1,NoOp()") refusedAbove,
    refusedV 9 (c! "same") (c! "n,NoOp()") refusedShort, refusedV 9 (c! "exten") (c! "2,n,NoOp()") refusedLong,
    ⟨some (c! "2"), some 1, none, c! "NoOp()"⟩, ⟨none, none, none, c! "NoOp()"⟩, ⟨some (c! "2"), none, none, c! "NoOp()"⟩,
    ⟨by decide +kernel, by decide +kernel, by unfold WholeLines; decide +kernel, by unfold WholeLines; decide +kernel,
      by unfold WholeLines; decide +kernel, by intro q hq; simp [refusedFiles, hq]⟩,
    by decide +kernel, by decide +kernel, by decide +kernel,
    ⟨lineTells_exists (r := ([], .elem (.var (refusedV 8 (c! "exten") (c! "2,1,NoOp()") refusedAbove)))) (by rfl), rfl,
      ⟨c! "1", rfl, by simp, .num (c! "1") (by simp) (by decide), by simp, .inl rfl⟩⟩,
    ⟨lineTells_exists (r := ([], .elem (.var (refusedV 9 (c! "same") (c! "n,NoOp()") refusedShort)))) (by rfl), rfl,
      ⟨c! "n", rfl, by simp, .next, by simp, .inl rfl⟩⟩,
    ⟨lineTells_exists (r := ([], .elem (.var (refusedV 9 (c! "exten") (c! "2,n,NoOp()") refusedLong)))) (by rfl), rfl,
      ⟨c! "n", rfl, by simp, .next, by simp, .inl rfl⟩⟩,
    rfl, rfl, rfl, rfl, rfl, rfl, ended_differ (by decide +kernel)⟩

end ALint.Props
