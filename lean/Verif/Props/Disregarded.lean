import Verif.Proofs.Disregarded
import Verif.Props.Anywhere

/-!
# C125: lines that are disregarded
-/

namespace ALint.Props
open ALint Spec Proofs

/-- C125: lines that are disregarded can be taken out: the messages about them disappear, and nothing else changes. -/
theorem C125_taken (fs fs' : FS) (env : DEnv) (sp : Option Str) (n n0 : Nat) (path : Str) (above part rest : Bytes)
    (hp : PartAbsent fs fs' path above part rest) (log0 log : List Msg) (st0 st : DState)
    (h0 : checkDialplan fs env sp n0 path above = ⟨log0, .ok (some st0)⟩) (hd : TextIs fs path part (DisregardedLines st0.cur))
    (h : checkDialplan fs env sp n path (above ++ (part ++ rest)) = ⟨log, .ok (some st)⟩) :
    ∃ k log' st', (∀ n', k ≤ n' → checkDialplan fs' env sp n' path (above ++ rest) = ⟨log', .ok (some st')⟩) ∧
      LinesLess (linesFrom path (physLines above).length (physLines part)) (substance log) (substance log') ∧
      dialplanText st'.dp = dialplanText st.dp :=
  lines_taken hp h0 hd h

/-- C125: such lines can be put in: there are messages about them, and nothing else changes. -/
theorem C125_added (fs fs' : FS) (env : DEnv) (sp : Option Str) (n n0 : Nat) (path : Str) (above part rest : Bytes)
    (hp : PartAbsent fs fs' path above part rest) (log0 log' : List Msg) (st0 st' : DState)
    (h0 : checkDialplan fs' env sp n0 path above = ⟨log0, .ok (some st0)⟩) (hd : TextIs fs path part (DisregardedLines st0.cur))
    (h : checkDialplan fs' env sp n path (above ++ rest) = ⟨log', .ok (some st')⟩) :
    ∃ k log st, (∀ n', k ≤ n' → checkDialplan fs env sp n' path (above ++ (part ++ rest)) = ⟨log, .ok (some st)⟩) ∧
      LinesLess (linesFrom path (physLines above).length (physLines part)) (substance log) (substance log') ∧
      dialplanText st.dp = dialplanText st'.dp :=
  lines_added hp h0 hd h

/-! ## Example -/

def lostLines : Str := c! "switch=x\n\tfoo=1\nexten\n"
def lostRest : Bytes := asciiBytes pieceRest ++ asciiBytes pieceOther
def lostWith : Bytes := anyAbove ++ (asciiBytes lostLines ++ lostRest)
def lostWithout : Bytes := anyAbove ++ lostRest

theorem lost_absent (above part rest : Bytes) (hw : WholeLines above) :
    PartAbsent (oneFile (above ++ (part ++ rest))) (oneFile (above ++ rest)) (c! "e.conf") above part rest :=
  ⟨by simp [oneFile], by simp [oneFile], by intro q hq; simp [oneFile, hq], hw⟩

theorem lost_lines (fs : FS) : TextIs fs (c! "e.conf") (asciiBytes lostLines) (DisregardedLines (.ctx (c! "a"))) :=
  textIs_elsewhere (fs := oneFile lostWith) (disregardedLines_placeless _) (textIs_model 6 (by unfold WholeLines; decide +kernel) (by decide +kernel) (by
    rw [show modelTold (oneFile lostWith) (c! "e.conf") 6 (asciiBytes lostLines) =
      [⟨⟨c! "e.conf", 7, asciiBytes (c! "switch=x\n")⟩, [],
         .elem (.var ⟨c! "switch", c! "x", false, false, ⟨c! "e.conf", 7, asciiBytes (c! "switch=x\n")⟩⟩)⟩,
       ⟨⟨c! "e.conf", 8, asciiBytes (c! "\tfoo=1\n")⟩, [⟨.W_WSH_BOL, ⟨c! "e.conf", 8, asciiBytes (c! "\tfoo=1\n")⟩, [], none⟩],
         .elem (.var ⟨c! "foo", c! "1", false, false, ⟨c! "e.conf", 8, asciiBytes (c! "\tfoo=1\n")⟩⟩)⟩,
       ⟨⟨c! "e.conf", 9, asciiBytes (c! "exten\n")⟩,
         [⟨.E_CONF_BAD_LINE, ⟨c! "e.conf", 9, asciiBytes (c! "exten\n")⟩, [(c! "startswith", .one (.str (c! "exten")))], none⟩], .nothing⟩] by rfl]
    intro x hx
    simp only [List.mem_cons, List.not_mem_nil, or_false] at hx
    rcases hx with rfl | rfl | rfl
    · exact .inr (.inr ⟨_, rfl, .inr (.inr ⟨⟨_, rfl⟩, by decide, by decide, by decide⟩)⟩)
    · exact .inr (.inr ⟨_, rfl, .inr (.inr ⟨⟨_, rfl⟩, by decide, by decide, by decide⟩)⟩)
    · exact .inl rfl))

-- the hypotheses
example : PartAbsent (oneFile lostWith) (oneFile lostWithout) (c! "e.conf") anyAbove (asciiBytes lostLines) lostRest ∧
    ((ended (checkDialplan (oneFile lostWith) demoEnv none 99 (c! "e.conf") anyAbove)).map (·.cur)) = some (.ctx (c! "a")) ∧
    ((ended (checkDialplan (oneFile lostWithout) demoEnv none 99 (c! "e.conf") anyAbove)).map (·.cur)) = some (.ctx (c! "a")) ∧
    TextIs (oneFile lostWith) (c! "e.conf") (asciiBytes lostLines) (DisregardedLines (.ctx (c! "a"))) ∧
    (ended (checkDialplan (oneFile lostWith) demoEnv none 99 (c! "e.conf") lostWith)).isSome = true ∧
    (ended (checkDialplan (oneFile lostWithout) demoEnv none 99 (c! "e.conf") lostWithout)).isSome = true :=
  ⟨lost_absent _ _ _ (by unfold WholeLines; decide +kernel), by decide +kernel, by decide +kernel, lost_lines _, by decide +kernel, by decide +kernel⟩

-- what is said with and without the lines; the same steps
example : (anySays lostWith).map (·.1) = some [(.H_CONF_NO_ARROW, 7), (.I_NOTIMPL_SWITCH, 7), (.W_WSH_BOL, 8), (.E_CONF_KEY_INVALID, 8),
      (.E_CONF_BAD_LINE, 9), (.E_DP_GOTO_NOCONTEXT, 11)] ∧
    (anySays lostWithout).map (·.1) = some [(.E_DP_GOTO_NOCONTEXT, 8)] ∧ (anySays lostWith).map (·.2) = (anySays lostWithout).map (·.2) := by
  refine ⟨?_, ?_, ?_⟩ <;> decide +kernel

def lostTop : Str := c! "exten => 1,1,NoOp()\n"
def lostAll : Bytes := anyAbove ++ lostRest

theorem lost_top (fs : FS) (cur : Cur) (h : cur = .none ∨ cur = .detached) : TextIs fs (c! "e.conf") (asciiBytes lostTop) (DisregardedLines cur) :=
  textIs_elsewhere (fs := oneFile lostWith) (disregardedLines_placeless _) (textIs_model 6 (by unfold WholeLines; decide +kernel) (by decide +kernel) (by
    rw [show modelTold (oneFile lostWith) (c! "e.conf") 6 (asciiBytes lostTop) =
      [⟨⟨c! "e.conf", 7, asciiBytes lostTop⟩, [],
         .elem (.var ⟨c! "exten", c! "1,1,NoOp()", true, false, ⟨c! "e.conf", 7, asciiBytes lostTop⟩⟩)⟩] by rfl]
    intro x hx
    rw [List.mem_singleton.1 hx]
    exact .inr (.inr ⟨_, rfl, h.elim .inl fun h => .inr (.inl h)⟩)))

-- the hypotheses above the first header
example : PartAbsent (oneFile ([] ++ (asciiBytes lostTop ++ lostAll))) (oneFile ([] ++ lostAll)) (c! "e.conf") [] (asciiBytes lostTop) lostAll ∧
    ((ended (checkDialplan (oneFile ([] ++ (asciiBytes lostTop ++ lostAll))) demoEnv none 99 (c! "e.conf") [])).map (·.cur)) = some .none ∧
    TextIs (oneFile ([] ++ (asciiBytes lostTop ++ lostAll))) (c! "e.conf") (asciiBytes lostTop) (DisregardedLines .none) ∧
    (anySays ([] ++ (asciiBytes lostTop ++ lostAll))).map (·.1) = some [(.E_CONF_CTX_MISSING, 1), (.E_DP_GOTO_NOCONTEXT, 9)] ∧
    (anySays ([] ++ lostAll)).map (·.1) = some [(.E_DP_GOTO_NOCONTEXT, 8)] :=
  ⟨lost_absent _ _ _ (fun h => absurd rfl h), by decide +kernel, lost_top _ _ (.inl rfl), by decide +kernel, by decide +kernel⟩

def lostAgain : Bytes := anyAbove ++ asciiBytes (c! "[globals]\n")

-- the hypotheses in a second `[globals]`
example : PartAbsent (oneFile (lostAgain ++ (asciiBytes lostTop ++ lostRest))) (oneFile (lostAgain ++ lostRest)) (c! "e.conf") lostAgain
      (asciiBytes lostTop) lostRest ∧
    ((ended (checkDialplan (oneFile (lostAgain ++ (asciiBytes lostTop ++ lostRest))) demoEnv none 99 (c! "e.conf") lostAgain)).map (·.cur)) = some .detached ∧
    TextIs (oneFile (lostAgain ++ (asciiBytes lostTop ++ lostRest))) (c! "e.conf") (asciiBytes lostTop) (DisregardedLines .detached) ∧
    (anySays (lostAgain ++ (asciiBytes lostTop ++ lostRest))).map (·.1) = some [(.E_DP_GLOBALS_DUPE, 7)] :=
  ⟨lost_absent _ _ _ (by unfold WholeLines; decide +kernel), by decide +kernel, lost_top _ _ (.inr rfl), by decide +kernel⟩

end ALint.Props
