import Verif.Proofs.Anywhere
import Verif.Props.Pieces

/-!
# C124: where the includes of a context stand
-/

namespace ALint.Props
open ALint Spec Proofs

/-- C124: `include` lines of a dialplan context can be moved down, past other lines of the context: the same dialplan is read and the
same messages are given, in some order and but for the numbers of the lines and those about blank lines. -/
theorem C124_down (fs fs' : FS) (env : DEnv) (sp : Option Str) (n n0 : Nat) (path a : Str) (above incl steps rest : Bytes)
    (hm : PartsSwapped fs fs' path above incl steps rest) (hincl : TextIs fs path incl IncludeLines) (hsteps : TextIs fs path steps OtherLines)
    (log0 log : List Msg) (st0 st : DState) (h0 : checkDialplan fs env sp n0 path above = ⟨log0, .ok (some st0)⟩) (hcur : st0.cur = .ctx a)
    (h : checkDialplan fs env sp n path (above ++ (incl ++ (steps ++ rest))) = ⟨log, .ok (some st)⟩) :
    ∃ k log' st', (∀ n', k ≤ n' → checkDialplan fs' env sp n' path (above ++ (steps ++ (incl ++ rest))) = ⟨log', .ok (some st')⟩) ∧
      SameInSomeOrder (substance log) (substance log') ∧ dialplanText st'.dp = dialplanText st.dp :=
  includes_down hm hincl hsteps h0 hcur h

/-- C124: `include` lines of a dialplan context can be moved up, past other lines of the context. -/
theorem C124_up (fs fs' : FS) (env : DEnv) (sp : Option Str) (n n0 : Nat) (path a : Str) (above steps incl rest : Bytes)
    (hm : PartsSwapped fs fs' path above steps incl rest) (hsteps : TextIs fs path steps OtherLines) (hincl : TextIs fs path incl IncludeLines)
    (log0 log : List Msg) (st0 st : DState) (h0 : checkDialplan fs env sp n0 path above = ⟨log0, .ok (some st0)⟩) (hcur : st0.cur = .ctx a)
    (h : checkDialplan fs env sp n path (above ++ (steps ++ (incl ++ rest))) = ⟨log, .ok (some st)⟩) :
    ∃ k log' st', (∀ n', k ≤ n' → checkDialplan fs' env sp n' path (above ++ (incl ++ (steps ++ rest))) = ⟨log', .ok (some st')⟩) ∧
      SameInSomeOrder (substance log) (substance log') ∧ dialplanText st'.dp = dialplanText st.dp :=
  includes_up hm hsteps hincl h0 hcur h

/-! ## Example -/

def anyIncl : Str := c! "include=b\n"
def anyAbove : Bytes := asciiBytes sectPre ++ asciiBytes pieceOne
def anyFirst : Bytes := anyAbove ++ (asciiBytes anyIncl ++ (asciiBytes pieceRest ++ asciiBytes pieceOther))
def anyLast : Bytes := anyAbove ++ (asciiBytes pieceRest ++ (asciiBytes anyIncl ++ asciiBytes pieceOther))

theorem any_incl (fs : FS) : TextIs fs (c! "e.conf") (asciiBytes anyIncl) IncludeLines :=
  textIs_elsewhere (fs := oneFile anyFirst) includeLines_placeless (textIs_model 6 (by unfold WholeLines; decide +kernel) (by decide +kernel) (by
    rw [show modelTold (oneFile anyFirst) (c! "e.conf") 6 (asciiBytes anyIncl) =
      [⟨⟨c! "e.conf", 7, asciiBytes anyIncl⟩, [], .elem (.var ⟨c! "include", c! "b", false, false, ⟨c! "e.conf", 7, asciiBytes anyIncl⟩⟩)⟩] by rfl]
    intro x hx
    simp only [List.mem_cons, List.not_mem_nil, or_false] at hx
    subst hx
    exact .inr (.inr ⟨_, rfl, rfl⟩)))

theorem any_steps (fs : FS) : TextIs fs (c! "e.conf") (asciiBytes pieceRest) OtherLines :=
  textIs_elsewhere (fs := oneFile anyFirst) otherLines_placeless (textIs_model 7 (by unfold WholeLines; decide +kernel) (by decide +kernel) (by
    rw [show modelTold (oneFile anyFirst) (c! "e.conf") 7 (asciiBytes pieceRest) =
      [⟨⟨c! "e.conf", 8, asciiBytes (c! "exten => 2,1,NoOp()\n")⟩, [], .elem (.var
          ⟨c! "exten", c! "2,1,NoOp()", true, false, ⟨c! "e.conf", 8, asciiBytes (c! "exten => 2,1,NoOp()\n")⟩⟩)⟩,
       ⟨⟨c! "e.conf", 9, asciiBytes (c! " same => n,Goto(c,1,1)\n")⟩, [], .elem (.var
          ⟨c! "same", c! "n,Goto(c,1,1)", true, false, ⟨c! "e.conf", 9, asciiBytes (c! " same => n,Goto(c,1,1)\n")⟩⟩)⟩] by rfl]
    intro x hx
    simp only [List.mem_cons, List.not_mem_nil, or_false] at hx
    rcases hx with rfl | rfl <;> exact .inr (.inr ⟨_, rfl, by decide⟩)))

-- the hypotheses of `C124_down`
example : PartsSwapped (oneFile anyFirst) (oneFile anyLast) (c! "e.conf") anyAbove (asciiBytes anyIncl) (asciiBytes pieceRest) (asciiBytes pieceOther) ∧
    TextIs (oneFile anyFirst) (c! "e.conf") (asciiBytes anyIncl) IncludeLines ∧
    TextIs (oneFile anyFirst) (c! "e.conf") (asciiBytes pieceRest) OtherLines ∧
    ((ended (checkDialplan (oneFile anyFirst) demoEnv none 99 (c! "e.conf") anyAbove)).map (·.cur)) = some (.ctx (c! "a")) ∧
    (ended (checkDialplan (oneFile anyFirst) demoEnv none 99 (c! "e.conf") anyFirst)).isSome = true :=
  ⟨⟨by simp [oneFile, anyFirst], by simp [oneFile, anyLast], by intro q hq; simp [oneFile, hq], by unfold WholeLines; decide +kernel⟩, any_incl _,
    any_steps _, by decide +kernel, by decide +kernel⟩

-- the hypotheses of `C124_up`
example : PartsSwapped (oneFile anyLast) (oneFile anyFirst) (c! "e.conf") anyAbove (asciiBytes pieceRest) (asciiBytes anyIncl) (asciiBytes pieceOther) ∧
    TextIs (oneFile anyLast) (c! "e.conf") (asciiBytes pieceRest) OtherLines ∧
    TextIs (oneFile anyLast) (c! "e.conf") (asciiBytes anyIncl) IncludeLines ∧
    ((ended (checkDialplan (oneFile anyLast) demoEnv none 99 (c! "e.conf") anyAbove)).map (·.cur)) = some (.ctx (c! "a")) ∧
    (ended (checkDialplan (oneFile anyLast) demoEnv none 99 (c! "e.conf") anyLast)).isSome = true :=
  ⟨⟨by simp [oneFile, anyLast], by simp [oneFile, anyFirst], by intro q hq; simp [oneFile, hq], by unfold WholeLines; decide +kernel⟩, any_steps _,
    any_incl _, by decide +kernel, by decide +kernel⟩

def anySays (b : Bytes) : Option (List (MK × Int) × List (Str × List Str × List (Str × Nat × Option Str × Str))) :=
  let r := checkDialplan (oneFile b) demoEnv none 99 (c! "e.conf") b
  (ended r).map fun st => ((substance r.log).map fun m => (m.kind, m.at_.lineno), dialplanText st.dp)

-- the same messages, but for the numbers of the lines, and the same steps and includes
example : anySays anyFirst = some ([(.H_CONF_NO_ARROW, 7), (.E_DP_GOTO_NOCONTEXT, 9)],
      [(c! "a", [c! "b"], [(c! "1", 1, none, c! "NoOp()"), (c! "2", 1, none, c! "NoOp()"), (c! "2", 2, none, c! "Goto(c,1,1)")]),
       (c! "b", [], [(c! "3", 1, none, c! "NoOp()")])]) ∧
    anySays anyLast = some ([(.H_CONF_NO_ARROW, 9), (.E_DP_GOTO_NOCONTEXT, 8)],
      [(c! "a", [c! "b"], [(c! "1", 1, none, c! "NoOp()"), (c! "2", 1, none, c! "NoOp()"), (c! "2", 2, none, c! "Goto(c,1,1)")]),
       (c! "b", [], [(c! "3", 1, none, c! "NoOp()")])]) := by
  refine ⟨?_, ?_⟩ <;> decide +kernel

end ALint.Props
