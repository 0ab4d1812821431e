import Verif.Proofs.Jumps
import Verif.Props.Lookup
import Verif.Props.Located

/-!
# C68: the jumps that are checked are those of the dialplan
-/

namespace ALint.Props
open ALint ALint.Spec

/-- C68: there is one list of all steps of the dialplan, in the order of their lines in the
file, and the destinations recorded are those of the jumps of these steps, in order: for every
jump of the application of a step one destination, completed with the context of the step and
an extension that the pattern of the step has (`exampleOf`, C26), and nothing else.  Not
covered is `${EXTEN:${n}}` (`C68_violated_slice`). -/
theorem C68_recorded_partial (env : DEnv) (sp : Option Str) (es : List Elem) (log : List Msg) (st : DState)
    (h : After env sp es log st) :
    ∃ l : List Jumping,
      (∀ x ∈ l, ∃ c ∈ st.dp.contexts, c.name = x.context) ∧
      (∀ c ∈ st.dp.contexts, (l.filter (·.context = c.name)).map (·.step) = c.steps) ∧
      List.Sublist (l.map (·.step.at_)) ((stepLines es).map (·.at_)) ∧
      st.dp.dests = (l.map (·.dests)).flatten ∧
      ∀ x ∈ l, ∃ js, JumpsOf env x.step js ∧
        Zips (Completed x.context (Pattern.exampleOf x.step.pat) x.step.at_) js x.dests := by
  obtain ⟨hi, _, _⟩ := after_inv h
  obtain ⟨l, hj⟩ := read_jumps (congrArg Res.val h)
  refine ⟨l, fun x hx => ?_, fun c hc => ?_, hj.order, hj.dests, hj.jumps⟩
  · have hs := hj.steps x.context
    cases hg : st.dp.get x.context with
    | none =>
      unfold stepsOf at hs
      rw [hg] at hs
      simp only [Option.map_none, Option.getD_none, List.map_eq_nil_iff, List.filter_eq_nil_iff] at hs
      exact absurd (by simp) (hs x hx)
    | some c => exact ⟨c, (get_mem hg).1, (get_mem hg).2⟩
  · rw [hj.steps, stepsOf_get (get_of_mem hi.names hc)]

/-- C68: after a check, the reports about jumps in its log are exactly those about the recorded
destinations, in order; one for each that is not there (C55). -/
theorem C68_reports (fs : FS) (env : DEnv) (sp : Option Str) (n : Nat) (path : Str) (content : Bytes)
    (log : List Msg) (st : DState) (h : checkDialplan fs env sp n path content = ⟨log, .ok (some st)⟩) :
    ∃ parts : List (List Msg), (log.filter fun m => jumpKind m.kind) = parts.flatten ∧
      Zips (fun d part => part.length ≤ 1 ∧ (part = [] ↔ JumpOk st.dp d) ∧
        ∀ m ∈ part, m.at_ = d.at_ ∧ jumpKind m.kind = true) st.dp.dests parts := by
  have hv := congrArg Res.val h
  have hl := congrArg Res.log h
  unfold checkDialplan at hv hl
  obtain ⟨r, h1, h2, h3⟩ := Res.bind_ok hv
  rw [h3] at hl
  cases r with
  | none => simp at h2
  | some s =>
    simp only at h2 hl
    obtain ⟨_, h4, h5, h6⟩ := Res.bind_ok h2
    rw [h6] at hl
    obtain ⟨_, h7, h8, h9⟩ := Res.bind_ok h5
    rw [h9] at hl
    simp only [Res.pure_val, Except.ok.injEq, Option.some.injEq] at h8
    subst h8
    obtain ⟨es, g1, g2, g3⟩ := pipeRun_filter fs (dialplanStep env) (fun m => jumpKind m.kind)
      (fun m hm => fileKind_jump hm) n _ _ h1
    have hfeed : LogAll NoJump (feed (dialplanStep env) (.init sp) es) := LogAll.feed (nojump_step env) _ _
    have hafter : After env sp es (feed (dialplanStep env) (.init sp) es).log s := by
      unfold After
      rw [← g1]
    obtain ⟨parts, p1, p2⟩ := C55_walk env sp es _ s hafter env.depth _ (by rw [← h7])
    refine ⟨parts, ?_, p2⟩
    have hw : ∀ (ds : List Dest), ∀ m ∈ (walkDests s.dp env.depth ds).log, jumpKind m.kind = true := by
      intro ds
      induction ds with
      | nil => simp [walkDests]
      | cons d ds ih =>
        intro m hm
        have : m ∈ (walkDest s.dp env.depth d).log ∨ m ∈ (walkDests s.dp env.depth ds).log := by
          simp only [walkDests, Res.bind] at hm
          cases hx : (walkDest s.dp env.depth d).val with
          | error e => rw [hx] at hm; exact .inl hm
          | ok u => rw [hx] at hm; exact List.mem_append.1 hm
        rcases this with hm | hm
        · exact ((C55_at_most_one s.dp env.depth d).2 m hm).2
        · exact ih m hm
    rw [← hl, List.filter_append, g3, List.filter_append, List.filter_append,
      filter_none (fun m hm => hfeed m hm), filter_none (fun m hm => nojump_complete s.dp m hm)]
    simp only [Res.pure_log, List.filter_nil, List.nil_append, List.append_nil]
    rw [List.filter_eq_self.2 (hw _), ← p1]

-- a check of a file with three jumps, one of them to an unknown label
example : (checkText (c! "[a]\nexten => _XX,1(x),Goto(x)\n same => n,Goto(${EXTEN:1}1,y)\n same => n,Goto(a,s,1)\n")).log.filterMap
      (fun m => if jumpKind m.kind then some (m.kind, m.at_.lineno) else none) =
    [(.W_DP_GOTO_CONTEXT_NOEXTEN, 3), (.W_DP_GOTO_CONTEXT_NOEXTEN, 4)] := by decide +kernel

/-- A jump with a part of `EXTEN`, one with a part that depends on another variable. -/
def sliced (value : Str) : List Elem := [demoHead 1 (c! "a"), demoExten 2 (c! "_ZX,1,Goto(" ++ value ++ c! ",1)")]

def slicedDests (value : Str) : List (V × V) :=
  match (feed (dialplanStep demoEnv) (.init none) (sliced value)).val with
  | .ok st => st.dp.dests.map fun d => (d.context, d.exten)
  | .error _ => []

-- the example of `_ZX` is 10
example : slicedDests (c! "9${EXTEN:1}") = [(.str (c! "a"), .str (c! "90"))] ∧
    slicedDests (c! "${N}") = [(.str (c! "a"), .atom .var (.str (c! "N")) .none .none)] := by decide

example : Filled (c! "10") (.lst [.str (c! "9"), .atom .slice (.str (c! "EXTEN")) (.int 1) .none]) (c! "90") := by
  have h : Filled (c! "10") (.atom .slice (.str (c! "EXTEN")) (.int 1) .none) (partOf (c! "10") 1 none) :=
    .from_ _ _ (.text _)
  exact .joined _ _ (.cons _ _ (c! "9") _ (.text _) (.cons _ _ _ _ h .nil))

/-- C68 as stated is violated: `${EXTEN:${N}}` depends on `N` but is taken as all of `EXTEN`. -/
theorem C68_violated_slice : ∃ (es : List Elem) (log : List Msg) (st : DState) (d : Dest) (s : Step) (j : Jump),
    After demoEnv none es log st ∧ (∃ c ∈ st.dp.contexts, s ∈ c.steps) ∧ JumpsOf demoEnv s [j] ∧
    j.exten = .atom .dynSlice (.str (c! "EXTEN")) (.atom .var (.str (c! "N")) .none .none) .none ∧
    st.dp.dests = [d] ∧ d.exten = .str (c! "10") := by
  let r := feed (dialplanStep demoEnv) (.init none) (sliced (c! "${EXTEN:${N}}"))
  let st := (r.val.toOption).getD (.init none)
  refine ⟨sliced (c! "${EXTEN:${N}}"), r.log, st, ⟨.str (c! "a"), .str (c! "10"), .one (.int 1), demoW 2⟩,
    ⟨c! "_ZX", ((Pattern.parse (c! "_ZX")).toOption).getD ⟨0, []⟩, 1, none, c! "Goto(${EXTEN:${N}},1)", false, demoW 2⟩,
    ⟨.none, .atom .dynSlice (.str (c! "EXTEN")) (.atom .var (.str (c! "N")) .none .none) .none, .one (.str (c! "1"))⟩,
    ?_, ?_, ?_, rfl, ?_, rfl⟩
  · have h : r.val.toOption.isSome = true := by decide
    unfold After
    cases hx : r.val with
    | error e => rw [hx] at h; simp [Except.toOption] at h
    | ok s =>
      have : st = s := by simp [st, hx, Except.toOption]
      rw [this, ← hx]
  · decide
  · exact ⟨none, none, by decide⟩
  · decide

end ALint.Props
