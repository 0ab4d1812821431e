import Verif.Proofs.Pieces
import Verif.Props.Extens

/-!
# C123: contexts written in pieces
-/

namespace ALint.Props
open ALint Spec Proofs

/-- C123, as far as it holds: if contexts are written in pieces, the sections can be put in any order that keeps the pieces of every
context in order, as long as the first step of every section has an extension and a priority of its own, and a spelling of
`Background` (if any) was chosen before. -/
theorem C123_pieces_partial (fs fs' : FS) (env : DEnv) (sp : Option Str) (n n0 : Nat) (path : Str) (pre : Bytes)
    (secs secs' : List (Str × Bytes)) (hm : Regathered fs fs' path pre secs secs')
    (hsec : ∀ x ∈ secs, SectionOf fs path x.1 x.2)
    (log0 log : List Msg) (st0 st : DState) (h0 : checkDialplan fs env sp n0 path pre = ⟨log0, .ok (some st0)⟩)
    (h : checkDialplan fs env sp n path (withSections pre secs) = ⟨log, .ok (some st)⟩) (hsp : st.sp = st0.sp) :
    ∃ k log' st', (∀ n', k ≤ n' → checkDialplan fs' env sp n' path (withSections pre secs') = ⟨log', .ok (some st')⟩) ∧
      SameInSomeOrder (substance log) (substance log') ∧ (dialplanText st.dp).Perm (dialplanText st'.dp) :=
  sections_regrouped (regrouped_of hm.same) hm.whole hm.before hm.others hsec h0 h hsp

/-- C123, as far as it holds: a section can be made into two, by writing the header of the context once more before a step that has an
extension and a priority of its own. -/
theorem C123_divided_partial (fs fs' : FS) (env : DEnv) (sp : Option Str) (n : Nat) (path a : Str) (above sec header body rest : Bytes)
    (hr : Reopened fs fs' path a above sec header body rest) (log : List Msg) (st : DState)
    (h : checkDialplan fs env sp n path (above ++ (sec ++ (body ++ rest))) = ⟨log, .ok (some st)⟩) :
    ∃ k log' st', (∀ n', k ≤ n' → checkDialplan fs' env sp n' path (above ++ (sec ++ (header ++ (body ++ rest)))) = ⟨log', .ok (some st')⟩) ∧
      Zips SameWords (substance log) (substance log') ∧ dialplanText st'.dp = dialplanText st.dp :=
  header_added hr h

/-- C123, as far as it holds: two pieces of a context, one directly below the other, can be made into one. -/
theorem C123_joined_partial (fs fs' : FS) (env : DEnv) (sp : Option Str) (n : Nat) (path a : Str) (above sec header body rest : Bytes)
    (hr : Reopened fs fs' path a above sec header body rest) (log : List Msg) (st : DState)
    (h : checkDialplan fs' env sp n path (above ++ (sec ++ (header ++ (body ++ rest)))) = ⟨log, .ok (some st)⟩) :
    ∃ k log' st', (∀ n', k ≤ n' → checkDialplan fs env sp n' path (above ++ (sec ++ (body ++ rest))) = ⟨log', .ok (some st')⟩) ∧
      Zips SameWords (substance log) (substance log') ∧ dialplanText st'.dp = dialplanText st.dp :=
  header_taken hr h

/-! ## Example -/

def pieceHead : Str := c! "[a]\n"
def pieceOne : Str := c! "[a]\nexten => 1,1,NoOp()\n"
def pieceRest : Str := c! "exten => 2,1,NoOp()\n same => n,Goto(c,1,1)\n"
def pieceTwo : Str := pieceHead ++ pieceRest
def pieceOther : Str := c! "[b]\nexten => 3,1,NoOp()\n"
def pieceList : List (Str × Bytes) := [(c! "a", asciiBytes pieceOne), (c! "b", asciiBytes pieceOther), (c! "a", asciiBytes pieceTwo)]
def pieceList' : List (Str × Bytes) := [(c! "a", asciiBytes pieceOne), (c! "a", asciiBytes pieceTwo), (c! "b", asciiBytes pieceOther)]

theorem piece_one (fs : FS) : SectionOf fs (c! "e.conf") (c! "a") (asciiBytes pieceOne) := by
  refine textIs_elsewhere (fs := sectFiles pieceList) (sectionLines_placeless _) (textIs_model 4 (by unfold WholeLines; decide +kernel) (by decide +kernel)
    ⟨shape_of (by decide +kernel) (by decide) (by decide +kernel), ?_⟩)
  rw [show varsOf (elemsOf (modelTold (sectFiles pieceList) (c! "e.conf") 4 (asciiBytes pieceOne))) =
    [⟨c! "exten", c! "1,1,NoOp()", true, false, ⟨c! "e.conf", 6, asciiBytes (c! "exten => 1,1,NoOp()\n")⟩⟩] by rfl]
  exact .step (p := ⟨some (c! "1"), some 1, none, c! "NoOp()"⟩)
    ⟨c! "1", rfl, by simp, .num (c! "1") (by simp) (by decide), by simp, .inl rfl⟩ rfl rfl (by decide)

theorem piece_other (fs : FS) : SectionOf fs (c! "e.conf") (c! "b") (asciiBytes pieceOther) := by
  refine textIs_elsewhere (fs := sectFiles pieceList) (sectionLines_placeless _) (textIs_model 4 (by unfold WholeLines; decide +kernel) (by decide +kernel)
    ⟨shape_of (by decide +kernel) (by decide) (by decide +kernel), ?_⟩)
  rw [show varsOf (elemsOf (modelTold (sectFiles pieceList) (c! "e.conf") 4 (asciiBytes pieceOther))) =
    [⟨c! "exten", c! "3,1,NoOp()", true, false, ⟨c! "e.conf", 6, asciiBytes (c! "exten => 3,1,NoOp()\n")⟩⟩] by rfl]
  exact .step (p := ⟨some (c! "3"), some 1, none, c! "NoOp()"⟩)
    ⟨c! "1", rfl, by simp, .num (c! "1") (by simp) (by decide), by simp, .inl rfl⟩ rfl rfl (by decide)

theorem piece_own {n : Nat} {path : Str} {told : List Told} (h : varsOf (elemsOf told) =
    [⟨c! "exten", c! "2,1,NoOp()", true, false, ⟨path, n + 1, asciiBytes (c! "exten => 2,1,NoOp()\n")⟩⟩,
     ⟨c! "same", c! "n,Goto(c,1,1)", true, false, ⟨path, n + 2, asciiBytes (c! " same => n,Goto(c,1,1)\n")⟩⟩]) : OwnStart (varsOf (elemsOf told)) := by
  rw [h]
  exact .step (p := ⟨some (c! "2"), some 1, none, c! "NoOp()"⟩)
    ⟨c! "1", rfl, by simp, .num (c! "1") (by simp) (by decide), by simp, .inl rfl⟩ rfl rfl (by decide)

theorem piece_two (fs : FS) : SectionOf fs (c! "e.conf") (c! "a") (asciiBytes pieceTwo) :=
  textIs_elsewhere (fs := sectFiles pieceList) (sectionLines_placeless _) (textIs_model 4 (by unfold WholeLines; decide +kernel) (by decide +kernel)
    ⟨shape_of (by decide +kernel) (by decide) (by decide +kernel), piece_own (n := 5) (path := c! "e.conf") rfl⟩)

-- the hypotheses of `C123_pieces_partial`
example : Regathered (sectFiles pieceList) (sectFiles pieceList') (c! "e.conf") (asciiBytes sectPre) pieceList pieceList' ∧
    (∀ x ∈ pieceList, SectionOf (sectFiles pieceList) (c! "e.conf") x.1 x.2) ∧
    ((ended (checkDialplan (sectFiles pieceList) demoEnv none 99 (c! "e.conf") (asciiBytes sectPre))).map (·.sp)) = some none ∧
    ((ended (checkDialplan (sectFiles pieceList) demoEnv none 99 (c! "e.conf") (withSections (asciiBytes sectPre) pieceList))).map (·.sp)) = some none := by
  refine ⟨⟨by simp [sectFiles], by simp [sectFiles], by intro q hq; simp [sectFiles, hq], by unfold WholeLines; decide +kernel, ?_⟩, ?_,
    by decide +kernel, by decide +kernel⟩
  · intro a
    by_cases h1 : c! "a" = a
    · subst h1; rfl
    · by_cases h2 : c! "b" = a
      · subst h2; rfl
      · simp [pieceList, pieceList', h1, h2]
  · intro x hx
    simp only [pieceList, List.mem_cons, List.not_mem_nil, or_false] at hx
    rcases hx with rfl | rfl | rfl
    · exact piece_one _
    · exact piece_other _
    · exact piece_two _

-- the same messages, but for the numbers of the lines, and the same steps
example : sectSays pieceList = some ([(.E_DP_GOTO_NOCONTEXT, 11)],
      [(c! "a", [], [(c! "1", 1, none, c! "NoOp()"), (c! "2", 1, none, c! "NoOp()"), (c! "2", 2, none, c! "Goto(c,1,1)")]),
       (c! "b", [], [(c! "3", 1, none, c! "NoOp()")])]) ∧
    sectSays pieceList' = some ([(.E_DP_GOTO_NOCONTEXT, 9)],
      [(c! "a", [], [(c! "1", 1, none, c! "NoOp()"), (c! "2", 1, none, c! "NoOp()"), (c! "2", 2, none, c! "Goto(c,1,1)")]),
       (c! "b", [], [(c! "3", 1, none, c! "NoOp()")])]) := by
  refine ⟨?_, ?_⟩ <;> decide +kernel

def oneFile (b : Bytes) : FS := fun p => if p = c! "e.conf" then some b else none

/-- The hypotheses of `C123_divided_partial` and `C123_joined_partial`. -/
theorem reopened_ex (sec header body rest : Bytes)
    (hs : ∀ fs, TextIs fs (c! "e.conf") sec (SectionShape (c! "a"))) (hh : ∀ fs, TextIs fs (c! "e.conf") header (HeaderLine (c! "a")))
    (hb : ∀ fs, TextIs fs (c! "e.conf") body OwnLines) (hr : ∀ fs, HeadedText fs (c! "e.conf") rest) :
    Reopened (oneFile (asciiBytes sectPre ++ (sec ++ (body ++ rest)))) (oneFile (asciiBytes sectPre ++ (sec ++ (header ++ (body ++ rest)))))
      (c! "e.conf") (c! "a") (asciiBytes sectPre) sec header body rest where
  before := by simp [oneFile]
  after := by simp [oneFile]
  others := by intro q hq; simp [oneFile, hq]
  whole := by unfold WholeLines; decide +kernel
  sec := hs _
  header := hh _
  body := hb _
  rest := hr _

theorem piece_header (fs : FS) : TextIs fs (c! "e.conf") (asciiBytes pieceHead) (HeaderLine (c! "a")) :=
  textIs_elsewhere (fs := sectFiles pieceList) (headerLine_placeless _) (textIs_model 4 (by unfold WholeLines; decide +kernel) (by decide +kernel)
    ⟨⟨c! "e.conf", 5, asciiBytes pieceHead⟩, ⟨c! "a", [], false, ⟨c! "e.conf", 5, asciiBytes pieceHead⟩⟩, by rfl, rfl, rfl, rfl⟩)

theorem textIs_weaker {fs : FS} {path : Str} {b : Bytes} {P Q : List Told → Prop} (h : ∀ l, P l → Q l) (hb : TextIs fs path b P) : TextIs fs path b Q := by
  obtain ⟨h1, n, told, h2, h3, h4⟩ := hb
  exact ⟨h1, n, told, h2, h3, h _ h4⟩

theorem plain_lines {told : List Told} (hb : (told.all fun x => plainGives x.gives) = true) :
    ∀ x ∈ told, (∀ c, x.gives ≠ .elem (.ctx c)) ∧ ∀ f, x.gives ≠ .file f := by
  intro x hx
  have := List.all_eq_true.1 hb x hx
  constructor
  · intro c hc
    rw [hc] at this
    cases this
  · intro f hf
    rw [hf] at this
    cases this

theorem piece_body (fs : FS) : TextIs fs (c! "e.conf") (asciiBytes pieceRest) OwnLines :=
  textIs_elsewhere (fs := sectFiles pieceList) ownLines_placeless (textIs_model 5 (by unfold WholeLines; decide +kernel) (by decide +kernel)
    ⟨plain_lines (by decide +kernel), piece_own (n := 5) (path := c! "e.conf") rfl⟩)

theorem piece_after (fs : FS) : HeadedText fs (c! "e.conf") (asciiBytes pieceOther) := by
  intro l hl
  rw [show (physLines (asciiBytes pieceOther)).head? = some (asciiBytes (c! "[b]\n")) by decide +kernel] at hl
  simp only [Option.mem_def, Option.some.injEq] at hl
  subst hl
  exact ⟨1, [], ⟨c! "b", [], false, ⟨c! "e.conf", 1, asciiBytes (c! "[b]\n")⟩⟩, lineTells_exists (r := ([], _)) (by rfl)⟩

def divided (header : Str) (body : Str) : Bytes :=
  asciiBytes sectPre ++ (asciiBytes pieceOne ++ (asciiBytes header ++ (asciiBytes body ++ asciiBytes pieceOther)))

example : Reopened (oneFile (divided [] pieceRest)) (oneFile (divided pieceHead pieceRest)) (c! "e.conf") (c! "a") (asciiBytes sectPre)
    (asciiBytes pieceOne) (asciiBytes pieceHead) (asciiBytes pieceRest) (asciiBytes pieceOther) :=
  reopened_ex _ _ _ _ (fun fs => textIs_weaker (fun _ h => h.toSectionShape) (piece_one fs)) piece_header piece_body piece_after

def dividedSays (header body : Str) : Option (List (MK × Int) × List (Str × List Str × List (Str × Nat × Option Str × Str))) :=
  let r := checkDialplan (oneFile (divided header body)) demoEnv none 99 (c! "e.conf") (divided header body)
  (ended r).map fun st => (r.log.map fun m => (m.kind, m.at_.lineno), dialplanText st.dp)

-- the same messages, but for those about blank lines, and the same steps
example : (dividedSays [] pieceRest).map (·.1) = some [(.H_WSV_CTX_BETWEEN, 9), (.E_DP_GOTO_NOCONTEXT, 8)] ∧
    (dividedSays pieceHead pieceRest).map (·.1) = some [(.E_DP_GOTO_NOCONTEXT, 9)] ∧
    (dividedSays [] pieceRest).map (·.2) = (dividedSays pieceHead pieceRest).map (·.2) := by
  refine ⟨?_, ?_, ?_⟩ <;> decide +kernel

/-! ## Where it fails -/

def pieceNext : Str := c! "exten => 1,n,NoOp()\n"

/-- C123 fails if the first step after the repeated header has the priority `n`: it is then said to be out of order. -/
theorem C123_violated : ∃ (fs fs' : FS) (env : DEnv) (n : Nat) (path a : Str) (above sec header body rest : Bytes),
    TextIs fs path sec (SectionShape a) ∧ TextIs fs' path header (HeaderLine a) ∧
    TextIs fs path body (fun told => ∀ x ∈ told, (∀ c, x.gives ≠ .elem (.ctx c)) ∧ ∀ f, x.gives ≠ .file f) ∧ HeadedText fs path rest ∧
    fs path = some (above ++ (sec ++ (body ++ rest))) ∧ fs' path = some (above ++ (sec ++ (header ++ (body ++ rest)))) ∧
    (∀ q, q ≠ path → fs' q = fs q) ∧
    ∃ st st' log', checkDialplan fs env none n path (above ++ (sec ++ (body ++ rest))) = ⟨[], .ok (some st)⟩ ∧
      checkDialplan fs' env none n path (above ++ (sec ++ (header ++ (body ++ rest)))) = ⟨log', .ok (some st')⟩ ∧
      log'.map (·.kind) = [.W_DP_PRIO_BADORDER] := by
  have ok : ∀ h, (ended (checkDialplan (oneFile (divided h pieceNext)) demoEnv none 99 (c! "e.conf") (divided h pieceNext))).isSome = true →
      ∃ st, checkDialplan (oneFile (divided h pieceNext)) demoEnv none 99 (c! "e.conf") (divided h pieceNext) =
        ⟨(checkDialplan (oneFile (divided h pieceNext)) demoEnv none 99 (c! "e.conf") (divided h pieceNext)).log, .ok (some st)⟩ := by
    intro l h
    obtain ⟨st, hst⟩ := Option.isSome_iff_exists.1 h
    exact ⟨st, ended_eq hst⟩
  obtain ⟨st, h1⟩ := ok [] (by decide +kernel)
  obtain ⟨st', h2⟩ := ok pieceHead (by decide +kernel)
  refine ⟨oneFile (divided [] pieceNext), oneFile (divided pieceHead pieceNext), demoEnv, 99, c! "e.conf", c! "a", asciiBytes sectPre,
    asciiBytes pieceOne, asciiBytes pieceHead, asciiBytes pieceNext, asciiBytes pieceOther,
    textIs_weaker (fun _ h => h.toSectionShape) (piece_one _), piece_header _,
    textIs_model 6 (by unfold WholeLines; decide +kernel) (by decide +kernel) (plain_lines (by decide +kernel)), piece_after _,
    by simp [oneFile, divided, asciiBytes], by simp [oneFile, divided], by intro q hq; simp [oneFile, hq], st, st', _, ?_, h2, by decide +kernel⟩
  have e : (checkDialplan (oneFile (divided [] pieceNext)) demoEnv none 99 (c! "e.conf") (divided [] pieceNext)).log.map (·.kind) = [] := by decide +kernel
  rw [List.map_eq_nil_iff.1 e] at h1
  exact h1

def pieceNote : Str := c! "[a] ; more of it\n"

/-- C123 fails if there is a comment beside the repeated header: the check stops with an AssertionError. -/
theorem C123_violated_comment : ∃ (fs fs' : FS) (env : DEnv) (n : Nat) (path a : Str) (above sec header body rest : Bytes),
    TextIs fs path sec (SectionShape a) ∧
    TextIs fs' path header (fun told => ∃ w c, told = [⟨w, [], .elem (.ctx c)⟩] ∧ c.name = a ∧ c.templates = []) ∧
    TextIs fs path body OwnLines ∧ HeadedText fs path rest ∧
    fs path = some (above ++ (sec ++ (body ++ rest))) ∧ fs' path = some (above ++ (sec ++ (header ++ (body ++ rest)))) ∧
    (∀ q, q ≠ path → fs' q = fs q) ∧
    (∃ log st, checkDialplan fs env none n path (above ++ (sec ++ (body ++ rest))) = ⟨log, .ok (some st)⟩) ∧
    ∃ e, (checkDialplan fs' env none n path (above ++ (sec ++ (header ++ (body ++ rest))))).val = .error e := by
  refine ⟨oneFile (divided [] pieceRest), oneFile (divided pieceNote pieceRest), demoEnv, 99, c! "e.conf", c! "a", asciiBytes sectPre,
    asciiBytes pieceOne, asciiBytes pieceNote, asciiBytes pieceRest, asciiBytes pieceOther,
    textIs_weaker (fun _ h => h.toSectionShape) (piece_one _),
    textIs_model 6 (by unfold WholeLines; decide +kernel) (by decide +kernel)
      ⟨⟨c! "e.conf", 7, asciiBytes pieceNote⟩, ⟨c! "a", [], true, ⟨c! "e.conf", 7, asciiBytes pieceNote⟩⟩, by rfl, rfl, rfl⟩,
    piece_body _, piece_after _, by simp [oneFile, divided, asciiBytes], by simp [oneFile, divided], by intro q hq; simp [oneFile, hq], ?_, ?_⟩
  · have h : (ended (checkDialplan (oneFile (divided [] pieceRest)) demoEnv none 99 (c! "e.conf") (divided [] pieceRest))).isSome = true := by decide +kernel
    obtain ⟨st, hst⟩ := Option.isSome_iff_exists.1 h
    exact ⟨_, st, ended_eq hst⟩
  · have h : (match (checkDialplan (oneFile (divided pieceNote pieceRest)) demoEnv none 99 (c! "e.conf") (divided pieceNote pieceRest)).val with
      | .ok _ => false
      | .error _ => true) = true := by decide +kernel
    have e : checkDialplan (oneFile (divided pieceNote pieceRest)) demoEnv none 99 (c! "e.conf")
        (asciiBytes sectPre ++ (asciiBytes pieceOne ++ (asciiBytes pieceNote ++ (asciiBytes pieceRest ++ asciiBytes pieceOther)))) =
      checkDialplan (oneFile (divided pieceNote pieceRest)) demoEnv none 99 (c! "e.conf") (divided pieceNote pieceRest) := rfl
    rw [e]
    cases hv : (checkDialplan (oneFile (divided pieceNote pieceRest)) demoEnv none 99 (c! "e.conf") (divided pieceNote pieceRest)).val with
    | error e => exact ⟨e, rfl⟩
    | ok r => rw [hv] at h; cases h

end ALint.Props
