import Verif.Proofs.Relocate
import Verif.Props.Splice

/-!
# C119: a dialplan can be moved to another directory
-/

namespace ALint.Props
open ALint Spec Proofs

theorem relocated_msg {pre pre' : Str} {m m' : Msg} (h : reM (tagW pre') m' = reM (tagW pre) m) : m' = relocatedMsg pre pre' m := by
  have key : ∀ {w w' : Where}, tagW pre' w' = tagW pre w → w' = relocatedPlace pre pre' w := by
    intro w w' h
    obtain ⟨f, i, l⟩ := w
    obtain ⟨f', i', l'⟩ := w'
    simp only [tagW, Where.mk.injEq] at h
    obtain ⟨h1, rfl, rfl⟩ := h
    simp only [relocatedPlace, relocated_of_tags h1]
  obtain ⟨k, w, as, p⟩ := m
  obtain ⟨k', w', as', p'⟩ := m'
  simp only [reM, Msg.mk.injEq] at h
  obtain ⟨rfl, h1, rfl, h2⟩ := h
  rw [key h1]
  unfold relocatedMsg
  congr 1
  cases p <;> cases p' <;> simp at h2 ⊢
  exact key h2

/-- C119: the files of a dialplan are moved to another directory, each keeping its name within the directory.  None of them
includes a file by a path from the root.  Then the check issues the same messages, in the same order, about the same lines
of the same files, which now have other names, and ends the same way. -/
theorem C119_moved (fs fs' : FS) (pre pre' : Str) (env : DEnv) (sp : Option Str) (n : Nat) (x : Str) (content : Bytes)
    (h : MovedTo fs fs' pre pre') (hx : RelativeName x) (hc : fs (pre ++ x) = some content) :
    (checkDialplan fs' env sp n (pre' ++ x) content).log =
      (checkDialplan fs env sp n (pre ++ x) content).log.map (relocatedMsg pre pre') ∧
    SameOutcome (checkDialplan fs env sp n (pre ++ x) content).val (checkDialplan fs' env sp n (pre' ++ x) content).val := by
  obtain ⟨h1, h2⟩ := check_moved h env sp n hx hc
  refine ⟨?_, ?_⟩
  · have key : ∀ a b : List Msg, b.map (reM (tagW pre')) = a.map (reM (tagW pre)) → b = a.map (relocatedMsg pre pre') := by
      intro a
      induction a with
      | nil => intro b hb; simpa using hb
      | cons m a ih =>
        intro b hb
        cases b with
        | nil => cases hb
        | cons m' b =>
          simp only [List.map_cons, List.cons.injEq] at hb ⊢
          exact ⟨relocated_msg hb.1, ih b hb.2⟩
    exact key _ _ h1
  · rcases h2 with ⟨e, e1, e2⟩ | ⟨a, b, e1, e2, h3⟩
    · rw [e1, e2]; exact .failed e
    · rw [e1, e2]
      cases a with
      | none =>
        cases b with
        | none => exact .unfinished
        | some b => cases h3
      | some a =>
        cases b with
        | none => cases h3
        | some b =>
          simp only [EndMoved, Option.map_some, Option.some.injEq] at h3
          have : reDp (tagW pre') b.dp = reDp (tagW pre) a.dp := congrArg DState.dp h3
          exact .done (by rw [← dialplanText_re (tagW pre'), this, dialplanText_re])

/-! ## Example -/

/-- The file a line includes. -/
def includedBy (l : Bytes) : Option Str :=
  match (fileStage [] ⟨[], 1, l⟩).2 with
  | .error _ => none
  | .ok (_, data, c) =>
    match (parserStage ⟨[], 1, l⟩ data c).2 with
    | .pp (.open_ _ _ name) => some name
    | _ => none

theorem includedBy_of {l : Bytes} {name : Str} (h : IncludesName l name) : includedBy l = some name := by
  obtain ⟨text, bad, body, data, comment, indent, t, cmd, sep, arg, h1, h2, h3, rfl, h5, h6, h7, h8, h9⟩ := h
  obtain ⟨e1, -⟩ := decodesAs_stage (w := ⟨[], 1, l⟩) h1
  have e2 := unterminated_stage h2 [] ⟨[], 1, l⟩
  have e3 := content_stage h3 ⟨[], 1, l⟩
  have ef : ∃ ff, (fileStage [] ⟨[], 1, l⟩).2 = .ok (ff, indent ++ t, comment) := by
    unfold fileStage
    simp only [e1, e2, e3]
    exact ⟨_, rfl⟩
  obtain ⟨ff, ef⟩ := ef
  obtain ⟨_, _, _, _, _, _, e4⟩ := directive_stage ⟨[], 1, l⟩ comment indent t cmd sep arg h5 h7 (by
    intro hm; exact h6 (List.mem_append_right _ (by rw [h7.shape]; simp [hm])))
  rw [if_neg h8] at e4
  unfold includedBy
  rw [ef]
  dsimp only
  rw [e4]
  exact congrArg some (argNames_name h7.argStart h9)

theorem portable_of {l : Bytes} (h : (includedBy l).all (fun n => n.head? != some '/') = true) : Portable l := by
  intro name hn
  rw [includedBy_of hn] at h
  simpa [RelativeName] using h

def moveMain : Str := c! "[general]\n\n[globals]\n\n[a]\nexten => s,1,Foo()\r\n#include \"sub/x.conf\"\n"
def moveSub : Str := c! "exten => t,1,Goto(8)\n same => n,NoOp()\n#include \"none.conf\"\n#include \"../y.conf\""
def moveOther : Str := c! "exten => t,1,NoOp()\n"
def moveFiles (pre : Str) : FS := fun p =>
  if p = pre ++ c! "e.conf" then some (asciiBytes moveMain)
  else if p = pre ++ c! "sub/x.conf" then some (asciiBytes moveSub)
  else if p = pre ++ c! "sub/../y.conf" then some (asciiBytes moveOther)
  else none

/-- A dialplan in the current directory, moved to `/etc/asterisk`. -/
theorem example_moved : MovedTo (moveFiles []) (moveFiles (c! "/etc/asterisk/")) [] (c! "/etc/asterisk/") where
  old := .here
  new := .dir (d := c! "/etc/asterisk") (by decide) (by decide)
  oldClean := by decide
  newClean := by decide
  files := by intro x _; simp only [moveFiles, List.append_cancel_left_eq]
  portable := by
    intro x content line name _ hc hl
    have key : ∀ l ∈ physLines (asciiBytes moveMain) ++ physLines (asciiBytes moveSub) ++ physLines (asciiBytes moveOther),
        (includedBy l).all (fun n => n.head? != some '/') = true := by decide +kernel
    refine portable_of (key line ?_) name
    simp only [moveFiles] at hc
    split at hc
    · cases hc; simp [hl]
    · split at hc
      · cases hc; simp [hl]
      · split at hc
        · cases hc; simp [hl]
        · cases hc

def moveSays (pre : Str) : Option (List (MK × Str × Int × Option Str)) :=
  let r := checkDialplan (moveFiles pre) demoEnv none 99 (pre ++ c! "e.conf") (asciiBytes moveMain)
  if r.val.toOption.join.isSome then
    some (r.log.map fun m => (m.kind, m.at_.filename, m.at_.lineno, m.previous.map (·.filename))) else none

-- in the current directory and in `/etc/asterisk`
example : moveSays [] = some [(.W_FILE_UNIX_CRLF, c! "e.conf", 6, none), (.E_APP_MISSING, c! "e.conf", 6, none),
      (.W_PP_INCLUDE_MISSING, c! "sub/x.conf", 3, none), (.E_DP_PRIO_DUPE, c! "sub/../y.conf", 1, some (c! "sub/x.conf")),
      (.W_FILE_UNIX_NOLF, c! "sub/x.conf", 4, none), (.W_DP_GOTO_CONTEXT_NOEXTEN, c! "sub/x.conf", 1, none)] ∧
    moveSays (c! "/etc/asterisk/") = some [(.W_FILE_UNIX_CRLF, c! "/etc/asterisk/e.conf", 6, none),
      (.E_APP_MISSING, c! "/etc/asterisk/e.conf", 6, none), (.W_PP_INCLUDE_MISSING, c! "/etc/asterisk/sub/x.conf", 3, none),
      (.E_DP_PRIO_DUPE, c! "/etc/asterisk/sub/../y.conf", 1, some (c! "/etc/asterisk/sub/x.conf")),
      (.W_FILE_UNIX_NOLF, c! "/etc/asterisk/sub/x.conf", 4, none),
      (.W_DP_GOTO_CONTEXT_NOEXTEN, c! "/etc/asterisk/sub/x.conf", 1, none)] := by
  refine ⟨?_, ?_⟩ <;> decide +kernel

example := C119_moved _ _ _ _ demoEnv none 99 (c! "e.conf") _ example_moved (by unfold RelativeName; decide) rfl

end ALint.Props
