import Verif.Proofs.Located
import Verif.Props.Dialplan

/-!
# C22, C66: values and places of messages
-/

namespace ALint.Props
open ALint ALint.Spec

/-! ## Examples -/

/-- The bytes of an ASCII text. -/
def asciiBytes (s : Str) : Bytes := s.map Char.toNat

/-- No other files. -/
def noFiles : FS := fun _ => none

/-- A whole check of a text in one file. -/
def checkText (s : Str) : Res (Option DState) := checkDialplan noFiles demoEnv none 99 (c! "e.conf") (asciiBytes s)

/-! ## C22 -/

/-- C22 is violated: a label without closing parenthesis is reported without the value its
text refers to, which ends the check. -/
theorem C22_violated_label :
    (∃ m ∈ (checkText (c! "[a]\nexten => s,1(x,NoOp()\n")).log, m.kind = .E_DP_LABEL_INVALID ∧ ¬ Supplies m) ∧
    (checkText (c! "[a]\nexten => s,1(x,NoOp()\n")).val.toOption = none := by
  refine ⟨⟨mkMsg .E_DP_LABEL_INVALID ⟨c! "e.conf", 2, asciiBytes (c! "exten => s,1(x,NoOp()\n")⟩ [], by decide, rfl, ?_⟩,
    by decide⟩
  intro h
  obtain ⟨a, ha⟩ := h (c! "label") (by decide)
  simp [mkMsg] at ha

/-- C22 is violated: so is a function whose name has a variable in it. -/
theorem C22_violated_dynamic :
    (∃ m ∈ (checkText (c! "[a]\nexten => s,1,NoOp(${${B}(x)})\n")).log, m.kind = .W_FUNC_DYNAMIC ∧ ¬ Supplies m) ∧
    (checkText (c! "[a]\nexten => s,1,NoOp(${${B}(x)})\n")).val.toOption = none := by
  refine ⟨⟨mkMsg .W_FUNC_DYNAMIC ⟨c! "e.conf", 2, asciiBytes (c! "exten => s,1,NoOp(${${B}(x)})\n")⟩
    [(c! "func", .one (.atom .var (.str (c! "B")) .none .none))], by decide, rfl, ?_⟩, by decide⟩
  intro h
  obtain ⟨a, ha⟩ := h (c! "data") (by decide)
  simp [mkMsg] at ha

/-- C22 for every other kind of message: whatever is in the file, and even when the check
ends with an internal error, each message has all the values its text refers to. -/
theorem C22_supplied_partial (fs : FS) (env : DEnv) (sp : Option Str) (n : Nat) (path : Str) (content : Bytes)
    (m : Msg) (h : m ∈ (checkDialplan fs env sp n path content).log)
    (h1 : m.kind ≠ .E_DP_LABEL_INVALID) (h2 : m.kind ≠ .W_FUNC_DYNAMIC) : Supplies m := by
  rcases placed_check fs env sp n path content m h with h | h
  · rcases h.1 with h | h | h
    · exact absurd h h1
    · exact absurd h h2
    · exact h
  · exact h.2.1

/-- The text of this message has two names. -/
example : ∃ m ∈ (checkText (c! "[a]\nexten => _[2-9]X,1,NoOp()\n")).log, m.kind = .H_PAT_NON_CANONICAL ∧ Supplies m ∧
    placeholders m.kind.template = [c! "pat", c! "expected"] := by
  have hm : mkMsg .H_PAT_NON_CANONICAL ⟨c! "e.conf", 2, asciiBytes (c! "exten => _[2-9]X,1,NoOp()\n")⟩
      [(c! "pat", strV (c! "_[2-9]X")), (c! "expected", strV (c! "_NX"))] ∈
      (checkText (c! "[a]\nexten => _[2-9]X,1,NoOp()\n")).log := by decide +kernel
  exact ⟨_, hm, rfl, C22_supplied_partial _ _ _ _ _ _ _ hm (by decide) (by decide), by decide⟩

/-- A message with its values can still fail to be printed, but only over a value that has
no text (`${}` and the like). -/
theorem C22_printing (m : Msg) (h : Supplies m) (e : Exc) (he : m.render = .error e) :
    ∃ name v, (name, .one v) ∈ m.args ∧ v.toStr = .error e :=
  render_error h he

/-- C22 for reading config files: every message about lines, encodings, file formats,
comments, white space, preprocessor directives can be printed. -/
theorem C22_files (fs : FS) (n : Nat) (path : Str) (content : Bytes) (m : Msg)
    (h : m ∈ (pipeRun fs collect n ⟨[openFrame path content], [], [], []⟩).log) : Prints m ∧ Supplies m := by
  have hc : Consumes (LineOf fs path content) (fun m => Prints m ∧ Supplies m) (fun _ : List Elem => True) collect :=
    fun _ _ _ _ => ⟨.pure _, fun _ _ => trivial⟩
  refine (pipeRun_consumes (fs := fs) (fun q c h => lineOf_frame (.inr h)) (fun m h => ⟨h.prints, h.supplies⟩) hc n
    (⟨by simpa using lineOf_frame (.inl ⟨rfl, rfl⟩), by simp [FfIn], by simp [VswIn]⟩) trivial).1 m h

/-- A jump to the context `${}`: all values are there, one has no text. -/
def unprintable : Msg := mkMsg .E_DP_GOTO_NOCONTEXT (demoW 1)
  [(c! "context", .one (.atom .var (.str []) .none .none)), (c! "exten", strV (c! "s")), (c! "prio", natV 1)]
example : Supplies unprintable ∧ unprintable.render = .error .attributeError :=
  ⟨supplies_of_covers (by decide), by decide⟩

/-! ## C66 -/

/-- C66: every message of a check is about a line of the file or of a file it can include:
number and text are those of the line.  So is the place it refers back to.  The only other
messages are those that `[general]` or `[globals]` is missing, which are about line 0 of such
a file. -/
theorem C66_located (fs : FS) (env : DEnv) (sp : Option Str) (n : Nat) (path : Str) (content : Bytes)
    (m : Msg) (h : m ∈ (checkDialplan fs env sp n path content).log) :
    (LineOf fs path content m.at_ ∧ ∀ w, m.previous = some w → LineOf fs path content w) ∨
    ((m.kind = .H_DP_GENERAL_MISPLACED ∨ m.kind = .H_DP_GLOBALS_MISPLACED) ∧ m.previous = none ∧
      m.at_.lineno = 0 ∧ m.at_.line = [] ∧ ∃ w, LineOf fs path content w ∧ w.filename = m.at_.filename) := by
  rcases placed_check fs env sp n path content m h with h | h
  · exact .inl ⟨h.2.1, h.2.2.1⟩
  · exact .inr ⟨h.1, h.2.2.1, h.2.2.2.1, h.2.2.2.2.1, h.2.2.2.2.2⟩

example : (mkMsg .H_PAT_NON_CANONICAL ⟨c! "e.conf", 2, asciiBytes (c! "exten => _[2-9]X,1,NoOp()\n")⟩
      [(c! "pat", strV (c! "_[2-9]X")), (c! "expected", strV (c! "_NX"))]) ∈
    (checkText (c! "[a]\nexten => _[2-9]X,1,NoOp()\n")).log := by decide +kernel

/-- C66 for reading config files. -/
theorem C66_located_files (fs : FS) (n : Nat) (path : Str) (content : Bytes) (m : Msg)
    (h : m ∈ (pipeRun fs collect n ⟨[openFrame path content], [], [], []⟩).log) :
    LineOf fs path content m.at_ ∧ m.previous = none := by
  have hc : Consumes (LineOf fs path content) (fun m => LineOf fs path content m.at_ ∧ m.previous = none)
      (fun _ : List Elem => True) collect := fun _ _ _ _ => ⟨.pure _, fun _ _ => trivial⟩
  refine (pipeRun_consumes (fs := fs) (fun q c h => lineOf_frame (.inr h)) (fun m h => ⟨h.at_, h.prev⟩) hc n
    (⟨by simpa using lineOf_frame (.inl ⟨rfl, rfl⟩), by simp [FfIn], by simp [VswIn]⟩) trivial).1 m h

example : (pipeRun noFiles collect 9 ⟨[openFrame (c! "e.conf") (asciiBytes (c! " [a]\nb=c"))], [], [], []⟩).log.map
    (fun m => (m.kind, m.at_.lineno)) = [(.W_WSH_BOL, 1), (.W_FILE_UNIX_NOLF, 2)] := by decide +kernel

end ALint.Props
