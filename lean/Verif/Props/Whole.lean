import Verif.Model.Whole
import Verif.Props.Main
import Verif.Props.Args
import Verif.Props.Passed

/-!
# C112: what the exit status of `asterisklint dialplan-check` tells
-/

namespace ALint.Props
open ALint Spec

/-- The file was there and checked to its end with the functions defined beside it or in the given file, and every message is of
a kind that is ignored. -/
def NothingFound (ignore : Str) (fs : FS) (env : DEnv) (n : Nat) (ns : ArgSpace) : Prop :=
  ∃ content env' first log st, fs ns.path = some content ∧
    DefinesFrom fs env n (ns.stored.lookup (c! "func_odbc")) ns.path env' first ∧
    checkDialplan fs { env with toFEnv := env' } none n ns.path content = ⟨log, .ok (some st)⟩ ∧
    ∀ m ∈ first ++ log, Ignores ignore m.kind.name

/-- `asterisklint` with the command `dialplan-check`, found in the directory `dir`, and otherwise the words `words`. -/
structure CallsCheck (w : CmdWorld) (path : List Str) (home : Option Str) (programs : Str → List Str → CmdRun)
    (check : List Str → CmdRun) (argv words : List Str) : Prop where
  named : ∃ before after, FirstPlain argv before (c! "dialplan-check") after ∧ words = before ++ after
  found : ∃ path' dir m, Search w path home path' ∧ HasCommand w path' (c! "dialplan-check") dir ∧
    w.load (fileIn dir (c! "dialplan-check")) = some m ∧ m.entry = true ∧ programs (fileIn dir (c! "dialplan-check")) = check

theorem whole_check {w : CmdWorld} {path : List Str} {home : Option Str} {programs : Str → List Str → CmdRun}
    {check : List Str → CmdRun} {argv words : List Str} (h : CallsCheck w path home programs check argv words) (tx : ArgTexts)
    (version : List Str) (negNum : Str → Bool) :
    wholeStatus w path home programs tx version negNum argv = (check words).fin.status := by
  obtain ⟨before, after, h1, rfl⟩ := h.named
  obtain ⟨path', dir, m, h2, h3, h4, h5, h6⟩ := h.found
  have := (C73_runs w path path' home argv (fileIn dir (c! "dialplan-check")) (before ++ after) h2).2
    ⟨before, _, after, dir, m, h1, rfl, by decide, (commandRe_iff _).1 (by decide), h3, rfl, h4, h5⟩
  unfold wholeStatus
  rw [this, ← h6]

theorem odbcFile_only {fs : FS} {arg : Option Str} {dialplan : Str} {r : Option Str} (h : OdbcFileFor fs dialplan arg r) :
    odbcFile fs arg dialplan = r := by
  cases h with
  | off => rfl
  | @given p hp =>
    cases p with
    | nil => exact absurd rfl hp
    | cons c p => rfl
  | beside hc => simp [odbcFile, hc]
  | absent hc => simp [odbcFile, hc]

theorem readOdbc_of {fs : FS} {env : DEnv} {n : Nat} {arg : Option Str} {path : Str} {env' : FEnv} {first : List Msg}
    (h : DefinesFrom fs env n arg path env' first) :
    readOdbc fs env n arg path = ⟨first, .ok (.ok { env with toFEnv := env' })⟩ := by
  cases h with
  | none h => unfold readOdbc; rw [odbcFile_only h]; rfl
  | some h hc hv =>
    unfold readOdbc
    rw [odbcFile_only h]
    simp only [opening, hc, finished, Res.bind, hv, Res.pure, List.append_nil]

/-- The status of `dialplan-check` is 0 if and only if the check found nothing. -/
theorem check_zero (sh : Shell) (hm : sh.muted = false) (fs : FS) (env : DEnv) (n : Nat) (ns : ArgSpace) :
    (dialplanCheck sh fs env n (ns.stored.lookup (c! "func_odbc")) ns.path).fin = .exit 0 ↔ NothingFound sh.ignore fs env n ns := by
  constructor
  · intro h
    obtain ⟨env', first, content, st, h1, h2, h3, h4⟩ := C85_messages sh fs env n _ ns.path 0 h
    refine ⟨content, env', first, _, st, h2, h1, by rw [← h3], ?_⟩
    unfold dialplanCheck program at h
    split at h
    · simp at h
    · simp at h
    · simp only [CmdEnd.exit.injEq] at h
      rw [managerAfter_issueAll sh hm] at h
      have := (C20_exit_status _ _).2.1 h
      rw [h4] at this
      exact fun m hm => (ignores_iff ..).2 (this m hm)
  · rintro ⟨content, env', first, log, st, h1, h2, h3, h4⟩
    have hr : dialplanCheckRun fs env n (ns.stored.lookup (c! "func_odbc")) ns.path = ⟨first ++ log, .ok (.ok st)⟩ := by
      unfold dialplanCheckRun andThen
      rw [readOdbc_of h2]
      simp only [opening, h1, finished, Res.bind, h3, Res.pure, List.append_nil]
    unfold dialplanCheck program
    rw [hr]
    simp only [CmdEnd.exit.injEq]
    rw [managerAfter_issueAll sh hm]
    exact (C20_exit_status _ _).2.2 fun m hm => (ignores_iff ..).1 (h4 m hm)

/-- C112: the exit status of `asterisklint` with the command `dialplan-check` is 2 if and only if the command line is refused, and 0
if and only if help was asked for, or the file was there, was checked to its end and nothing was found that is not ignored.
Otherwise it is 1, or the check never ends. -/
theorem C112_status (w : CmdWorld) (path : List Str) (home : Option Str) (programs : Str → List Str → CmdRun) (tx tx' : ArgTexts)
    (version : List Str) (negNum : Str → Bool) (sh : Shell) (hm : sh.muted = false) (fs : FS) (env : DEnv) (n : Nat)
    (argv words : List Str)
    (h : CallsCheck w path home programs (dialplanCheckMain sh tx' negNum fs env n) argv words) :
    (wholeStatus w path home programs tx version negNum argv = some 2 ↔
      CommandLine (checkParser negNum) words (.error .refused)) ∧
    (wholeStatus w path home programs tx version negNum argv = some 0 ↔
      CommandLine (checkParser negNum) words (.error .help) ∨
      ∃ ns, CommandLine (checkParser negNum) words (.ok ns) ∧ NothingFound sh.ignore fs env n ns) ∧
    ∀ k, wholeStatus w path home programs tx version negNum argv = some k → k ≤ 2 := by
  rw [whole_check h]
  have two : ∀ r : CmdEnd, r.status = some 2 ↔ r = .exit 2 := by
    intro r
    cases r with
    | exit k => simp [CmdEnd.status]
    | raised e => simp [CmdEnd.status]
    | stopped s => cases s <;> simp [CmdEnd.status]
  have zero : ∀ r : CmdEnd, r.status = some 0 ↔ r = .exit 0 := by
    intro r
    cases r with
    | exit k => simp [CmdEnd.status]
    | raised e => simp [CmdEnd.status]
    | stopped s => cases s <;> simp [CmdEnd.status]
  obtain ⟨h1, h2⟩ := C103_dialplan_check sh tx' negNum fs env n words
  refine ⟨by rw [two, h2], ?_, ?_⟩
  · rw [zero]
    obtain ⟨e, he⟩ := commandLine_exists (checkParser negNum) words
    have hr := h1 e he
    have only : ∀ e', CommandLine (checkParser negNum) words e' ↔ e' = e := fun e' => by
      rw [C103_exact (C103_parsers negNum).1] at he ⊢
      rw [he]
      exact eq_comm
    simp only [only]
    generalize dialplanCheckMain sh tx' negNum fs env n words = run at hr
    cases hr with
    | help => simp
    | refused => simp
    | @run ns =>
      simp only [reduceCtorEq, false_or, Except.ok.injEq, exists_eq_left]
      exact check_zero sh hm fs env n ns
  · intro k hk
    obtain ⟨e, he⟩ := commandLine_exists (checkParser negNum) words
    have hr := h1 e he
    generalize dialplanCheckMain sh tx' negNum fs env n words = run at hr hk
    cases hr with
    | help => simp [CmdEnd.status] at hk; omega
    | refused => simp [CmdEnd.status] at hk; omega
    | @run ns =>
      unfold dialplanCheck program at hk
      dsimp only at hk
      split at hk
      · simp [CmdEnd.status] at hk; omega
      · rename_i s _
        cases s <;> simp [CmdEnd.status] at hk <;> omega
      · simp only [CmdEnd.status, Option.some.injEq] at hk
        subst hk
        unfold Manager.exitStatus
        split <;> decide

/-- C112: without `ALINT_IGNORE`, status 0 means that the dialplan is fine in every respect, unless help was asked for. -/
theorem C112_passed (w : CmdWorld) (path : List Str) (home : Option Str) (programs : Str → List Str → CmdRun) (tx tx' : ArgTexts)
    (version : List Str) (negNum : Str → Bool) (sh : Shell) (hm : sh.muted = false) (hi : sh.ignore = []) (fs : FS) (env : DEnv)
    (hd : ArgsDescribed env.toAEnv) (n : Nat) (argv words : List Str)
    (h : CallsCheck w path home programs (dialplanCheckMain sh tx' negNum fs env n) argv words)
    (h0 : wholeStatus w path home programs tx version negNum argv = some 0) :
    CommandLine (checkParser negNum) words (.error .help) ∨
    ∃ ns content env' told s us ds, CommandLine (checkParser negNum) words (.ok ns) ∧ fs ns.path = some content ∧
      DefinesFrom fs env n (ns.stored.lookup (c! "func_odbc")) ns.path env' [] ∧
      CleanDialplan fs { env with toFEnv := env' }.toAEnv ns.path content told s us ds := by
  rcases (C112_status w path home programs tx tx' version negNum sh hm fs env n argv words h).2.1.1 h0 with h | ⟨ns, h1, h2⟩
  · exact .inl h
  · obtain ⟨content, env', told, s, us, ds, r⟩ :=
      C111_passed sh hm hi fs env hd n _ ns.path ((check_zero sh hm fs env n ns).2 h2)
    exact .inr ⟨ns, content, env', told, s, us, ds, h1, r⟩

/-- C112: where among the options in front of it the command is written does not matter. -/
theorem C112_position (w : CmdWorld) (path : List Str) (home : Option Str) (programs : Str → List Str → CmdRun) (tx : ArgTexts)
    (version : List Str) (negNum : Str → Bool) (before between after : List Str) (command : Str)
    (hb : ∀ a ∈ before ++ between, ∃ t, a = '-' :: t) (hc : ¬ ∃ t, command = '-' :: t) :
    wholeStatus w path home programs tx version negNum (before ++ command :: (between ++ after)) =
    wholeStatus w path home programs tx version negNum (before ++ between ++ command :: after) := by
  have h1 : FirstPlain (before ++ command :: (between ++ after)) before command (between ++ after) :=
    ⟨rfl, fun a ha => hb a (List.mem_append_left _ ha), hc⟩
  have h2 : FirstPlain (before ++ between ++ command :: after) (before ++ between) command after := ⟨rfl, hb, hc⟩
  unfold wholeStatus
  rw [main_plain h1, main_plain h2]
  simp

/-! ### Example -/

def passFiles : FS := fun p =>
  if p = c! "/etc/ok.conf" then some (asciiBytes
    (c! "[general]\n\n[globals]\n\n[a]\nexten => _X!,1(top),NoOp(hello)  ; x\n same => n,Goto(top)\n#include \"more.inc\"\n"))
  else if p = c! "/etc/more.inc" then some (asciiBytes (c! "exten => s,1,Goto(a,12,1)\n"))
  else if p = c! "/etc/bad.conf" then some (asciiBytes (c! "[general]\n\n[globals]\n\n[a]\nexten => s,1,Goto(b,s,1)\n"))
  else none

def passPrograms (ignore : Str) (file : Str) : List Str → CmdRun :=
  if file = c! "/lib/asterisklint/commands/dialplan-check.py" then
    dialplanCheckMain { plainShell with ignore := ignore } ⟨[], fun _ => []⟩ (fun _ => false) passFiles demoEnv 99
  else fun _ => ⟨[], [], .exit 3⟩

def passStatus (ignore : Str) (argv : List Str) : Option Nat :=
  wholeStatus demoWorld [c! "/lib"] none (passPrograms ignore) ⟨[], fun _ => []⟩ [] (fun _ => false) argv

theorem pass_calls : CallsCheck demoWorld [c! "/lib"] none (passPrograms [])
    (dialplanCheckMain plainShell ⟨[], fun _ => []⟩ (fun _ => false) passFiles demoEnv 99)
    [c! "--func-odbc=", c! "dialplan-check", c! "/etc/ok.conf"] [c! "--func-odbc=", c! "/etc/ok.conf"] := by
  refine ⟨⟨[c! "--func-odbc="], [c! "/etc/ok.conf"], ⟨rfl, ?_, ?_⟩, rfl⟩, ?_⟩
  · intro a ha
    simp only [List.mem_singleton] at ha
    exact ⟨_, ha⟩
  · rintro ⟨t, h⟩
    cases h
  · refine ⟨[c! "/lib"], c! "/lib/asterisklint/commands", _, ?_, ?_, rfl, rfl, ?_⟩
    · exact (search_iff ..).2 (by decide)
    · exact ⟨[], [], rfl, by decide, by intro b hb; cases hb⟩
    · rfl

example : passStatus [] [c! "--func-odbc=", c! "dialplan-check", c! "/etc/ok.conf"] = some 0 ∧
    passStatus [] [c! "dialplan-check", c! "--func-odbc=", c! "/etc/ok.conf"] = some 0 ∧
    passStatus [] [c! "dialplan-check", c! "/etc/bad.conf"] = some 1 ∧
    passStatus (c! "E_DP_") [c! "dialplan-check", c! "/etc/bad.conf"] = some 0 ∧
    passStatus [] [c! "dialplan-check", c! "/etc/none.conf"] = some 1 ∧
    passStatus [] [c! "dialplan-check", c! "/etc/ok.conf", c! "/etc/bad.conf"] = some 2 ∧
    -- the value of an option is taken for the command
    passStatus [] [c! "--func-odbc", c! "f.conf", c! "dialplan-check", c! "/etc/ok.conf"] = some 1 := by
  decide +kernel

example : CommandLine (checkParser fun _ => false) [c! "--func-odbc=", c! "/etc/ok.conf"] (.error .help) ∨
    ∃ ns content env' told s us ds, CommandLine (checkParser fun _ => false) [c! "--func-odbc=", c! "/etc/ok.conf"] (.ok ns) ∧
      passFiles ns.path = some content ∧
      DefinesFrom passFiles demoEnv 99 (ns.stored.lookup (c! "func_odbc")) ns.path env' [] ∧
      CleanDialplan passFiles { demoEnv with toFEnv := env' }.toAEnv ns.path content told s us ds :=
  C112_passed demoWorld [c! "/lib"] none (passPrograms []) ⟨[], fun _ => []⟩ _ [] _ plainShell rfl rfl passFiles demoEnv
    demo_described 99 _ _ pass_calls (by decide +kernel)

end ALint.Props
