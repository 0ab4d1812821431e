import Verif.Spec.Command
import Verif.Proofs.Shown
import Verif.Proofs.Tidy
import Verif.Props.Message
import Verif.Props.Odbc
import Verif.Props.Modules

/-!
# C85: what the commands write and how they end
-/

namespace ALint.Props
open ALint ALint.Spec

theorem ignores_iff (ignore name : Str) : Ignores ignore name ↔ classMuted ignore name = true := by
  constructor
  · rintro ⟨ws, rfl, h1, h2⟩
    refine (C19_muted_iff ws ?_ h1 name).2 h2
    rintro rfl
    simp at h2
  · intro h
    obtain ⟨ws, h1, h2, rfl⟩ := C19_covers_every_value ignore
    exact ⟨ws, rfl, h2, (C19_muted_iff ws h1 h2 name).1 h⟩

theorem not_ignores_iff (ignore name : Str) : ¬ Ignores ignore name ↔ classMuted ignore name = false := by
  rw [ignores_iff]; simp

theorem messageLines_as (sh : Shell) (m : Msg) (ps : List Rendered) (h : m.render = .ok ps) :
    PrintedAs sh m (messageLines sh m ps) := by
  have h1 : LineBelow sh m (if sh.showLine then [c! "  => " ++ shownLine m.at_.line] else []) := by
    cases hs : sh.showLine with
    | false => exact .off hs
    | true => exact .on hs fun hb => (shownLine_iff hb _).2 rfl
  have h2 : EarlierBelow sh m (if sh.showPrevious then previousLines sh m.kind m.previous else []) := by
    cases hs : sh.showPrevious with
    | false => exact .off (.inl hs)
    | true =>
      cases hp : m.previous with
      | none => exact .off (.inr hp)
      | some w =>
        simp only [if_true, previousLines, prevText]
        split
        · rename_i hk
          have := EarlierBelow.place hs hp hk
          simpa [Where.text, List.append_assoc] using this
        · rename_i hk
          exact .thing hs hp (fun h => hk (.inl h)) fun h => hk (.inr h)
  have := PrintedAs.mk h h1 h2
  simpa [messageLines, heading, Where.text, List.append_assoc] using this

theorem printedAs_ne {sh : Shell} {m : Msg} {lines : List Str} (h : PrintedAs sh m lines) : lines ≠ [] := by
  cases h; simp

/-! ## The manager -/

/-- The groups printed for messages that have a text. -/
def groupsOf (sh : Shell) : List Msg → List (Msg × List Str)
  | [] => []
  | m :: ms => match m.render with
    | .error _ => groupsOf sh ms
    | .ok ps => if classMuted sh.ignore m.kind.name then groupsOf sh ms else (m, messageLines sh m ps) :: groupsOf sh ms

theorem groupsOf_append (sh : Shell) (a b : List Msg) : groupsOf sh (a ++ b) = groupsOf sh a ++ groupsOf sh b := by
  induction a with
  | nil => rfl
  | cons m ms ih =>
    rw [List.cons_append, groupsOf, groupsOf, ih]
    cases m.render with
    | error e => rfl
    | ok ps => dsimp only; split <;> rfl

theorem groupsOf_said (sh : Shell) : ∀ ms : List Msg, (∀ m ∈ ms, Prints m) → Said sh ms (groupsOf sh ms)
  | [], _ => .nil
  | m :: ms, h => by
    obtain ⟨ps, hps⟩ := h m (by simp)
    have ih := groupsOf_said sh ms fun m hm => h m (by simp [hm])
    rw [groupsOf, hps]
    dsimp only
    split
    · rename_i hc
      exact .left ((ignores_iff ..).2 hc) ih
    · rename_i hc
      exact .said ((not_ignores_iff ..).2 (by simpa using hc)) (messageLines_as sh m ps hps) ih

theorem printed_groups (sh : Shell) (hm : sh.muted = false) (ms : List Msg) :
    (managerAfter sh ms).printed.flatMap (fun p => messageLines sh p.1 p.2) = printedLines (groupsOf sh ms) := by
  have gen : ∀ (ms : List Msg) (mg : Manager),
      ((ms.foldl (fun mg m => (mg.onMessage sh.ignore sh.muted m).1) mg).printed.flatMap fun p => messageLines sh p.1 p.2) =
        (mg.printed.flatMap fun p => messageLines sh p.1 p.2) ++ printedLines (groupsOf sh ms) := by
    intro ms
    induction ms with
    | nil => intro mg; simp [groupsOf, printedLines]
    | cons m ms ih =>
      intro mg
      rw [List.foldl_cons, ih, groupsOf]
      simp only [Manager.onMessage, hm, Bool.false_or]
      cases m.render with
      | error e => rfl
      | ok ps =>
        dsimp only
        split
        · rfl
        · simp [printedLines]
  simpa [managerAfter, Manager.init] using gen ms Manager.init

theorem printed_muted (sh : Shell) (hm : sh.muted = true) (ms : List Msg) : (managerAfter sh ms).printed = [] := by
  have gen : ∀ (ms : List Msg) (mg : Manager),
      (ms.foldl (fun mg m => (mg.onMessage sh.ignore sh.muted m).1) mg).printed = mg.printed := by
    intro ms
    induction ms with
    | nil => intro mg; rfl
    | cons m ms ih =>
      intro mg
      rw [List.foldl_cons, ih]
      simp only [Manager.onMessage, hm, Bool.true_or, if_true]
      cases m.render <;> rfl
  simpa [managerAfter, Manager.init] using gen ms Manager.init

theorem managerAfter_issueAll (sh : Shell) (hm : sh.muted = false) (ms : List Msg) :
    managerAfter sh ms = issueAll sh.ignore Manager.init ms := by
  unfold managerAfter issueAll; rw [hm]

theorem said_ne {sh : Shell} {ms : List Msg} {gs : List (Msg × List Str)} (h : Said sh ms gs) :
    gs ≠ [] ↔ ∃ m ∈ ms, ¬ Ignores sh.ignore m.kind.name := by
  induction h with
  | nil => simp
  | left h1 _ ih => rw [ih]; simp [h1]
  | said h1 _ _ ih => simp [h1]

theorem lines_ne {sh : Shell} {ms : List Msg} {gs : List (Msg × List Str)} (h : Said sh ms gs) :
    printedLines gs ≠ [] ↔ gs ≠ [] := by
  cases h with
  | nil => simp [printedLines]
  | left h1 h2 =>
    have : ∀ {ms gs}, Said sh ms gs → (printedLines gs ≠ [] ↔ gs ≠ []) := by
      intro ms gs h
      induction h with
      | nil => simp [printedLines]
      | left _ _ ih => exact ih
      | said _ hp _ _ =>
        have := printedAs_ne hp
        simp [printedLines, this]
    exact this h2
  | said _ hp _ =>
    have := printedAs_ne hp
    simp [printedLines, this]

/-! ## Programs -/

/-- What is seen of a program that checks something and issued the messages `log`. -/
structure Checks (sh : Shell) (log : List Msg) (run : CmdRun) : Prop where
  /-- nothing on the standard output -/
  quiet : run.out = []
  /-- The messages are printed in order.  All of them, unless the program failed when printing the last. -/
  said : ∃ msgs groups, Said sh msgs groups ∧ run.err = printedLines groups ∧
    (log = msgs ∨ ∃ m e, log = msgs ++ [m] ∧ ¬ Prints m ∧ run.fin = .raised e)
  /-- the exit status tells whether something was printed -/
  status : ∀ k, run.fin = .exit k → k = if run.err = [] then 0 else 1

theorem program_checks {α : Type} (sh : Shell) (hm : sh.muted = false) (r : Res (Except Stopped α)) (ht : TidyR r) :
    Checks sh r.log (program sh r (fun _ => []) fun mg _ => mg.exitStatus sh.ignore) := by
  have herr : (program sh r (fun _ => []) fun mg _ => mg.exitStatus sh.ignore).err = printedLines (groupsOf sh r.log) := by
    unfold program
    split <;> exact printed_groups sh hm _
  refine ⟨?_, ?_, ?_⟩
  · unfold program; split <;> rfl
  · rcases ht.out with h | ⟨pre, m, e, e', h1, h2, h3, h4⟩
    · exact ⟨r.log, _, groupsOf_said sh _ h, herr, .inl rfl⟩
    · refine ⟨pre, _, groupsOf_said sh _ h2, ?_, .inr ⟨m, e', h1, ?_, ?_⟩⟩
      · rw [herr, h1, groupsOf_append]
        simp [groupsOf, h3]
      · rintro ⟨t, ht⟩; rw [h3] at ht; simp at ht
      · unfold program; rw [h4]
  · intro k hk
    rw [herr]
    have hv : ∃ a, r.val = .ok (.ok a) ∧ k = (managerAfter sh r.log).exitStatus sh.ignore := by
      unfold program at hk
      split at hk
      · simp at hk
      · simp at hk
      · rename_i a ha
        exact ⟨a, ha, by simpa using hk.symm⟩
    obtain ⟨a, ha, rfl⟩ := hv
    have hs := groupsOf_said sh r.log (ht.ok ha)
    rw [managerAfter_issueAll sh hm]
    obtain ⟨c1, c2⟩ := C20_exit_status sh.ignore r.log
    have h1 : printedLines (groupsOf sh r.log) = [] ↔ ∀ m ∈ r.log, classMuted sh.ignore m.kind.name = true := by
      have := (lines_ne hs).trans (said_ne hs)
      refine ⟨fun h => ?_, fun h => Decidable.byContradiction fun hn => ?_⟩
      · intro m hm
        cases hc : classMuted sh.ignore m.kind.name with
        | true => rfl
        | false => exact absurd h (this.2 ⟨m, hm, (not_ignores_iff ..).2 hc⟩)
      · obtain ⟨m, hm, hi⟩ := this.1 hn
        exact hi ((ignores_iff ..).2 (h m hm))
    split
    · rename_i h
      exact c2.2 (h1.1 h)
    · rename_i h
      refine c1.2 ?_
      rw [h1] at h
      simpa using h

theorem tidyr_opening {β : Type} {fs : FS} {path : Str} {f : Bytes → Res (Except Stopped β)} (h : ∀ b, TidyR (f b)) :
    TidyR (opening fs path f) := by
  unfold opening; split
  · exact .pure _
  · exact h _

theorem tidyr_finished {α β : Type} {r : Res (Option α)} {f : α → Res (Except Stopped β)} (hr : TidyR r)
    (h : ∀ a, TidyR (f a)) : TidyR (finished r f) := by
  unfold finished
  refine .bind hr fun o => ?_
  cases o with
  | none => exact .pure _
  | some a => exact h a

theorem tidyr_andThen {α β : Type} {r : Res (Except Stopped α)} {f : α → Res (Except Stopped β)} (hr : TidyR r)
    (h : ∀ a, TidyR (f a)) : TidyR (andThen r f) := by
  unfold andThen
  refine .bind hr fun o => ?_
  cases o with
  | error s => exact .pure _
  | ok a => exact h a

theorem tidyr_readOdbc (fs : FS) (env : DEnv) (n : Nat) (arg : Option Str) (path : Str) :
    TidyR (readOdbc fs env n arg path) := by
  unfold readOdbc
  split
  · exact .pure _
  · exact tidyr_opening fun _ => tidyr_finished (tidyr_loadOdbc ..) fun _ => .pure _

theorem tidyr_check (fs : FS) (env : DEnv) (n : Nat) (arg : Option Str) (path : Str) :
    TidyR (dialplanCheckRun fs env n arg path) :=
  tidyr_andThen (tidyr_readOdbc ..) fun _ => tidyr_opening fun _ => tidyr_finished (tidyr_checkDialplan ..) fun _ => .pure _

/-- C85: what `dialplan-check` writes and how it ends: every message is printed with its place, its
name and its text, in order, unless `ALINT_IGNORE` asks to leave it out; the exit status is 1 if
something was printed and 0 otherwise.  If printing a message fails this was the last one. -/
theorem C85_dialplan_check (sh : Shell) (hm : sh.muted = false) (fs : FS) (env : DEnv) (n : Nat) (arg : Option Str)
    (path : Str) :
    Checks sh (dialplanCheckRun fs env n arg path).log (dialplanCheck sh fs env n arg path) :=
  program_checks sh hm _ (tidyr_check ..)

/-- C85: the same for `func_odbc-check`. -/
theorem C85_func_odbc_check (sh : Shell) (hm : sh.muted = false) (fs : FS) (env : DEnv) (n : Nat) (path : Str)
    (content : Bytes) (hc : fs path = some content) :
    Checks sh (loadOdbc fs env.toFEnv n path content).log (odbcCheck sh fs env n path) := by
  have ht : TidyR (opening fs path fun content => finished (loadOdbc fs env.toFEnv n path content) fun r => .pure (.ok r)) :=
    tidyr_opening fun _ => tidyr_finished (tidyr_loadOdbc ..) fun _ => .pure _
  have hl : (opening fs path fun content => finished (loadOdbc fs env.toFEnv n path content) fun r =>
      (.pure (.ok r) : Res (Except Stopped _))).log = (loadOdbc fs env.toFEnv n path content).log := by
    unfold opening finished
    rw [hc]
    dsimp only
    unfold Res.bind
    split
    · rfl
    · rename_i o ho
      cases o <;> simp [Res.pure]
  have := program_checks sh hm _ ht
  rw [hl] at this
  exact this

/-! ## Which messages these are -/

/-- The file with the definitions of functions that is read: the one asked for, or
`func_odbc.conf` beside the dialplan if there is one; none if an empty name was given. -/
inductive OdbcFileFor (fs : FS) (dialplan : Str) : Option Str → Option Str → Prop where
  | off : OdbcFileFor fs dialplan (some []) none
  | given {p} : p ≠ [] → OdbcFileFor fs dialplan (some p) (some p)
  | beside {c} : fs (pathJoin (dirname dialplan) (c! "func_odbc.conf")) = some c →
      OdbcFileFor fs dialplan none (some (pathJoin (dirname dialplan) (c! "func_odbc.conf")))
  | absent : fs (pathJoin (dirname dialplan) (c! "func_odbc.conf")) = none → OdbcFileFor fs dialplan none none

theorem odbcFile_for (fs : FS) (arg : Option Str) (dialplan : Str) : OdbcFileFor fs dialplan arg (odbcFile fs arg dialplan) := by
  unfold odbcFile
  split
  · exact .off
  · rename_i a ha
    exact .given (by rintro rfl; exact ha rfl)
  · dsimp only
    split
    · rename_i h
      obtain ⟨c, hc⟩ := Option.isSome_iff_exists.1 h
      exact .beside hc
    · rename_i h
      exact .absent (by simpa using h)

/-- Reading the definitions of functions: nothing is said and nothing is defined, or the file is
there and was read. -/
inductive DefinesFrom (fs : FS) (env : DEnv) (n : Nat) (arg : Option Str) (path : Str) : FEnv → List Msg → Prop where
  | none : OdbcFileFor fs path arg none → DefinesFrom fs env n arg path env.toFEnv []
  | some {p content env' fns} : OdbcFileFor fs path arg (some p) → fs p = .some content →
      (loadOdbc fs env.toFEnv n p content).val = .ok (.some (env', fns)) →
      DefinesFrom fs env n arg path env' (loadOdbc fs env.toFEnv n p content).log

theorem readOdbc_ok {fs : FS} {env env2 : DEnv} {n : Nat} {arg : Option Str} {path : Str}
    (h : (readOdbc fs env n arg path).val = .ok (.ok env2)) :
    env2 = { env with toFEnv := env2.toFEnv } ∧ DefinesFrom fs env n arg path env2.toFEnv (readOdbc fs env n arg path).log := by
  have ho := odbcFile_for fs arg path
  unfold readOdbc at h ⊢
  split at h
  · rename_i he
    rw [he] at ho
    simp only [Res.pure, Except.ok.injEq] at h
    subst h
    exact ⟨rfl, .none ho⟩
  · rename_i p he
    rw [he] at ho
    simp only
    cases hc : fs p with
    | none => simp [opening, hc, Res.pure] at h
    | some content =>
      simp only [opening, hc, finished] at h ⊢
      obtain ⟨o, h1, h2, h3⟩ := Res.bind_ok h
      cases o with
      | none => simp [Res.pure] at h2
      | some r =>
        obtain ⟨env', fns⟩ := r
        simp only [Res.pure, Except.ok.injEq] at h2
        subst h2
        refine ⟨rfl, ?_⟩
        rw [h3]
        simp only [Res.pure, List.append_nil]
        exact .some ho hc h1

/-- C85: the messages of a `dialplan-check` that comes to its end are those of the definitions of
functions (if there are any) followed by those of the dialplan, checked with these functions. -/
theorem C85_messages (sh : Shell) (fs : FS) (env : DEnv) (n : Nat) (arg : Option Str) (path : Str) (k : Nat)
    (h : (dialplanCheck sh fs env n arg path).fin = .exit k) :
    ∃ env' first content st, DefinesFrom fs env n arg path env' first ∧ fs path = some content ∧
      (checkDialplan fs { env with toFEnv := env' } none n path content).val = .ok (some st) ∧
      (dialplanCheckRun fs env n arg path).log =
        first ++ (checkDialplan fs { env with toFEnv := env' } none n path content).log := by
  have hv : ∃ st, (dialplanCheckRun fs env n arg path).val = .ok (.ok st) := by
    unfold dialplanCheck program at h
    split at h
    · simp at h
    · simp at h
    · rename_i a ha
      exact ⟨a, ha⟩
  obtain ⟨st, hv⟩ := hv
  cases hc : fs path with
  | none =>
    simp only [dialplanCheckRun, andThen, opening, hc] at hv
    obtain ⟨o, h1, h2, h3⟩ := Res.bind_ok hv
    cases o <;> simp [Res.pure] at h2
  | some content =>
    simp only [dialplanCheckRun, andThen, opening, hc, finished] at hv ⊢
    obtain ⟨o, h1, h2, h3⟩ := Res.bind_ok hv
    cases o with
    | error s => simp [Res.pure] at h2
    | ok env2 =>
      obtain ⟨he, hd⟩ := readOdbc_ok h1
      dsimp only at h2 h3
      obtain ⟨o', g1, g2, g3⟩ := Res.bind_ok h2
      cases o' with
      | none => simp [Res.pure] at g2
      | some st' =>
        refine ⟨env2.toFEnv, _, content, st', hd, rfl, ?_, ?_⟩
        · rw [← he]; exact g1
        · rw [← he, h3, g3]
          simp [Res.pure]

/-! ## Leaving out messages -/

/-- Two runs of which one leaves out messages: the lines of the first are in groups, one for each
message; the second writes the groups of the messages not left out, and ends alike. -/
structure LeavesOut (sh : Shell) (ignore : Str) (full run : CmdRun) : Prop where
  groups : ∃ gs : List (Msg × List Str), (∀ g ∈ gs, PrintedAs sh g.1 g.2) ∧ full.err = printedLines gs ∧
    ∃ kept, Picks (fun g => ¬ Ignores ignore g.1.kind.name) gs kept ∧ run.err = printedLines kept
  out : run.out = full.out
  fin : CmdEnd.Like full.fin run.fin

theorem groups_left (sh : Shell) (ignore : Str) : ∀ ms : List Msg,
    groupsOf (sh.ignoring ignore) ms = (groupsOf (sh.ignoring []) ms).filter fun g => !classMuted ignore g.1.kind.name
  | [] => rfl
  | m :: ms => by
    rw [groupsOf, groupsOf, groups_left sh ignore ms]
    cases m.render with
    | error e => rfl
    | ok ps =>
      have h0 : classMuted [] m.kind.name = false := by simp [classMuted, ignoreTokens, splitAll]
      simp only [Shell.ignoring, h0, Bool.false_eq_true, if_false]
      rw [List.filter_cons]
      have he : messageLines { sh with ignore := ignore } m ps = messageLines { sh with ignore := [] } m ps := by
        unfold messageLines
        cases m.previous <;> rfl
      rw [he]
      by_cases hc : classMuted ignore m.kind.name = true
      · simp [hc]
      · simp [hc]

theorem filter_keeps {α : Type} {p : α → Prop} {f : α → Bool} (h : ∀ a, f a = true ↔ p a) : ∀ l : List α, Picks p l (l.filter f)
  | [] => .nil
  | a :: l => by
    rw [List.filter_cons]
    split
    · rename_i ha; exact .keep ((h a).1 ha) (filter_keeps h l)
    · rename_i ha; exact .drop (fun hp => ha ((h a).2 hp)) (filter_keeps h l)

theorem groupsOf_as (sh : Shell) : ∀ (ms : List Msg), ∀ g ∈ groupsOf sh ms, PrintedAs sh g.1 g.2
  | [], g, hg => by simp [groupsOf] at hg
  | m :: ms, g, hg => by
    rw [groupsOf] at hg
    cases hr : m.render with
    | error e => rw [hr] at hg; exact groupsOf_as sh ms g hg
    | ok ps =>
      rw [hr] at hg
      dsimp only at hg
      split at hg
      · exact groupsOf_as sh ms g hg
      · rcases List.mem_cons.1 hg with rfl | hg
        · exact messageLines_as sh m ps hr
        · exact groupsOf_as sh ms g hg

theorem program_leaves {α : Type} (sh : Shell) (hm : sh.muted = false) (ignore : Str) (r : Res (Except Stopped α)) :
    LeavesOut sh ignore
      (program (sh.ignoring []) r (fun _ => []) fun mg _ => mg.exitStatus [])
      (program (sh.ignoring ignore) r (fun _ => []) fun mg _ => mg.exitStatus ignore) := by
  have herr : ∀ i, (program (sh.ignoring i) r (fun _ => []) fun mg _ => mg.exitStatus i).err =
      printedLines (groupsOf (sh.ignoring i) r.log) := by
    intro i
    unfold program
    split <;> exact printed_groups (sh.ignoring i) hm _
  refine ⟨⟨groupsOf (sh.ignoring []) r.log, ?_, herr [], _, ?_, herr ignore⟩, ?_, ?_⟩
  · intro g hg
    have h := groupsOf_as _ _ g hg
    obtain ⟨m, lines⟩ := g
    dsimp only at h ⊢
    cases h with
    | mk h1 h2 h3 =>
      refine .mk h1 ?_ ?_
      · cases h2 with
        | off h => exact .off h
        | on h h' => exact .on h h'
      · cases h3 with
        | off h => exact .off h
        | place h h' h'' => exact .place h h' h''
        | thing h h' h'' h3 => exact .thing h h' h'' h3
  · rw [groups_left sh ignore]
    exact filter_keeps (p := fun g : Msg × List Str => ¬ Ignores ignore g.1.kind.name)
      (fun g => by rw [not_ignores_iff]; simp) _
  · unfold program; split <;> rfl
  · unfold program; split <;> simp [CmdEnd.Like]

/-- C85: with any value of `ALINT_IGNORE` `dialplan-check` does the same and writes the same, except
for the lines of the messages left out and the exit status. -/
theorem C85_muting (sh : Shell) (hm : sh.muted = false) (ignore : Str) (fs : FS) (env : DEnv) (n : Nat)
    (arg : Option Str) (path : Str) :
    LeavesOut sh ignore (dialplanCheck (sh.ignoring []) fs env n arg path)
      (dialplanCheck (sh.ignoring ignore) fs env n arg path) :=
  program_leaves sh hm ignore _

/-- C85: the same for `func_odbc-check`. -/
theorem C85_muting_func_odbc (sh : Shell) (hm : sh.muted = false) (ignore : Str) (fs : FS) (env : DEnv) (n : Nat)
    (path : Str) :
    LeavesOut sh ignore (odbcCheck (sh.ignoring []) fs env n path) (odbcCheck (sh.ignoring ignore) fs env n path) :=
  program_leaves sh hm ignore _

/-! ## The commands that show something -/

theorem program_silent {α : Type} (sh sh' : Shell) (r : Res (Except Stopped α)) (out : α → List Str) (k : α → Nat) :
    (program { sh with muted := true } r out fun _ a => k a).err = [] ∧
    program { sh with muted := true } r out (fun _ a => k a) = program { sh' with muted := true } r out fun _ a => k a := by
  have h : ∀ sh : Shell, (managerAfter { sh with muted := true } r.log).printed = [] := fun sh => printed_muted _ rfl _
  unfold program
  simp only [h, List.flatMap_nil, and_true]
  split <;> rfl

/-- C85: `dialplan-show` and `modules-show` write nothing to the standard error output, and do not
depend on the settings for messages. -/
theorem C85_silent (sh sh' : Shell) (reprStr : Str → Str) (fs : FS) (env : DEnv) (n : Nat) (reverse : Bool)
    (arg : Option Str) (path : Str) :
    (dialplanShow sh reprStr fs env n reverse path).err = [] ∧
    dialplanShow sh reprStr fs env n reverse path = dialplanShow sh' reprStr fs env n reverse path ∧
    (modulesProgram sh fs env n arg path).err = [] ∧
    modulesProgram sh fs env n arg path = modulesProgram sh' fs env n arg path :=
  ⟨(program_silent sh sh' _ _ _).1, (program_silent sh sh' _ _ _).2, (program_silent sh sh' _ _ _).1,
    (program_silent sh sh' _ _ _).2⟩

/-! ## Example -/

/-- `repr` of a text without quotes and backslashes. -/
def quoted : Arg → Str
  | .one (.str s) => c! "'" ++ s ++ c! "'"
  | _ => []

/-- The usual settings. -/
def plainShell : Shell := ⟨[], false, false, false, quoted, fun _ => []⟩

/-- A dialplan and, beside it, definitions of functions. -/
def cmdFiles : FS := fun p =>
  if p = c! "/etc/extensions.conf" then some (asciiBytes (c! "[general]\n\n[globals]\n\n[a]\nexten => s,1,NoOp(${DB_USER(x)})\n same => n,Foo()\n"))
  else if p = c! "/etc/func_odbc.conf" then some (asciiBytes odbcText)
  else none

example : dialplanCheck plainShell cmdFiles modEnv 99 none (c! "/etc/extensions.conf") =
    ⟨[], [c! "/etc/func_odbc.conf:3 W_CONF_KEY_LATE: expected varset 'prefix' earlier, fix your ordering",
      c! "/etc/func_odbc.conf:5 E_CONF_KEY_INVALID: expected valid var/object or new context, got 'foo'",
      c! "/etc/func_odbc.conf:6 E_CONF_KEY_DUPE: duplicate varset of 'dsn'",
      c! "/etc/func_odbc.conf:8 E_ODBC_NOSQL: a readsql and/or writesql (and insertsql) statement is required",
      c! "/etc/extensions.conf:7 E_APP_MISSING: app 'Foo' does not exist, dialplan will halt here!"], .exit 1⟩ := by
  decide +kernel

/-- `ALINT_IGNORE=E_CONF_,W_,E_ODBC_NOSQL,E_APP_` leaves nothing. -/
example : dialplanCheck { plainShell with ignore := c! "E_CONF_,W_,E_ODBC_NOSQL,E_APP_" } cmdFiles modEnv 99 none
    (c! "/etc/extensions.conf") = ⟨[], [], .exit 0⟩ := by
  decide +kernel

/-- Without the definitions the function is unknown. -/
example : (dialplanCheck plainShell cmdFiles modEnv 99 (some []) (c! "/etc/extensions.conf")).err =
    [c! "/etc/extensions.conf:6 E_FUNC_MISSING: function 'DB_USER' does not exist (or func_odbc created?)",
      c! "/etc/extensions.conf:7 E_APP_MISSING: app 'Foo' does not exist, dialplan will halt here!"] := by
  decide +kernel

end ALint.Props
