import Verif.Proofs.Main
import Verif.Model.Config

/-!
# C73, C74: running and listing commands
-/

namespace ALint.Props
open ALint ALint.Spec

/-- The first argument that does not start with a dash, with what is before and behind it. -/
def FirstPlain (args before : List Str) (command : Str) (after : List Str) : Prop :=
  args = before ++ command :: after ∧ (∀ a ∈ before, ∃ t, a = '-' :: t) ∧ ¬ ∃ t, command = '-' :: t

theorem dash_iff (a : Str) : a.head? = some '-' ↔ ∃ t, a = '-' :: t := by
  cases a with
  | nil => simp
  | cons c a => simp

theorem plain_cases (args : List Str) : (∃ before command after, FirstPlain args before command after) ∨
    ∀ a ∈ args, ∃ t, a = '-' :: t := by
  induction args with
  | nil => exact .inr (by simp)
  | cons a args ih =>
    by_cases ha : ∃ t, a = '-' :: t
    · rcases ih with ⟨before, command, after, h1, h2, h3⟩ | h
      · refine .inl ⟨a :: before, command, after, by rw [h1]; rfl, ?_, h3⟩
        intro x hx
        rcases List.mem_cons.1 hx with rfl | hx
        · exact ha
        · exact h2 x hx
      · refine .inr fun x hx => ?_
        rcases List.mem_cons.1 hx with rfl | hx
        · exact ha
        · exact h x hx
    · exact .inl ⟨[], a, args, rfl, by simp, ha⟩

theorem filter_plain {args before : List Str} {command : Str} {after : List Str} (h : FirstPlain args before command after) :
    args.filter (fun a => decide (a.head? ≠ some '-')) = command :: after.filter (fun a => decide (a.head? ≠ some '-')) := by
  obtain ⟨rfl, h2, h3⟩ := h
  rw [List.filter_append, List.filter_cons_of_pos (by rw [decide_eq_true_eq, ne_eq, dash_iff]; exact h3)]
  have : before.filter (fun a => decide (a.head? ≠ some '-')) = [] := by
    rw [List.filter_eq_nil_iff]
    intro a ha
    rw [decide_eq_true_eq, ne_eq, dash_iff, Classical.not_not]
    exact h2 a ha
  rw [this]
  rfl

theorem filter_dashes {args : List Str} (h : ∀ a ∈ args, ∃ t, a = '-' :: t) :
    args.filter (fun a => decide (a.head? ≠ some '-')) = [] := by
  rw [List.filter_eq_nil_iff]
  intro a ha
  rw [decide_eq_true_eq, ne_eq, dash_iff, Classical.not_not]
  exact h a ha

/-- The directories searched: `~/.asterisklint` in front if it exists and is not yet there. -/
def Search (w : CmdWorld) (path : List Str) (home : Option Str) (path' : List Str) : Prop :=
  ∃ user, (home = some user ∨ home = none ∧ user = c! "/dev/null") ∧
    (w.pathExists (user ++ c! "/.asterisklint") = true ∧ user ++ c! "/.asterisklint" ∉ path ∧ path' = (user ++ c! "/.asterisklint") :: path ∨
     ¬ (w.pathExists (user ++ c! "/.asterisklint") = true ∧ user ++ c! "/.asterisklint" ∉ path) ∧ path' = path)

theorem search_iff (w : CmdWorld) (path : List Str) (home : Option Str) (path' : List Str) :
    Search w path home path' ↔ path' = searchPath w path home := by
  unfold Search searchPath
  cases home with
  | none =>
    simp only [reduceCtorEq, false_or, true_and, exists_eq_left, Option.getD_none]
    split <;> simp_all
  | some user =>
    simp only [Option.some.injEq, reduceCtorEq, false_and, or_false, exists_eq_left', Option.getD_some]
    split <;> simp_all

theorem main_plain {w : CmdWorld} {path : List Str} {home : Option Str} {args before : List Str} {command : Str}
    {after : List Str} (h : FirstPlain args before command after) :
    mainRun w path home args =
      if command = c! "ls" then
        match listCommands w (searchPath w path home) with
        | some lines => .listed lines
        | none => .raised
      else
        match loadCommand w (searchPath w path home) command with
        | .ok file _ => .ran file (before ++ after)
        | .badName => .noSuch
        | .noEntry => .noSuch
        | .noDir => .raised
        | .raised => .raised := by
  unfold mainRun
  have hr : removeFirst command args = before ++ after := by
    rw [h.1]
    apply removeFirst_eq
    intro hm
    exact h.2.2 (h.2.1 _ hm)
  simp only [filter_plain h, hr]
  rfl

theorem plain_unique {args b b' : List Str} {c c' : Str} {a a' : List Str} (h : FirstPlain args b c a)
    (h' : FirstPlain args b' c' a') : b = b' ∧ c = c' ∧ a = a' := by
  obtain ⟨he, h2, h3⟩ := h
  obtain ⟨he', h2', h3'⟩ := h'
  rw [he] at he'
  clear he
  induction b generalizing b' with
  | nil =>
    cases b' with
    | nil => simpa using he'
    | cons x b' =>
      simp only [List.nil_append, List.cons_append, List.cons.injEq] at he'
      exact absurd (he'.1 ▸ h2' x (by simp)) h3
  | cons x b ih =>
    cases b' with
    | nil =>
      simp only [List.nil_append, List.cons_append, List.cons.injEq] at he'
      exact absurd (he'.1 ▸ h2 x (by simp)) h3'
    | cons y b' =>
      simp only [List.cons_append, List.cons.injEq] at he'
      obtain ⟨h4, h5⟩ := ih (fun z hz => h2 z (by simp [hz])) he'.2 (fun z hz => h2' z (by simp [hz]))
      exact ⟨by rw [he'.1, h4], h5⟩

theorem loadFile_ok {w : CmdWorld} {file f : Str} {m : CmdMod} :
    loadFile w file = .ok f m ↔ f = file ∧ w.load file = some m ∧ m.entry = true := by
  unfold loadFile
  cases hl : w.load file with
  | none => simp
  | some m' =>
    cases he : m'.entry with
    | false =>
      simp only [he, Bool.false_eq_true, if_false, reduceCtorEq, Option.some.injEq, false_iff]
      rintro ⟨_, rfl, h⟩
      rw [he] at h
      exact absurd h (by simp)
    | true =>
      simp only [he, if_true, Loaded.ok.injEq, Option.some.injEq]
      constructor
      · rintro ⟨rfl, rfl⟩; exact ⟨rfl, rfl, he⟩
      · rintro ⟨rfl, rfl, _⟩; exact ⟨rfl, rfl⟩

theorem loadCommand_ok {w : CmdWorld} {path : List Str} {command f : Str} {m : CmdMod} :
    loadCommand w path command = .ok f m ↔ NameLike command ∧ (∃ dir, HasCommand w path command dir ∧ f = fileIn dir command) ∧
      w.load f = some m ∧ m.entry = true := by
  unfold loadCommand
  by_cases hn : commandRe command = true
  · rw [if_pos hn]
    rw [commandRe_iff] at hn
    cases hd : (commandDirs w path).find? fun d => w.isfile (pathJoin d (command ++ c! ".py")) with
    | none =>
      simp only [reduceCtorEq, false_iff]
      rintro ⟨_, ⟨dir, h, _⟩, _⟩
      rw [(find_command hn).2 h] at hd
      exact absurd hd (by simp)
    | some d =>
      have hc := (find_command hn).1 hd
      obtain ⟨p, _, rfl⟩ := hasCommand_of hc
      simp only [fileIn_eq hn]
      rw [loadFile_ok]
      constructor
      · rintro ⟨rfl, h1, h2⟩
        exact ⟨hn, ⟨_, hc, rfl⟩, h1, h2⟩
      · rintro ⟨_, ⟨dir, h, rfl⟩, h1, h2⟩
        rw [(find_command hn).2 h] at hd
        obtain rfl := Option.some.inj hd
        exact ⟨rfl, h1, h2⟩
  · rw [if_neg hn]
    rw [commandRe_iff] at hn
    simp [hn]

/-- C73: what is run, and with which arguments. -/
theorem C73_runs (w : CmdWorld) (path path' : List Str) (home : Option Str) (args : List Str) (file : Str) (rest : List Str)
    (hs : Search w path home path') :
    mainRun w path home args = .ran file rest ↔
      ∃ before command after dir m, FirstPlain args before command after ∧ rest = before ++ after ∧ command ≠ c! "ls" ∧
        NameLike command ∧ HasCommand w path' command dir ∧ file = fileIn dir command ∧
        w.load file = some m ∧ m.entry = true := by
  rw [search_iff] at hs
  subst hs
  rcases plain_cases args with ⟨before, command, after, h⟩ | h
  · rw [main_plain h]
    constructor
    · intro hr
      split at hr
      · split at hr <;> exact absurd hr (by simp)
      · rename_i hls
        cases hl : loadCommand w (searchPath w path home) command with
        | ok f m =>
          rw [hl] at hr
          simp only [CmdOut.ran.injEq] at hr
          obtain ⟨rfl, rfl⟩ := hr
          obtain ⟨h1, ⟨dir, h2, h3⟩, h4, h5⟩ := loadCommand_ok.1 hl
          exact ⟨before, command, after, dir, m, h, rfl, hls, h1, h2, h3, h4, h5⟩
        | badName => rw [hl] at hr; exact absurd hr (by simp)
        | noEntry => rw [hl] at hr; exact absurd hr (by simp)
        | noDir => rw [hl] at hr; exact absurd hr (by simp)
        | raised => rw [hl] at hr; exact absurd hr (by simp)
    · rintro ⟨b', c', a', dir, m, h1, h2, h3, h4, h5, h6, h7, h8⟩
      obtain ⟨rfl, rfl, rfl⟩ := plain_unique h h1
      rw [if_neg h3, loadCommand_ok.2 ⟨h4, ⟨dir, h5, h6⟩, h7, h8⟩, h2]
  · have : mainRun w path home args = .usage args := by
      unfold mainRun
      simp only [filter_dashes h]
    rw [this]
    simp only [reduceCtorEq, false_iff]
    rintro ⟨b', c', a', dir, m, h1, _⟩
    exact h1.2.2 (h c' (by rw [h1.1]; simp))

/-- C73: nothing outside the directories for commands is ever run: the file is in one of them, not
deeper. -/
theorem C73_confined (w : CmdWorld) (path : List Str) (home : Option Str) (args : List Str) (file : Str) (rest : List Str)
    (h : mainRun w path home args = .ran file rest) :
    ∃ entry base, (entry ∈ path ∨ entry = home.getD (c! "/dev/null") ++ c! "/.asterisklint") ∧
      file = commandsOf entry ++ '/' :: base ∧ '/' ∉ base ∧ w.isfile file = true := by
  obtain ⟨before, command, after, dir, m, _, _, _, hn, hc, hf, _⟩ :=
    (C73_runs w path (searchPath w path home) home args file rest ((search_iff ..).2 rfl)).1 h
  obtain ⟨p, hp, hdir⟩ := hasCommand_of hc
  refine ⟨p, command ++ c! ".py", ?_, by rw [hf, hdir]; rfl, ?_, ?_⟩
  · unfold searchPath at hp
    simp only at hp
    split at hp
    · rcases List.mem_cons.1 hp with hp | hp
      · exact .inr hp
      · exact .inl hp
    · exact .inl hp
  · intro hm
    rcases List.mem_append.1 hm with hm | hm
    · have hno : ∀ t : Str, CommandName t → '/' ∉ t := fun t ht hx => absurd (ht.1 '/' hx) (by decide)
      rcases hn with hn | ⟨t, ht, rfl⟩
      · exact hno _ hn hm
      · rcases List.mem_append.1 hm with hm | hm
        · exact hno _ ht hm
        · exact absurd hm (by decide)
    · exact absurd hm (by decide)
  · obtain ⟨_, _, _, ⟨_, h2⟩, _⟩ := hc
    rw [hf]
    exact h2

/-- C73: a message and status 1 are given exactly for a name that is no command name or a file
without a `main`. -/
theorem C73_refused (w : CmdWorld) (path path' : List Str) (home : Option Str) (args : List Str) (hs : Search w path home path') :
    mainRun w path home args = .noSuch ↔
      ∃ before command after, FirstPlain args before command after ∧ command ≠ c! "ls" ∧
        (¬ NameLike command ∨ NameLike command ∧ ∃ dir m, HasCommand w path' command dir ∧
          w.load (fileIn dir command) = some m ∧ m.entry = false) := by
  rw [search_iff] at hs
  subst hs
  rcases plain_cases args with ⟨before, command, after, h⟩ | h
  · rw [main_plain h]
    have key : (∃ b' c' a', FirstPlain args b' c' a' ∧ c' ≠ c! "ls" ∧
        (¬ NameLike c' ∨ NameLike c' ∧ ∃ dir m, HasCommand w (searchPath w path home) c' dir ∧
          w.load (fileIn dir c') = some m ∧ m.entry = false)) ↔ command ≠ c! "ls" ∧
        (¬ NameLike command ∨ NameLike command ∧ ∃ dir m, HasCommand w (searchPath w path home) command dir ∧
          w.load (fileIn dir command) = some m ∧ m.entry = false) := by
      constructor
      · rintro ⟨b', c', a', h1, h2⟩
        obtain ⟨rfl, rfl, rfl⟩ := plain_unique h h1
        exact h2
      · intro h2
        exact ⟨before, command, after, h, h2⟩
    rw [key]
    split
    · rename_i hls
      constructor
      · intro hr
        split at hr <;> exact absurd hr (by simp)
      · rintro ⟨h2, _⟩
        exact absurd hls h2
    · rename_i hls
      unfold loadCommand
      by_cases hn : commandRe command = true
      · rw [if_pos hn]
        rw [commandRe_iff] at hn
        cases hd : (commandDirs w (searchPath w path home)).find? fun d => w.isfile (pathJoin d (command ++ c! ".py")) with
        | none =>
          simp only [reduceCtorEq, false_iff]
          rintro ⟨_, h2 | ⟨_, dir, m, h2, _⟩⟩
          · exact h2 hn
          · rw [(find_command hn).2 h2] at hd
            exact absurd hd (by simp)
        | some d =>
          have hc := (find_command hn).1 hd
          obtain ⟨p, _, rfl⟩ := hasCommand_of hc
          simp only [fileIn_eq hn, loadFile]
          have uniq : ∀ dir, HasCommand w (searchPath w path home) command dir → dir = commandsOf p := by
            intro dir h2
            rw [(find_command hn).2 h2] at hd
            exact Option.some.inj hd
          cases hl : w.load (fileIn (commandsOf p) command) with
          | none =>
            simp only [reduceCtorEq, false_iff]
            rintro ⟨_, h2 | ⟨_, dir, m, h2, h3, _⟩⟩
            · exact h2 hn
            · rw [uniq dir h2, hl] at h3
              exact absurd h3 (by simp)
          | some m =>
            cases he : m.entry with
            | true =>
              simp only [he, if_true, reduceCtorEq, false_iff]
              rintro ⟨_, h2 | ⟨_, dir, m', h2, h3, h4⟩⟩
              · exact h2 hn
              · rw [uniq dir h2, hl] at h3
                rw [← Option.some.inj h3, he] at h4
                exact absurd h4 (by simp)
            | false =>
              simp only [he, Bool.false_eq_true, if_false, true_iff]
              exact ⟨hls, .inr ⟨hn, _, m, hc, hl, he⟩⟩
      · rw [if_neg hn]
        rw [commandRe_iff] at hn
        simp only [true_iff]
        exact ⟨hls, .inl hn⟩
  · have : mainRun w path home args = .usage args := by
      unfold mainRun
      simp only [filter_dashes h]
    rw [this]
    simp only [reduceCtorEq, false_iff]
    rintro ⟨b', c', a', h1, _⟩
    exact h1.2.2 (h c' (by rw [h1.1]; simp))

/-- C73 is violated for every well-formed name of no command: the program ends with an exception
(`ImportError`) instead of a message. -/
theorem C73_violated_unknown (w : CmdWorld) (path path' : List Str) (home : Option Str) (args before : List Str) (command : Str)
    (after : List Str) (hs : Search w path home path') (h : FirstPlain args before command after)
    (hls : command ≠ c! "ls") (hn : NameLike command) (hno : ∀ dir, ¬ HasCommand w path' command dir) :
    mainRun w path home args = .raised := by
  rw [search_iff] at hs
  subst hs
  rw [main_plain h, if_neg hls]
  unfold loadCommand
  rw [if_pos ((commandRe_iff _).2 hn)]
  cases hd : (commandDirs w (searchPath w path home)).find? fun d => w.isfile (pathJoin d (command ++ c! ".py")) with
  | none => rfl
  | some d => exact absurd ((find_command hn).1 hd) (hno d)

/-- C73: without a command the arguments go to the parser of options. -/
theorem C73_usage (w : CmdWorld) (path : List Str) (home : Option Str) (args rest : List Str) :
    mainRun w path home args = .usage rest ↔ rest = args ∧ ∀ a ∈ args, ∃ t, a = '-' :: t := by
  rcases plain_cases args with ⟨before, command, after, h⟩ | h
  · constructor
    · intro hr
      rw [main_plain h] at hr
      split at hr
      · split at hr <;> exact absurd hr (by simp)
      · split at hr <;> exact absurd hr (by simp)
    · rintro ⟨_, h2⟩
      exact absurd (h2 command (by rw [h.1]; simp)) h.2.2
  · have : mainRun w path home args = .usage args := by
      unfold mainRun
      simp only [filter_dashes h]
    rw [this]
    simp only [CmdOut.usage.injEq]
    exact ⟨fun he => ⟨he.symm, h⟩, fun he => he.1.symm⟩

/-! ### `ls` -/

theorem lists_iff (w : CmdWorld) (path : List Str) (n d : Str) : Lists w path n d ↔
    FirstWith (fun e => e.2 = n ++ c! ".py") (entriesOf w (commandDirs w path)) (d, n ++ c! ".py") := by
  rw [first_entry, commandDirs_eq, first_filter]
  rfl

theorem rows_of {w : CmdWorld} {path : List Str} {rows : List Row} (h : listDirs w [] (commandDirs w path) = some rows) :
    RowsOf w (entriesOf w (commandDirs w path)) rows := by
  have := listDirs_rows (commandDirs w path) (fun d hd => by
    obtain ⟨_, p, _, hp⟩ := mem_commandDirs hd
    exact ⟨p, hp.symm⟩) (rowsOf_nil w) h
  simpa using this

theorem listCommands_ok {w : CmdWorld} {path : List Str} {out : List Str} (h : listCommands w path = some out) :
    ∃ groups, out = listText groups ∧ (groups.map (·.1)).Pairwise (· < ·) ∧
      (∀ g ∈ groups, g.2 ≠ [] ∧ (g.2.map (·.1)).Pairwise (· < ·)) ∧
      (∀ d n t, (∃ l, (d, l) ∈ groups ∧ (n, t) ∈ l) ↔ NameLike n ∧ Lists w path n d ∧ Described w n (fileIn d n) t) := by
  unfold listCommands at h
  rw [Option.map_eq_some_iff] at h
  obtain ⟨rows, h1, rfl⟩ := h
  have hr := rows_of h1
  obtain ⟨hs1, hs2⟩ := groupRows_sorted (sortBy rowLt rows) (sortBy_ascending rowLt_weak rows)
    ((sortBy_perm rowLt rows).symm.pairwise hr.once (fun h => Ne.symm h))
  refine ⟨groupRows (sortBy rowLt rows), ?_, hs1, fun g hg => ⟨groupRows_ne _ g hg, hs2 g hg⟩, ?_⟩
  · rw [rowLines_groups]
    unfold listText
    have hl : cmdLine (c! "ls") (c! "List available commands.") = c! "  ls                    List available commands." := by
      decide
    rw [hl]
    cases groupRows (sortBy rowLt rows) with
    | nil => rfl
    | cons g gs => simp
  · intro d n t
    rw [groupRows_mem, mem_sortBy, hr.mem, lists_iff]

/-- C74: the list shows, directory by directory in order, every command once, as found in the
first directory that has it, with its description. -/
theorem C74_list (w : CmdWorld) (path path' : List Str) (home : Option Str) (args : List Str) (out : List Str)
    (hs : Search w path home path') (h : mainRun w path home args = .listed out) :
    ∃ groups, out = listText groups ∧ (groups.map (·.1)).Pairwise (· < ·) ∧
      (∀ g ∈ groups, g.2 ≠ [] ∧ (g.2.map (·.1)).Pairwise (· < ·)) ∧
      (∀ d n t, (∃ l, (d, l) ∈ groups ∧ (n, t) ∈ l) ↔ NameLike n ∧ Lists w path' n d ∧ Described w n (fileIn d n) t) := by
  rw [search_iff] at hs
  subst hs
  rcases plain_cases args with ⟨before, command, after, hp⟩ | hp
  · rw [main_plain hp] at h
    split at h
    · cases hl : listCommands w (searchPath w path home) with
      | none => rw [hl] at h; exact absurd h (by simp)
      | some lines =>
        rw [hl] at h
        simp only [CmdOut.listed.injEq] at h
        subst h
        exact listCommands_ok hl
    · split at h <;> exact absurd h (by simp)
  · unfold mainRun at h
    simp only [filter_dashes hp] at h
    exact absurd h (by simp)

theorem first_append {α : Type} {p : α → Prop} {l m : List α} {a : α} (h : FirstWith p l a) : FirstWith p (l ++ m) a := by
  obtain ⟨before, after, rfl, h1, h2⟩ := h
  exact ⟨before, after ++ m, by simp, h1, h2⟩

theorem first_unique {α : Type} {p : α → Prop} {l : List α} {a b : α} (h : FirstWith p l a) (h' : FirstWith p l b) : a = b := by
  obtain ⟨x, y, rfl, h1, h2⟩ := h
  obtain ⟨x', y', he, h1', h2'⟩ := h'
  rcases List.append_eq_append_iff.1 he with ⟨c, h3, h4⟩ | ⟨c, h3, h4⟩
  · cases c with
    | nil => simp at h4; exact h4.1
    | cons z c =>
      simp only [List.cons_append, List.cons.injEq] at h4
      exact absurd h1 (h2' a (by rw [h3, h4.1]; simp))
  · cases c with
    | nil => simp at h4; exact h4.1.symm
    | cons z c =>
      simp only [List.cons_append, List.cons.injEq] at h4
      exact absurd h1' (h2 b (by rw [h3, h4.1]; simp))

theorem listFiles_none {w : CmdWorld} {p : Str} (files : List Str) : ∀ {es : List (Str × Str)} {rows : List Row},
    RowsOf w es rows → listFiles w (commandsOf p) rows files = none →
    ∃ n, NameLike n ∧ FirstWith (fun e => e.2 = n ++ c! ".py") (es ++ files.map fun f => (commandsOf p, f)) (commandsOf p, n ++ c! ".py") ∧
      w.load (fileIn (commandsOf p) n) = none := by
  induction files with
  | nil => intro es rows _ h; rw [listFiles] at h; exact absurd h (by simp)
  | cons file files ih =>
    intro es rows hr h
    have step : ∀ {rows1}, listFiles w (commandsOf p) rows [file] = some rows1 → listFiles w (commandsOf p) rows1 files = none →
        ∃ n, NameLike n ∧ FirstWith (fun e => e.2 = n ++ c! ".py") (es ++ (file :: files).map fun f => (commandsOf p, f))
          (commandsOf p, n ++ c! ".py") ∧ w.load (fileIn (commandsOf p) n) = none := by
      intro rows1 h1 h2
      have := ih (listFiles_rows [file] hr h1) h2
      simpa using this
    rw [listFiles] at h
    cases hp : pyName file with
    | none =>
      rw [hp] at h
      exact step (by simp [listFiles, hp]) h
    | some name =>
      rw [hp] at h
      simp only at h
      split at h
      · rename_i hc
        have hn := (commandRe_iff name).1 hc.1
        cases hd : describe w name (pathJoin (commandsOf p) file) with
        | none =>
          have hf := pyName_eq.1 hp
          refine ⟨name, hn, ?_, ?_⟩
          · rw [hf, List.map_cons, show ∀ (x : Str × Str) l, es ++ x :: l = (es ++ [x]) ++ l from fun _ _ => by simp]
            apply first_append
            rw [first_snoc]
            refine .inr ⟨?_, rfl, rfl⟩
            rintro ⟨d, f⟩ hm he
            simp only at he
            subst he
            obtain ⟨d', t, hm'⟩ := hr.full d name hn hm
            exact hc.2 (List.any_eq_true.2 ⟨_, hm', by simp⟩)
          · rw [hf, fileIn_eq hn] at hd
            unfold describe loadFile at hd
            cases hl : w.load (fileIn (commandsOf p) name) with
            | none => rfl
            | some m =>
              rw [hl] at hd
              cases he : m.entry <;> cases hdoc : m.doc <;> simp [he, hdoc] at hd
        | some desc =>
          rw [hd] at h
          exact step (by simp only [listFiles, hp, hd]; rw [if_pos hc]) h
      · rename_i hc
        exact step (by simp only [listFiles, hp]; rw [if_neg hc]) h

theorem listDirs_none {w : CmdWorld} (dirs : List Str) : ∀ {es : List (Str × Str)} {rows : List Row},
    (∀ d ∈ dirs, ∃ p, d = commandsOf p) → RowsOf w es rows → listDirs w rows dirs = none →
    ∃ d n, NameLike n ∧ FirstWith (fun e => e.2 = n ++ c! ".py") (es ++ entriesOf w dirs) (d, n ++ c! ".py") ∧
      w.load (fileIn d n) = none := by
  induction dirs with
  | nil => intro es rows _ _ h; rw [listDirs] at h; exact absurd h (by simp)
  | cons d dirs ih =>
    intro es rows hd hr h
    obtain ⟨p, rfl⟩ := hd d (by simp)
    have hd' : ∀ d ∈ dirs, ∃ p, d = commandsOf p := fun d hm => hd d (by simp [hm])
    rw [listDirs] at h
    cases hl : w.listdir (commandsOf p) with
    | none =>
      rw [hl] at h
      have := ih hd' hr h
      simpa [entriesOf, hl] using this
    | some files =>
      rw [hl] at h
      simp only at h
      have hsplit : entriesOf w (commandsOf p :: dirs) = files.map (fun f => (commandsOf p, f)) ++ entriesOf w dirs := by
        simp [entriesOf, hl]
      rw [hsplit, ← List.append_assoc]
      cases hf : listFiles w (commandsOf p) rows files with
      | none =>
        obtain ⟨n, h1, h2, h3⟩ := listFiles_none files hr hf
        exact ⟨_, n, h1, first_append h2, h3⟩
      | some rows1 =>
        rw [hf] at h
        exact ih hd' (listFiles_rows files hr hf) h

/-- C74: there is a list unless a command file that is to be listed cannot be loaded; then the
program ends with an exception and shows nothing. -/
theorem C74_ends (w : CmdWorld) (path path' : List Str) (home : Option Str) (args before after : List Str)
    (hs : Search w path home path') (h : FirstPlain args before (c! "ls") after) :
    ((∃ out, mainRun w path home args = .listed out) ↔
      ∀ d n, NameLike n → Lists w path' n d → w.load (fileIn d n) ≠ none) ∧
    ((¬ ∃ out, mainRun w path home args = .listed out) → mainRun w path home args = .raised) := by
  rw [search_iff] at hs
  subst hs
  rw [main_plain h, if_pos rfl]
  cases hl : listCommands w (searchPath w path home) with
  | some lines =>
    refine ⟨⟨fun _ d n hn hd => ?_, fun _ => ⟨lines, rfl⟩⟩, fun hno => absurd ⟨lines, rfl⟩ hno⟩
    unfold listCommands at hl
    rw [Option.map_eq_some_iff] at hl
    obtain ⟨rows, h1, _⟩ := hl
    have hr := rows_of h1
    rw [lists_iff] at hd
    obtain ⟨x, y, hx, _⟩ := id hd
    obtain ⟨d', t, hm⟩ := hr.full d n hn (by rw [hx]; simp)
    obtain ⟨_, h3, m, h4, _⟩ := (hr.mem _ _ _).1 hm
    have := (Prod.mk.inj (first_unique h3 hd)).1
    rw [← this, h4]
    simp
  | none =>
    refine ⟨⟨fun ⟨out, ho⟩ => absurd ho (by simp), fun hall => ?_⟩, fun _ => rfl⟩
    unfold listCommands at hl
    rw [Option.map_eq_none_iff] at hl
    obtain ⟨d, n, h1, h2, h3⟩ := listDirs_none _ (fun d hd => by
      obtain ⟨_, p, _, hp⟩ := mem_commandDirs hd
      exact ⟨p, hp.symm⟩) (rowsOf_nil w) hl
    exact absurd h3 (hall d n h1 ((lists_iff ..).2 (by simpa using h2)))

/-- The files listed in the directories for commands are those that exist. -/
def Consistent (w : CmdWorld) (path : List Str) : Prop :=
  ∀ entry ∈ path, w.isdir (commandsOf entry) = true → ∃ files, w.listdir (commandsOf entry) = some files ∧
    ∀ n, NameLike n → (n ++ c! ".py" ∈ files ↔ w.isfile (fileIn (commandsOf entry) n) = true)

theorem first_congr {α : Type} {p q : α → Prop} {l : List α} {a : α} (h : ∀ x ∈ l, p x ↔ q x) : FirstWith p l a ↔ FirstWith q l a := by
  constructor
  · rintro ⟨x, y, rfl, h1, h2⟩
    exact ⟨x, y, rfl, (h a (by simp)).1 h1, fun b hb hq => h2 b hb ((h b (by simp [hb])).2 hq)⟩
  · rintro ⟨x, y, rfl, h1, h2⟩
    exact ⟨x, y, rfl, (h a (by simp)).2 h1, fun b hb hq => h2 b hb ((h b (by simp [hb])).1 hq)⟩

theorem lists_has {w : CmdWorld} {path : List Str} (hc : Consistent w path) {n d : Str} (hn : NameLike n) :
    Lists w path n d ↔ HasCommand w path n d := by
  unfold Lists HasCommand
  apply first_congr
  intro x hx
  obtain ⟨e, he, rfl⟩ := List.mem_map.1 hx
  constructor
  · rintro ⟨h1, files, h2, h3⟩
    obtain ⟨files', h4, h5⟩ := hc e he h1
    rw [h2] at h4
    obtain rfl := Option.some.inj h4
    exact ⟨h1, (h5 n hn).1 h3⟩
  · rintro ⟨h1, h2⟩
    obtain ⟨files, h4, h5⟩ := hc e he h1
    exact ⟨h1, files, h4, (h5 n hn).2 h2⟩

/-- C74 in part: what is listed is what runs, except for a command called `ls`. -/
theorem C74_agrees_partial (w : CmdWorld) (path path' : List Str) (home : Option Str) (hs : Search w path home path')
    (hc : Consistent w path') (n d : Str) (hls : n ≠ c! "ls") (hn : NameLike n) :
    (Lists w path' n d ∧ ∃ m, w.load (fileIn d n) = some m ∧ m.entry = true) ↔
      mainRun w path home [n] = .ran (fileIn d n) [] := by
  rw [C73_runs w path path' home [n] (fileIn d n) [] hs, lists_has hc hn]
  have hp : FirstPlain [n] [] n [] := by
    refine ⟨rfl, by simp, ?_⟩
    rintro ⟨t, rfl⟩
    obtain ⟨c, s, he, hh⟩ := nameLike_head hn
    rw [List.cons.injEq] at he
    rw [← he.1] at hh
    exact absurd hh (by decide)
  constructor
  · rintro ⟨h1, m, h2, h3⟩
    exact ⟨[], n, [], d, m, hp, rfl, hls, hn, h1, rfl, h2, h3⟩
  · rintro ⟨b, c, a, d', m, h1, _, _, _, h5, h6, h7, h8⟩
    obtain ⟨rfl, rfl, rfl⟩ := plain_unique hp h1
    have : d = d' := by
      unfold fileIn at h6
      exact List.append_inj_left' h6 rfl
    rw [this]
    exact ⟨h5, m, this ▸ h7, h8⟩

/-- C74 is violated: a command called `ls` is never run, whatever is listed. -/
theorem C74_violated_builtin (w : CmdWorld) (path : List Str) (home : Option Str) (args before after : List Str)
    (h : FirstPlain args before (c! "ls") after) (file : Str) (rest : List Str) : mainRun w path home args ≠ .ran file rest := by
  rw [main_plain h, if_pos rfl]
  cases listCommands w (searchPath w path home) <;> simp

/-! ### a world -/

/-- A user's own `ls` and `dialplan-check` over the installed `dialplan-check` and `vg`; there is a
library without a `main`. -/
def demoWorld : CmdWorld where
  isdir d := d = c! "/h/.asterisklint/asterisklint/commands" ∨ d = c! "/lib/asterisklint/commands"
  isfile f := f ∈ [c! "/h/.asterisklint/asterisklint/commands/dialplan-check.py",
    c! "/h/.asterisklint/asterisklint/commands/ls.py", c! "/h/.asterisklint/asterisklint/commands/util.py",
    c! "/lib/asterisklint/commands/vg.py", c! "/lib/asterisklint/commands/dialplan-check.py",
    c! "/lib/asterisklint/commands/__init__.py"]
  pathExists p := p = c! "/h/.asterisklint"
  listdir d := if d = c! "/h/.asterisklint/asterisklint/commands" then some [c! "util.py", c! "ls.py", c! "dialplan-check.py"]
    else if d = c! "/lib/asterisklint/commands" then some [c! "__init__.py", c! "vg.py", c! "dialplan-check.py", c! "x.txt"]
    else none
  load f := if f = c! "/h/.asterisklint/asterisklint/commands/util.py" then some ⟨none, false⟩
    else if f = c! "/lib/asterisklint/commands/vg.py" then some ⟨none, true⟩
    else some ⟨some (c! "\nCheck it.\n"), true⟩

example : mainRun demoWorld [c! "/usr", c! "/lib"] (some (c! "/h")) [c! "-v", c! "dialplan-check", c! "x", c! "dialplan-check"] =
    .ran (c! "/h/.asterisklint/asterisklint/commands/dialplan-check.py") [c! "-v", c! "x", c! "dialplan-check"] := by
  decide +kernel

example : mainRun demoWorld [c! "/usr", c! "/lib"] none [c! "dialplan-check"] =
    .ran (c! "/lib/asterisklint/commands/dialplan-check.py") [] := by
  decide +kernel

example : mainRun demoWorld [c! "/lib"] (some (c! "/h")) [c! "ls"] = .listed [c! "builtin:",
    c! "  ls                    List available commands.", [], c! "/h/.asterisklint/asterisklint/commands:",
    c! "  dialplan-check        Check it.", c! "  ls                    Check it.",
    c! "  util                  (error: Command 'util' has no entrypoint)", [],
    c! "/lib/asterisklint/commands:", c! "  vg                    (help text missing)", [],
    c! "Place custom commands in ~/.asterisklint/asterisklint/commands."] := by
  decide +kernel

example : mainRun demoWorld [c! "/lib"] (some (c! "/h")) [c! "../x"] = .noSuch := by decide +kernel
example : mainRun demoWorld [c! "/lib"] (some (c! "/h")) [c! "util"] = .noSuch := by decide +kernel
example : mainRun demoWorld [c! "/lib"] (some (c! "/h")) [c! "nothing"] = .raised := by decide +kernel
example : mainRun demoWorld [c! "/lib"] (some (c! "/h")) [c! "--version"] = .usage [c! "--version"] := by decide +kernel

/-- The hypothesis of `C74_agrees_partial` for one directory. -/
example : Consistent { demoWorld with isfile := fun f =>
    f ∈ [c! "util.py", c! "ls.py", c! "dialplan-check.py"].map fun x => c! "/h/.asterisklint/asterisklint/commands/" ++ x }
    [c! "/h/.asterisklint"] := by
  intro e he _
  rw [List.mem_singleton] at he
  subst he
  refine ⟨_, rfl, ?_⟩
  intro n _
  have : fileIn (commandsOf (c! "/h/.asterisklint")) n = c! "/h/.asterisklint/asterisklint/commands/" ++ (n ++ c! ".py") := rfl
  rw [this, decide_eq_true_eq, List.mem_map]
  constructor
  · intro h; exact ⟨_, h, rfl⟩
  · rintro ⟨x, hx, h⟩
    rw [← List.append_cancel_left h]
    exact hx

end ALint.Props
