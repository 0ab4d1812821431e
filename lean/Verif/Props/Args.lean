import Verif.Proofs.ArgLine

/-!
# C103: what a command line means
-/

namespace ALint.Props
open ALint Spec

/-! ## The parsers of the commands -/

theorem tidy_of {p : ArgParser} {l : List (Str × OptAct)} (hl : p.opts = l)
    (h : (l.all fun o => (match o.1 with
      | ['-', c] => c != '-' && c != '=' && (match o.2 with | .unique _ => false | _ => true)
      | '-' :: '-' :: s => !s.isEmpty && !s.contains '='
      | _ => false)) = true) (hd : (l.map (·.1)).Nodup) : TidyParser p := by
  subst hl
  refine ⟨fun o ho => ?_, hd⟩
  have := List.all_eq_true.1 h o ho
  obtain ⟨n, a⟩ := o
  dsimp only at this ⊢
  split at this
  · rename_i c
    simp only [Bool.and_eq_true, bne_iff_ne, ne_eq] at this
    refine .inl ⟨c, rfl, this.1.1, this.1.2, fun d hda => ?_⟩
    rw [hda] at this
    cases this.2
  · rename_i s _
    simp only [Bool.and_eq_true, Bool.not_eq_true', List.isEmpty_eq_false_iff, List.contains_eq_mem, decide_eq_false_iff_not] at this
    exact .inr ⟨s, rfl, this.1, this.2⟩
  · cases this

/-- The parsers of the six commands are of the kind the specification is about. -/
theorem C103_parsers (negNum : Str → Bool) : TidyParser (checkParser negNum) ∧ TidyParser (showParser negNum) ∧
    TidyParser (identParser negNum) ∧ TidyParser (odbcParser negNum) :=
  ⟨tidy_of (l := (checkParser fun _ => false).opts) rfl (by decide) (by decide),
   tidy_of (l := (showParser fun _ => false).opts) rfl (by decide) (by decide),
   tidy_of (l := (identParser fun _ => false).opts) rfl (by decide) (by decide),
   tidy_of (l := (odbcParser fun _ => false).opts) rfl (by decide) (by decide)⟩

/-! ## Exactly -/

/-- **C103.** What comes out of a command line is what the specification says, and nothing else. -/
theorem C103_exact {p : ArgParser} (hp : TidyParser p) (ws : List Str) (e : ArgEnd) :
    CommandLine p ws e ↔ parseArgs p ws = e := by
  refine ⟨commandLine_parse hp, fun h => ?_⟩
  obtain ⟨e', he'⟩ := commandLine_exists p ws
  have := commandLine_parse hp he'
  rw [h] at this
  exact this ▸ he'

/-- **C103.** If a command line is accepted, every word of it before `--` has a place in it: it belongs to no
option, is a group of letters that are options, or an option. -/
theorem C103_words {p : ArgParser} (hp : TidyParser p) {ws : List Str} {ns : ArgSpace} (h : parseArgs p ws = .ok ns) :
    ∀ w ∈ beforeDashes ws, FineWord p w := by
  cases (C103_exact hp ws _).2 h with
  | read _ hl => exact (goes_accepted hp hl rfl).words

/-- **C103.** No option that may be given once is given twice in an accepted command line, in whichever way it is
written. -/
theorem C103_once {p : ArgParser} (hp : TidyParser p) {ws : List Str} {ns : ArgSpace} (h : parseArgs p ws = .ok ns) :
    (beforeDashes ws).Pairwise fun w w' =>
      ∀ d v v', ¬ (WordIs p w (.option (.unique d) v) ∧ WordIs p w' (.option (.unique d) v')) := by
  cases (C103_exact hp ws _).2 h with
  | read _ hl => exact (goes_accepted hp hl rfl).pairs

/-- **C103.** The settings are those given: a flag is set if and only if a word before `--` sets it, an option has a value
if and only if it was given that, and the file is one of the words or the default. -/
theorem C103_settings {p : ArgParser} (hp : TidyParser p) {ws : List Str} {ns : ArgSpace} (h : parseArgs p ws = .ok ns) :
    (∀ d, d ∈ ns.flags ↔ ∃ w ∈ beforeDashes ws, GivesFlag p w d) ∧
    (∀ d v, (d, v) ∈ ns.stored ↔ GivesValue p (beforeDashes ws) d v) ∧ (ns.path = p.default ∨ ns.path ∈ ws) := by
  cases (C103_exact hp ws _).2 h with
  | read _ hl =>
    have := goes_accepted hp hl rfl
    exact ⟨fun d => by simpa using this.flags d, fun d v => by simpa using this.stored d v,
      this.path.imp id (·.2)⟩

/-! ## `dialplan-check` and `modules-show` -/

/-- `--func-odbc`, or a part of it. -/
theorem odbc_word (negNum : Str → Bool) {pre : Str} (h : pre <+: c! "--func-odbc") (hl : 3 ≤ pre.length) :
    pre ≠ c! "--" ∧ WordIs (checkParser negNum) pre (.option (.unique (c! "func_odbc")) none) ∧
    ∀ v, WordIs (checkParser negNum) (pre ++ '=' :: v) (.option (.unique (c! "func_odbc")) (some v)) := by
  have hs : ∃ s, pre = '-' :: '-' :: 'f' :: s ∧ 'f' :: s <+: c! "func-odbc" := by
    match pre, hl, h with
    | a :: b :: c :: s, _, h =>
      obtain ⟨r, hr⟩ := h
      simp only [List.cons_append, List.cons.injEq] at hr
      obtain ⟨rfl, rfl, rfl, hr⟩ := hr
      exact ⟨s, rfl, r, by simp [hr]⟩
  obtain ⟨s, rfl, hs⟩ := hs
  have hq : '=' ∉ 'f' :: s := fun hm => absurd (hs.mem hm) (by decide)
  have hm : (c! "--func-odbc", OptAct.unique (c! "func_odbc")) ∈ (checkParser negNum).opts := by
    simp [checkParser, helpOpts]
  have hfits : MeantBy (checkParser negNum) ('-' :: '-' :: 'f' :: s) (c! "--func-odbc") := by
    by_cases he : c! "--func-odbc" = '-' :: '-' :: 'f' :: s
    · exact .inl he
    · refine .inr ⟨fun a ha => ?_, h⟩
      simp [checkParser, helpOpts] at ha
      exact he (by rw [ha.1])
  have hu : ∀ name' a', (name', a') ∈ (checkParser negNum).opts → MeantBy (checkParser negNum) ('-' :: '-' :: 'f' :: s) name' →
      name' = c! "--func-odbc" := by
    intro name' a' hm' hf
    simp [checkParser, helpOpts] at hm'
    have hpre : '-' :: '-' :: 'f' :: s <+: name' := by
      rcases hf with rfl | hf
      · exact List.prefix_refl _
      · exact hf.2
    obtain ⟨r, hr⟩ := hpre
    rcases hm' with ⟨rfl, -⟩ | ⟨rfl, -⟩ | ⟨rfl, -⟩
    · simp at hr
    · simp at hr
    · rfl
  refine ⟨by simp, .option (.bare hq) hm hfits hu, fun v => .option (.valued hq) hm hfits hu⟩

/-- **C103.** The file and `--func-odbc`, in either order, abbreviated or not, with `=` or as two words. -/
theorem C103_check_usage (negNum : Str → Bool) {f o pre : Str} (hf : ¬ Dashed f) (h : pre <+: c! "--func-odbc")
    (hl : 3 ≤ pre.length) :
    parseArgs (checkParser negNum) [] = .ok ⟨c! "./extensions.conf", [], []⟩ ∧
    parseArgs (checkParser negNum) [f] = .ok ⟨f, [], []⟩ ∧
    (∀ ws ∈ [[f, pre ++ '=' :: o], [pre ++ '=' :: o, f]],
      parseArgs (checkParser negNum) ws = .ok ⟨f, [(c! "func_odbc", o)], []⟩) ∧
    (¬ Dashed o → ∀ ws ∈ [[f, pre, o], [pre, o, f]],
      parseArgs (checkParser negNum) ws = .ok ⟨f, [(c! "func_odbc", o)], []⟩) ∧
    ∀ g, parseArgs (checkParser negNum) [c! "--", g] = .ok ⟨g, [], []⟩ ∧
      parseArgs (checkParser negNum) [pre ++ '=' :: o, c! "--", g] = .ok ⟨g, [(c! "func_odbc", o)], []⟩ := by
  obtain ⟨w1, w2, w3⟩ := odbc_word negNum h hl
  have hp := (C103_parsers negNum).1
  have w4 : pre ++ '=' :: o ≠ c! "--" := by
    intro e
    have := congrArg (fun l : List Char => l.contains '=') e
    simp at this
  have hfd : f ≠ c! "--" := by rintro rfl; exact hf ⟨_, _, rfl⟩
  have na : ∀ {w k}, WordIs (checkParser negNum) w k → k ≠ .ambiguous → ¬ WordIs (checkParser negNum) w .ambiguous :=
    fun h1 h2 h3 => h2 (word_unique hp h1 h3)
  have pf : WordIs (checkParser negNum) f .plain := .plain hf
  have read : ∀ {ws e}, (∀ w ∈ beforeDashes ws, ¬ WordIs (checkParser negNum) w .ambiguous) →
      LineGoes (checkParser negNum) ⟨none, [], [], false⟩ ws e → parseArgs (checkParser negNum) ws = e :=
    fun h1 h2 => (C103_exact hp _ _).1 (.read h1 h2)
  have nf := na pf (by simp)
  have n2 := na w2 (by simp)
  have n3 := na (w3 o) (by simp)
  refine ⟨rfl, ?_, ?_, ?_, ?_⟩
  · refine read ?_ (.file hfd pf rfl (by simp) .nil)
    rw [before_cons hfd]
    simpa [beforeDashes] using nf
  · intro ws hws
    simp only [List.mem_cons, List.not_mem_nil, or_false] at hws
    rcases hws with rfl | rfl
    · refine read ?_ (.file hfd pf rfl (by simpa using w4) (.value w4 (w3 o) (by simp) .nil))
      rw [before_cons hfd, before_cons w4]
      simpa [beforeDashes] using ⟨nf, n3⟩
    · refine read ?_ (.value w4 (w3 o) (by simp) (.file hfd pf rfl (by simp) .nil))
      rw [before_cons w4, before_cons hfd]
      simpa [beforeDashes] using ⟨n3, nf⟩
  · intro ho ws hws
    have hod : o ≠ c! "--" := by rintro rfl; exact ho ⟨_, _, rfl⟩
    have po : WordIs (checkParser negNum) o .plain := .plain ho
    have no := na po (by simp)
    simp only [List.mem_cons, List.not_mem_nil, or_false] at hws
    rcases hws with rfl | rfl
    · refine read ?_ (.file hfd pf rfl (by simpa using w1) (.valueNext w1 w2 (by simp) hod po .nil))
      rw [before_cons hfd, before_cons w1, before_cons hod]
      simpa [beforeDashes] using ⟨nf, n2, no⟩
    · refine read ?_ (.valueNext w1 w2 (by simp) hod po (.file hfd pf rfl (by simp) .nil))
      rw [before_cons w1, before_cons hod, before_cons hfd]
      simpa [beforeDashes] using ⟨n2, no, nf⟩
  · intro g
    refine ⟨read ?_ (.dashes rfl), read ?_ (.value w4 (w3 o) (by simp) (.dashes rfl))⟩
    · rw [before_dashes]; simp
    · rw [before_cons w4, before_dashes]
      simpa using n3

/-- **C103.** Whoever gives `--func-odbc` twice before `--`, in whichever way, gets no result. -/
theorem C103_check_twice (negNum : Str → Bool) {a b c : List Str} {pre pre' v v' : Str} (h : pre <+: c! "--func-odbc")
    (hl : 3 ≤ pre.length) (h' : pre' <+: c! "--func-odbc") (hl' : 3 ≤ pre'.length) (ha : c! "--" ∉ a) (hb : c! "--" ∉ b)
    {w w' : Str} (hw : w = pre ∨ w = pre ++ '=' :: v) (hw' : w' = pre' ∨ w' = pre' ++ '=' :: v') :
    ∃ e, parseArgs (checkParser negNum) (a ++ w :: b ++ w' :: c) = .error e := by
  have key : ∀ {pre v w : Str}, pre <+: c! "--func-odbc" → 3 ≤ pre.length → (w = pre ∨ w = pre ++ '=' :: v) →
      w ≠ c! "--" ∧ ∃ x, WordIs (checkParser negNum) w (.option (.unique (c! "func_odbc")) x) := by
    intro pre v w h hl hw
    obtain ⟨w1, w2, w3⟩ := odbc_word negNum h hl
    rcases hw with rfl | rfl
    · exact ⟨w1, _, w2⟩
    · refine ⟨?_, _, w3 v⟩
      intro e
      have := congrArg (fun l : List Char => l.contains '=') e
      simp at this
  obtain ⟨k1, x, k2⟩ := key h hl hw
  obtain ⟨k1', x', k2'⟩ := key h' hl' hw'
  cases hpa : parseArgs (checkParser negNum) (a ++ w :: b ++ w' :: c) with
  | error e => exact ⟨e, rfl⟩
  | ok ns =>
    exfalso
    have hpw := C103_once (C103_parsers negNum).1 hpa
    have hbd : ∀ (l r : List Str), c! "--" ∉ l → beforeDashes (l ++ r) = l ++ beforeDashes r := by
      intro l r
      induction l with
      | nil => intro _; rfl
      | cons y l ih =>
        intro hn
        rw [List.mem_cons, not_or] at hn
        rw [List.cons_append, before_cons (Ne.symm hn.1), ih hn.2, List.cons_append]
    rw [List.append_assoc, hbd _ _ ha, List.cons_append, before_cons k1, hbd _ _ hb, before_cons k1'] at hpw
    have := (List.pairwise_cons.1 (List.pairwise_append.1 hpw).2.1).1 w' (by simp)
    exact this _ _ _ ⟨k2, k2'⟩

/-! ## The commands -/

theorem withArgs_runs {tx : ArgTexts} {p : ArgParser} (hp : TidyParser p) {ws : List Str} {run : ArgSpace → CmdRun} {e : ArgEnd}
    (h : CommandLine p ws e) : RunsWith tx ws run e (withArgs tx p ws run) := by
  unfold withArgs
  rw [(C103_exact hp ws e).1 h]
  match e with
  | .error .help => exact .help
  | .error .refused => exact .refused
  | .ok ns => exact .run

theorem withArgs_two {tx : ArgTexts} {p : ArgParser} (hp : TidyParser p) {ws : List Str} {run : ArgSpace → CmdRun}
    (h : ∀ ns, (run ns).fin ≠ .exit 2) : (withArgs tx p ws run).fin = .exit 2 ↔ CommandLine p ws (.error .refused) := by
  rw [C103_exact hp]
  unfold withArgs
  cases hpa : parseArgs p ws with
  | error e => cases e <;> simp
  | ok ns => simp [h]

theorem program_two {α : Type} {sh : Shell} {r : Res (Except Stopped α)} {out : α → List Str} {status : Manager → α → Nat}
    (h : ∀ mg a, status mg a ≠ 2) : (program sh r out status).fin ≠ .exit 2 := by
  unfold program
  dsimp only
  split
  · simp
  · simp
  · simp [h]

theorem exitStatus_two (env : Str) (mg : Manager) : mg.exitStatus env ≠ 2 := by
  unfold Manager.exitStatus
  split <;> simp

/-- **C103.** `dialplan-check` looks at the file and at the value of `--func-odbc` that were given, and its exit status is 2
if and only if the command line is refused. -/
theorem C103_dialplan_check (sh : Shell) (tx : ArgTexts) (negNum : Str → Bool) (fs : FS) (env : DEnv) (n : Nat) (ws : List Str) :
    (∀ e, CommandLine (checkParser negNum) ws e → RunsWith tx ws
      (fun ns => dialplanCheck sh fs env n (ns.stored.lookup (c! "func_odbc")) ns.path) e
      (dialplanCheckMain sh tx negNum fs env n ws)) ∧
    ((dialplanCheckMain sh tx negNum fs env n ws).fin = .exit 2 ↔ CommandLine (checkParser negNum) ws (.error .refused)) :=
  ⟨fun _ h => withArgs_runs (C103_parsers negNum).1 h,
   withArgs_two (C103_parsers negNum).1 fun _ => program_two fun _ _ => exitStatus_two _ _⟩

/-- **C103.** The same for `modules-show`. -/
theorem C103_modules (sh : Shell) (tx : ArgTexts) (negNum : Str → Bool) (fs : FS) (env : DEnv) (n : Nat) (ws : List Str) :
    (∀ e, CommandLine (checkParser negNum) ws e → RunsWith tx ws
      (fun ns => modulesProgram sh fs env n (ns.stored.lookup (c! "func_odbc")) ns.path) e
      (modulesMain sh tx negNum fs env n ws)) ∧
    ((modulesMain sh tx negNum fs env n ws).fin = .exit 2 ↔ CommandLine (checkParser negNum) ws (.error .refused)) :=
  ⟨fun _ h => withArgs_runs (C103_parsers negNum).1 h,
   withArgs_two (C103_parsers negNum).1 fun _ => program_two fun _ _ => by unfold modulesExit; split <;> simp⟩

/-- **C103.** The same for `dialplan-show`, with `--reverse`. -/
theorem C103_dialplan_show (sh : Shell) (tx : ArgTexts) (negNum : Str → Bool) (reprStr : Str → Str) (fs : FS) (env : DEnv) (n : Nat)
    (ws : List Str) :
    (∀ e, CommandLine (showParser negNum) ws e → RunsWith tx ws
      (fun ns => dialplanShow sh reprStr fs env n (decide (c! "reverse" ∈ ns.flags)) ns.path) e
      (dialplanShowMain sh tx negNum reprStr fs env n ws)) ∧
    ((dialplanShowMain sh tx negNum reprStr fs env n ws).fin = .exit 2 ↔ CommandLine (showParser negNum) ws (.error .refused)) := by
  refine ⟨fun _ h => ?_, withArgs_two (C103_parsers negNum).2.1 fun _ => program_two fun _ _ => by simp⟩
  have := withArgs_runs (tx := tx) (run := fun ns => dialplanShow sh reprStr fs env n (ns.flags.contains (c! "reverse")) ns.path)
    (C103_parsers negNum).2.1 h
  simpa only [dialplanShowMain, List.contains_eq_mem] using this

/-- **C103.** The same for `ident-scan`, with `-v` and `--verbose`. -/
theorem C103_ident_scan (sh : Shell) (tx : ArgTexts) (negNum : Str → Bool) (ienv : IEnv) (iargs : IdentArgs) (fs : FS) (env : DEnv)
    (n : Nat) (ws : List Str) :
    (∀ e, CommandLine (identParser negNum) ws e → RunsWith tx ws
      (fun ns => identScan sh ienv { iargs with verbose := decide (c! "verbose" ∈ ns.flags) } fs env n ns.path) e
      (identMain sh tx negNum ienv iargs fs env n ws)) ∧
    ((identMain sh tx negNum ienv iargs fs env n ws).fin = .exit 2 ↔ CommandLine (identParser negNum) ws (.error .refused)) := by
  refine ⟨fun _ h => ?_, withArgs_two (C103_parsers negNum).2.2.1 fun _ => program_two fun _ _ => ?_⟩
  · have := withArgs_runs (tx := tx)
      (run := fun ns => identScan sh ienv { iargs with verbose := ns.flags.contains (c! "verbose") } fs env n ns.path)
      (C103_parsers negNum).2.2.1 h
    simpa only [identMain, List.contains_eq_mem] using this
  · split
    · unfold identExit; split <;> simp
    · simp

/-- **C103.** The same for `func_odbc-check`. -/
theorem C103_odbc_check (sh : Shell) (tx : ArgTexts) (negNum : Str → Bool) (fs : FS) (env : DEnv) (n : Nat) (ws : List Str) :
    (∀ e, CommandLine (odbcParser negNum) ws e → RunsWith tx ws (fun ns => odbcCheck sh fs env n ns.path) e
      (odbcCheckMain sh tx negNum fs env n ws)) ∧
    ((odbcCheckMain sh tx negNum fs env n ws).fin = .exit 2 ↔ CommandLine (odbcParser negNum) ws (.error .refused)) :=
  ⟨fun _ h => withArgs_runs (C103_parsers negNum).2.2.2 h,
   withArgs_two (C103_parsers negNum).2.2.2 fun _ => program_two fun _ _ => exitStatus_two _ _⟩

theorem then_two {a b : Shown} (ha : a.2 ≠ some (.exit 2)) (hb : b.2 ≠ some (.exit 2)) : (a.then b).2 ≠ some (.exit 2) := by
  unfold Shown.then
  split
  · rename_i e he
    dsimp only
    rw [← he]
    exact ha
  · exact hb

theorem queries_two (sql : Option SqlParse) : ∀ qs, (showQueries sql qs).2 ≠ some (.exit 2)
  | [] => by simp [showQueries]
  | q :: qs => by
    rw [showQueries]
    refine then_two ?_ (queries_two sql qs)
    unfold showQuery
    refine then_two (by simp) ?_
    cases sql with
    | none => simp
    | some sql =>
      dsimp only
      refine then_two ?_ (by simp)
      split
      · split <;> simp
      · simp

theorem annotateAll_two (sql : Option SqlParse) : ∀ (fns : List OdbcFn) (env : FEnv), (annotateAll sql env fns).2.2 ≠ .exit 2
  | [], env => by simp [annotateAll]
  | f :: fns, env => by
    rw [annotateAll]
    dsimp only
    split
    · simp
    · rename_i env' _
      split
      · rename_i e he
        have : (showFunction sql f).2 ≠ some (.exit 2) := by
          unfold showFunction
          exact then_two (by simp) (then_two (queries_two sql _) (by simp))
        intro h
        dsimp only at h
        rw [he, h] at this
        exact this rfl
      · exact annotateAll_two sql fns env'

/-- **C103.** The same for `func_odbc-annotate`. -/
theorem C103_annotate (sh : Shell) (tx : ArgTexts) (negNum : Str → Bool) (sql : Option SqlParse) (fs : FS) (env : FEnv) (n : Nat)
    (ws : List Str) :
    (∀ e, CommandLine (odbcParser negNum) ws e → RunsWith tx ws (fun ns => annotate sh sql fs env n ns.path) e
      (annotateMain sh tx negNum sql fs env n ws)) ∧
    ((annotateMain sh tx negNum sql fs env n ws).fin = .exit 2 ↔ CommandLine (odbcParser negNum) ws (.error .refused)) := by
  refine ⟨fun _ h => withArgs_runs (C103_parsers negNum).2.2.2 h, withArgs_two (C103_parsers negNum).2.2.2 fun ns => ?_⟩
  unfold annotate
  split
  · simp [annotateRun]
  · dsimp only
    split
    · simp [annotateRun]
    · simp [annotateRun]
    · exact annotateAll_two sql _ _

/-! ## Examples -/

section
private def noNum : Str → Bool := fun _ => false

example : parseArgs (checkParser noNum) [c! "a.conf", c! "--func=b.conf"] = .ok ⟨c! "a.conf", [(c! "func_odbc", c! "b.conf")], []⟩ ∧
    parseArgs (checkParser noNum) [c! "--func-odbc=", c! "--fu", c! "b.conf"] = .error .refused ∧
    parseArgs (checkParser noNum) [c! "a.conf", c! "b.conf"] = .error .refused ∧
    parseArgs (checkParser noNum) [c! "--func-odbc"] = .error .refused ∧
    parseArgs (checkParser noNum) [c! "a.conf", c! "b.conf", c! "--he"] = .error .help ∧
    parseArgs (checkParser noNum) [c! "--bogus", c! "-h"] = .error .help ∧
    parseArgs (checkParser noNum) [c! "-hx="] = .error .help ∧
    parseArgs (checkParser noNum) [c! "-h="] = .error .refused ∧
    parseArgs (checkParser noNum) [c! "--", c! "-h"] = .ok ⟨c! "-h", [], []⟩ ∧
    parseArgs (checkParser noNum) [c! "-h y"] = .error .help ∧
    parseArgs (checkParser noNum) [c! "-x y"] = .ok ⟨c! "-x y", [], []⟩ ∧
    parseArgs (checkParser noNum) [c! "a.conf", c! "--"] = .ok ⟨c! "a.conf", [], []⟩ ∧
    parseArgs (checkParser noNum) [c! "a.conf", c! "--func-odbc", c! "--"] = .error .refused ∧
    parseArgs (showParser noNum) [c! "--rev", c! "--reverse"] = .ok ⟨c! "./extensions.conf", [], [c! "reverse", c! "reverse"]⟩ ∧
    parseArgs (showParser noNum) [c! "--reverse=1"] = .error .refused ∧
    parseArgs (identParser noNum) [c! "-vv", c! "x"] = .ok ⟨c! "x", [], [c! "verbose", c! "verbose"]⟩ ∧
    parseArgs (identParser noNum) [c! "-vvx"] = .error .refused ∧
    parseArgs (identParser noNum) [c! "-vh"] = .error .help ∧
    parseArgs (identParser noNum) [c! "--"] = .ok ⟨c! "./extensions.conf", [], []⟩ ∧
    parseArgs (odbcParser noNum) [c! "-", c! "-"] = .error .refused ∧
    parseArgs (odbcParser noNum) [c! "-"] = .ok ⟨c! "-", [], []⟩ := by
  decide +kernel

/-- An abbreviation, and a file whose name begins with a dash. -/
example : parseArgs (checkParser noNum) [c! "--func=x=y", c! "--", c! "-f"] = .ok ⟨c! "-f", [(c! "func_odbc", c! "x=y")], []⟩ :=
  ((C103_check_usage noNum (f := []) (o := c! "x=y") (pre := c! "--func") (fun ⟨_, _, h⟩ => nomatch h) ⟨c! "-odbc", rfl⟩
    (by decide)).2.2.2.2 (c! "-f")).2

/-- Twice, abbreviated in two ways, with anything between. -/
example (x : Str) (hx : x ≠ c! "--") : ∃ e, parseArgs (checkParser noNum) [x, c! "--func=a", x, c! "--f", c! "b"] = .error e :=
  C103_check_twice noNum (a := [x]) (b := [x]) (c := [c! "b"]) (pre := c! "--func") (pre' := c! "--f") (v := c! "a") (v' := [])
    ⟨c! "-odbc", rfl⟩ (by decide) ⟨c! "unc-odbc", rfl⟩ (by decide) (by simpa using Ne.symm hx) (by simpa using Ne.symm hx)
    (.inr rfl) (.inl rfl)

/-- The flag came from somewhere. -/
example : ∃ w ∈ [c! "-vv", c! "x"], GivesFlag (identParser noNum) w (c! "verbose") :=
  ((C103_settings (C103_parsers noNum).2.2.1 (ws := [c! "-vv", c! "x"])
    (ns := ⟨c! "x", [], [c! "verbose", c! "verbose"]⟩) (by decide +kernel)).1 (c! "verbose")).1 (by simp)

end

end ALint.Props
