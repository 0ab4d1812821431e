import Verif.Proofs.Locality
import Verif.Props.LocatedOdbc
import Verif.Model.IdentShow
import Verif.Model.Annotate
import Verif.Model.Args

/-!
# C110: only the files asked for matter
-/

namespace ALint.Props
open ALint Spec Proofs

/-- C110 for one file, whatever is done with its elements: two file systems with the same files
under the names included on the way cannot be told apart. -/
theorem C110_reading {σ : Type} (fs fs' : FS) (agg : σ → Elem → Res σ) (n : Nat) (path : Str) (content : Bytes) (s : σ)
    (h : AgreeOn (FileNamed fs path content) fs fs') :
    pipeRun fs' agg n ⟨[openFrame path content], [], [], s⟩ = pipeRun fs agg n ⟨[openFrame path content], [], [], s⟩ :=
  readFile_asks h agg n _ _ s

/-- C110 for checking a dialplan. -/
theorem C110_dialplan (fs fs' : FS) (env : DEnv) (sp : Option Str) (n : Nat) (path : Str) (content : Bytes)
    (h : AgreeOn (FileNamed fs path content) fs fs') :
    checkDialplan fs' env sp n path content = checkDialplan fs env sp n path content := by
  unfold checkDialplan
  rw [C110_reading fs fs' _ n path content _ h]

/-- C110 for reading func_odbc.conf. -/
theorem C110_odbc (fs fs' : FS) (env : FEnv) (n : Nat) (path : Str) (content : Bytes)
    (h : AgreeOn (FileNamed fs path content) fs fs') :
    loadOdbc fs' env n path content = loadOdbc fs env n path content := by
  unfold loadOdbc
  rw [C110_reading fs fs' _ n path content _ h]

theorem opening_asks {β : Type} {fs fs' : FS} {path : Str} {f g : Bytes → Res (Except Stopped β)}
    (h : AgreeOn (Touches fs path) fs fs')
    (hf : ∀ c, fs path = some c → AgreeOn (FileNamed fs path c) fs fs' → g c = f c) :
    opening fs' path g = opening fs path f := by
  unfold opening
  rw [h path (.inl rfl)]
  cases hc : fs path with
  | none => rfl
  | some c => exact hf c hc fun q hq => h q (.inr ⟨c, hc, hq⟩)

theorem readDialplan_asks {fs fs' : FS} {path : Str} (h : AgreeOn (Touches fs path) fs fs') (env : DEnv) (n : Nat) :
    readDialplan fs' env n path = readDialplan fs env n path := by
  unfold readDialplan
  exact opening_asks h fun c _ hc => by rw [C110_reading fs fs' _ n path c _ hc]

theorem readOdbc_at {fs fs' : FS} {arg : Option Str} {path : Str} (one : ∀ o, OdbcAt arg path o → AgreeOn (Touches fs o) fs fs') (env : DEnv)
    (n : Nat) : readOdbc fs' env n arg path = readOdbc fs env n arg path := by
  have e : odbcFile fs' arg path = odbcFile fs arg path := by
    unfold odbcFile
    split
    · rfl
    · rfl
    · obtain ⟨p, hp⟩ := pathFrom_exists path (c! "func_odbc.conf")
      dsimp only
      rw [← pathFrom_eq hp, one p (.beside p rfl hp) p (.inl rfl)]
  unfold readOdbc
  rw [e]
  cases ho : odbcFile fs arg path with
  | none => rfl
  | some o =>
    have hat : OdbcAt arg path o := by
      unfold odbcFile at ho
      split at ho
      · cases ho
      · rename_i a hne
        cases ho
        exact .named _ rfl fun e => hne (e ▸ rfl)
      · dsimp only at ho
        split at ho
        · cases ho
          obtain ⟨p, hp⟩ := pathFrom_exists path (c! "func_odbc.conf")
          rw [← pathFrom_eq hp]
          exact .beside p rfl hp
        · cases ho
    exact opening_asks (one o hat) fun c _ hc => by rw [C110_odbc fs fs' _ n o c hc]

theorem readOdbc_asks {fs fs' : FS} {arg : Option Str} {path : Str} (h : AgreeOn (Matters fs arg path) fs fs') (env : DEnv)
    (n : Nat) : readOdbc fs' env n arg path = readOdbc fs env n arg path :=
  readOdbc_at (fun o ho q hq => h q (.inr ⟨o, ho, hq⟩)) env n

/-- C110 for dialplan-check: what is printed and the exit status depend only on the files at the
path of the dialplan, where func_odbc.conf is looked for, and the files included by their lines. -/
theorem C110_dialplan_check (sh : Shell) (fs fs' : FS) (env : DEnv) (n : Nat) (arg : Option Str) (path : Str)
    (h : AgreeOn (Matters fs arg path) fs fs') :
    dialplanCheck sh fs' env n arg path = dialplanCheck sh fs env n arg path := by
  have h1 : AgreeOn (Touches fs path) fs fs' := fun q hq => h q (.inl hq)
  have e : dialplanCheckRun fs' env n arg path = dialplanCheckRun fs env n arg path := by
    unfold dialplanCheckRun
    rw [readOdbc_asks h]
    congr 1
    funext env
    exact opening_asks h1 fun c _ hc => by rw [C110_dialplan fs fs' _ _ n path c hc]
  unfold dialplanCheck
  rw [e]

/-- C110 for modules-show. -/
theorem C110_modules_show (sh : Shell) (fs fs' : FS) (env : DEnv) (n : Nat) (arg : Option Str) (path : Str)
    (h : AgreeOn (Matters fs arg path) fs fs') :
    modulesProgram sh fs' env n arg path = modulesProgram sh fs env n arg path := by
  have h1 : AgreeOn (Touches fs path) fs fs' := fun q hq => h q (.inl hq)
  have e : modulesRead fs' env n arg path = modulesRead fs env n arg path := by
    unfold modulesRead
    rw [readOdbc_asks h]
    congr 1
    funext env
    rw [readDialplan_asks h1]
  unfold modulesProgram
  rw [e]

/-- C110 for dialplan-show and ident-scan, which do not read func_odbc.conf. -/
theorem C110_dialplan_show (sh : Shell) (reprStr : Str → Str) (fs fs' : FS) (env : DEnv) (n : Nat) (reverse : Bool) (path : Str)
    (h : AgreeOn (Touches fs path) fs fs') :
    dialplanShow sh reprStr fs' env n reverse path = dialplanShow sh reprStr fs env n reverse path := by
  unfold dialplanShow
  rw [readDialplan_asks h]

theorem C110_ident_scan (sh : Shell) (ienv : IEnv) (args : IdentArgs) (fs fs' : FS) (env : DEnv) (n : Nat) (path : Str)
    (h : AgreeOn (Touches fs path) fs fs') :
    identScan sh ienv args fs' env n path = identScan sh ienv args fs env n path := by
  unfold identScan
  rw [readDialplan_asks h]

/-- C110 for func_odbc-check and func_odbc-annotate. -/
theorem C110_func_odbc_check (sh : Shell) (fs fs' : FS) (env : DEnv) (n : Nat) (path : Str)
    (h : AgreeOn (Touches fs path) fs fs') : odbcCheck sh fs' env n path = odbcCheck sh fs env n path := by
  unfold odbcCheck
  congr 1
  exact opening_asks h fun c _ hc => by rw [C110_odbc fs fs' _ n path c hc]

theorem C110_func_odbc_annotate (sh : Shell) (sql : Option SqlParse) (fs fs' : FS) (env : FEnv) (n : Nat) (path : Str)
    (h : AgreeOn (Touches fs path) fs fs') : annotate sh sql fs' env n path = annotate sh sql fs env n path := by
  unfold annotate
  rw [h path (.inl rfl)]
  cases hc : fs path with
  | none => rfl
  | some c => dsimp only; rw [C110_reading fs fs' _ n path c _ fun q hq => h q (.inr ⟨c, hc, hq⟩)]

/-! ## A case -/

/-- The files included by files of this list are in the list. -/
def closedFiles (fs : FS) (known : List Str) : Bool :=
  known.all fun p => match fs p with
    | none => true
    | some c => (physLines c).zipIdx.all fun x => match opens ⟨p, (x.2 : Int) + 1, x.1⟩ with
      | none => true
      | some q => known.contains q

theorem fileNamed_closed {fs : FS} {known : List Str} {path : Str} {content : Bytes} (hk : closedFiles fs known = true)
    (hp : path ∈ known) (hc : fs path = some content) {q : Str} (h : FileNamed fs path content q) : q ∈ known := by
  have step : ∀ (w : Where) bytes (n : Nat) ms q, w.filename ∈ known → fs w.filename = some bytes → w.lineno = n + 1 →
      (physLines bytes)[n]? = some w.line → LineTells fs w ms (.file q) → q ∈ known := by
    intro w bytes n ms q h1 h2 h3 h4 h5
    have h6 := List.all_eq_true.1 hk _ h1
    simp only [h2] at h6
    have h7 := List.all_eq_true.1 h6 (w.line, n) (by
      rw [List.mem_zipIdx_iff_getElem?]
      simpa using h4)
    have e : (⟨w.filename, (n : Int) + 1, w.line⟩ : Where) = w := by rw [← h3]
    simp only [e, lineModel_file (lineTells_model h5), Gives.file?] at h7
    simpa using h7
  have files : ∀ p b, FileRead fs path content p b → p ∈ known ∧ fs p = some b := by
    intro p b h
    induction h with
    | given => exact ⟨hp, hc⟩
    | included _ h2 h3 h4 h5 ih => exact ⟨step _ _ _ _ _ ih.1 ih.2 h2 h3 h4, h5⟩
  obtain ⟨w, ms, ⟨b, h1, n, h2, h3⟩, h4⟩ := h
  exact step w b n ms q (files _ _ h1).1 (files _ _ h1).2 h2 h3 h4

theorem touches_closed {fs : FS} {known : List Str} {path q : Str} (hk : closedFiles fs known = true) (hp : path ∈ known)
    (h : Touches fs path q) : q ∈ known := by
  rcases h with rfl | ⟨c, hc, h⟩
  · exact hp
  · exact fileNamed_closed hk hp hc h

/-- A dialplan in two files, with func_odbc.conf, and with something else beside them. -/
def besideFiles (other : Option Bytes) : FS := fun q =>
  if q = c! "/e/a.conf" then some (asciiBytes (c! "[a]\n#include \"b.conf\"\n#tryinclude <sub/c.conf>\nexten => 2,1,Goto(x,1)\n"))
  else if q = c! "/e/b.conf" then some (asciiBytes (c! "exten => _[2-9]X,1,NoOp() \n"))
  else if q = c! "/e/func_odbc.conf" then some (asciiBytes (c! "[X]\nfoo=1\n"))
  else if q = c! "/e/sub/b.conf" then other else none

def besideNames : List Str := [c! "/e/a.conf", c! "/e/b.conf", c! "/e/sub/c.conf", c! "/e/func_odbc.conf"]

theorem beside_agrees (other other' : Option Bytes) :
    AgreeOn (Matters (besideFiles other) none (c! "/e/a.conf")) (besideFiles other) (besideFiles other') := by
  have hk : closedFiles (besideFiles other) besideNames = true := by
    have h : ∀ o, (besideNames.map (besideFiles o)) = besideNames.map (besideFiles none) := by
      intro o; rfl
    have h2 : closedFiles (besideFiles none) besideNames = true := by decide +kernel
    have h3 : ∀ p ∈ besideNames, besideFiles other p = besideFiles none p := by
      have := h other
      simpa [besideNames] using this
    unfold closedFiles at h2 ⊢
    rw [List.all_eq_true] at h2 ⊢
    intro p hp
    rw [h3 p hp]
    exact h2 p hp
  have known : ∀ q, Matters (besideFiles other) none (c! "/e/a.conf") q → q ∈ besideNames := by
    rintro q (h | ⟨o, ho, h⟩)
    · exact touches_closed hk (by decide) h
    · refine touches_closed hk ?_ h
      cases ho with
      | named h1 _ => cases h1
      | beside _ hp => rw [pathFrom_eq hp]; decide +kernel
  intro q hq
  have := known q hq
  simp only [besideNames, List.mem_cons, List.not_mem_nil, or_false] at this
  rcases this with rfl | rfl | rfl | rfl <;> rfl

example (sh : Shell) : dialplanCheck sh (besideFiles (some [91])) demoEnv 99 none (c! "/e/a.conf") =
    dialplanCheck sh (besideFiles none) demoEnv 99 none (c! "/e/a.conf") :=
  C110_dialplan_check _ _ _ _ _ _ _ (beside_agrees none (some [91]))

/-- The files that matter do: all three are complained about. -/
example : (dialplanCheckRun (besideFiles none) demoEnv 99 none (c! "/e/a.conf")).log.map (fun m => (m.kind, m.at_.filename, m.at_.lineno)) =
    [(.E_CONF_KEY_INVALID, c! "/e/func_odbc.conf", 2), (.E_ODBC_NOSQL, c! "/e/func_odbc.conf", 1),
     (.W_WSH_EOL, c! "/e/b.conf", 1), (.H_PAT_NON_CANONICAL, c! "/e/b.conf", 1),
     (.H_DP_GENERAL_MISPLACED, c! "/e/a.conf", 0), (.H_DP_GLOBALS_MISPLACED, c! "/e/a.conf", 0),
     (.W_DP_GOTO_CONTEXT_NOEXTEN, c! "/e/a.conf", 4)] := by decide +kernel

/-! ## Where the messages are -/

open Classical in
/-- The file system without the files that are not included. -/
noncomputable def onlyNamed (fs : FS) (path : Str) (content : Bytes) : FS :=
  fun q => if FileNamed fs path content q then fs q else none

theorem onlyNamed_agrees (fs : FS) (path : Str) (content : Bytes) :
    AgreeOn (FileNamed fs path content) fs (onlyNamed fs path content) := by
  intro q hq
  simp [onlyNamed, hq]

theorem lineRead_of {fs : FS} {path : Str} {content : Bytes} {w : Where}
    (h : LineOf (onlyNamed fs path content) path content w) : LineRead fs path content w := by
  obtain ⟨bytes, h1, h2⟩ := h
  rcases h1 with ⟨h1, rfl⟩ | h1
  · exact ⟨_, h1 ▸ .given, h2⟩
  · unfold onlyNamed at h1
    split at h1
    · rename_i hq
      obtain ⟨w', ms, ⟨b, b1, k, b2, b3⟩, h4⟩ := hq
      exact ⟨bytes, .included b1 b2 b3 h4 h1, h2⟩
    · cases h1

/-- C66, more closely: the lines messages are about are lines of files that are read. -/
theorem C66_read (fs : FS) (env : DEnv) (sp : Option Str) (n : Nat) (path : Str) (content : Bytes)
    (m : Msg) (h : m ∈ (checkDialplan fs env sp n path content).log) :
    (LineRead fs path content m.at_ ∧ ∀ w, m.previous = some w → LineRead fs path content w) ∨
    ((m.kind = .H_DP_GENERAL_MISPLACED ∨ m.kind = .H_DP_GLOBALS_MISPLACED) ∧ m.previous = none ∧
      m.at_.lineno = 0 ∧ m.at_.line = [] ∧ ∃ w, LineRead fs path content w ∧ w.filename = m.at_.filename) := by
  rw [← C110_dialplan fs _ env sp n path content (onlyNamed_agrees fs path content)] at h
  rcases C66_located _ env sp n path content m h with ⟨h1, h2⟩ | ⟨h1, h2, h3, h4, w, h5, h6⟩
  · exact .inl ⟨lineRead_of h1, fun w hw => lineRead_of (h2 w hw)⟩
  · exact .inr ⟨h1, h2, h3, h4, w, lineRead_of h5, h6⟩

theorem C66_read_odbc (fs : FS) (env : FEnv) (n : Nat) (path : Str) (content : Bytes) (m : Msg)
    (h : m ∈ (loadOdbc fs env n path content).log) :
    LineRead fs path content m.at_ ∧ ∀ w, m.previous = some w → LineRead fs path content w := by
  rw [← C110_odbc fs _ env n path content (onlyNamed_agrees fs path content)] at h
  obtain ⟨h1, h2⟩ := C66_located_odbc _ env n path content m h
  exact ⟨lineRead_of h1, fun w hw => lineRead_of (h2 w hw)⟩

end ALint.Props
