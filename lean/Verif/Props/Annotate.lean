import Verif.Proofs.Annotate
import Verif.Props.Command

/-!
# C95: func_odbc-annotate
-/

namespace ALint.Props
open ALint ALint.Spec

theorem annotateRun_eq (sh : Shell) (log : List Msg) (out : List Str) (fin : CmdEnd) :
    annotateRun sh log out fin = ⟨out, [], fin⟩ := by
  unfold annotateRun
  rw [printed_muted { sh with muted := true } rfl]
  rfl

/-- What is printed first. -/
def annotateTitle : List Str :=
  [c! "-- BEWARE: This output format is not standardized yet", c! "-- NOT FOR MACHINE CONSUMPTION", c! ""]

theorem annotate_read {sql : Option SqlParse} {fs : FS} {env : FEnv} {n : Nat} {path : Str} {content : Bytes} {es : List Elem}
    (sh : Shell) (hf : fs path = some content)
    (h : (pipeRun fs collect n ⟨[openFrame path content], [], [], []⟩).val = .ok (some es)) :
    annotate sh sql fs env n path =
      ⟨annotateTitle ++ (annotateAll sql env ((sectionsOf es).map odbcFn)).2.1, [],
        (annotateAll sql env ((sectionsOf es).map odbcFn)).2.2⟩ := by
  obtain ⟨es', h1, h2⟩ := pipeRun_feed fs odbcStep n
    (⟨[openFrame path content], [], [], []⟩ : PState (List OdbcFn)) [] es h
  rw [List.nil_append] at h1
  subst h1
  rw [(feed_odbc [] es).1] at h2
  have hr : (odbcMore [] es).reverse = (sectionsOf es).map odbcFn := by
    simp only [odbcMore, List.append_nil, List.reverse_reverse]
    rfl
  unfold annotate
  rw [hf]
  dsimp only
  rw [h2]
  simp only [Except.map, annotateRun_eq]
  rw [hr]
  rfl

/-- C95: after the title, the functions of the file are shown in order, one block of lines for
each section; this is so up to the first section that cannot be shown, at which the program
ends.  The specification `SectionsShown` leaves no choice: what it allows is what is printed. -/
theorem C95_shows (sh : Shell) (sql : Option SqlParse) (fs : FS) (env : FEnv) (n : Nat) (path : Str) (content : Bytes)
    (es : List Elem) (hf : fs path = some content)
    (h : (pipeRun fs collect n ⟨[openFrame path content], [], [], []⟩).val = .ok (some es)) (lines : List Str) (e : CmdEnd) :
    SectionsShown sql (sectionsOf es) lines e ↔
      (annotate sh sql fs env n path).out = annotateTitle ++ lines ∧ (annotate sh sql fs env n path).fin = e := by
  rw [annotate_read sh hf h, annotateAll_iff sql env]
  constructor
  · intro h; rw [h]; exact ⟨rfl, rfl⟩
  · rintro ⟨h1, h2⟩
    exact Prod.ext (List.append_cancel_left h1) h2

/-- C95: the program ends well exactly if every section can be shown to its end, and then the
output is the title and the blocks of all sections, in order. -/
theorem C95_all (sh : Shell) (sql : Option SqlParse) (fs : FS) (env : FEnv) (n : Nat) (path : Str) (content : Bytes)
    (es : List Elem) (hf : fs path = some content)
    (h : (pipeRun fs collect n ⟨[openFrame path content], [], [], []⟩).val = .ok (some es)) :
    ((annotate sh sql fs env n path).fin = .exit 0 ↔
      ∀ s ∈ sectionsOf es, ¬ BadName s ∧ ∃ block, SectionShown sql s block) ∧
    ((annotate sh sql fs env n path).fin = .exit 0 →
      ∃ blocks, blocks.length = (sectionsOf es).length ∧
        (∀ p ∈ (sectionsOf es).zip blocks, SectionShown sql p.1 p.2) ∧
        (annotate sh sql fs env n path).out = annotateTitle ++ blocks.flatten) := by
  have hs := (C95_shows sh sql fs env n path content es hf h _ _).2 ⟨by rw [annotate_read sh hf h], rfl⟩
  have ho : (annotate sh sql fs env n path).out =
      annotateTitle ++ (annotateAll sql env ((sectionsOf es).map odbcFn)).2.1 := by rw [annotate_read sh hf h]
  rw [ho]
  revert hs
  generalize (annotateAll sql env ((sectionsOf es).map odbcFn)).2.1 = lines
  generalize (annotate sh sql fs env n path).fin = e
  generalize sectionsOf es = ss
  intro hs
  have stop : ∀ {s part e}, SectionStops sql s part e → e ≠ .exit 0 ∧ ¬ ∃ block, SectionShown sql s block := by
    intro s part e hp
    refine ⟨?_, ?_⟩
    · cases hp with
      | insert _ h => cases h <;> simp
      | read _ _ _ h => cases h <;> simp
      | write _ _ _ _ _ h => cases h <;> simp
    · rintro ⟨block, hb⟩
      have h1 := sectionStops_sound hp
      rw [sectionShown_sound hb] at h1
      cases h1
  have main : (e = .exit 0 ↔ ∀ s ∈ ss, ¬ BadName s ∧ ∃ block, SectionShown sql s block) ∧
      (e = .exit 0 → ∃ blocks, blocks.length = ss.length ∧ (∀ p ∈ ss.zip blocks, SectionShown sql p.1 p.2) ∧
        lines = blocks.flatten) := by
    induction hs with
    | all => exact ⟨by simp, fun _ => ⟨[], rfl, by simp, rfl⟩⟩
    | name s ss hb => exact ⟨⟨by simp, fun h => absurd hb (h s (by simp)).1⟩, by simp⟩
    | stops s ss part e hb hp =>
      exact ⟨⟨fun h => absurd h (stop hp).1, fun h => absurd (h s (by simp)).2 (stop hp).2⟩,
        fun h => absurd h (stop hp).1⟩
    | shown s ss block rest e hb h1 _ ih =>
      obtain ⟨i1, i2⟩ := ih
      refine ⟨?_, fun he => ?_⟩
      · rw [i1]
        simp only [List.mem_cons, forall_eq_or_imp]
        exact ⟨fun h => ⟨⟨hb, block, h1⟩, h⟩, fun h => h.2⟩
      · obtain ⟨blocks, b1, b2, b3⟩ := i2 he
        refine ⟨block :: blocks, by simp [b1], ?_, by simp [b3]⟩
        simp only [List.zip_cons_cons, List.mem_cons, forall_eq_or_imp]
        exact ⟨h1, b2⟩
  refine ⟨main.1, fun he => ?_⟩
  obtain ⟨blocks, b1, b2, b3⟩ := main.2 he
  exact ⟨blocks, b1, b2, by rw [b3]⟩

/-- C95: no message is printed, whatever is in the file; a file that cannot be opened gives no
output, any other at least the title. -/
theorem C95_silent (sh : Shell) (sql : Option SqlParse) (fs : FS) (env : FEnv) (n : Nat) (path : Str) :
    (annotate sh sql fs env n path).err = [] ∧
    (fs path = none → annotate sh sql fs env n path = ⟨[], [], .stopped .osError⟩) ∧
    (fs path ≠ none → annotateTitle <+: (annotate sh sql fs env n path).out) := by
  unfold annotate
  cases fs path with
  | none => simp [annotateRun_eq]
  | some content =>
    dsimp only
    simp only [annotateRun_eq]
    split
    · exact ⟨rfl, by simp, fun _ => List.prefix_refl _⟩
    · exact ⟨rfl, by simp, fun _ => List.prefix_refl _⟩
    · exact ⟨rfl, by simp, fun _ => List.prefix_append _ _⟩

/-- C95: every statement shown ends with a semicolon, and no second one is added. -/
theorem C95_semicolon (sql : SqlParse) (type query : Str) (lines : List Str) (h : StatementShown sql type query lines) :
    ∃ last, lines.getLast? = some last ∧ last.getLast? = some ';' ∧
      (last = sql.format query ∨ (sql.format query).getLast? ≠ some ';' ∧ last = sql.format query ++ c! ";") := by
  cases h with
  | plain text _ h2 =>
    refine ⟨text, rfl, ?_⟩
    rcases h2 with ⟨h3, h4⟩ | ⟨h5, rfl⟩
    · exact ⟨(suffix_semi _).1 h4, .inl h3⟩
    · exact ⟨by simp, .inr ⟨fun h => h5 ((suffix_semi _).2 h), rfl⟩⟩
  | columns text c cs _ _ h2 =>
    refine ⟨text, by rw [List.getLast?_append]; rfl, ?_⟩
    rcases h2 with ⟨h3, h4⟩ | ⟨h5, rfl⟩
    · exact ⟨(suffix_semi _).1 h4, .inl h3⟩
    · exact ⟨by simp, .inr ⟨fun h => h5 ((suffix_semi _).2 h), rfl⟩⟩

/-! ## Examples -/

/-- A parser that knows some statements. -/
def toySql : SqlParse where
  format := fun s => s.map Char.toUpper
  parse := fun s =>
    let sel : SqlToken := ⟨true, false, false, .other⟩
    let sp : SqlToken := ⟨false, true, false, .other⟩
    let from_ : SqlToken := ⟨false, false, true, .other⟩
    let tab : SqlToken := ⟨false, false, false, .one none (c! "t")⟩
    if s = c! "select a, b+1 as c from t" then
      [[sel, sp, ⟨false, false, false, .many [⟨true, none, c! "a"⟩, ⟨true, some (c! "c"), c! "b+1 as c"⟩]⟩, sp, from_, sp, tab]]
    else if s = c! "select a from t" then
      [[sel, sp, ⟨false, false, false, .one none (c! "a")⟩, sp, from_, sp, tab]]
    else if s = c! "select not a from t" then
      [[sel, sp, ⟨false, false, false, .other⟩, sp, ⟨false, false, false, .one none (c! "a")⟩, sp, from_, sp, tab]]
    else [[⟨false, false, false, .other⟩]]

/-- Two functions that can be shown; the first reads, the second writes. -/
def annText : Str :=
  c! "[USER]\nprefix=DB\nreadsql=select a, b+1 as c from t\n\n[GROUP]\nwritesql=update t;\ninsertsql=insert t\nread=\n"

/-- A third one that cannot. -/
def annBad : Str := annText ++ c! "\n[NOT]\nwritesql=update t\nread=select not a from t\n\n[LAST]\nreadsql=select a from t\n"

def annFiles (s : Str) : FS := fun p => if p = c! "f.conf" then some (asciiBytes s) else none

def annLines : List Str :=
  [c! "-- DB_USER", c! "-- .", c! "-- FUNCTION TYPE: read", c! "-- COLUMNS:", c! "--  1. a", c! "--  2. c",
    c! "SELECT A, B+1 AS C FROM T;", c! "",
    c! "-- ODBC_GROUP", c! "-- .", c! "-- FUNCTION TYPE: insert", c! "INSERT T;", c! "-- FUNCTION TYPE: write", c! "UPDATE T;",
    c! ""]

example : annotate plainShell (some toySql) (annFiles annText) odbcEnv 99 (c! "f.conf") =
    ⟨annotateTitle ++ annLines, [], .exit 0⟩ := by
  decide +kernel

/-- What is shown before the end stays. -/
example : annotate plainShell (some toySql) (annFiles annBad) odbcEnv 99 (c! "f.conf") =
    ⟨annotateTitle ++ annLines ++ [c! "-- ODBC_NOT", c! "-- .", c! "-- FUNCTION TYPE: read"], [],
      .raised .notImplementedError⟩ := by
  decide +kernel

/-- Without the package. -/
example : annotate plainShell none (annFiles annText) odbcEnv 99 (c! "f.conf") =
    ⟨annotateTitle ++ [c! "-- DB_USER", c! "-- .", c! "-- FUNCTION TYPE: read"], [], .stopped .importError⟩ := by
  decide +kernel

/-- The hypotheses of C95 hold for these files. -/
example : (annFiles annBad) (c! "f.conf") = some (asciiBytes annBad) ∧
    (∃ es, (pipeRun (annFiles annBad) collect 99 ⟨[openFrame (c! "f.conf") (asciiBytes annBad)], [], [], []⟩).val = .ok (some es) ∧
      (sectionsOf es).map odbcName = [c! "DB_USER", c! "ODBC_GROUP", c! "ODBC_NOT", c! "ODBC_LAST"]) :=
  ⟨by decide +kernel, _, rfl, by decide +kernel⟩

end ALint.Props
