import Verif.Proofs.OdbcSound
import Verif.Props.Whole
import Verif.Props.OdbcLog

/-!
# C113: what is known of a func_odbc.conf about which nothing is said
-/

namespace ALint.Props
open ALint Spec

/-- C113: all that is said about a func_odbc.conf: about the lines, about sections and settings, and about sections without a
statement. -/
theorem C113_says (fs : FS) (env env' : FEnv) (n : Nat) (path : Str) (content : Bytes) (hf : fs path = some content)
    (fns : List OdbcFn) (h : (loadOdbc fs env n path content).val = .ok (some (env', fns))) :
    ∃ told lines both, FilesSay fs path content told lines ∧ Merges lines (odbcTells none (elemsOf told)) both ∧
      (loadOdbc fs env n path content).log = both ++ nothingDefined (elemsOf told) := by
  unfold loadOdbc at h ⊢
  obtain ⟨o, h1, h2, h3⟩ := Res.bind_ok h
  rw [h3]
  cases o with
  | none => simp at h2
  | some fs' =>
    dsimp only at h2 ⊢
    obtain ⟨e, h4, h5, h6⟩ := Res.bind_ok h2
    obtain ⟨es, lines, g1, g2, g3⟩ := pipeRun_merges fs odbcStep n _ fs' h1
    have g2 := g2 []
    simp only [PState.with_, List.nil_append] at g2
    obtain ⟨told, t1, t2⟩ := C96_files fs n path content hf lines es g2
    have f1 := (feed_odbc [] es).1
    have hfs : fs' = odbcMore [] es := by
      have := g1.symm.trans f1
      simpa using this
    have hr : fs'.reverse = (sectionsOf es).map odbcFn := by
      rw [hfs]
      simp only [odbcMore, List.append_nil, List.reverse_reverse]
      rfl
    rw [hr] at h4 h6 ⊢
    obtain ⟨s1, _, s3⟩ := sections_filter es
    obtain ⟨u1, _, u3⟩ := sections_filter (elemsOf told)
    have e1 : odbcTells none es = odbcTells none (elemsOf told) := by rw [← s3, t2, u3]
    have e2 : nothingDefined es = nothingDefined (elemsOf told) := by
      unfold nothingDefined
      rw [← s1, t2, u1]
    refine ⟨told, lines, (pipeRun fs odbcStep n ⟨[openFrame path content], [], [], []⟩).log, t1, ?_, ?_⟩
    · rw [← e1, ← feed_tells [] none es trivial]
      exact g3
    · rw [h6]
      rw [finalize_says env _ ⟨_, h4⟩, ← e2]
      simp [nothingDefined]

theorem merges_length {α : Type} {a b c : List α} (h : Merges a b c) : c.length = a.length + b.length := by
  induction h <;> simp_all <;> omega

theorem merges_right_nil {α : Type} {a b c : List α} (h : Merges a b c) (hb : b = []) : c = a := by
  induction h with
  | nil => rfl
  | left x _ ih => rw [ih hb]
  | right x _ _ => cases hb

/-- C113: that only the lines have been complained about means that sections and settings are fine. -/
theorem C113_iff (fs : FS) (env env' : FEnv) (n : Nat) (path : Str) (content : Bytes) (hf : fs path = some content)
    (fns : List OdbcFn) (h : (loadOdbc fs env n path content).val = .ok (some (env', fns))) :
    ∃ told lines, FilesSay fs path content told lines ∧
      ((loadOdbc fs env n path content).log = lines ↔ SoundOdbc (elemsOf told)) := by
  obtain ⟨told, lines, both, h1, h2, h3⟩ := C113_says fs env env' n path content hf fns h
  refine ⟨told, lines, h1, ?_⟩
  rw [← sound_iff, h3]
  constructor
  · intro h
    have := congrArg List.length h
    rw [List.length_append, merges_length h2] at this
    exact ⟨List.eq_nil_of_length_eq_zero (by omega), List.eq_nil_of_length_eq_zero (by omega)⟩
  · rintro ⟨h4, h5⟩
    rw [h5, List.append_nil]
    exact merges_right_nil h2 h4

/-- A func_odbc.conf about which there is nothing to say: the lines as the files have them, each of them fine, and sections and
settings as they should be. -/
structure CleanOdbc (fs : FS) (path : Str) (content : Bytes) (told : List Told) : Prop where
  files : FilesSay fs path content told []
  lines : ∀ x ∈ told, CleanLine fs x.line x.gives
  sound : SoundOdbc (elemsOf told)

/-- C113: if nothing is said, the lines are fine and so are sections and settings. -/
theorem C113_silent (fs : FS) (env env' : FEnv) (n : Nat) (path : Str) (content : Bytes) (hf : fs path = some content)
    (fns : List OdbcFn) (h : loadOdbc fs env n path content = ⟨[], .ok (some (env', fns))⟩) :
    ∃ told, CleanOdbc fs path content told := by
  obtain ⟨told, lines, both, h1, h2, h3⟩ := C113_says fs env env' n path content hf fns (by rw [h])
  rw [h] at h3
  obtain ⟨rfl, h5⟩ := List.append_eq_nil_iff.1 h3.symm
  obtain ⟨rfl, h4⟩ := merges_nil h2
  refine ⟨told, h1, ?_, (sound_iff _).1 ⟨h4, h5⟩⟩
  obtain ⟨t, f1, f2, formats, hints, rest, f3, f4, f5, f6⟩ := h1.files
  obtain ⟨f6, _⟩ := merges_nil f6
  intro x hx
  have := h1.lines x hx
  rw [List.flatMap_eq_nil_iff.1 f6 x hx] at this
  exact (C111_line _ _ _).1 this

/-- C113: `func_odbc-check` has the status 0 if and only if the file was there and read to its end, and every message is of a kind
that is ignored. -/
theorem C113_status (sh : Shell) (hm : sh.muted = false) (fs : FS) (env : DEnv) (n : Nat) (path : Str) :
    (odbcCheck sh fs env n path).fin = .exit 0 ↔
    ∃ content r log, fs path = some content ∧ loadOdbc fs env.toFEnv n path content = ⟨log, .ok (some r)⟩ ∧
      ∀ m ∈ log, Ignores sh.ignore m.kind.name := by
  unfold odbcCheck opening
  cases hc : fs path with
  | none => simp [program, Res.pure]
  | some content =>
    dsimp only
    cases hl : loadOdbc fs env.toFEnv n path content with
    | mk log val =>
      cases val with
      | error e => simp [program, finished, Res.bind, hl]
      | ok o =>
        cases o with
        | none => simp [program, finished, Res.bind, Res.pure, hl]
        | some r =>
          simp only [program, finished, Res.bind, Res.pure, List.append_nil, CmdEnd.exit.injEq]
          rw [managerAfter_issueAll sh hm]
          constructor
          · intro h
            exact ⟨content, r, log, rfl, hl, fun m hm => (ignores_iff ..).2 ((C20_exit_status _ _).2.1 h m hm)⟩
          · rintro ⟨_, r', log', ⟨⟩, h2, h3⟩
            rw [hl] at h2
            cases h2
            exact (C20_exit_status _ _).2.2 fun m hm => (ignores_iff ..).1 (h3 m hm)

/-- C113: without `ALINT_IGNORE`, status 0 means that the file is fine in every respect. -/
theorem C113_passed (sh : Shell) (hm : sh.muted = false) (hi : sh.ignore = []) (fs : FS) (env : DEnv) (n : Nat) (path : Str)
    (h : (odbcCheck sh fs env n path).fin = .exit 0) :
    ∃ content told, fs path = some content ∧ CleanOdbc fs path content told := by
  obtain ⟨content, ⟨env', fns⟩, log, h1, h2, h3⟩ := (C113_status sh hm fs env n path).1 h
  have : log = [] := by
    cases log with
    | nil => rfl
    | cons m ms =>
      have h3 := h3 m (by simp)
      rw [hi] at h3
      exact absurd h3 ((not_ignores_iff ..).2 (by simp [classMuted, ignoreTokens, splitAll]))
  subst this
  obtain ⟨told, h4⟩ := C113_silent fs _ env' n path content h1 fns h2
  exact ⟨content, told, h1, h4⟩

/-- C113: the functions of a `dialplan-check` that has the status 0 come from a file that is fine, if there is one. -/
theorem C113_dialplan (fs : FS) (env : DEnv) (n : Nat) (arg : Option Str) (path : Str) (env' : FEnv)
    (h : DefinesFrom fs env n arg path env' []) :
    (OdbcFileFor fs path arg none ∧ env' = env.toFEnv) ∨
    ∃ p content told, OdbcFileFor fs path arg (some p) ∧ fs p = some content ∧ CleanOdbc fs p content told := by
  generalize hms : ([] : List Msg) = ms at h
  cases h with
  | none h => exact .inl ⟨h, rfl⟩
  | @some p content _ fns h1 h2 h3 =>
    obtain ⟨told, h4⟩ := C113_silent fs env.toFEnv env' n p content h2 fns (by
      cases hl : loadOdbc fs env.toFEnv n p content with
      | mk log val =>
        rw [hl] at h3 hms
        cases h3
        cases hms
        rfl)
    exact .inr ⟨p, content, told, h1, h2, h4⟩

/-! ### Example -/

def soundFiles : FS := fun p =>
  if p = c! "/etc/func_odbc.conf" then some (asciiBytes
    (c! "[USER]\nprefix=DB\ndsn=main\nreadsql=SELECT a FROM b WHERE c='${ARG1}'\n#include \"more.inc\"\n"))
  else if p = c! "/etc/more.inc" then some (asciiBytes
    (c! "writesql=UPDATE b SET c=1\n\n[GROUP]\nsynopsis=x  ; ok\ndsn=main,other\nwritesql=UPDATE a SET b='${VAL1}'\n"))
  else if p = c! "/etc/bad.conf" then some (asciiBytes (c! "[A]\nreadsql=SELECT 1\ndsn=main\n"))
  else none

example : (odbcCheck plainShell soundFiles demoEnv 99 (c! "/etc/func_odbc.conf")).fin = .exit 0 ∧
    (odbcCheck plainShell soundFiles demoEnv 99 (c! "/etc/bad.conf")).fin = .exit 1 := by
  decide +kernel

/-- This file is fine, although the settings of a section are in another file. -/
example : ∃ content told, soundFiles (c! "/etc/func_odbc.conf") = some content ∧
    CleanOdbc soundFiles (c! "/etc/func_odbc.conf") content told :=
  C113_passed plainShell rfl rfl soundFiles demoEnv 99 _ (by decide +kernel)

end ALint.Props
