import Verif.Proofs.OdbcLog
import Verif.Props.Odbc
import Verif.Props.Config

/-!
# C84: exactly what is said about a func_odbc.conf; C59: which file is read
-/

namespace ALint.Props
open ALint ALint.Spec

/-- C84: reading a func_odbc.conf says about its contents exactly what the specification
lists, in the order of the lines, and at the end which sections define nothing. -/
theorem C84_says (fs : FS) (env env' : FEnv) (n : Nat) (path : Str) (content : Bytes) (fns : List OdbcFn)
    (h : (loadOdbc fs env n path content).val = .ok (some (env', fns))) :
    ∃ es, (pipeRun fs collect n ⟨[openFrame path content], [], [], []⟩).val = .ok (some es) ∧
      (loadOdbc fs env n path content).log.filter odbcOwn = odbcSays none es ++ nothingDefined es :=
  load_says h

/-- In the example of C58: `prefix` comes late, `foo` is unknown, `dsn` is repeated, and a
section defines nothing. -/
example : (∃ r, (loadText odbcText).val = .ok (some r)) ∧
    (odbcSays none (textElems odbcText)).map (fun m => (m.kind, m.at_.lineno, m.previous.map (·.lineno))) =
      [(.W_CONF_KEY_LATE, 3, none), (.E_CONF_KEY_INVALID, 5, none), (.E_CONF_KEY_DUPE, 6, some 2)] ∧
    (nothingDefined (textElems odbcText)).map (fun m => (m.kind, m.at_.lineno)) = [(.E_ODBC_NOSQL, 8)] :=
  ⟨⟨_, rfl⟩, by decide +kernel, by decide +kernel⟩

/-- Everything else that can be said. -/
def odbcOddText : Str :=
  c! "dsn=a\n[A__b]\nread=>SELECT 1\\;\nwritesql=SELECT 2\\;\ndsn=x\\;\n"

example : (∃ r, (loadText odbcOddText).val = .ok (some r)) ∧
    (odbcSays none (textElems odbcOddText)).map (fun m => (m.kind, m.at_.lineno)) =
      [(.E_CONF_CTX_MISSING, 1), (.W_ODBC_BADTOKENS, 2), (.H_CONF_HAS_ARROW, 3), (.W_ODBC_LEGACY, 3),
       (.W_ODBC_TAILSEMI, 3), (.W_CONF_KEY_LATE, 4), (.W_ODBC_TAILSEMI, 4), (.W_CONF_KEY_LATE, 5)] ∧
    nothingDefined (textElems odbcOddText) = [] :=
  ⟨⟨_, rfl⟩, by decide +kernel, by decide +kernel⟩

/-! ## The file -/

theorem all_slash {s : Str} (h : s.all (· = '/') = true) : s = List.replicate s.length '/' := by
  rw [List.eq_replicate_iff]
  exact ⟨rfl, fun c hc => by simpa using List.all_eq_true.1 h c hc⟩

/-- C14, C59: a relative name is looked up in the directory of the file, whatever the path of
that file. -/
theorem C14_beside (file name : Str) (hn : name.head? ≠ some '/') :
    InSameDir name file (pathJoin (dirname file) name) := by
  have hj : ∀ a : Str, pathJoin a name =
      match a.getLast? with
      | none => name
      | some '/' => a ++ name
      | some _ => a ++ '/' :: name := by
    intro a
    unfold pathJoin
    split
    · simp at hn
    · rfl
  obtain ⟨base, hb⟩ : ∃ b, b = (file.reverse.takeWhile (· ≠ '/')).reverse := ⟨_, rfl⟩
  obtain ⟨head, hh⟩ : ∃ b, b = (file.reverse.dropWhile (· ≠ '/')).reverse := ⟨_, rfl⟩
  have hfile : file = head ++ base := by
    rw [hb, hh, ← List.reverse_append, List.takeWhile_append_dropWhile, List.reverse_reverse]
  have hbase : '/' ∉ base := by
    intro h
    rw [hb, List.mem_reverse] at h
    have := List.all_eq_true.1 (List.all_takeWhile (l := file.reverse) (p := fun c => decide (c ≠ '/'))) '/' h
    simp at this
  have hlast : head ≠ [] → head.getLast? = some '/' := by
    intro h
    rw [hh, List.getLast?_reverse]
    cases hd : file.reverse.dropWhile (· ≠ '/') with
    | nil => rw [hd] at hh; exact absurd hh h
    | cons c cs =>
      have := List.head?_dropWhile_not (p := fun c => decide (c ≠ '/')) file.reverse
      rw [hd] at this
      simp at this
      simp [this]
  have hdir : dirname file = if head.all (· = '/') then head else rstripP (· = '/') head := by
    rw [hh]; rfl
  rw [hdir, hfile]
  by_cases h0 : head = []
  · subst h0
    rw [hj]
    exact .here base hbase
  · by_cases ha : head.all (· = '/') = true
    · rw [if_pos ha, hj, hlast h0]
      obtain ⟨k, hk⟩ : ∃ k, head.length = k + 1 := ⟨head.length - 1, by
        have := List.length_pos_iff.2 h0
        omega⟩
      have := all_slash ha
      rw [hk] at this
      rw [this]
      exact .root k base hbase
    · rw [if_neg ha]
      obtain ⟨post, h1, h2, h3⟩ := rstripP_spec (fun c => decide (c = '/')) head
      obtain ⟨dir, hd⟩ : ∃ d, d = rstripP (fun c => decide (c = '/')) head := ⟨_, rfl⟩
      rw [← hd] at h1 h3 ⊢
      have hpost := all_slash (s := post) (List.all_eq_true.2 fun c hc => h2 c hc)
      cases hl : dir.getLast? with
      | none =>
        rw [List.getLast?_eq_none_iff] at hl
        rw [hl, List.nil_append] at h1
        rw [h1] at ha
        exact absurd (List.all_eq_true.2 fun c hc => h2 c hc) ha
      | some c =>
        have hc : c ≠ '/' := by simpa using h3 c hl
        obtain ⟨d, rfl⟩ := List.getLast?_eq_some_iff.1 hl
        have h4 := hlast h0
        obtain ⟨k, hk⟩ : ∃ k, post.length = k + 1 := by
          cases post with
          | nil =>
            rw [h1] at h4
            simp at h4
            exact absurd h4 hc
          | cons x xs => exact ⟨xs.length, rfl⟩
        rw [hk] at hpost
        rw [hj, hl, h1, hpost]
        split
        · rename_i h; cases h
        · rename_i h; cases h; exact absurd rfl hc
        · exact .inDir d c k base hc hbase

/-- C59: with no option, the file read is the `func_odbc.conf` in the directory of the dialplan
if there is one, and else none; an option names the file, an empty one names none. -/
theorem C59_file (fs : FS) (dialplan : Str) :
    (∃ p, InSameDir (c! "func_odbc.conf") dialplan p ∧
      (odbcFile fs none dialplan = some p ↔ ∃ b, fs p = some b) ∧
      (odbcFile fs none dialplan = none ↔ fs p = none)) ∧
    odbcFile fs (some []) dialplan = none ∧
    ∀ c cs, odbcFile fs (some (c :: cs)) dialplan = some (c :: cs) := by
  refine ⟨⟨_, C14_beside dialplan (c! "func_odbc.conf") (by decide), ?_, ?_⟩, rfl, fun _ _ => rfl⟩
  · unfold odbcFile
    cases h : fs (pathJoin (dirname dialplan) (c! "func_odbc.conf")) <;> simp [h]
  · unfold odbcFile
    cases h : fs (pathJoin (dirname dialplan) (c! "func_odbc.conf")) <;> simp [h]

/-- A dialplan with doubled slashes. -/
example : InSameDir (c! "func_odbc.conf") (c! "/etc//asterisk//x.conf") (c! "/etc//asterisk/func_odbc.conf") :=
  .inDir (c! "/etc//asteris") 'k' 1 (c! "x.conf") (by decide) (by decide)

end ALint.Props
