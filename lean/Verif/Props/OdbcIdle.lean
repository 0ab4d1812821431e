import Verif.Proofs.OdbcIdle
import Verif.Props.OdbcSplice

/-!
# C130: settings of a func_odbc.conf that are disregarded
-/

namespace ALint.Props
open ALint Spec Proofs

/-- C130: settings that are disregarded can be taken out: the messages about them disappear, and nothing else changes. -/
theorem C130_taken (fs fs' : FS) (env : FEnv) (n n0 : Nat) (path : Str) (above part rest : Bytes)
    (hp : PartAbsent fs fs' path above part rest) (log0 log : List Msg) (st0 st : FEnv × List OdbcFn)
    (h0 : loadOdbc fs env n0 path above = ⟨log0, .ok (some st0)⟩) (hd : TextIs fs path part (OdbcDisregardedLines st0.2))
    (h : loadOdbc fs env n path (above ++ (part ++ rest)) = ⟨log, .ok (some st)⟩) :
    ∃ k log' st', (∀ n', k ≤ n' → loadOdbc fs' env n' path (above ++ rest) = ⟨log', .ok (some st')⟩) ∧
      LinesLess (linesFrom path (physLines above).length (physLines part)) (substance log) (substance log') ∧
      loadedText st' = loadedText st :=
  odbc_taken hp h0 hd h

/-- C130: such settings can be put in: there are messages about them, and nothing else changes. -/
theorem C130_added (fs fs' : FS) (env : FEnv) (n n0 : Nat) (path : Str) (above part rest : Bytes)
    (hp : PartAbsent fs fs' path above part rest) (log0 log' : List Msg) (st0 st' : FEnv × List OdbcFn)
    (h0 : loadOdbc fs' env n0 path above = ⟨log0, .ok (some st0)⟩) (hd : TextIs fs path part (OdbcDisregardedLines st0.2))
    (h : loadOdbc fs' env n path (above ++ rest) = ⟨log', .ok (some st')⟩) :
    ∃ k log st, (∀ n', k ≤ n' → loadOdbc fs env n' path (above ++ (part ++ rest)) = ⟨log, .ok (some st)⟩) ∧
      LinesLess (linesFrom path (physLines above).length (physLines part)) (substance log) (substance log') ∧
      loadedText st = loadedText st' :=
  odbc_added hp h0 hd h

/-! ## The exit status -/

/-- C130: where such settings are taken out, a func_odbc-check that found nothing still finds nothing. -/
theorem C130_status_taken (sh : Shell) (hm : sh.muted = false) (hi : IgnoresSpacing sh.ignore) (fs fs' : FS) (env : DEnv) (n n0 : Nat)
    (path : Str) (above part rest : Bytes) (hp : PartAbsent fs fs' path above part rest) (log0 : List Msg) (st0 : FEnv × List OdbcFn)
    (h0 : loadOdbc fs env.toFEnv n0 path above = ⟨log0, .ok (some st0)⟩) (hd : TextIs fs path part (OdbcDisregardedLines st0.2))
    (h : (odbcCheck sh fs env n path).fin = .exit 0) : ∃ k, ∀ n', k ≤ n' → (odbcCheck sh fs' env n' path).fin = .exit 0 := by
  obtain ⟨k, s', l, l', h1, -, h3, h4, -⟩ := odbcChecks_so hm hi hp.present hp.absent
    (R := LinesLess (linesFrom path (physLines above).length (physLines part))) (fun log st hl => by
      obtain ⟨k, log', st', h1, h2, h3⟩ := odbc_taken hp h0 hd hl
      exact ⟨k, log', st', h1, (Prod.mk.inj h3).1, h2⟩) h
  exact ⟨k, h4 (less_kinds h3) rfl ▸ h1⟩

/-- C130: where such settings are put in, a func_odbc-check that found something still does. -/
theorem C130_status_added (sh : Shell) (hm : sh.muted = false) (hi : IgnoresSpacing sh.ignore) (fs fs' : FS) (env : DEnv) (n n0 : Nat)
    (path : Str) (above part rest : Bytes) (hp : PartAbsent fs fs' path above part rest) (log0 : List Msg) (st0 : FEnv × List OdbcFn)
    (h0 : loadOdbc fs' env.toFEnv n0 path above = ⟨log0, .ok (some st0)⟩) (hd : TextIs fs path part (OdbcDisregardedLines st0.2))
    (h : (odbcCheck sh fs' env n path).fin = .exit 1) : ∃ k, ∀ n', k ≤ n' → (odbcCheck sh fs env n' path).fin = .exit 1 := by
  obtain ⟨k, s', l, l', h1, h2, h3, -, h4⟩ := odbcChecks_so hm hi hp.absent hp.present
    (R := fun l l' => LinesLess (linesFrom path (physLines above).length (physLines part)) l' l) (fun log st hl => by
      obtain ⟨k, log', st', h1, h2, h3⟩ := odbc_added hp h0 hd hl
      exact ⟨k, log', st', h1, (Prod.mk.inj h3).1, h2⟩) h
  have a := h4 (less_kinds h3)
  have : s' = 1 := by omega
  exact ⟨k, this ▸ h1⟩

/-- C130: the same for dialplan-check, if the file has the definitions of functions for the dialplan, and is not part of it. -/
theorem C130_dialplan_taken (sh : Shell) (hm : sh.muted = false) (hi : IgnoresSpacing sh.ignore) (fs fs' : FS) (env : DEnv) (n n0 : Nat)
    (arg : Option Str) (path o : Str) (hat : OdbcAt arg path o) (hap : ¬ Touches fs path o)
    (above part rest : Bytes) (hp : PartAbsent fs fs' o above part rest) (log0 : List Msg) (st0 : FEnv × List OdbcFn)
    (h0 : loadOdbc fs env.toFEnv n0 o above = ⟨log0, .ok (some st0)⟩) (hd : TextIs fs o part (OdbcDisregardedLines st0.2))
    (h : (dialplanCheck sh fs env n arg path).fin = .exit 0) : ∃ k, ∀ n', k ≤ n' → (dialplanCheck sh fs' env n' arg path).fin = .exit 0 := by
  obtain ⟨k, s', l, l', h1, -, -, h3, h4, -⟩ := dialplanChecks_so hm hi hat hap hp.others hp.present hp.absent
    (R := LinesLess (linesFrom o (physLines above).length (physLines part))) (fun log st hl => by
      obtain ⟨k, log', st', h1, h2, h3⟩ := odbc_taken hp h0 hd hl
      exact ⟨k, log', st', h1, (Prod.mk.inj h3).1, h2⟩) h
  exact ⟨k, h4 (less_kinds h3) rfl ▸ h1⟩

theorem C130_dialplan_added (sh : Shell) (hm : sh.muted = false) (hi : IgnoresSpacing sh.ignore) (fs fs' : FS) (env : DEnv) (n n0 : Nat)
    (arg : Option Str) (path o : Str) (hat : OdbcAt arg path o) (hap : ¬ Touches fs' path o)
    (above part rest : Bytes) (hp : PartAbsent fs fs' o above part rest) (log0 : List Msg) (st0 : FEnv × List OdbcFn)
    (h0 : loadOdbc fs' env.toFEnv n0 o above = ⟨log0, .ok (some st0)⟩) (hd : TextIs fs o part (OdbcDisregardedLines st0.2))
    (h : (dialplanCheck sh fs' env n arg path).fin = .exit 1) : ∃ k, ∀ n', k ≤ n' → (dialplanCheck sh fs env n' arg path).fin = .exit 1 := by
  obtain ⟨k, s', l, l', h1, -, h2, h3, -, h4⟩ := dialplanChecks_so hm hi hat hap (fun q hq => (hp.others q hq).symm) hp.absent hp.present
    (R := fun l l' => LinesLess (linesFrom o (physLines above).length (physLines part)) l' l) (fun log st hl => by
      obtain ⟨k, log', st', h1, h2, h3⟩ := odbc_added hp h0 hd hl
      exact ⟨k, log', st', h1, (Prod.mk.inj h3).1, h2⟩) h
  have a := h4 (less_kinds h3)
  have : s' = 1 := by omega
  exact ⟨k, this ▸ h1⟩

/-! ## Example -/

def idleAbove : Str := c! "[A]\nreadsql=SELECT 1\n"
def idleLines : Str := c! "foo=1\nreadsql=SELECT 2;\n\n"
def idleRest : Str := c! "readsql=SELECT 3\n[B]\nwritesql=SELECT 4\n"
def idleWith : Bytes := asciiBytes idleAbove ++ (asciiBytes idleLines ++ asciiBytes idleRest)
def idleWithout : Bytes := asciiBytes idleAbove ++ asciiBytes idleRest

theorem idle_lines (fns : List OdbcFn) (f : OdbcFn) (hf : fns.getLast? = some f) (hs : ∃ u ∈ f.sets, u.key = c! "readsql") :
    TextIs (oneFile idleWith) (c! "e.conf") (asciiBytes idleLines) (OdbcDisregardedLines fns) :=
  textIs_model 2 (by unfold WholeLines; decide +kernel) (by decide +kernel) (by
    rw [show modelTold (oneFile idleWith) (c! "e.conf") 2 (asciiBytes idleLines) =
      [⟨⟨c! "e.conf", 3, asciiBytes (c! "foo=1\n")⟩, [],
         .elem (.var ⟨c! "foo", c! "1", false, false, ⟨c! "e.conf", 3, asciiBytes (c! "foo=1\n")⟩⟩)⟩,
       ⟨⟨c! "e.conf", 4, asciiBytes (c! "readsql=SELECT 2;\n")⟩, [⟨.W_WSH_COMMENT, ⟨c! "e.conf", 4, asciiBytes (c! "readsql=SELECT 2;\n")⟩, [], none⟩],
         .elem (.var ⟨c! "readsql", c! "SELECT 2", false, true, ⟨c! "e.conf", 4, asciiBytes (c! "readsql=SELECT 2;\n")⟩⟩)⟩,
       ⟨⟨c! "e.conf", 5, asciiBytes (c! "\n")⟩, [], .elem (.empty false ⟨c! "e.conf", 5, asciiBytes (c! "\n")⟩)⟩] by rfl]
    intro x hx
    simp only [List.mem_cons, List.not_mem_nil, or_false] at hx
    rcases hx with rfl | rfl | rfl
    · exact .inr (.inr ⟨_, rfl, .inr (.inl (by decide))⟩)
    · exact .inr (.inr ⟨_, rfl, .inr (.inr ⟨f, hf, hs⟩)⟩)
    · exact .inr (.inl ⟨_, _, rfl⟩))

def loadedAnd (p : List OdbcFn → Bool) (r : Res (Option (FEnv × List OdbcFn))) : Bool :=
  match r.val with
  | .ok (some st) => p st.2
  | _ => false

theorem loaded_of {p : List OdbcFn → Bool} {r : Res (Option (FEnv × List OdbcFn))} (h : loadedAnd p r = true) :
    ∃ log st, r = ⟨log, .ok (some st)⟩ ∧ p st.2 = true := by
  obtain ⟨log, v⟩ := r
  unfold loadedAnd at h
  dsimp only at h
  split at h
  · exact ⟨log, _, rfl, h⟩
  · cases h

def hasReadsql (fns : List OdbcFn) : Bool := fns.getLast?.any fun f => f.sets.any (·.key == c! "readsql")

theorem idle_lines_of {fns : List OdbcFn} (h : hasReadsql fns = true) :
    TextIs (oneFile idleWith) (c! "e.conf") (asciiBytes idleLines) (OdbcDisregardedLines fns) := by
  unfold hasReadsql at h
  cases hf : fns.getLast? with
  | none => rw [hf] at h; cases h
  | some f =>
    rw [hf] at h
    simp only [Option.any_some, List.any_eq_true, beq_iff_eq] at h
    exact idle_lines fns f hf h

-- the hypotheses
example : PartAbsent (oneFile idleWith) (oneFile idleWithout) (c! "e.conf") (asciiBytes idleAbove) (asciiBytes idleLines) (asciiBytes idleRest) ∧
    (∃ log0 st0, loadOdbc (oneFile idleWith) odbcEnv 99 (c! "e.conf") (asciiBytes idleAbove) = ⟨log0, .ok (some st0)⟩ ∧
      TextIs (oneFile idleWith) (c! "e.conf") (asciiBytes idleLines) (OdbcDisregardedLines st0.2)) ∧
    (∃ log0 st0, loadOdbc (oneFile idleWithout) odbcEnv 99 (c! "e.conf") (asciiBytes idleAbove) = ⟨log0, .ok (some st0)⟩ ∧
      TextIs (oneFile idleWith) (c! "e.conf") (asciiBytes idleLines) (OdbcDisregardedLines st0.2)) ∧
    loadedAnd (fun fns => fns.length = 2) (loadOdbc (oneFile idleWith) odbcEnv 99 (c! "e.conf") idleWith) = true ∧
    loadedAnd (fun fns => fns.length = 2) (loadOdbc (oneFile idleWithout) odbcEnv 99 (c! "e.conf") idleWithout) = true := by
  refine ⟨lost_absent _ _ _ (by unfold WholeLines; decide +kernel), ?_, ?_, by decide +kernel, by decide +kernel⟩
  · obtain ⟨log, st, h1, h2⟩ := loaded_of (p := hasReadsql)
      (r := loadOdbc (oneFile idleWith) odbcEnv 99 (c! "e.conf") (asciiBytes idleAbove)) (by decide +kernel)
    exact ⟨log, st, h1, idle_lines_of h2⟩
  · obtain ⟨log, st, h1, h2⟩ := loaded_of (p := hasReadsql)
      (r := loadOdbc (oneFile idleWithout) odbcEnv 99 (c! "e.conf") (asciiBytes idleAbove)) (by decide +kernel)
    exact ⟨log, st, h1, idle_lines_of h2⟩

-- what is said with and without the lines
example : (loadOdbc (oneFile idleWith) odbcEnv 99 (c! "e.conf") idleWith).log.map (fun m => (m.kind, m.at_.lineno, m.previous.map (·.lineno))) =
      [(.E_CONF_KEY_INVALID, 3, none), (.W_WSH_COMMENT, 4, none), (.E_CONF_KEY_DUPE, 4, some 2), (.E_CONF_KEY_DUPE, 6, some 2),
        (.H_WSV_CTX_BETWEEN, 7, none)] ∧
    (loadOdbc (oneFile idleWithout) odbcEnv 99 (c! "e.conf") idleWithout).log.map (fun m => (m.kind, m.at_.lineno, m.previous.map (·.lineno))) =
      [(.E_CONF_KEY_DUPE, 3, some 2)] := by
  refine ⟨?_, ?_⟩ <;> decide +kernel

end ALint.Props
