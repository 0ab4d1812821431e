import Verif.Proofs.OdbcOrder
import Verif.Props.OdbcIdle

/-!
# C131: the order of the settings of a function
-/

namespace ALint.Props
open ALint Spec Proofs

/-- C131: if two groups of settings with different names change places, the file is still read, the same functions are known, with
the same value of every setting, and the same is said, but for the warnings that a setting should come earlier. -/
theorem C131_swapped (fs fs' : FS) (env env1 : FEnv) (n : Nat) (path : Str) (above one two rest : Bytes) (hs : PartsSwapped fs fs' path above one two rest)
    (names names' : List Str) (hd : ∀ k ∈ names, k ∉ names') (h1 : TextIs fs path one (SettingLines names)) (h2 : TextIs fs path two (SettingLines names'))
    (log : List Msg) (fns : List OdbcFn) (h : loadOdbc fs env n path (above ++ (one ++ (two ++ rest))) = ⟨log, .ok (some (env1, fns))⟩) :
    ∃ k log' fns', (∀ n', k ≤ n' → loadOdbc fs' env n' path (above ++ (two ++ (one ++ rest))) = ⟨log', .ok (some (env1, fns'))⟩) ∧
      SameInSomeOrder (butLate (substance log)) (butLate (substance log')) ∧ fns'.map fnValues = fns.map fnValues :=
  odbc_swapped hd hs h1 h2 h

theorem ignored_butLate {ignore : Str} (hl : Ignores ignore MK.W_CONF_KEY_LATE.name) {l l' : List Msg} (h : KindsOf (butLate l) (butLate l'))
    (ha : AllIgnored ignore l) : AllIgnored ignore l' := by
  intro m hm
  by_cases hk : m.kind = .W_CONF_KEY_LATE
  · rw [hk]; exact hl
  · obtain ⟨m', h1, h2⟩ := h m (List.mem_filter.2 ⟨hm, by simp [hk]⟩)
    exact h2 ▸ ha m' (List.mem_filter.1 h1).1

/-- C131: the exit status of `func_odbc-check` is the same, when these warnings, and messages about terminators and blank lines, are ignored. -/
theorem C131_status (sh : Shell) (hm : sh.muted = false) (hi : IgnoresSpacing sh.ignore) (hl : Ignores sh.ignore MK.W_CONF_KEY_LATE.name) (fs fs' : FS)
    (env : DEnv) (n : Nat) (path : Str) (above one two rest : Bytes) (hs : PartsSwapped fs fs' path above one two rest)
    (names names' : List Str) (hd : ∀ k ∈ names, k ∉ names') (h1 : TextIs fs path one (SettingLines names)) (h2 : TextIs fs path two (SettingLines names'))
    (s : Nat) (h : (odbcCheck sh fs env n path).fin = .exit s) : ∃ k, ∀ n', k ≤ n' → (odbcCheck sh fs' env n' path).fin = .exit s := by
  obtain ⟨log, st, hr, -⟩ := odbc_status hm hs.before h
  obtain ⟨env1, fns⟩ := st
  obtain ⟨k, log', fns', g1, g2, -⟩ := odbc_swapped hd hs h1 h2 hr
  obtain ⟨k1, k2⟩ := order_kinds g2
  obtain ⟨s0, e1, e2, e3⟩ := odbc_exit (sh := sh) hm hs.before hr
  rw [h, CmdEnd.exit.injEq] at e1
  subst e1
  refine ⟨k, fun n' hn => ?_⟩
  obtain ⟨s', f1, f2, f3⟩ := odbc_exit (sh := sh) hm hs.after (g1 n' hn)
  have : s = 0 ↔ s' = 0 := ⟨fun h0 => f3.2 (ignored_all hi (ignored_butLate hl k1 fun m hm => e3.1 h0 m (List.mem_filter.1 hm).1)),
    fun h0 => e3.2 (ignored_all hi (ignored_butLate hl k2 fun m hm => f3.1 h0 m (List.mem_filter.1 hm).1))⟩
  rw [f1]
  congr 1
  omega

/-- C131: the same for dialplan-check, if the file has the definitions of functions for the dialplan, and is not part of it. -/
theorem C131_dialplan (sh : Shell) (hm : sh.muted = false) (hi : IgnoresSpacing sh.ignore) (hl : Ignores sh.ignore MK.W_CONF_KEY_LATE.name) (fs fs' : FS)
    (env : DEnv) (n : Nat) (arg : Option Str) (path o : Str) (hat : OdbcAt arg path o) (hap : ¬ Touches fs path o)
    (above one two rest : Bytes) (hs : PartsSwapped fs fs' o above one two rest)
    (names names' : List Str) (hd : ∀ k ∈ names, k ∉ names') (h1 : TextIs fs o one (SettingLines names)) (h2 : TextIs fs o two (SettingLines names'))
    (s : Nat) (h : (dialplanCheck sh fs env n arg path).fin = .exit s) : ∃ k, ∀ n', k ≤ n' → (dialplanCheck sh fs' env n' arg path).fin = .exit s := by
  obtain ⟨k, s', l, l', g1, e1, e2, g2, g3, g4⟩ := dialplanChecks_by hm hi hat hap hs.others hs.before hs.after
    (R := fun l l' => SameInSomeOrder (butLate l) (butLate l')) (fun log st hl => by
      obtain ⟨env1, fns⟩ := st
      obtain ⟨k, log', fns', h1, h2, -⟩ := odbc_swapped hd hs h1 h2 hl
      exact ⟨k, log', _, h1, rfl, h2⟩) h
  obtain ⟨k1, k2⟩ := order_kinds g2
  have a := g3 (ignored_butLate hl k1)
  have b := g4 (ignored_butLate hl k2)
  have : s' = s := by omega
  exact ⟨k, this ▸ g1⟩

/-! ## Example -/

def ordOne : Str := c! "readsql=SELECT 1\nfoo=1\n"
def ordTwo : Str := c! "dsn=x\n; note\n"
def ordLate : FS := odFiles (ordOne ++ ordTwo)
def ordEarly : FS := odFiles (ordTwo ++ ordOne)

theorem ord_one : TextIs ordLate (c! "f.conf") (asciiBytes ordOne) (SettingLines [c! "readsql", c! "foo"]) :=
  textIs_model 1 (by unfold WholeLines; decide +kernel) (by decide +kernel) (by
    rw [show modelTold ordLate (c! "f.conf") 1 (asciiBytes ordOne) =
      [⟨⟨c! "f.conf", 2, asciiBytes (c! "readsql=SELECT 1\n")⟩, [],
         .elem (.var ⟨c! "readsql", c! "SELECT 1", false, false, ⟨c! "f.conf", 2, asciiBytes (c! "readsql=SELECT 1\n")⟩⟩)⟩,
       ⟨⟨c! "f.conf", 3, asciiBytes (c! "foo=1\n")⟩, [],
         .elem (.var ⟨c! "foo", c! "1", false, false, ⟨c! "f.conf", 3, asciiBytes (c! "foo=1\n")⟩⟩)⟩] by rfl]
    intro x hx
    simp only [List.mem_cons, List.not_mem_nil, or_false] at hx
    rcases hx with rfl | rfl <;> exact .inr (.inr ⟨_, rfl, by decide⟩))

theorem ord_two : TextIs ordLate (c! "f.conf") (asciiBytes ordTwo) (SettingLines [c! "dsn"]) :=
  textIs_model 3 (by unfold WholeLines; decide +kernel) (by decide +kernel) (by
    rw [show modelTold ordLate (c! "f.conf") 3 (asciiBytes ordTwo) =
      [⟨⟨c! "f.conf", 4, asciiBytes (c! "dsn=x\n")⟩, [],
         .elem (.var ⟨c! "dsn", c! "x", false, false, ⟨c! "f.conf", 4, asciiBytes (c! "dsn=x\n")⟩⟩)⟩,
       ⟨⟨c! "f.conf", 5, asciiBytes (c! "; note\n")⟩, [], .elem (.empty true ⟨c! "f.conf", 5, asciiBytes (c! "; note\n")⟩)⟩] by rfl]
    intro x hx
    simp only [List.mem_cons, List.not_mem_nil, or_false] at hx
    rcases hx with rfl | rfl
    · exact .inr (.inr ⟨_, rfl, by decide⟩)
    · exact .inr (.inl ⟨_, _, rfl⟩))

def ordBytes (fs : FS) : Bytes := (fs (c! "f.conf")).getD []

-- the hypotheses
example : PartsSwapped ordLate ordEarly (c! "f.conf") (asciiBytes odPre) (asciiBytes ordOne) (asciiBytes ordTwo) (asciiBytes odPost) ∧
    (∀ k ∈ [c! "readsql", c! "foo"], k ∉ [c! "dsn"]) ∧
    TextIs ordLate (c! "f.conf") (asciiBytes ordOne) (SettingLines [c! "readsql", c! "foo"]) ∧
    TextIs ordLate (c! "f.conf") (asciiBytes ordTwo) (SettingLines [c! "dsn"]) ∧
    loadedAnd (fun fns => fns.length = 2) (loadOdbc ordLate odbcEnv 99 (c! "f.conf") (ordBytes ordLate)) = true :=
  ⟨⟨by decide +kernel, by decide +kernel, by intro q hq; simp [ordLate, ordEarly, odFiles, hq], by unfold WholeLines; decide +kernel⟩, by decide,
    ord_one, ord_two, by decide +kernel⟩

def ordSays (fs : FS) : List (MK × Int) :=
  (loadOdbc fs odbcEnv 99 (c! "f.conf") (ordBytes fs)).log.map fun m => (m.kind, m.at_.lineno)

-- the warning appears in one of the files only, and the other messages in both
example : ordSays ordLate = [(.E_CONF_KEY_INVALID, 3), (.W_CONF_KEY_LATE, 4), (.E_CONF_KEY_INVALID, 6), (.H_WSV_CTX_BETWEEN, 7), (.E_ODBC_NOSQL, 7)] ∧
    ordSays ordEarly = [(.E_CONF_KEY_INVALID, 5), (.E_CONF_KEY_INVALID, 6), (.H_WSV_CTX_BETWEEN, 7), (.E_ODBC_NOSQL, 7)] := by
  refine ⟨?_, ?_⟩ <;> decide +kernel

def ordWords : Str := c! "H_WSV_,W_WSV_,W_FILE_DOS_,W_FILE_UNIX_,W_CONF_KEY_LATE,E_CONF_,E_ODBC_,H_DP_"

-- the hypotheses of `C131_status` and `C131_dialplan`, and the status; where the warning counts it is different
example : (statusShell ordWords).muted = false ∧ IgnoresSpacing (statusShell ordWords).ignore ∧
    Ignores (statusShell ordWords).ignore MK.W_CONF_KEY_LATE.name ∧
    OdbcAt (some (c! "f.conf")) (c! "e.conf") (c! "f.conf") ∧ ¬ Touches ordLate (c! "e.conf") (c! "f.conf") ∧
    (odbcCheck (statusShell ordWords) ordLate odEnv 99 (c! "f.conf")).fin = .exit 0 ∧
    (dialplanCheck (statusShell ordWords) ordLate odEnv 99 (some (c! "f.conf")) (c! "e.conf")).fin = .exit 0 ∧
    (odbcCheck odShell ordLate odEnv 99 (c! "f.conf")).fin = .exit 1 ∧
    (odbcCheck odShell ordEarly odEnv 99 (c! "f.conf")).fin = .exit 0 :=
  ⟨rfl, ignores_words (by intro k hk; cases k <;> first | rfl | cases hk), (ignores_iff ..).2 (by decide +kernel), .named _ rfl (by decide),
    example_od_apart _, by decide +kernel, by decide +kernel, by decide +kernel, by decide +kernel⟩

/-! ## An example for C128_dialplan -/

def movA : Bytes := asciiBytes (c! "[A]\nreadsql=SELECT 1\nfoo=2\n")
def movB : Bytes := asciiBytes (c! "[B]\ndsn=c\n")
def movBefore : FS := odFiles (c! "readsql=SELECT 1\n")
def movAfter : FS := fun p => if p = c! "f.conf" then some ([] ++ [movB, movA].flatten) else movBefore p

example : PartsMoved movBefore movAfter (c! "f.conf") [] [movA, movB] [movB, movA] ∧
    OdbcAt (some (c! "f.conf")) (c! "e.conf") (c! "f.conf") ∧ ¬ Touches movBefore (c! "e.conf") (c! "f.conf") ∧
    (∀ r, (loadOdbc movBefore odEnv.toFEnv 99 (c! "f.conf") ([] ++ [movA, movB].flatten)).val = .ok (some r) →
      (r.2.map fun f => odEnv.lower f.funcName).Nodup) ∧ odShell.muted = false ∧ IgnoresSpacing odShell.ignore ∧
    (dialplanCheck odShell movBefore odEnv 99 (some (c! "f.conf")) (c! "e.conf")).fin = .exit 0 ∧
    (dialplanCheck odShell movAfter odEnv 99 (some (c! "f.conf")) (c! "e.conf")).fin = .exit 0 := by
  refine ⟨⟨by decide +kernel, by decide +kernel, fun q hq => by simp [movAfter, hq], by unfold WholeLines; decide +kernel, .swap .., ?_⟩,
    .named _ rfl (by decide), example_od_apart _, ?_, rfl, ignores_words (by intro k hk; cases k <;> first | rfl | cases hk),
    by decide +kernel, by decide +kernel⟩
  · intro b hb
    simp only [List.mem_cons, List.not_mem_nil, or_false] at hb
    rcases hb with rfl | rfl
    · exact textIs_model 0 (by unfold WholeLines; decide +kernel) (by decide +kernel) (partLines_of (by decide +kernel) (by decide +kernel))
    · exact textIs_model 0 (by unfold WholeLines; decide +kernel) (by decide +kernel) (partLines_of (by decide +kernel) (by decide +kernel))
  · obtain ⟨log, st, h1, h2⟩ := loaded_of (p := fun fns => decide (fns.map fun f => odEnv.lower f.funcName).Nodup)
      (r := loadOdbc movBefore odEnv.toFEnv 99 (c! "f.conf") ([] ++ [movA, movB].flatten)) (by decide +kernel)
    intro r hr
    rw [h1] at hr
    have e := Option.some.inj (Except.ok.inj hr)
    exact e ▸ of_decide_eq_true h2

end ALint.Props
