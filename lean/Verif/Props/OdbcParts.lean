import Verif.Proofs.OdbcParts
import Verif.Props.Sections

/-!
# C128: the order of the functions of a func_odbc.conf
-/

namespace ALint.Props
open ALint Spec Proofs

/-- C128: if the sections of a func_odbc.conf are put in another order, the file is read all the same, the same is said but for the order,
line numbers, terminators and blank lines, the same functions are read, and the same functions are known afterwards (but for capital
and small letters in the names of functions that are defined more than once). -/
theorem C128_moved (fs fs' : FS) (env env1 : FEnv) (n : Nat) (path : Str) (pre : Bytes) (parts parts' : List Bytes)
    (hm : PartsMoved fs fs' path pre parts parts') (log : List Msg) (fns : List OdbcFn)
    (h : loadOdbc fs env n path (pre ++ parts.flatten) = ⟨log, .ok (some (env1, fns))⟩) :
    ∃ k log' env2 fns', (∀ n', k ≤ n' → loadOdbc fs' env n' path (pre ++ parts'.flatten) = ⟨log', .ok (some (env2, fns'))⟩) ∧
      SameInSomeOrder (substance log) (substance log') ∧ (fns.map fnText).Perm (fns'.map fnText) ∧ KnowsSame env1 env2 := by
  obtain ⟨k, log', env2, fns', h1, h2, h3, h4, -⟩ := odbc_moved hm h
  exact ⟨k, log', env2, fns', h1, h2, h3, h4⟩

/-- C128: if no two functions have the same name but for capital and small letters, exactly the same functions are known. -/
theorem C128_distinct (fs fs' : FS) (env env1 : FEnv) (n : Nat) (path : Str) (pre : Bytes) (parts parts' : List Bytes)
    (hm : PartsMoved fs fs' path pre parts parts') (log : List Msg) (fns : List OdbcFn)
    (h : loadOdbc fs env n path (pre ++ parts.flatten) = ⟨log, .ok (some (env1, fns))⟩)
    (hd : (fns.map fun f => env.lower f.funcName).Nodup) :
    ∃ k log' fns', (∀ n', k ≤ n' → loadOdbc fs' env n' path (pre ++ parts'.flatten) = ⟨log', .ok (some (env1, fns'))⟩) ∧
      SameInSomeOrder (substance log) (substance log') := by
  obtain ⟨k, log', env2, fns', h1, h2, -, h4, h5⟩ := odbc_moved hm h
  have e : env2 = env1 := by
    cases env1 with
    | mk lower funcs =>
      cases env2 with
      | mk lower2 funcs2 =>
        have a := h4.lower
        have b := h5 hd
        simp only at a b
        rw [a, b]
  subst e
  exact ⟨k, log', fns', h1, h2⟩

theorem odbc_exit {sh : Shell} (hm : sh.muted = false) {fs : FS} {env : DEnv} {n : Nat} {path : Str} {log : List Msg} {r : FEnv × List OdbcFn}
    {content : Bytes} (hc : fs path = some content) (h : loadOdbc fs env.toFEnv n path content = ⟨log, .ok (some r)⟩) :
    ∃ s, (odbcCheck sh fs env n path).fin = .exit s ∧ (s = 0 ∨ s = 1) ∧ (s = 0 ↔ ∀ m ∈ log, Ignores sh.ignore m.kind.name) := by
  have hr : (opening fs path fun content => finished (loadOdbc fs env.toFEnv n path content) fun r =>
      (.pure (.ok r) : Res (Except Stopped _))) = ⟨log, .ok (.ok r)⟩ := by
    simp only [opening, hc, finished, Res.bind, h, Res.pure, List.append_nil]
  unfold odbcCheck program
  rw [hr]
  refine ⟨_, rfl, ?_, ?_⟩
  · rw [managerAfter_issueAll sh hm]
    obtain ⟨c1, c2⟩ := C20_exit_status sh.ignore log
    by_cases hq : ∀ m ∈ log, classMuted sh.ignore m.kind.name = true
    · exact .inl (c2.2 hq)
    · refine .inr (c1.2 ?_)
      simpa using hq
  · rw [managerAfter_issueAll sh hm, (C20_exit_status _ _).2]
    exact ⟨fun h m hm => (ignores_iff ..).2 (h m hm), fun h m hm => (ignores_iff ..).1 (h m hm)⟩

/-- C128: the exit status of `func_odbc-check` is the same (when messages about terminators and blank lines are ignored). -/
theorem C128_status (sh : Shell) (hmute : sh.muted = false) (hi : IgnoresSpacing sh.ignore) (fs fs' : FS) (env : DEnv) (n : Nat) (path : Str)
    (pre : Bytes) (parts parts' : List Bytes) (hm : PartsMoved fs fs' path pre parts parts') (s : Nat)
    (h : (odbcCheck sh fs env n path).fin = .exit s) : ∃ k, ∀ n', k ≤ n' → (odbcCheck sh fs' env n' path).fin = .exit s := by
  have hv : ∃ log r, loadOdbc fs env.toFEnv n path (pre ++ parts.flatten) = ⟨log, .ok (some r)⟩ := by
    unfold odbcCheck program at h
    dsimp only [opening] at h
    rw [hm.before] at h
    dsimp only [finished] at h
    split at h
    · cases h
    · cases h
    · rename_i a ha
      obtain ⟨o, h1, h2, h3⟩ := Res.bind_ok ha
      cases o with
      | none => cases h2
      | some r => exact ⟨(loadOdbc fs env.toFEnv n path (pre ++ parts.flatten)).log, r, by rw [← h1]⟩
  obtain ⟨log, ⟨env1, fns⟩, hl⟩ := hv
  obtain ⟨k, log', env2, fns', h1, h2, -, -, -⟩ := odbc_moved hm hl
  obtain ⟨s0, e1, e2, e3⟩ := odbc_exit (sh := sh) hmute hm.before hl
  rw [h, CmdEnd.exit.injEq] at e1
  subst e1
  obtain ⟨k1, k2⟩ := order_kinds h2
  refine ⟨k, fun n' hn => ?_⟩
  obtain ⟨s', f1, f2, f3⟩ := odbc_exit (sh := sh) hmute hm.after (h1 n' hn)
  have a : s = 0 → s' = 0 := fun h0 => f3.2 (ignored_of hi k1 (e3.1 h0))
  have b : s' = 0 → s = 0 := fun h0 => e3.2 (ignored_of hi k2 (f3.1 h0))
  rw [f1]
  congr 1
  omega

/-! ## Examples -/

theorem partLines_of {told : List Told} (hh : (told.head?.bind fun x => headerName x.gives).isSome = true)
    (hb : (told.all fun x => x.gives.file?.isNone) = true) : PartLines told where
  header := by
    cases told with
    | nil => cases hh
    | cons x told =>
      simp only [List.head?_cons, Option.bind_some] at hh
      simp only [List.head?_cons, Option.map_some, Option.some.injEq]
      unfold headerName at hh
      split at hh
      · rename_i c hc
        exact ⟨c, hc⟩
      · cases hh
  shut := by
    intro x hx f hf
    have := List.all_eq_true.1 hb x hx
    rw [hf] at this
    cases this

def partPre : Bytes := asciiBytes (c! "; functions\nx=1\n")
def partUser : Bytes := asciiBytes (c! "[USER]\ndsn=a\nprefix=DB\nreadsql=SELECT 1\n\n")
def partGroup : Bytes := asciiBytes (c! "[GROUP]\nfoo=1\nwritesql=SELECT 2;\n")
def partNothing : Bytes := asciiBytes (c! "[NOTHING]\ndsn=c\n")
def partsFile (parts : List Bytes) : FS := fun p => if p = c! "f.conf" then some (partPre ++ parts.flatten) else none

/-- Three sections, one with two complaints, and one without a statement. -/
example : PartsMoved (partsFile [partUser, partGroup, partNothing]) (partsFile [partNothing, partUser, partGroup]) (c! "f.conf") partPre
      [partUser, partGroup, partNothing] [partNothing, partUser, partGroup] ∧
    (∃ log env1 fns, loadOdbc (partsFile [partUser, partGroup, partNothing]) odbcEnv 99 (c! "f.conf")
        (partPre ++ [partUser, partGroup, partNothing].flatten) = ⟨log, .ok (some (env1, fns))⟩ ∧
      log.map (fun m => (m.kind, m.at_.lineno)) = [(.E_CONF_CTX_MISSING, 2), (.W_CONF_KEY_LATE, 5),
        (.E_CONF_KEY_INVALID, 9), (.W_WSH_COMMENT, 10), (.E_ODBC_NOSQL, 11)] ∧
      (fns.map fun f => odbcEnv.lower f.funcName).Nodup) := by
  refine ⟨⟨rfl, rfl, fun q hq => by simp [partsFile, hq], by unfold WholeLines; decide +kernel, by decide +kernel, ?_⟩, ?_⟩
  · intro b hb
    simp only [List.mem_cons, List.not_mem_nil, or_false] at hb
    rcases hb with rfl | rfl | rfl
    · exact textIs_model 2 (by unfold WholeLines; decide +kernel) (by decide +kernel) (partLines_of (by decide +kernel) (by decide +kernel))
    · exact textIs_model 2 (by unfold WholeLines; decide +kernel) (by decide +kernel) (partLines_of (by decide +kernel) (by decide +kernel))
    · exact textIs_model 2 (by unfold WholeLines; decide +kernel) (by decide +kernel) (partLines_of (by decide +kernel) (by decide +kernel))
  · refine ⟨_, _, _, rfl, ?_⟩
    decide +kernel

/-- Why letters matter: of two functions with the same name the last one counts. -/
example : ∃ a b, ((loadText (c! "[A]\nreadsql=SELECT 1\n[a]\nreadsql=SELECT 1\n")).val.toOption.bind id) = some a ∧
    ((loadText (c! "[a]\nreadsql=SELECT 1\n[A]\nreadsql=SELECT 1\n")).val.toOption.bind id) = some b ∧
    (a.1.funcs (c! "odbc_a")).map (·.name) = some (c! "ODBC_a") ∧ (b.1.funcs (c! "odbc_a")).map (·.name) = some (c! "ODBC_A") := by
  refine ⟨_, _, rfl, rfl, ?_⟩
  decide +kernel

end ALint.Props
