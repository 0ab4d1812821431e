import Verif.Proofs.OdbcWithout
import Verif.Props.OdbcOrder

/-!
# C132: a func_odbc.conf without one of its functions
-/

namespace ALint.Props
open ALint Spec Proofs

/-- C132: if a section is taken out, the file is still read, the messages about its lines disappear and no others, the other functions
are read as before, and nothing but the name of this function is known otherwise than before; this name is known as it was before reading,
unless another function of the file has it. -/
theorem C132_without (fs fs' : FS) (env env1 : FEnv) (n : Nat) (path : Str) (above part rest : Bytes) (hp : PartAbsent fs fs' path above part rest)
    (h1 : TextIs fs path part OneSection) (hn : SectionNext fs path rest)
    (log : List Msg) (fns : List OdbcFn) (h : loadOdbc fs env n path (above ++ (part ++ rest)) = ⟨log, .ok (some (env1, fns))⟩) :
    ∃ k log' env2 fns', (∀ n', k ≤ n' → loadOdbc fs' env n' path (above ++ rest) = ⟨log', .ok (some (env2, fns'))⟩) ∧
      SectionLess (linesFrom path (physLines above).length (physLines part)) (substance log) (substance log') ∧
      ∃ a f c, fns = a ++ f :: c ∧ f.at_ ∈ linesFrom path (physLines above).length (physLines part) ∧
        fns'.map fnText = (a ++ c).map fnText ∧ env2.lower = env1.lower ∧ (∀ k, k ≠ env.lower f.funcName → env2.funcs k = env1.funcs k) ∧
        ((∀ g ∈ a ++ c, env.lower g.funcName ≠ env.lower f.funcName) → env2.funcs (env.lower f.funcName) = env.funcs (env.lower f.funcName)) :=
  odbc_without hp h1 hn h

/-- C132: a func_odbc-check that found nothing still finds nothing. -/
theorem C132_status (sh : Shell) (hm : sh.muted = false) (hi : IgnoresSpacing sh.ignore) (fs fs' : FS)
    (env : DEnv) (n : Nat) (path : Str) (above part rest : Bytes) (hp : PartAbsent fs fs' path above part rest)
    (h1 : TextIs fs path part OneSection) (hn : SectionNext fs path rest)
    (h : (odbcCheck sh fs env n path).fin = .exit 0) : ∃ k, ∀ n', k ≤ n' → (odbcCheck sh fs' env n' path).fin = .exit 0 := by
  obtain ⟨log, ⟨env1, fns⟩, hr, -⟩ := odbc_status hm hp.present h
  obtain ⟨k, log', env2, fns', g1, ⟨about, -, g2⟩, -⟩ := odbc_without hp h1 hn hr
  obtain ⟨s0, e1, e2, e3⟩ := odbc_exit (sh := sh) hm hp.present hr
  rw [h, CmdEnd.exit.injEq] at e1
  refine ⟨k, fun n' hn' => ?_⟩
  obtain ⟨s', f1, f2, f3⟩ := odbc_exit (sh := sh) hm hp.absent (g1 n' hn')
  rw [f1, f3.2 (ignored_of hi (fun m hm => (order_kinds g2).1 m (List.mem_append_right _ hm)) (e3.1 e1.symm))]

/-! ## Examples -/

theorem oneSection_of {told : List Told} (hh : (told.head?.bind fun x => headerName x.gives).isSome = true)
    (hb : (told.tail.all fun x => x.gives.file?.isNone && (headerName x.gives).isNone) = true) : OneSection told := by
  cases told with
  | nil => cases hh
  | cons x xs =>
    refine ⟨x, xs, rfl, ?_, fun y hy => ?_⟩
    · simp only [List.head?_cons, Option.bind_some] at hh
      unfold headerName at hh
      split at hh
      · rename_i c hc
        exact ⟨c, hc⟩
      · cases hh
    · have := List.all_eq_true.1 hb y hy
      simp only [Bool.and_eq_true] at this
      refine ⟨fun f hf => ?_, fun ⟨c, hc⟩ => ?_⟩
      · rw [hf] at this; exact absurd this.1 (by simp [Gives.file?])
      · rw [hc] at this; exact absurd this.2 (by simp [headerName])

theorem mov_A : TextIs movBefore (c! "f.conf") movA OneSection :=
  textIs_model 0 (by unfold WholeLines; decide +kernel) (by decide +kernel) (oneSection_of (by decide +kernel) (by decide +kernel))

theorem mov_B : TextIs movBefore (c! "f.conf") movB OneSection :=
  textIs_model 3 (by unfold WholeLines; decide +kernel) (by decide +kernel) (oneSection_of (by decide +kernel) (by decide +kernel))

def movOnly (b : Bytes) : FS := fun p => if p = c! "f.conf" then some b else movBefore p

-- the hypotheses: the first of two sections
example : PartAbsent movBefore (movOnly movB) (c! "f.conf") [] movA movB ∧ TextIs movBefore (c! "f.conf") movA OneSection ∧
    SectionNext movBefore (c! "f.conf") movB ∧
    loadedAnd (fun fns => fns.map (·.name) = [c! "A", c! "B"]) (loadOdbc movBefore odbcEnv 99 (c! "f.conf") ([] ++ (movA ++ movB))) = true :=
  ⟨⟨by decide +kernel, by decide +kernel, fun q hq => by simp [movOnly, hq], by unfold WholeLines; decide +kernel⟩, mov_A,
    .inr ⟨movB, [], by simp, mov_B⟩, by decide +kernel⟩

-- the hypotheses: the last section
example : PartAbsent movBefore (movOnly movA) (c! "f.conf") movA movB [] ∧ TextIs movBefore (c! "f.conf") movB OneSection ∧
    SectionNext movBefore (c! "f.conf") [] ∧
    loadedAnd (fun fns => fns.map (·.name) = [c! "A", c! "B"]) (loadOdbc movBefore odbcEnv 99 (c! "f.conf") (movA ++ (movB ++ []))) = true :=
  ⟨⟨by decide +kernel, by decide +kernel, fun q hq => by simp [movOnly, hq], by unfold WholeLines; decide +kernel⟩, mov_B, .inl rfl, by decide +kernel⟩

-- what is said
example : (substance (loadOdbc movBefore odbcEnv 99 (c! "f.conf") (movA ++ movB)).log).map (fun m => (m.kind, m.at_.lineno)) =
      [(.E_CONF_KEY_INVALID, 3), (.E_ODBC_NOSQL, 4)] ∧
    (substance (loadOdbc (movOnly movB) odbcEnv 99 (c! "f.conf") movB).log).map (fun m => (m.kind, m.at_.lineno)) = [(.E_ODBC_NOSQL, 1)] ∧
    (substance (loadOdbc (movOnly movA) odbcEnv 99 (c! "f.conf") movA).log).map (fun m => (m.kind, m.at_.lineno)) = [(.E_CONF_KEY_INVALID, 3)] := by
  refine ⟨?_, ?_, ?_⟩ <;> decide +kernel

-- the status
example : odShell.muted = false ∧ IgnoresSpacing odShell.ignore ∧ (odbcCheck odShell movBefore odEnv 99 (c! "f.conf")).fin = .exit 0 :=
  ⟨rfl, ignores_words (by intro k hk; cases k <;> first | rfl | cases hk), by decide +kernel⟩

end ALint.Props
