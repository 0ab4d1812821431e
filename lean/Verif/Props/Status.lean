import Verif.Spec.Status
import Verif.Props.Whole
import Verif.Props.Locality
import Verif.Props.Disregarded
import Verif.Props.Anywhere

/-!
# C127: the exit status does not depend on the form of a dialplan
-/

namespace ALint.Props
open ALint Spec Proofs

theorem loadOdbc_fuel {fs : FS} {env : FEnv} {n m : Nat} (hm : n ≤ m) {path : Str} {content : Bytes} {r : FEnv × List OdbcFn}
    (h : (loadOdbc fs env n path content).val = .ok (some r)) : loadOdbc fs env m path content = loadOdbc fs env n path content := by
  unfold loadOdbc at h ⊢
  obtain ⟨o, h1, h2, -⟩ := Res.bind_ok h
  cases o with
  | none => cases h2
  | some fns =>
    obtain ⟨d, rfl⟩ := Nat.le.dest hm
    rw [pipeRun_fuel n _ _ h1 d]

theorem defines_fuel {fs : FS} {env : DEnv} {n m : Nat} (hm : n ≤ m) {arg : Option Str} {path : Str} {env' : FEnv} {first : List Msg}
    (h : DefinesFrom fs env n arg path env' first) : DefinesFrom fs env m arg path env' first := by
  cases h with
  | none h => exact .none h
  | some h1 h2 h3 =>
    have e := loadOdbc_fuel hm h3
    rw [← e] at h3 ⊢
    exact .some h1 h2 h3

/-- The exit status of a check that comes to its end. -/
theorem check_exit {sh : Shell} (hm : sh.muted = false) {fs : FS} {env : DEnv} {n : Nat} {arg : Option Str} {path : Str} {env' : FEnv} {first log : List Msg}
    {content : Bytes} {st : DState} (hd : readOdbc fs env n arg path = ⟨first, .ok (.ok { env with toFEnv := env' })⟩) (hc : fs path = some content)
    (h : checkDialplan fs { env with toFEnv := env' } none n path content = ⟨log, .ok (some st)⟩) :
    ∃ s, (dialplanCheck sh fs env n arg path).fin = .exit s ∧ (s = 0 ∨ s = 1) ∧ (s = 0 ↔ ∀ m ∈ first ++ log, Ignores sh.ignore m.kind.name) := by
  have hr : dialplanCheckRun fs env n arg path = ⟨first ++ log, .ok (.ok st)⟩ := by
    unfold dialplanCheckRun andThen
    rw [hd]
    simp only [opening, hc, finished, Res.bind, h, Res.pure, List.append_nil]
  unfold dialplanCheck program
  rw [hr]
  refine ⟨_, rfl, ?_, ?_⟩
  · rw [managerAfter_issueAll sh hm]
    obtain ⟨c1, c2⟩ := C20_exit_status sh.ignore (first ++ log)
    by_cases hq : ∀ m ∈ first ++ log, classMuted sh.ignore m.kind.name = true
    · exact .inl (c2.2 hq)
    · refine .inr (c1.2 ?_)
      simpa using hq
  · rw [managerAfter_issueAll sh hm, (C20_exit_status _ _).2]
    exact ⟨fun h m hm => (ignores_iff ..).2 (h m hm), fun h m hm => (ignores_iff ..).1 (h m hm)⟩

/-- If what is said in the one check is said in the other, and that is ignored, so is this. -/
theorem ignored_of {ignore : Str} (hi : IgnoresSpacing ignore) {log log' : List Msg} (h : ∀ m ∈ substance log', ∃ m' ∈ substance log, m'.kind = m.kind)
    (hl : ∀ m ∈ log, Ignores ignore m.kind.name) : ∀ m ∈ log', Ignores ignore m.kind.name := by
  intro m hm
  cases hk : spacingKind m.kind with
  | true => exact hi _ hk
  | false =>
    obtain ⟨m', h1, h2⟩ := h m (List.mem_filter.2 ⟨hm, by simp [hk]⟩)
    exact h2 ▸ hl m' (List.mem_filter.1 h1).1

/-- One check from another, with the same definitions of functions. -/
theorem checks_on {sh : Shell} (hm : sh.muted = false) (hi : IgnoresSpacing sh.ignore) {fs fs' : FS} {path : Str} (ho : ∀ q, q ≠ path → fs' q = fs q)
    {arg : Option Str} (hap : OdbcApart fs arg path) {env : DEnv} {n : Nat} {c c' : Bytes} (hc : fs path = some c) (hc' : fs' path = some c')
    {R : List Msg → List Msg → Prop}
    (hx : ∀ env' first log st, DefinesFrom fs env n arg path env' first →
      checkDialplan fs { env with toFEnv := env' } none n path c = ⟨log, .ok (some st)⟩ →
      ∃ k log' st', (∀ n', k ≤ n' → checkDialplan fs' { env with toFEnv := env' } none n' path c' = ⟨log', .ok (some st')⟩) ∧
        R (substance log) (substance log'))
    {s : Nat} (h : (dialplanCheck sh fs env n arg path).fin = .exit s) :
    ∃ k s' l l', (∀ n', k ≤ n' → (dialplanCheck sh fs' env n' arg path).fin = .exit s') ∧ (s = 0 ∨ s = 1) ∧ (s' = 0 ∨ s' = 1) ∧ R l l' ∧
      ((∀ m ∈ l', ∃ m' ∈ l, m'.kind = m.kind) → s = 0 → s' = 0) ∧ ((∀ m ∈ l, ∃ m' ∈ l', m'.kind = m.kind) → s' = 0 → s = 0) := by
  obtain ⟨env', first, content, st, h1, h2, h3, -⟩ := C85_messages sh fs env n arg path s h
  rw [hc, Option.some.injEq] at h2
  subst h2
  obtain ⟨log, h3'⟩ : ∃ log, checkDialplan fs { env with toFEnv := env' } none n path c = ⟨log, .ok (some st)⟩ := ⟨_, by rw [← h3]⟩
  obtain ⟨k, log', st', g1, g2⟩ := hx _ _ _ _ h1 h3'
  obtain ⟨s0, e1, e2, e3⟩ := check_exit hm (sh := sh) (readOdbc_of h1) hc h3'
  rw [h, CmdEnd.exit.injEq] at e1
  subst e1
  have hread : ∀ n', n ≤ n' → readOdbc fs' env n' arg path = ⟨first, .ok (.ok { env with toFEnv := env' })⟩ := by
    intro n' hn
    rw [readOdbc_at (fs := fs) (fs' := fs') (fun o hat q hq => ho q fun e => hap o hat (e ▸ hq)), readOdbc_of (defines_fuel hn h1)]
  obtain ⟨s', f1, f2, f3⟩ := check_exit hm (sh := sh) (hread (max k n) (Nat.le_max_right ..)) hc' (g1 (max k n) (Nat.le_max_left ..))
  refine ⟨max k n, s', _, _, fun n' hn => ?_, e2, f2, g2, fun hk h0 => ?_, fun hk h0 => ?_⟩
  · obtain ⟨s2, i1, i2, i3⟩ := check_exit hm (sh := sh) (hread n' (Nat.le_trans (Nat.le_max_right ..) hn)) hc' (g1 n' (Nat.le_trans (Nat.le_max_left ..) hn))
    rw [i1]
    have : s2 = 0 ↔ s' = 0 := i3.trans f3.symm
    congr 1
    omega
  · have := e3.1 h0
    refine f3.2 fun m hm => ?_
    rcases List.mem_append.1 hm with hm | hm
    · exact this m (List.mem_append_left _ hm)
    · exact ignored_of hi hk (fun m hm => this m (List.mem_append_right _ hm)) m hm
  · have := f3.1 h0
    refine e3.2 fun m hm => ?_
    rcases List.mem_append.1 hm with hm | hm
    · exact this m (List.mem_append_left _ hm)
    · exact ignored_of hi hk (fun m hm => this m (List.mem_append_right _ hm)) m hm

theorem zips_kinds {l l' : List Msg} (h : Zips SameWords l l') :
    (∀ m ∈ l', ∃ m' ∈ l, m'.kind = m.kind) ∧ ∀ m ∈ l, ∃ m' ∈ l', m'.kind = m.kind := by
  induction h with
  | nil => exact ⟨by simp, by simp⟩
  | cons h _ ih =>
    rename_i a b as bs _
    constructor
    · intro m hm
      rcases List.mem_cons.1 hm with rfl | hm
      · exact ⟨a, List.mem_cons_self, h.kind.symm⟩
      · obtain ⟨m', h1, h2⟩ := ih.1 m hm
        exact ⟨m', List.mem_cons_of_mem _ h1, h2⟩
    · intro m hm
      rcases List.mem_cons.1 hm with rfl | hm
      · exact ⟨b, List.mem_cons_self, h.kind⟩
      · obtain ⟨m', h1, h2⟩ := ih.2 m hm
        exact ⟨m', List.mem_cons_of_mem _ h1, h2⟩

theorem order_kinds {l l' : List Msg} (h : SameInSomeOrder l l') :
    (∀ m ∈ l', ∃ m' ∈ l, m'.kind = m.kind) ∧ ∀ m ∈ l, ∃ m' ∈ l', m'.kind = m.kind := by
  obtain ⟨l1, h1, h2⟩ := h
  obtain ⟨k1, k2⟩ := zips_kinds h2
  refine ⟨fun m hm => ?_, fun m hm => k2 m (h1.mem_iff.1 hm)⟩
  obtain ⟨m', a, b⟩ := k1 m hm
  exact ⟨m', h1.mem_iff.2 a, b⟩

theorem checks_same {sh : Shell} (hm : sh.muted = false) (hi : IgnoresSpacing sh.ignore) {fs fs' : FS} {path : Str} (ho : ∀ q, q ≠ path → fs' q = fs q)
    {arg : Option Str} (hap : OdbcApart fs arg path) {env : DEnv} {n : Nat} {c c' : Bytes} (hc : fs path = some c) (hc' : fs' path = some c')
    (hx : ∀ env' first log st, DefinesFrom fs env n arg path env' first →
      checkDialplan fs { env with toFEnv := env' } none n path c = ⟨log, .ok (some st)⟩ →
      ∃ k log' st', (∀ n', k ≤ n' → checkDialplan fs' { env with toFEnv := env' } none n' path c' = ⟨log', .ok (some st')⟩) ∧
        (∀ m ∈ substance log', ∃ m' ∈ substance log, m'.kind = m.kind) ∧ ∀ m ∈ substance log, ∃ m' ∈ substance log', m'.kind = m.kind)
    {s : Nat} (h : (dialplanCheck sh fs env n arg path).fin = .exit s) :
    ∃ k, ∀ n', k ≤ n' → (dialplanCheck sh fs' env n' arg path).fin = .exit s := by
  obtain ⟨k, s', l, l', h1, h2, h3, ⟨h4, h5⟩, h6, h7⟩ := checks_on hm hi ho hap hc hc'
    (R := fun l l' => (∀ m ∈ l', ∃ m' ∈ l, m'.kind = m.kind) ∧ ∀ m ∈ l, ∃ m' ∈ l', m'.kind = m.kind) hx h
  have a := h6 h4
  have b := h7 h5
  have : s' = s := by omega
  exact ⟨k, this ▸ h1⟩

/-! ## Files and lines -/

/-- C127: a file is written in place of the line that includes it. -/
theorem C127_inlined (sh : Shell) (hm : sh.muted = false) (hi : IgnoresSpacing sh.ignore) (fs fs' : FS) (env : DEnv) (n : Nat) (arg : Option Str)
    (path q : Str) (hap : OdbcApart fs arg path) (pre line inner post : Bytes) (hr : Inlined fs fs' path q pre line inner post) (s : Nat)
    (h : (dialplanCheck sh fs env n arg path).fin = .exit s) :
    ∃ k, ∀ n', k ≤ n' → (dialplanCheck sh fs' env n' arg path).fin = .exit s :=
  checks_same hm hi hr.others hap hr.before hr.after (fun env' _ log st _ hst => by
    obtain ⟨k, log', st', h1, h2, -⟩ := C117_inlined fs fs' { env with toFEnv := env' } none n path q pre line inner post hr log st hst
    exact ⟨k, log', st', h1, zips_kinds h2⟩) h

/-- C127: lines are moved to a file of their own. -/
theorem C127_outlined (sh : Shell) (hm : sh.muted = false) (hi : IgnoresSpacing sh.ignore) (fs fs' : FS) (env : DEnv) (n : Nat) (arg : Option Str)
    (path q : Str) (hap : OdbcApart fs' arg path) (pre line inner post : Bytes) (hr : Inlined fs fs' path q pre line inner post) (s : Nat)
    (h : (dialplanCheck sh fs' env n arg path).fin = .exit s) :
    ∃ k, ∀ n', k ≤ n' → (dialplanCheck sh fs env n' arg path).fin = .exit s :=
  checks_same hm hi (fun q hq => (hr.others q hq).symm) hap hr.after hr.before (fun env' _ log st _ hst => by
    obtain ⟨k, log', st', h1, h2, -⟩ := C117_outlined fs fs' { env with toFEnv := env' } none n path q pre line inner post hr log st hst
    exact ⟨k, log', st', h1, zips_kinds h2⟩) h

theorem lowered_kinds {path : Str} {a b : Nat} {l l' : List Msg} (h : l' = l.map (loweredMsg path a b)) :
    (∀ m ∈ l', ∃ m' ∈ l, m'.kind = m.kind) ∧ ∀ m ∈ l, ∃ m' ∈ l', m'.kind = m.kind := by
  subst h
  refine ⟨fun m hm => ?_, fun m hm => ⟨_, List.mem_map.2 ⟨m, hm, rfl⟩, rfl⟩⟩
  obtain ⟨m', h1, rfl⟩ := List.mem_map.1 hm
  exact ⟨m', h1, rfl⟩

/-- C127: blank lines and comments are put in. -/
theorem C127_inserted (sh : Shell) (hm : sh.muted = false) (hi : IgnoresSpacing sh.ignore) (fs fs' : FS) (env : DEnv) (n : Nat) (arg : Option Str)
    (path : Str) (hap : OdbcApart fs arg path) (pre new post : Bytes) (hr : Replaced fs fs' path pre [] new post)
    (hd : Idle fs' path (physLines pre).length new) (s : Nat) (h : (dialplanCheck sh fs env n arg path).fin = .exit s) :
    ∃ k, ∀ n', k ≤ n' → (dialplanCheck sh fs' env n' arg path).fin = .exit s :=
  checks_same hm hi hr.others hap hr.before hr.after (fun env' _ log st _ hst => by
    obtain ⟨k, log', st', h1, h2, -⟩ := C118_inserted fs fs' { env with toFEnv := env' } none n path pre new post hr hd log st hst
    exact ⟨k, log', st', h1, lowered_kinds h2⟩) h

/-- C127: blank lines and comments are taken away. -/
theorem C127_removed (sh : Shell) (hm : sh.muted = false) (hi : IgnoresSpacing sh.ignore) (fs fs' : FS) (env : DEnv) (n : Nat) (arg : Option Str)
    (path : Str) (hap : OdbcApart fs' arg path) (pre new post : Bytes) (hr : Replaced fs fs' path pre [] new post)
    (hd : Idle fs' path (physLines pre).length new) (s : Nat) (h : (dialplanCheck sh fs' env n arg path).fin = .exit s) :
    ∃ k, ∀ n', k ≤ n' → (dialplanCheck sh fs env n' arg path).fin = .exit s :=
  checks_same hm hi (fun q hq => (hr.others q hq).symm) hap hr.after hr.before (fun env' _ log st _ hst => by
    obtain ⟨k, log', st', h1, h2, -⟩ := C118_removed fs fs' { env with toFEnv := env' } none n path pre new post hr hd log st hst
    exact ⟨k, log', st', h1, (lowered_kinds h2).symm⟩) h

/-! ## Include lines -/

/-- The functions that are defined are those, whatever is read of them. -/
theorem defines_only {fs : FS} {env : DEnv} {n m : Nat} {arg : Option Str} {path : Str} {e1 e2 : FEnv} {f1 f2 : List Msg}
    (h1 : DefinesFrom fs env n arg path e1 f1) (h2 : DefinesFrom fs env m arg path e2 f2) : e1 = e2 := by
  have a := readOdbc_of (defines_fuel (Nat.le_max_left n m) h1)
  have b := readOdbc_of (defines_fuel (Nat.le_max_right n m) h2)
  rw [a] at b
  simp only [Res.mk.injEq, Except.ok.injEq] at b
  have := congrArg (fun e : DEnv => e.toFEnv) b.2
  exact this

/-- C127: `include` lines of a context are moved down, past other lines of the context. -/
theorem C127_down (sh : Shell) (hm : sh.muted = false) (hi : IgnoresSpacing sh.ignore) (fs fs' : FS) (env : DEnv) (n n0 : Nat) (arg : Option Str)
    (path a : Str) (hap : OdbcApart fs arg path) (above incl steps rest : Bytes) (hs : PartsSwapped fs fs' path above incl steps rest)
    (hincl : TextIs fs path incl IncludeLines) (hsteps : TextIs fs path steps OtherLines)
    (env' : FEnv) (first log0 : List Msg) (st0 : DState) (hd : DefinesFrom fs env n0 arg path env' first)
    (h0 : checkDialplan fs { env with toFEnv := env' } none n0 path above = ⟨log0, .ok (some st0)⟩) (hcur : st0.cur = .ctx a) (s : Nat)
    (h : (dialplanCheck sh fs env n arg path).fin = .exit s) :
    ∃ k, ∀ n', k ≤ n' → (dialplanCheck sh fs' env n' arg path).fin = .exit s :=
  checks_same hm hi hs.others hap hs.before hs.after (fun env2 _ log st hd2 hst => by
    cases defines_only hd hd2
    obtain ⟨k, log', st', h1, h2, -⟩ :=
      C124_down fs fs' { env with toFEnv := env' } none n n0 path a above incl steps rest hs hincl hsteps log0 log st0 st h0 hcur hst
    exact ⟨k, log', st', h1, order_kinds h2⟩) h

/-- C127: `include` lines of a context are moved up, past other lines of the context. -/
theorem C127_up (sh : Shell) (hm : sh.muted = false) (hi : IgnoresSpacing sh.ignore) (fs fs' : FS) (env : DEnv) (n n0 : Nat) (arg : Option Str)
    (path a : Str) (hap : OdbcApart fs arg path) (above steps incl rest : Bytes) (hs : PartsSwapped fs fs' path above steps incl rest)
    (hsteps : TextIs fs path steps OtherLines) (hincl : TextIs fs path incl IncludeLines)
    (env' : FEnv) (first log0 : List Msg) (st0 : DState) (hd : DefinesFrom fs env n0 arg path env' first)
    (h0 : checkDialplan fs { env with toFEnv := env' } none n0 path above = ⟨log0, .ok (some st0)⟩) (hcur : st0.cur = .ctx a) (s : Nat)
    (h : (dialplanCheck sh fs env n arg path).fin = .exit s) :
    ∃ k, ∀ n', k ≤ n' → (dialplanCheck sh fs' env n' arg path).fin = .exit s :=
  checks_same hm hi hs.others hap hs.before hs.after (fun env2 _ log st hd2 hst => by
    cases defines_only hd hd2
    obtain ⟨k, log', st', h1, h2, -⟩ :=
      C124_up fs fs' { env with toFEnv := env' } none n n0 path a above steps incl rest hs hsteps hincl log0 log st0 st h0 hcur hst
    exact ⟨k, log', st', h1, order_kinds h2⟩) h

/-! ## Lines that are disregarded -/

theorem less_kinds {ws : List Where} {l l' : List Msg} (h : LinesLess ws l l') : ∀ m ∈ l', ∃ m' ∈ l, m'.kind = m.kind := by
  obtain ⟨a, x, b, rfl, -, h⟩ := h
  intro m hm
  obtain ⟨m', h1, h2⟩ := (zips_kinds h).1 m hm
  exact ⟨m', by rcases List.mem_append.1 h1 with h1 | h1 <;> simp [h1], h2⟩

/-- C127: where lines that are disregarded are taken out, a check that found nothing still finds nothing. -/
theorem C127_taken (sh : Shell) (hm : sh.muted = false) (hi : IgnoresSpacing sh.ignore) (fs fs' : FS) (env : DEnv) (n n0 : Nat) (arg : Option Str)
    (path : Str) (hap : OdbcApart fs arg path) (above part rest : Bytes) (hp : PartAbsent fs fs' path above part rest)
    (env' : FEnv) (first log0 : List Msg) (st0 : DState) (hd : DefinesFrom fs env n0 arg path env' first)
    (h0 : checkDialplan fs { env with toFEnv := env' } none n0 path above = ⟨log0, .ok (some st0)⟩)
    (hl : TextIs fs path part (DisregardedLines st0.cur)) (h : (dialplanCheck sh fs env n arg path).fin = .exit 0) :
    ∃ k, ∀ n', k ≤ n' → (dialplanCheck sh fs' env n' arg path).fin = .exit 0 := by
  obtain ⟨k, s', l, l', h1, -, -, h4, h6, -⟩ := checks_on hm hi hp.others hap hp.present hp.absent
    (R := LinesLess (linesFrom path (physLines above).length (physLines part))) (fun env2 _ log st hd2 hst => by
      cases defines_only hd hd2
      obtain ⟨k, log', st', h1, h2, -⟩ := C125_taken fs fs' { env with toFEnv := env' } none n n0 path above part rest hp log0 log st0 st h0 hl hst
      exact ⟨k, log', st', h1, h2⟩) h
  have := h6 (less_kinds h4) rfl
  exact ⟨k, this ▸ h1⟩

/-- C127: where such lines are put in, a check that found something still finds something. -/
theorem C127_added (sh : Shell) (hm : sh.muted = false) (hi : IgnoresSpacing sh.ignore) (fs fs' : FS) (env : DEnv) (n n0 : Nat) (arg : Option Str)
    (path : Str) (hap : OdbcApart fs' arg path) (above part rest : Bytes) (hp : PartAbsent fs fs' path above part rest)
    (env' : FEnv) (first log0 : List Msg) (st0 : DState) (hd : DefinesFrom fs' env n0 arg path env' first)
    (h0 : checkDialplan fs' { env with toFEnv := env' } none n0 path above = ⟨log0, .ok (some st0)⟩)
    (hl : TextIs fs path part (DisregardedLines st0.cur)) (h : (dialplanCheck sh fs' env n arg path).fin = .exit 1) :
    ∃ k, ∀ n', k ≤ n' → (dialplanCheck sh fs env n' arg path).fin = .exit 1 := by
  obtain ⟨k, s', l, l', h1, -, h3, h4, -, h7⟩ := checks_on hm hi (fun q hq => (hp.others q hq).symm) hap hp.absent hp.present
    (R := fun l l' => LinesLess (linesFrom path (physLines above).length (physLines part)) l' l) (fun env2 _ log st hd2 hst => by
      cases defines_only hd hd2
      obtain ⟨k, log', st', h1, h2, -⟩ := C125_added fs fs' { env with toFEnv := env' } none n n0 path above part rest hp log0 log st0 st h0 hl hst
      exact ⟨k, log', st', h1, h2⟩) h
  have a : s' = 1 := by
    rcases h3 with h3 | h3
    · exact absurd (h7 (less_kinds h4) h3) (by decide)
    · exact h3
  exact ⟨k, a ▸ h1⟩

/-! ## Example -/

def statusShell (ignore : Str) : Shell := { plainShell with ignore := ignore }
def statusWords : Str := c! "H_WSV_,W_WSV_,W_FILE_DOS_,W_FILE_UNIX_"

theorem ignores_words {ignore : Str} (h : ∀ k, spacingKind k = true → classMuted ignore k.name = true) : IgnoresSpacing ignore :=
  fun k hk => (ignores_iff ..).2 (h k hk)

theorem status_ignores : IgnoresSpacing statusWords :=
  ignores_words (by intro k hk; cases k <;> first | rfl | cases hk)

theorem status_apart (b : Bytes) : OdbcApart (oneFile b) none (c! "e.conf") := by
  intro o ho ht
  cases ho with
  | named h => cases h
  | beside _ hp =>
    have e := pathFrom_eq hp
    have e' : pathJoin (dirname (c! "e.conf")) (c! "func_odbc.conf") = c! "func_odbc.conf" := by decide
    rw [e'] at e
    subst e
    rcases ht with ht | ⟨c, hc, -⟩
    · exact absurd ht (by decide)
    · simp [oneFile] at hc

-- the hypotheses about the shell, the functions and the files; those about the lines are at C117, C118, C124 and C125
example : (statusShell statusWords).muted = false ∧ IgnoresSpacing (statusShell statusWords).ignore ∧ OdbcApart (oneFile lostWith) none (c! "e.conf") ∧
    DefinesFrom (oneFile lostWith) demoEnv 99 none (c! "e.conf") demoEnv.toFEnv [] ∧
    (dialplanCheck (statusShell statusWords) (oneFile lostWith) demoEnv 99 none (c! "e.conf")).fin = .exit 1 ∧
    (dialplanCheck (statusShell statusWords) (oneFile lostWithout) demoEnv 99 none (c! "e.conf")).fin = .exit 1 :=
  ⟨rfl, status_ignores, status_apart _, .none (.absent (by decide +kernel)), by decide +kernel, by decide +kernel⟩

def statusMore : Str := c! "H_WSV_,W_WSV_,W_FILE_DOS_,W_FILE_UNIX_,H_CONF_,I_,W_WSH_BOL,E_CONF_,E_DP_GOTO_NOCONTEXT"

-- the same with nothing found
example : IgnoresSpacing (statusShell statusMore).ignore ∧
    (dialplanCheck (statusShell statusMore) (oneFile lostWith) demoEnv 99 none (c! "e.conf")).fin = .exit 0 ∧
    (dialplanCheck (statusShell statusMore) (oneFile lostWithout) demoEnv 99 none (c! "e.conf")).fin = .exit 0 :=
  ⟨ignores_words (by intro k hk; cases k <;> first | rfl | cases hk), by decide +kernel, by decide +kernel⟩

end ALint.Props
