import Verif.Proofs.Modules
import Verif.Props.Dialplan

/-!
# C70: the modules that are listed
-/

namespace ALint.Props
open ALint ALint.Spec

/-- Something used under the name `low` (in lower case) is provided by that module. -/
def Provides (item : Str → Option UItem) (lows : List Str) (module low : Str) : Prop :=
  low ∈ lows ∧ ∃ i, item low = some i ∧ i.module = module

/-- Of that module these are used, in the order of the names in lower case, each once. -/
def UsedOf (item : Str → Option UItem) (lows : List Str) (module : Str) (names : List Str) : Prop :=
  ∃ ls : List Str, ls.Pairwise (· < ·) ∧ (∀ low, low ∈ ls ↔ Provides item lows module low) ∧
    ls.map (fun low => (item low).map (·.name)) = names.map some

/-- The text for one module: the module once, the names in order with `()`, on lines of at most
52 characters (and a comma) unless there is but one name on the line. -/
def ModuleText (module : Str) (names text : List Str) : Prop :=
  ∃ pre groups, text = columns module (pre ++ callLines groups) ∧ groups.flatten = names ∧
    (∀ g ∈ groups, g ≠ [] ∧ ((calls g).length ≤ 52 ∨ ∃ n, g = [n])) ∧
    ((∀ n ∈ names, n.length ≤ 50) → pre = []) ∧ (∀ l ∈ pre, l = [])

/-- One section: a heading, the modules in order, each with what is used of it, and an end. -/
def SectionText (what : Str) (item : Str → Option UItem) (lows out : List Str) : Prop :=
  ∃ mods names texts, mods.Pairwise (· < ·) ∧
    (∀ m, m ∈ mods ↔ m ≠ c! "unknown" ∧ ∃ low, Provides item lows m low) ∧
    Zips (UsedOf item lows) mods names ∧ Zips (fun (p : Str × List Str) t => ModuleText p.1 p.2 t) (mods.zip names) texts ∧
    out = (c! "; " ++ what ++ c! " providing modules used:") :: texts.flatten ++ [c! ";"]

theorem usedMods_sorted (item : Str → Option UItem) (lows : List Str) : (usedMods item lows).Pairwise (· < ·) :=
  (sortStrs_spec _).1.filter _

theorem usedMods_mem (item : Str → Option UItem) (lows : List Str) (m : Str) :
    m ∈ usedMods item lows ↔ m ≠ c! "unknown" ∧ ∃ low, Provides item lows m low := by
  unfold usedMods Provides
  rw [List.mem_filter, (sortStrs_spec _).2, List.mem_filterMap]
  simp only [ne_eq, decide_not, Bool.not_eq_eq_eq_not, Bool.not_true, decide_eq_false_iff_not, Option.map_eq_some_iff]
  constructor
  · rintro ⟨⟨low, h1, i, h2, h3⟩, h4⟩
    exact ⟨h4, low, h1, i, h2, h3⟩
  · rintro ⟨h4, low, h1, i, h2, h3⟩
    exact ⟨⟨low, h1, i, h2, h3⟩, h4⟩

theorem filterMap_names {item : Str → Option UItem} {m : Str} (ls : List Str) :
    (ls.filter fun low => (item low).any (·.module = m)).map (fun low => (item low).map (·.name)) =
      (((ls.filterMap item).filter (·.module = m)).map (·.name)).map some := by
  induction ls with
  | nil => rfl
  | cons l ls ih =>
    cases h : item l with
    | none => simpa [List.filter_cons, List.filterMap_cons, h] using ih
    | some i =>
      by_cases hm : i.module = m
      · simpa [h, hm] using ih
      · simpa [h, hm] using ih

theorem namesIn_used {item : Str → Option UItem} {lows : List Str} {m : Str}
    (hu : ∀ i, item (c! "unknown") = some i → i.module = c! "unknown") (hm : m ≠ c! "unknown") :
    UsedOf item lows m (namesIn (usedItems item lows) m) := by
  refine ⟨((sortStrs lows).filter (· ≠ c! "unknown")).filter fun low => (item low).any (·.module = m),
    ((sortStrs_spec _).1.filter _).filter _, fun low => ?_, ?_⟩
  · rw [List.mem_filter, List.mem_filter, (sortStrs_spec _).2]
    unfold Provides
    constructor
    · rintro ⟨⟨h1, _⟩, h2⟩
      cases hi : item low with
      | none => rw [hi] at h2; simp at h2
      | some i =>
        rw [hi] at h2
        exact ⟨h1, i, rfl, by simpa using h2⟩
    · rintro ⟨h1, i, hi, h2⟩
      refine ⟨⟨h1, ?_⟩, by simp [hi, h2]⟩
      simp only [ne_eq, decide_not, Bool.not_eq_eq_eq_not, Bool.not_true, decide_eq_false_iff_not]
      rintro rfl
      exact hm (h2 ▸ hu i hi)
  · unfold namesIn usedItems
    exact filterMap_names _

theorem zips_map {α γ δ : Type} {R : γ → δ → Prop} (f : α → γ) (g : α → δ) (l : List α)
    (h : ∀ a ∈ l, R (f a) (g a)) : Zips R (l.map f) (l.map g) := by
  induction l with
  | nil => exact .nil
  | cons a l ih => exact .cons (h a (by simp)) (ih fun b hb => h b (by simp [hb]))

theorem section_text (what : Str) (item : Str → Option UItem) (lows : List Str)
    (hu : ∀ i, item (c! "unknown") = some i → i.module = c! "unknown")
    (hn : ∀ low i, item low = some i → ∀ c, i.name.head? = some c → isSpace c = false) :
    SectionText what item lows (modSection what (usedItems item lows) (usedMods item lows)) := by
  let nm := fun m => namesIn (usedItems item lows) m
  have hne : ∀ m ∈ usedMods item lows, m ≠ c! "unknown" := fun m hm => ((usedMods_mem ..).1 hm).1
  refine ⟨usedMods item lows, (usedMods item lows).map nm,
    (usedMods item lows).map fun m => modLines m (itemLines (nm m)),
    usedMods_sorted .., usedMods_mem item lows, ?_, ?_, ?_⟩
  · have := zips_map (R := UsedOf item lows) id nm (usedMods item lows) fun m hm => namesIn_used hu (hne m hm)
    simpa using this
  · have hz : (usedMods item lows).zip ((usedMods item lows).map nm) = (usedMods item lows).map fun m => (m, nm m) := by
      induction usedMods item lows with
      | nil => rfl
      | cons a l ih => simp [ih]
    rw [hz]
    refine zips_map _ _ _ fun m hm => ?_
    simp only
    rw [modLines_eq]
    have hused := namesIn_used (lows := lows) hu (hne m hm)
    have hhead : ∀ n ∈ nm m, ∀ c, n.head? = some c → isSpace c = false := by
      intro n hn'
      unfold nm namesIn usedItems at hn'
      obtain ⟨i, hi, rfl⟩ := List.mem_map.1 hn'
      obtain ⟨low, _, h2⟩ := List.mem_filterMap.1 (List.mem_filter.1 hi).1
      exact hn low i h2
    cases hx : nm m with
    | nil =>
      obtain ⟨_, low, hp⟩ := (usedMods_mem ..).1 hm
      obtain ⟨ls, _, h2, h3⟩ := hused
      have : ls = [] := by
        have h := congrArg List.length h3
        have h0 : namesIn (usedItems item lows) m = [] := hx
        rw [h0] at h
        simpa using h
      rw [this] at h2
      exact absurd ((h2 low).2 hp) (by simp)
    | cons n ns =>
      rw [hx] at hhead
      obtain ⟨gs, h1, h2, h3⟩ := itemLines_groups n ns hhead
      refine ⟨_, gs, by rw [h3], h1, h2, fun h => if_pos (h n (by simp)), fun l hl => ?_⟩
      split at hl <;> simp at hl
      exact hl
  · unfold modSection
    rw [List.flatMap_def]
    rfl

/-- The lines with `load`, for these modules. -/
def LoadText (wanted : Str → Prop) (out : List Str) : Prop :=
  ∃ mods : List Str, mods.Pairwise (· < ·) ∧ (∀ m, m ∈ mods ↔ wanted m ∧ m ≠ c! "<builtin>") ∧
    out = c! "; modules.conf" :: mods.map (fun m => c! "load => " ++ m ++ c! ".so") ++ [[]]

/-- The lines about unknown names. -/
def UnknownText (what : Str) (seen : Str → Prop) (out : List Str) : Prop :=
  ∃ names : List Str, names.Pairwise (· < ·) ∧ (∀ n, n ∈ names ↔ seen n) ∧
    ((names = [] ∧ out = []) ∨ (names ≠ [] ∧
      out = [c! "; WARNING: The following unknown " ++ what ++ c! " were seen:", c! ";   " ++ commas names, c! ";"]))

/-- A message of that kind about that name. -/
def Missing (kind : MK) (key : Str) (log : List Msg) (name : Str) : Prop :=
  ∃ m ∈ log, m.kind = kind ∧ m.args.lookup key = some (.one (.str name))

/-- The module is that of an application or of a function in use. -/
def WantedModule (env : DEnv) (st : DState) (module : Str) : Prop :=
  module ≠ c! "unknown" ∧
    ((∃ low a, Ev.app low ∈ st.uses ∧ (env.apps low).or (env.apps (c! "unknown")) = some a ∧ a.module = module) ∨
     (∃ low f, Ev.func low ∈ st.uses ∧ (env.funcs low).or (env.funcs (c! "unknown")) = some f ∧ f.module = module))

theorem mem_usedApp {uses : List Ev} {low : Str} : low ∈ usedAppNames uses ↔ Ev.app low ∈ uses := by
  unfold usedAppNames
  rw [List.mem_filterMap]
  constructor
  · rintro ⟨e, h1, h2⟩
    cases e <;> simp at h2
    subst h2; exact h1
  · intro h
    exact ⟨_, h, rfl⟩

theorem mem_usedFunc {uses : List Ev} {low : Str} : low ∈ usedFuncNames uses ↔ Ev.func low ∈ uses := by
  unfold usedFuncNames
  rw [List.mem_filterMap]
  constructor
  · rintro ⟨e, h1, h2⟩
    cases e <;> simp at h2
    subst h2; exact h1
  · intro h
    exact ⟨_, h, rfl⟩

theorem mem_missing {kind : MK} {key : Str} {log : List Msg} {n : Str} :
    n ∈ missingNames kind key log ↔ Missing kind key log n := by
  unfold missingNames Missing
  rw [List.mem_filterMap]
  constructor
  · rintro ⟨m, h1, h2⟩
    split at h2
    · rename_i hk
      refine ⟨m, h1, hk, ?_⟩
      cases ha : m.args.lookup key with
      | none => rw [ha] at h2; simp [argStr] at h2
      | some a =>
        rw [ha] at h2
        cases a with
        | many l => simp [argStr] at h2
        | one v =>
          cases v with
          | str s =>
            simp only [argStr, Option.some.injEq] at h2
            rw [h2]
          | _ => simp [argStr] at h2
    · cases h2
  · rintro ⟨m, h1, h2, h3⟩
    exact ⟨m, h1, by rw [if_pos h2, h3]; rfl⟩

theorem unknown_text (what : Str) (kind : MK) (key : Str) (log : List Msg) :
    UnknownText what (Missing kind key log) (unknownLines what (missingNames kind key log)) := by
  refine ⟨sortStrs (missingNames kind key log), (sortStrs_spec _).1, fun n => ?_, ?_⟩
  · rw [(sortStrs_spec _).2, mem_missing]
  · unfold unknownLines
    cases hx : missingNames kind key log with
    | nil => left; exact ⟨rfl, rfl⟩
    | cons n ns =>
      right
      refine ⟨fun h => ?_, by simp [commas_eq]⟩
      have := ((sortStrs_spec (n :: ns)).2 n).2 (by simp)
      rw [h] at this
      simp at this

/-- C70: the whole output of `modules-show`: the applications used by module, the functions used
by module, a `load` line for each of these modules that is not built in, and the unknown names.
The pseudo module of unknown names is that of the entry `unknown`; names of applications and
functions do not start with white space. -/
theorem C70_output (env : DEnv) (st : DState) (log : List Msg)
    (hu : ∀ a, env.apps (c! "unknown") = some a → a.module = c! "unknown")
    (hu' : ∀ f, env.funcs (c! "unknown") = some f → f.module = c! "unknown")
    (hn : ∀ low i, appItem env.toAEnv st.sp low = some i → ∀ c, i.name.head? = some c → isSpace c = false)
    (hn' : ∀ low i, funcItem env.toFEnv low = some i → ∀ c, i.name.head? = some c → isSpace c = false) :
    ∃ apps funcs load ua uf,
      SectionText (c! "Application") (appItem env.toAEnv st.sp) (usedAppNames st.uses) apps ∧
      SectionText (c! "Function") (funcItem env.toFEnv) (usedFuncNames st.uses) funcs ∧
      LoadText (WantedModule env st) load ∧
      UnknownText (c! "applications") (Missing .E_APP_MISSING (c! "app") log) ua ∧
      UnknownText (c! "functions") (Missing .E_FUNC_MISSING (c! "func") log) uf ∧
      modulesShow env st log = apps ++ funcs ++ load ++ ua ++ uf := by
  refine ⟨_, _, _, _, _, section_text _ _ _ ?_ hn, section_text _ _ _ ?_ hn', ?_,
    unknown_text _ _ _ log, unknown_text _ _ _ log, rfl⟩
  · intro i hi
    unfold appItem at hi
    rw [Option.or_self, Option.map_eq_some_iff] at hi
    obtain ⟨a, h1, rfl⟩ := hi
    exact hu a h1
  · intro i hi
    unfold funcItem at hi
    rw [Option.or_self, Option.map_eq_some_iff] at hi
    obtain ⟨a, h1, rfl⟩ := hi
    exact hu' a h1
  · refine ⟨(sortStrs (allMods env st)).filter (· ≠ c! "<builtin>"), (sortStrs_spec _).1.filter _, fun m => ?_, ?_⟩
    · rw [List.mem_filter, (sortStrs_spec _).2]
      unfold allMods WantedModule
      rw [List.mem_append, usedMods_mem, usedMods_mem, ← and_or_left]
      unfold Provides appItem funcItem
      simp only [mem_usedApp, mem_usedFunc, Option.map_eq_some_iff, ne_eq, decide_not, Bool.not_eq_eq_eq_not,
        Bool.not_true, decide_eq_false_iff_not]
      constructor
      · rintro ⟨⟨h1, h2⟩, h3⟩
        refine ⟨⟨h1, ?_⟩, h3⟩
        rcases h2 with ⟨low, h4, i, ⟨a, h5, rfl⟩, h6⟩ | ⟨low, h4, i, ⟨a, h5, rfl⟩, h6⟩
        · exact .inl ⟨low, a, h4, h5, h6⟩
        · exact .inr ⟨low, a, h4, h5, h6⟩
      · rintro ⟨⟨h1, h2⟩, h3⟩
        refine ⟨⟨h1, ?_⟩, h3⟩
        rcases h2 with ⟨low, a, h4, h5, h6⟩ | ⟨low, a, h4, h5, h6⟩
        · exact .inl ⟨low, h4, _, ⟨a, h5, rfl⟩, h6⟩
        · exact .inr ⟨low, h4, _, ⟨a, h5, rfl⟩, h6⟩
    · rfl

/-- C70: the exit code is 1 exactly if a name is unknown. -/
theorem C70_exit (log : List Msg) :
    (modulesExit log = 1 ↔ ∃ n, Missing .E_APP_MISSING (c! "app") log n ∨ Missing .E_FUNC_MISSING (c! "func") log n) ∧
    (modulesExit log = 0 ∨ modulesExit log = 1) := by
  have hx : modulesExit log = 1 ↔ ¬ (missingNames .E_APP_MISSING (c! "app") log = [] ∧
      missingNames .E_FUNC_MISSING (c! "func") log = []) := by
    unfold modulesExit
    split
    · rename_i h
      simp only [Bool.and_eq_true, List.isEmpty_iff] at h
      simp [h]
    · rename_i h
      simp only [Bool.and_eq_true, List.isEmpty_iff] at h
      simp only [true_iff]
      exact h
  refine ⟨?_, ?_⟩
  · rw [hx]
    simp only [← mem_missing]
    constructor
    · intro h
      cases h1 : missingNames .E_APP_MISSING (c! "app") log with
      | cons n ns => exact ⟨n, .inl (by simp)⟩
      | nil =>
        cases h2 : missingNames .E_FUNC_MISSING (c! "func") log with
        | cons n ns => exact ⟨n, .inr (by simp)⟩
        | nil => exact absurd ⟨h1, h2⟩ h
    · rintro ⟨n, h | h⟩ ⟨h1, h2⟩
      · rw [h1] at h; simp at h
      · rw [h2] at h; simp at h
  · unfold modulesExit
    split
    · exact .inl rfl
    · exact .inr rfl

/-! ## What the steps need -/

/-- `name(…)`, or `name` alone, after white space. -/
inductive CallsApp (name : Str) : Str → Prop
  | call (blanks rest : Str) (h : blanks.all isSpace = true) : CallsApp name (blanks ++ name ++ '(' :: rest)
  | bare (blanks : Str) (h : blanks.all isSpace = true) : CallsApp name (blanks ++ name)

theorem splitN_one_not_mem {c : Char} (s : Str) (h : c ∉ s) (n : Nat) : splitN c (some (n + 1)) s = [s] := by
  induction s with
  | nil => rfl
  | cons x s ih =>
    simp only [List.mem_cons, not_or] at h
    rw [splitN, if_neg (Ne.symm h.1), ih h.2]
    simp

theorem splitN_one_mem {c : Char} (a b : Str) (h : c ∉ a) : splitN c (some 1) (a ++ c :: b) = [a, b] := by
  induction a with
  | nil => rw [List.nil_append, splitN, if_pos rfl]; cases b <;> rfl; simp
  | cons x a ih =>
    simp only [List.mem_cons, not_or] at h
    rw [List.cons_append, splitN, if_neg (Ne.symm h.1), ih h.2]
    simp

/-- A name: not empty, without parenthesis and without white space at its ends. -/
def AppWord (name : Str) : Prop :=
  name ≠ [] ∧ '(' ∉ name ∧ (∀ c, name.head? = some c → isSpace c = false) ∧
    ∀ c, name.getLast? = some c → isSpace c = false

theorem appEnd_some {w : Where} {name b d : Str} (hw : AppWord name) (hb : b.all isSpace = true)
    {x : Option (Str × Str)} (h : (splitAppEnd w (.str (b ++ name)) d).val = .ok x) : ∃ d', x = some (name, d') := by
  obtain ⟨h0, _, h1, h2⟩ := hw
  have hr : rstripP isSpace (b ++ name) = b ++ name := rstripP_self _ _ fun c hc => by
    refine h2 c ?_
    rw [List.getLast?_append] at hc
    cases hn : name.getLast? with
    | none => exact absurd (List.getLast?_eq_none_iff.1 hn) h0
    | some y => rw [hn] at hc; simpa using hc
  have hl : lstripP isSpace (b ++ name) = name := lstripP_append _ _ _ (by simpa using hb) h1
  unfold splitAppEnd at h
  simp only [hr, ne_eq, not_true, if_false, hl, h0] at h
  obtain ⟨_, _, h3, _⟩ := Tr.bind_ok h
  simp only [Tr.pure, Except.ok.injEq] at h3
  exact ⟨_, h3.symm⟩

theorem appData_some {env : FEnv} {w : Where} {name text : Str} (hw : AppWord name)
    (hc : CallsApp name text) {x : Option (Str × Str)} (h : (splitAppData env w (strV text)).val = .ok x) :
    ∃ d, x = some (name, d) := by
  have hnp : ∀ b : Str, b.all isSpace = true → '(' ∉ b ++ name := by
    intro b hb hm
    rcases List.mem_append.1 hm with hm | hm
    · have := List.all_eq_true.1 hb _ hm
      exact absurd this (by decide)
    · exact hw.2.1 hm
  unfold splitAppData strV at h
  cases hc with
  | call b rest hb =>
    have e : (V.str (b ++ name ++ '(' :: rest)).split '(' (some 1) = .ok [.str (b ++ name), .str rest] := by
      simp only [V.split]
      rw [splitN_one_mem (b ++ name) rest (hnp b hb)]
      rfl
    simp only [e] at h
    obtain ⟨y, h1, h2, _⟩ := Tr.bind_ok h
    simp only [Tr.lift, Except.ok.injEq] at h1
    subst h1
    obtain ⟨y, h1, h3, _⟩ := Tr.bind_ok h2
    exact appEnd_some hw hb h3
  | bare b hb =>
    have e : (V.str (b ++ name)).split '(' (some 1) = .ok [.str (b ++ name)] := by
      simp only [V.split]
      rw [splitN_one_not_mem (b ++ name) (hnp b hb) 0]
      rfl
    simp only [e] at h
    obtain ⟨y, h1, h2, _⟩ := Tr.bind_ok h
    simp only [Tr.lift, Except.ok.injEq] at h1
    subst h1
    simp only [splitAppBare] at h2
    obtain ⟨y, h1, h3, _⟩ := Tr.bind_ok h2
    exact appEnd_some hw hb h3

theorem evUses_mem {e : Ev} {l : List Ev} (h : e ∈ l) (hm : ∀ m, e ≠ .msg m) : e ∈ evUses l := by
  unfold evUses
  rw [List.mem_filter]
  refine ⟨h, ?_⟩
  cases e with
  | msg m => exact absurd rfl (hm m)
  | _ => rfl

theorem runApp_uses {env : AEnv} {n : Nat} {sp : Option Str} {w : Where} {name text : Str} (hw : AppWord name)
    (hc : CallsApp name text) {r : Option Str × List Jump} (h : (runApp env n sp w (strV text)).val = .ok r) :
    Ev.app (env.lower name) ∈ evUses (runApp env n sp w (strV text)).ev ∧
      ∃ a, (env.apps (env.lower name)).or (env.apps (c! "unknown")) = some a := by
  cases n with
  | zero => cases h
  | succ n =>
    rw [runApp] at h ⊢
    obtain ⟨x, hx1, hx2, hx3⟩ := Tr.bind_ok h
    obtain ⟨d, rfl⟩ := appData_some hw hc hx1
    simp only at hx2 hx3
    obtain ⟨y, hy1, hy2, hy3⟩ := Tr.bind_ok hx2
    cases ha : (env.apps (env.lower name)).or (env.apps (c! "unknown")) with
    | none => simp only [getApp, ha] at hy1; cases hy1
    | some a =>
      refine ⟨evUses_mem ?_ (by intro m; simp), a, rfl⟩
      rw [hx3, hy3]
      refine List.mem_append.2 (.inr (List.mem_append.2 (.inl ?_)))
      simp only [getApp, ha]
      simp only [getApp, ha] at hy1
      obtain ⟨z, _, _, hz⟩ := Tr.bind_ok hy1
      rw [hz]
      exact List.mem_append.2 (.inl (by simp [Tr.note]))

/-- C70: nothing is missing. If a step of the dialplan calls an application that is known, the
module of this application has its `load` line unless it is built in. -/
theorem C70_needed (env : DEnv) (sp : Option Str) (es : List Elem) (log l : List Msg) (st : DState)
    (h : After env sp es log st) (c : DCtx) (hc : c ∈ st.dp.contexts) (s : Step) (hs : s ∈ c.steps)
    (name : Str) (hw : AppWord name) (hcall : CallsApp name s.app) (a : AppInfo)
    (ha : env.apps (env.lower name) = some a) (hk : a.module ≠ c! "unknown") (hb : a.module ≠ c! "<builtin>") :
    c! "load => " ++ a.module ++ c! ".so" ∈ modulesShow env st l := by
  obtain ⟨hi, _, _⟩ := after_inv h
  have hs' : s ∈ stepsOf st.dp c.name := by
    rw [stepsOf_get (get_of_mem hi.names hc)]; exact hs
  obtain ⟨sp', r, hr, hu⟩ := read_uses (congrArg Res.val h) c.name s hs'
  have huse := hu _ (runApp_uses hw hcall hr).1
  have hmod : a.module ∈ allMods env st := by
    refine List.mem_append.2 (.inl ((usedMods_mem ..).2 ⟨hk, env.lower name, mem_usedApp.2 huse, ?_⟩))
    exact ⟨⟨appName st.sp a, a.module⟩, by simp [appItem, ha], rfl⟩
  have : c! "load => " ++ a.module ++ c! ".so" ∈ loadLines (allMods env st) := by
    refine List.mem_append.2 (.inl (List.mem_append.2 (.inr (List.mem_map.2 ⟨a.module, ?_, rfl⟩))))
    rw [List.mem_filter, (sortStrs_spec _).2]
    exact ⟨hmod, by simpa using hb⟩
  exact List.mem_append.2 (.inl (List.mem_append.2 (.inl (List.mem_append.2 (.inr this)))))

/-! ## Example -/

/-- Some applications and a function. -/
def modEnv : DEnv where
  lower := fun s => s.map Char.toLower
  funcs := fun s =>
    if s = c! "channel" then some ⟨c! "CHANNEL", c! "func_channel", .plain⟩
    else if s = c! "unknown" then some ⟨c! "UNKNOWN", c! "unknown", .plain⟩
    else none
  apps := fun s =>
    if s = c! "noop" then some ⟨c! "NoOp", c! "<builtin>", .plain⟩
    else if s = c! "dial" then some ⟨c! "Dial", c! "app_dial", .plain⟩
    else if s = c! "retrydial" then some ⟨c! "RetryDial", c! "app_dial", .plain⟩
    else if s = c! "unknown" then some ⟨c! "Unknown", c! "unknown", .plain⟩
    else none
  depth := 9

def modFile : List Elem := [demoHead 1 (c! "general"), demoHead 2 (c! "globals"),
  demoHead 3 (c! "a"), demoExten 4 (c! "_X,1,NoOp(${CHANNEL(x)})"), demoSame 5 (c! "n,RetryDial(top)"),
  demoSame 6 (c! "n,Dial(top)"), demoSame 7 (c! "n,Foo(top)")]

def modRun : Res DState := feed (dialplanStep modEnv) (.init none) modFile

/-- What `modules-show` prints for the file. -/
def modShown : List Str := (modRun.val.toOption.map fun st => modulesShow modEnv st modRun.log).getD []

example : modShown = [c! "; Application providing modules used:",
  c! ";   <builtin>             NoOp()",
  c! ";   app_dial              Dial(), RetryDial()",
  c! ";",
  c! "; Function providing modules used:",
  c! ";   func_channel          CHANNEL()",
  c! ";",
  c! "; modules.conf",
  c! "load => app_dial.so",
  c! "load => func_channel.so",
  [],
  c! "; WARNING: The following unknown applications were seen:",
  c! ";   Foo",
  c! ";"] := by decide +kernel

example : modulesExit modRun.log = 1 := by decide +kernel

/-- `Dial` fills the hypotheses of `C70_needed`. -/
example : AppWord (c! "Dial") ∧ CallsApp (c! "Dial") (c! " Dial(top)") := by
  refine ⟨⟨by decide, by decide, ?_, ?_⟩, .call (c! " ") (c! "top)") (by decide)⟩ <;>
  · intro c hc
    simp at hc
    subst hc; decide

end ALint.Props
