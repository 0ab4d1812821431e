import Verif.Spec.Registry
import Verif.Props.CleanText

/-!
# C78: the applications and functions that come with the program
-/

namespace ALint.Props
open ALint ALint.Spec

theorem lookup_mem {α : Type} {k : Str} {a : α} {l : List (Str × α)} (h : (l.map Prod.fst).Nodup) :
    l.lookup k = some a ↔ (k, a) ∈ l := by
  induction l with
  | nil => simp
  | cons p l ih =>
    obtain ⟨k', a'⟩ := p
    simp only [List.map_cons, List.nodup_cons] at h
    rw [List.lookup_cons, List.mem_cons]
    by_cases hk : k = k'
    · subst hk
      simp only [beq_self_eq_true, Option.some.injEq]
      constructor
      · rintro rfl; exact .inl rfl
      · rintro (he | hm)
        · cases he; rfl
        · exact absurd (List.mem_map.2 ⟨_, hm, rfl⟩) h.1
    · have : (k == k') = false := by simpa using hk
      rw [this]
      simp only [ih h.2, Prod.mk.injEq, hk, false_and, false_or]

theorem register_fold {α : Type} (lower : Str → Str) (name : α → Str) (as : List α) (l : Loader α) :
    (as.foldl (fun l a => l.register (lower (name a)) a) l).table = (as.map fun a => (lower (name a), a)).reverse ++ l.table := by
  induction as generalizing l with
  | nil => rfl
  | cons a as ih => rw [List.foldl_cons, ih]; simp [Loader.register]

theorem load_fold {α : Type} (lower : Str → Str) (name : α → Str) (ms : List (ModFile α)) (l : Loader α) :
    (ms.foldl (fun l m => m.regs.foldl (fun l a => l.register (lower (name a)) a) l) l).table =
      ((ms.flatMap (·.regs)).map fun a => (lower (name a), a)).reverse ++ l.table := by
  induction ms generalizing l with
  | nil => rfl
  | cons m ms ih => rw [List.foldl_cons, ih, register_fold]; simp

theorem find_self {α : Type} {files : List (ModFile α)} (h : (files.map (·.file)).Nodup) :
    (files.map (·.file)).filterMap (fun n => files.find? fun m => m.file = n) = files := by
  have key : ∀ m ∈ files, files.find? (fun m' => m'.file = m.file) = some m := by
    intro m hm
    induction files with
    | nil => simp at hm
    | cons x xs ih =>
      simp only [List.map_cons, List.nodup_cons] at h
      rw [List.find?_cons]
      rcases List.mem_cons.1 hm with rfl | hm
      · simp
      · have : (decide (x.file = m.file)) = false := by
          simp only [decide_eq_false_iff_not]
          intro e
          exact h.1 (e ▸ List.mem_map.2 ⟨m, hm, rfl⟩)
        rw [this]
        exact ih h.2 hm
  have : ∀ l : List (ModFile α), (∀ m ∈ l, files.find? (fun m' => m'.file = m.file) = some m) →
      (l.map (·.file)).filterMap (fun n => files.find? fun m => m.file = n) = l := by
    intro l hl
    induction l with
    | nil => rfl
    | cons m l ih =>
      have h1 := hl m (by simp)
      rw [List.map_cons, List.filterMap_cons, ih fun m hm => hl m (by simp [hm])]
      simp only [h1]
  exact this files key

theorem perm_nodup {α : Type} {l₁ l₂ : List α} (h : l₁.Perm l₂) (h2 : l₂.Nodup) : l₁.Nodup := h.nodup_iff.2 h2

/-- What is found after loading. -/
theorem loaded {α : Type} {lower : Str → Str} {name : α → Str} {files : List (ModFile α)} {listing : List Str}
    (hl : ListsFiles files listing) (hf : (files.map (·.file)).Nodup)
    (hn : ((files.flatMap (·.regs)).map fun a => lower (name a)).Nodup) (k : Str) (a : α) :
    (loadAll lower name files listing).table.lookup k = some a ↔ (∃ m ∈ files, a ∈ m.regs) ∧ lower (name a) = k := by
  have hp : ((listing.filter fun i => (c! ".py").isSuffixOf i).filterMap fun n => files.find? fun m => m.file = n).Perm files := by
    have := hl.filterMap fun n => files.find? fun m => m.file = n
    rwa [find_self hf] at this
  have ht := load_fold lower name
    ((listing.filter fun i => (c! ".py").isSuffixOf i).filterMap fun n => files.find? fun m => m.file = n) Loader.empty
  have hq : (loadAll lower name files listing).table.Perm ((files.flatMap (·.regs)).map fun a => (lower (name a), a)) := by
    unfold loadAll
    rw [ht]
    simp only [Loader.empty, List.append_nil]
    exact (List.reverse_perm _).trans ((hp.flatMap_right _).map _)
  rw [lookup_mem (perm_nodup (hq.map Prod.fst) (by rw [List.map_map]; exact hn)), hq.mem_iff]
  simp only [List.mem_map, List.mem_flatMap, Prod.mk.injEq]
  constructor
  · rintro ⟨b, ⟨m, hm, hb⟩, e, rfl⟩; exact ⟨⟨m, hm, hb⟩, e⟩
  · rintro ⟨⟨m, hm, hb⟩, e⟩; exact ⟨a, ⟨m, hm, hb⟩, e, rfl⟩

/-- Facts about the tables, checked by computing. -/
theorem app_files_nodup (v : Ver) : ((modFiles v appModFiles).map (·.file)).Nodup := by
  cases v <;> decide +kernel
theorem func_files_nodup (v : Ver) : ((modFiles v funcModFiles).map (·.file)).Nodup := by
  cases v <;> decide +kernel
theorem app_names_nodup (v : Ver) :
    (((modFiles v appModFiles).flatMap (·.regs)).map fun a => a.name.map Char.toLower).Nodup := by
  cases v <;> decide +kernel
theorem func_names_nodup (v : Ver) :
    (((modFiles v funcModFiles).flatMap (·.regs)).map fun a => a.name.map Char.toLower).Nodup := by
  cases v <;> decide +kernel
theorem app_names_ascii : ∀ m ∈ appModFiles, ∀ a ∈ m.regs, ∀ c ∈ a.name, c.toNat < 128 := by decide +kernel
theorem func_names_ascii : ∀ m ∈ funcModFiles, ∀ a ∈ m.regs, ∀ c ∈ a.name, c.toNat < 128 := by decide +kernel

theorem within_iff {α : Type} {v : Ver} {m : ModFile α} : m.within v = true ↔ FileComes v m := by
  cases v <;> simp [ModFile.within, FileComes]

theorem comes_iff {α : Type} {v : Ver} {all : List (ModFile α)} {a : α} :
    (∃ m ∈ modFiles v all, a ∈ m.regs) ↔ Comes v all a := by
  simp only [modFiles, List.mem_filter, Comes]
  constructor
  · rintro ⟨m, ⟨h1, h2⟩, h3⟩; exact ⟨m, h1, within_iff.1 h2, h3⟩
  · rintro ⟨m, h1, h2, h3⟩; exact ⟨m, ⟨h1, within_iff.2 h2⟩, h3⟩

theorem lower_names {α : Type} {lower : Str → Str} (hlow : LowersAscii lower) {name : α → Str} {v : Ver} {all : List (ModFile α)}
    (ha : ∀ m ∈ all, ∀ a ∈ m.regs, ∀ c ∈ name a, c.toNat < 128)
    (hn : (((modFiles v all).flatMap (·.regs)).map fun a => (name a).map Char.toLower).Nodup) :
    (((modFiles v all).flatMap (·.regs)).map fun a => lower (name a)).Nodup := by
  rw [List.map_congr_left (g := fun a => (name a).map Char.toLower)]
  · exact hn
  · intro a h
    obtain ⟨m, hm, ham⟩ := List.mem_flatMap.1 h
    exact hlow _ (ha m (List.mem_filter.1 hm |>.1) a ham)

/-- C78: in whatever order the files of a version are loaded, under a lower-case name is
found the application of that version with this name, and nothing else: none displaces
another. -/
theorem C78_applications (lower : Str → Str) (hlow : LowersAscii lower) (v : Ver) (listing : List Str)
    (hl : ListsFiles (modFiles v appModFiles) listing) (k : Str) (a : AppInfo) :
    (loadAll lower AppInfo.name (modFiles v appModFiles) listing).table.lookup k = some a ↔
      Comes v appModFiles a ∧ lower a.name = k := by
  rw [loaded hl (app_files_nodup v) (lower_names hlow app_names_ascii (app_names_nodup v)), comes_iff]

/-- C78: the same for functions. -/
theorem C78_functions (lower : Str → Str) (hlow : LowersAscii lower) (v : Ver) (listing : List Str)
    (hl : ListsFiles (modFiles v funcModFiles) listing) (k : Str) (f : FuncInfo) :
    (loadAll lower FuncInfo.name (modFiles v funcModFiles) listing).table.lookup k = some f ↔
      Comes v funcModFiles f ∧ lower f.name = k := by
  rw [loaded hl (func_files_nodup v) (lower_names hlow func_names_ascii (func_names_nodup v)), comes_iff]

/-- What a check of that version looks up. -/
structure Loaded (v : Ver) (env : AEnv) : Prop where
  lower : LowersAscii env.lower
  apps : ∃ listing, ListsFiles (modFiles v appModFiles) listing ∧
    env.apps = fun k => (loadAll env.lower AppInfo.name (modFiles v appModFiles) listing).table.lookup k
  funcs : ∃ listing, ListsFiles (modFiles v funcModFiles) listing ∧
    env.funcs = fun k => (loadAll env.lower FuncInfo.name (modFiles v funcModFiles) listing).table.lookup k

theorem loaded_apps {v : Ver} {env : AEnv} (h : Loaded v env) (k : Str) (a : AppInfo) :
    env.apps k = some a ↔ Comes v appModFiles a ∧ env.lower a.name = k := by
  obtain ⟨listing, hl, he⟩ := h.apps
  rw [he]
  exact C78_applications _ h.lower v listing hl k a

theorem loaded_funcs {v : Ver} {env : AEnv} (h : Loaded v env) (k : Str) (f : FuncInfo) :
    env.funcs k = some f ↔ Comes v funcModFiles f ∧ env.lower f.name = k := by
  obtain ⟨listing, hl, he⟩ := h.funcs
  rw [he]
  exact C78_functions _ h.lower v listing hl k f

instance {α : Type} [DecidableEq α] (v : Ver) (all : List (ModFile α)) (a : α) : Decidable (Comes v all a) :=
  inferInstanceAs (Decidable (∃ m ∈ all, FileComes v m ∧ a ∈ m.regs))

theorem comes_unknown (v : Ver) : Comes v appModFiles ⟨c! "Unknown", c! "unknown", .plain⟩ ∧
    Comes v funcModFiles ⟨c! "UNKNOWN", c! "unknown", .plain⟩ := by
  cases v <;> decide +kernel

theorem not_unknown : ∀ m ∈ appModFiles, ∀ a ∈ m.regs, a.name = c! "Unknown" → a = ⟨c! "Unknown", c! "unknown", .plain⟩ := by
  decide +kernel

theorem not_unknown_func : ∀ m ∈ funcModFiles, ∀ f ∈ m.regs, f.name = c! "UNKNOWN" → f = ⟨c! "UNKNOWN", c! "unknown", .plain⟩ := by
  decide +kernel

theorem lower_unknown {lower : Str → Str} (h : LowersAscii lower) :
    lower (c! "Unknown") = c! "unknown" ∧ lower (c! "UNKNOWN") = c! "unknown" :=
  ⟨h _ (by decide), h _ (by decide)⟩

/-- C78: an application of that version, written as registered, is accepted: nothing is
reported (whatever spelling of `Background` was chosen, for the others). -/
theorem C78_accepted (v : Ver) (env : AEnv) (h : Loaded v env) (a : AppInfo) (ha : Comes v appModFiles a)
    (hb : a.beh ≠ .background) (sp : Option Str) (w : Where) :
    getApp env sp w a.name = ⟨[.app (env.lower a.name)], .ok (a, sp)⟩ := by
  have := (loaded_apps h (env.lower a.name) a).2 ⟨ha, rfl⟩
  simp [getApp, this, checkAvailability, appName, hb, chooseSpelling, Tr.note, Tr.bind, Tr.pure]

/-- C78: in a different spelling the proper one is suggested. -/
theorem C78_spelling (v : Ver) (env : AEnv) (h : Loaded v env) (a : AppInfo) (ha : Comes v appModFiles a)
    (hb : a.beh ≠ .background) (hu : a.name ≠ c! "Unknown") (name : Str) (hn : env.lower name = env.lower a.name) (hne : name ≠ a.name)
    (sp : Option Str) (w : Where) :
    getApp env sp w name = ⟨[.app (env.lower name),
      .msg (mkMsg .W_APP_BAD_CASE w [(c! "app", strV name), (c! "proper", strV a.name)])], .ok (a, sp)⟩ := by
  have := (loaded_apps h (env.lower name) a).2 ⟨ha, hn.symm⟩
  simp only [getApp, this, Option.some_or, chooseSpelling, hb, false_and, if_false, appName, checkAvailability,
    if_neg (Ne.symm hne), if_neg hu]
  rfl

/-- C78: a name that is no spelling of an application of that version is reported missing. -/
theorem C78_missing (v : Ver) (env : AEnv) (h : Loaded v env) (name : Str)
    (hn : ∀ a, Comes v appModFiles a → env.lower a.name ≠ env.lower name) (sp : Option Str) (w : Where) :
    getApp env sp w name = ⟨[.app (env.lower name), .msg (mkMsg .E_APP_MISSING w [(c! "app", strV name)])],
      .ok (⟨c! "Unknown", c! "unknown", .plain⟩, sp)⟩ := by
  have h1 : env.apps (env.lower name) = none := by
    cases hx : env.apps (env.lower name) with
    | none => rfl
    | some a =>
      obtain ⟨h1, h2⟩ := (loaded_apps h _ a).1 hx
      exact absurd h2 (hn a h1)
  have h2 : env.apps (c! "unknown") = some ⟨c! "Unknown", c! "unknown", .plain⟩ :=
    (loaded_apps h _ _).2 ⟨(comes_unknown v).1, (lower_unknown h.lower).1⟩
  have h3 : c! "Unknown" ≠ name := by
    rintro rfl
    exact hn _ (comes_unknown v).1 rfl
  simp only [getApp, h1, h2, Option.none_or, chooseSpelling, appName, checkAvailability, reduceCtorEq, false_and, if_false, if_neg h3]
  rfl

/-- C78: functions are accepted as registered, … -/
theorem C78_function_accepted (v : Ver) (env : AEnv) (h : Loaded v env) (f : FuncInfo) (hf : Comes v funcModFiles f) (w : Where) :
    getFunc env.toFEnv w f.name = ⟨[.func (env.lower f.name)], .ok f⟩ := by
  have := (loaded_funcs h (env.lower f.name) f).2 ⟨hf, rfl⟩
  simp [getFunc, this, Tr.note, Tr.bind, Tr.pure]

/-- C78: … otherwise corrected … -/
theorem C78_function_spelling (v : Ver) (env : AEnv) (h : Loaded v env) (f : FuncInfo) (hf : Comes v funcModFiles f)
    (hu : f.name ≠ c! "UNKNOWN") (name : Str) (hn : env.lower name = env.lower f.name) (hne : name ≠ f.name) (w : Where) :
    getFunc env.toFEnv w name = ⟨[.func (env.lower name),
      .msg (mkMsg .E_FUNC_BAD_CASE w [(c! "func", strV name), (c! "proper", strV f.name)])], .ok f⟩ := by
  have := (loaded_funcs h (env.lower name) f).2 ⟨hf, hn.symm⟩
  simp only [getFunc, this, Option.some_or, if_pos (Ne.symm hne), if_neg hu]
  rfl

/-- C78: … and reported missing if there is none. -/
theorem C78_function_missing (v : Ver) (env : AEnv) (h : Loaded v env) (name : Str)
    (hn : ∀ f, Comes v funcModFiles f → env.lower f.name ≠ env.lower name) (w : Where) :
    getFunc env.toFEnv w name = ⟨[.func (env.lower name), .msg (mkMsg .E_FUNC_MISSING w [(c! "func", strV name)])],
      .ok ⟨c! "UNKNOWN", c! "unknown", .plain⟩⟩ := by
  have h1 : env.funcs (env.lower name) = none := by
    cases hx : env.funcs (env.lower name) with
    | none => rfl
    | some a =>
      obtain ⟨h1, h2⟩ := (loaded_funcs h _ a).1 hx
      exact absurd h2 (hn a h1)
  have h2 : env.funcs (c! "unknown") = some ⟨c! "UNKNOWN", c! "unknown", .plain⟩ :=
    (loaded_funcs h _ _).2 ⟨(comes_unknown v).2, (lower_unknown h.lower).2⟩
  have h3 : c! "UNKNOWN" ≠ name := by
    rintro rfl
    exact hn _ (comes_unknown v).2 rfl
  simp only [getFunc, h1, h2, Option.none_or, if_pos h3]
  rfl

theorem app_names_good : ∀ m ∈ appModFiles, ∀ a ∈ m.regs, a.name ≠ [] ∧ '(' ∉ a.name ∧
    (∀ c ∈ a.name.head?, isSpace c = false) ∧ (∀ c ∈ a.name.getLast?, isSpace c = false) := by decide +kernel

theorem app_args : ∀ m ∈ appModFiles, ∀ a ∈ m.regs,
    (a.beh = .args none [.options (c! "o")] ∨ a.beh = .args (some 3) [.any, .appOrExten, .any, .any, .any, .any] ∨
      a.beh = .args (some 1) [.any, .options (c! "bdgsuUP")]) ∨
    a.beh ∈ [AppBeh.plain, .background, .set, .goto, .gotoIf, .ifTime, .gosub, .gosubIf, .execIf] := by
  decide +kernel

/-- C78: every application of that version can be used in some way about which nothing is
reported (`Background`: C46). -/
theorem C78_usable (v : Ver) (env : DEnv) (h : Loaded v env.toAEnv) (hd : 2 ≤ env.depth) (a : AppInfo)
    (ha : Comes v appModFiles a) (hb : a.beh ≠ .background) :
    ∃ data js, QuietApp env (a.name ++ '(' :: (data ++ [')'])) js := by
  have named : ∀ {a : AppInfo}, Comes v appModFiles a → a.name ≠ [] ∧ '(' ∉ a.name ∧ NoLead a.name ∧ NoTrail a.name := by
    rintro a ⟨m, hm, -, ham⟩
    obtain ⟨h1, h2, h3, h4⟩ := app_names_good m hm a ham
    exact ⟨h1, h2, noLead_of h3, noTrail_of h4⟩
  have known : ∀ {a : AppInfo}, Comes v appModFiles a → env.apps (env.lower a.name) = some a := fun ha =>
    (loaded_apps h _ _).2 ⟨ha, rfl⟩
  have lit : ∀ data : Str, '$' ∉ data → LiteralCall env a.name data a := fun data hs =>
    ⟨by omega, known ha, rfl, named ha, by
      have := noDollar hs
      unfold HasSubst at this
      constructor
      · cases hc : contains (c! "${") data with
        | false => rfl
        | true => exact absurd (.inl ((contains_infix _ _).1 hc)) this
      · cases hc : contains (c! "$[") data with
        | false => rfl
        | true => exact absurd (.inr ((contains_infix _ _).1 hc)) this⟩
  have text : ∀ (data : Txt), GoodTxt env.toFEnv false data → TextCall env a.name data a := fun data hg =>
    ⟨by omega, known ha, rfl, named ha, hg⟩
  have one : PlainArgs [c! "1"] := ⟨by decide, by rintro x h; cases h; decide, by decide⟩
  have dest : PlainDest [c! "1"] := .inr ⟨one, by decide, by decide⟩
  have cond : GoodTxt env.toFEnv false (condData (.var (c! "A") .nil) [c! "1"] []) :=
    ⟨⟨by decide, by decide⟩, by decide, by simp, trivial⟩
  obtain ⟨m, hm, hw, ham⟩ := id ha
  rcases app_args m hm a ham with (hx | hx | hx) | hx
  · exact ⟨_, _, C76_args (args := [c! "o"]) (lit _ (by decide)) hx ⟨by decide, by rintro x h; cases h; decide, by decide⟩
      (by simp) (by decide) (by
        intro i x b h1 h2
        match i with
        | 0 => simp at h1 h2; subst h1; subst h2; exact ⟨by decide, by decide⟩
        | i + 1 => simp at h1)⟩
  · exact ⟨_, _, C76_args (args := [c! "SIP/a", c! "app", c! "Wait"]) (lit _ (by decide)) hx
      ⟨by decide, by rintro x h; simp at h, by decide⟩ (by simp) (by decide) (by
        intro i x b h1 h2
        match i with
        | 0 => simp at h1 h2; subst h1; subst h2; trivial
        | 1 => simp at h1 h2; subst h1; subst h2; exact .inl rfl
        | 2 => simp at h1 h2; subst h1; subst h2; trivial
        | i + 3 => simp at h1)⟩
  · exact ⟨_, _, C76_args (args := [c! "100", c! "u"]) (lit _ (by decide)) hx ⟨by decide, by rintro x h; simp at h, by decide⟩
      (by simp) (by decide) (by
        intro i x b h1 h2
        match i with
        | 0 => simp at h1 h2; subst h1; subst h2; trivial
        | 1 => simp at h1 h2; subst h1; subst h2; exact ⟨by decide, by decide⟩
        | i + 2 => simp at h1)⟩
  · simp only [List.mem_cons, List.not_mem_nil, or_false] at hx
    rcases hx with hx | hx | hx | hx | hx | hx | hx | hx | hx
    · exact ⟨_, _, C76_plain (data := []) (lit _ (by decide)) hx ((C38_balance _).1 (by decide))⟩
    · exact absurd hx hb
    · exact ⟨_, _, C76_set (key := c! "a") (value := c! "b") (lit _ (by decide)) hx (by decide) ((C38_balance _).1 (by decide))⟩
    · exact ⟨_, _, C76_goto (args := [c! "1"]) (lit _ (by decide)) hx one (by decide)⟩
    · exact ⟨_, _, C76_gotoif (cond := .var (c! "A") .nil) (text _ cond) hx (.var _) dest (.inl rfl)⟩
    · exact ⟨_, _, C76_iftime (cond := c! "x") (act := c! "1") (lit _ (by decide)) hx
        ⟨by decide, noLead_of (by decide), noTrail_of (by decide), by decide⟩ (by decide)⟩
    · exact ⟨_, _, C76_gosub (args := [c! "1"]) (lit _ (by decide)) hx one (by decide)⟩
    · exact ⟨_, _, C76_gosubif (cond := .var (c! "A") .nil) (text _ cond) hx (.var _) dest (.inl rfl)⟩
    · have hn : Comes v appModFiles ⟨c! "NoOp", c! "<builtin>", .plain⟩ := by cases v <;> decide +kernel
      exact ⟨_, _, C76_execif (cond := .var (c! "A") .nil) (act := c! "NoOp()") (text _
          ⟨⟨by decide, by decide⟩, by decide, by simp, trivial⟩) hx (.var _) ⟨c! "NoOp", [], rfl, by decide, by decide⟩
        (C76_plain_text (env := { env with depth := env.depth - 1 }) (name := c! "NoOp")
          (a := ⟨c! "NoOp", c! "<builtin>", .plain⟩) (data := .nil)
          ⟨by show 0 < env.depth - 1; omega, known hn, rfl, named hn, trivial⟩ rfl ((C38_balance _).1 (by decide)))⟩

/-! ## Examples -/

/-- Lower-casing of ASCII letters and files in the order of the table. -/
def shipped (v : Ver) : AEnv where
  lower := fun s => s.map Char.toLower
  apps := fun k => (loadAll (fun s => s.map Char.toLower) AppInfo.name (modFiles v appModFiles)
    ((modFiles v appModFiles).map (·.file))).table.lookup k
  funcs := fun k => (loadAll (fun s => s.map Char.toLower) FuncInfo.name (modFiles v funcModFiles)
    ((modFiles v funcModFiles).map (·.file))).table.lookup k

theorem shipped_loaded (v : Ver) : Loaded v (shipped v) where
  lower := fun _ _ => rfl
  apps := ⟨_, by
    unfold ListsFiles
    rw [List.filter_eq_self.2]
    · cases v <;> decide +kernel, rfl⟩
  funcs := ⟨_, by
    unfold ListsFiles
    rw [List.filter_eq_self.2]
    · cases v <;> decide +kernel, rfl⟩

example (w : Where) : getApp (shipped .v13) none w (c! "Stasis") =
    ⟨[.app (c! "stasis")], .ok (⟨c! "Stasis", c! "app_stasis", .plain⟩, none)⟩ :=
  C78_accepted .v13 _ (shipped_loaded _) ⟨c! "Stasis", c! "app_stasis", .plain⟩ (by decide +kernel) (by decide) _ _

example (w : Where) : getApp (shipped .v11) none w (c! "Stasis") =
    ⟨[.app (c! "stasis"), .msg (mkMsg .E_APP_MISSING w [(c! "app", strV (c! "Stasis"))])],
      .ok (⟨c! "Unknown", c! "unknown", .plain⟩, none)⟩ :=
  C78_missing .v11 _ (shipped_loaded _) _ (by
    rintro a ⟨m, hm, hv, ha⟩
    have : ∀ m ∈ appModFiles, FileComes .v11 m → ∀ a ∈ m.regs, a.name.map Char.toLower ≠ (c! "Stasis").map Char.toLower := by
      decide +kernel
    exact this m hm hv a ha) _ _

end ALint.Props
