import Verif.Proofs.Args

/-!
# C44, C45, C46: looking up applications and functions
-/

namespace ALint.Props
open ALint ALint.Spec

variable {α : Type}

/-! ## C44 -/

/-- What holds for the tables after any history. -/
structure LoaderInv (u : α) (ops : List (LoaderOp α)) (l : Loader α) : Prop where
  some : ∀ low a, l.table.lookup low = some a →
    registered low ops = some a ∨ (registered low ops = none ∧ a = u ∧ low ≠ c! "unknown")
  none : ∀ low, l.table.lookup low = none → registered low ops = none
  used : ∀ low, low ∈ l.used ↔ ∃ op ∈ ops, op = .get low
  known : ∀ low ∈ l.used, ∃ a, l.table.lookup low = .some a

theorem registered_append (low : Str) (ops ops' : List (LoaderOp α)) :
    registered low (ops ++ ops') = (registered low ops').or (registered low ops) := by
  induction ops with
  | nil => simp [registered]
  | cons op ops ih => cases op <;> simp [registered, ih, Option.or_assoc]

theorem registered_unknown {u : α} {ops : List (LoaderOp α)} {a : α}
    (hu : ∀ a, LoaderOp.register (c! "unknown") a ∈ ops → a = u)
    (h : registered (c! "unknown") ops = some a) : a = u := by
  induction ops with
  | nil => simp [registered] at h
  | cons op ops ih =>
    cases op with
    | get low => exact ih (fun a ha => hu a (by simp [ha])) h
    | register k b =>
      simp only [registered, Option.or_eq_some_iff] at h
      rcases h with h | ⟨_, h⟩
      · exact ih (fun a ha => hu a (by simp [ha])) h
      · split at h
        · rename_i hk; subst hk; simp at h; subst h; exact hu _ (by simp)
        · simp at h

theorem lookup_cons (k : Str) (a : α) (t : List (Str × α)) (low : Str) :
    List.lookup low ((k, a) :: t) = if low = k then some a else List.lookup low t := by
  rw [List.lookup_cons]
  by_cases h : low = k
  · subst h; simp
  · have : (low == k) = false := by simpa using h
    rw [this, if_neg h]

theorem loader_inv (u : α) (done ops : List (LoaderOp α)) (l l' : Loader α)
    (hu : ∀ a, LoaderOp.register (c! "unknown") a ∈ done ++ ops → a = u)
    (hi : LoaderInv u done l) (h : l.run ops = .ok l') : LoaderInv u (done ++ ops) l' := by
  induction ops generalizing done l with
  | nil => simp [Loader.run] at h; subst h; simpa using hi
  | cons op ops ih =>
    have key : ∀ l1, l.step op = .ok l1 → LoaderInv u (done ++ [op]) l1 := by
      intro l1 h1
      cases op with
      | register k a =>
        simp [Loader.step] at h1
        subst h1
        constructor
        · intro low b hb
          simp only [Loader.register] at hb
          rw [lookup_cons] at hb
          rw [registered_append]
          by_cases hk : low = k
          · subst hk; simp at hb; subst hb; left; simp [registered]
          · rw [if_neg hk] at hb
            simpa [registered, Ne.symm hk] using hi.some low b hb
        · intro low hb
          simp only [Loader.register] at hb
          rw [lookup_cons] at hb
          split at hb
          · simp at hb
          · rename_i hk
            rw [registered_append]
            simpa [registered, Ne.symm hk] using hi.none low hb
        · intro low
          have := hi.used low
          simp only [Loader.register]
          rw [this]
          simp
        · intro low hl
          obtain ⟨b, hb⟩ := hi.known low hl
          simp only [Loader.register]
          rw [lookup_cons]
          split
          · exact ⟨_, rfl⟩
          · exact ⟨b, hb⟩
      | get k =>
        simp only [Loader.step, Loader.get] at h1
        cases hk : l.table.lookup k with
        | some a =>
          rw [hk] at h1
          simp [Except.map] at h1
          subst h1
          constructor
          · intro low b hb
            rw [registered_append]
            simpa [registered] using hi.some low b hb
          · intro low hb
            rw [registered_append]
            simpa [registered] using hi.none low hb
          · intro low
            have := hi.used low
            simp [this]
            constructor
            · rintro (h | h)
              · exact .inr h
              · exact .inl h
            · rintro (h | h)
              · exact .inr h
              · exact .inl h
          · intro low hl
            rcases List.mem_cons.1 hl with rfl | hl
            · exact ⟨a, hk⟩
            · exact hi.known low hl
        | none =>
          rw [hk] at h1
          cases hn : l.table.lookup (c! "unknown") with
          | none => rw [hn] at h1; simp [Except.map] at h1
          | some v =>
            rw [hn] at h1
            simp [Except.map] at h1
            subst h1
            have hvu : v = u := by
              rcases hi.some _ _ hn with h | ⟨_, h, _⟩
              · exact registered_unknown (fun a ha => hu a (by simp [ha])) h
              · exact h
            have hku : k ≠ c! "unknown" := by rintro rfl; rw [hk] at hn; simp at hn
            constructor
            · intro low b hb
              rw [lookup_cons] at hb
              rw [registered_append]
              by_cases hl : low = k
              · subst hl
                simp at hb
                subst hb
                right
                exact ⟨by simpa [registered] using hi.none low hk, hvu, hku⟩
              · rw [if_neg hl] at hb
                simpa [registered] using hi.some low b hb
            · intro low hb
              rw [lookup_cons] at hb
              split at hb
              · simp at hb
              · rw [registered_append]
                simpa [registered] using hi.none low hb
            · intro low
              have := hi.used low
              simp [this]
              constructor
              · rintro (h | h)
                · exact .inr h
                · exact .inl h
              · rintro (h | h)
                · exact .inr h
                · exact .inl h
            · intro low hl
              simp only
              rw [lookup_cons]
              split
              · exact ⟨_, rfl⟩
              · rename_i hne
                rcases List.mem_cons.1 hl with rfl | hl
                · exact absurd rfl hne
                · exact hi.known low hl
    simp only [Loader.run] at h
    cases hs : l.step op with
    | error e => rw [hs] at h; simp [Except.bind] at h
    | ok l1 =>
      rw [hs] at h
      have := ih (done ++ [op]) l1 (by simpa using hu) (key l1 hs) h
      simpa using this

theorem loader_inv' {u : α} {ops : List (LoaderOp α)} {l : Loader α}
    (hu : ∀ a, LoaderOp.register (c! "unknown") a ∈ ops → a = u)
    (h : Loader.empty.run ops = .ok l) : LoaderInv u ops l := by
  have := loader_inv u [] ops Loader.empty l (by simpa using hu)
    ⟨by simp [Loader.empty], by simp [registered], by simp [Loader.empty], by simp [Loader.empty]⟩ h
  simpa using this

/-- C44: after any history of registrations and look-ups, a look-up finds what was
registered last under the name, or else the object for unknown names.  What was looked
up before does not matter.  (`u` is the object registered as `unknown`; there is only
one such object.) -/
theorem C44_lookup (u : α) (ops : List (LoaderOp α)) (l : Loader α)
    (hu : ∀ a, LoaderOp.register (c! "unknown") a ∈ ops → a = u)
    (hr : registered (c! "unknown") ops ≠ none)
    (h : Loader.empty.run ops = .ok l) (low : Str) :
    (l.get low).map Prod.fst = .ok ((registered low ops).getD u) := by
  have hi := loader_inv' hu h
  unfold Loader.get
  cases hk : l.table.lookup low with
  | some a =>
    rcases hi.some _ _ hk with h | ⟨h, ha, _⟩
    · simp [Except.map, h]
    · simp [Except.map, h, ha]
  | none =>
    have h0 := hi.none _ hk
    cases hn : l.table.lookup (c! "unknown") with
    | none => exact absurd (hi.none _ hn) hr
    | some v =>
      rcases hi.some _ _ hn with h | ⟨_, h, _⟩
      · have := registered_unknown hu h
        simp [Except.map, h0, this]
      · simp [Except.map, h0, h]

/-- C44: once something is registered as `unknown`, looking up never fails. -/
theorem C44_total (u : α) (ops : List (LoaderOp α)) (l : Loader α) (lows : List Str)
    (hu : ∀ a, LoaderOp.register (c! "unknown") a ∈ ops → a = u)
    (hr : registered (c! "unknown") ops ≠ none)
    (h : Loader.empty.run ops = .ok l) : ∃ l', l.run (lows.map .get) = .ok l' := by
  have gen : ∀ (lows : List Str) (l : Loader α), (∃ v, l.table.lookup (c! "unknown") = some v) →
      ∃ l', l.run (lows.map .get) = .ok l' := by
    intro lows
    induction lows with
    | nil => intro l _; exact ⟨l, rfl⟩
    | cons low lows ih =>
      rintro l ⟨v, hv⟩
      simp only [List.map_cons, Loader.run, Loader.step, Loader.get]
      cases hk : l.table.lookup low with
      | some a => exact ih _ ⟨v, hv⟩
      | none =>
        rw [hv]
        exact ih _ ⟨v, by
          rw [lookup_cons]
          have : c! "unknown" ≠ low := by rintro rfl; rw [hk] at hv; simp at hv
          rw [if_neg this]; exact hv⟩
  apply gen
  cases hn : l.table.lookup (c! "unknown") with
  | none => exact absurd ((loader_inv' hu h).none _ hn) hr
  | some v => exact ⟨v, rfl⟩

/-- C44: the model of an application use (`getApp`) looks up the registered applications
directly; that gives the application the tables give after any history of look-ups. -/
theorem C44_refines (env : AEnv) (ops : List (LoaderOp AppInfo)) (l : Loader AppInfo) (u : AppInfo)
    (hu : ∀ a, LoaderOp.register (c! "unknown") a ∈ ops → a = u)
    (hr : registered (c! "unknown") ops ≠ none) (h : Loader.empty.run ops = .ok l)
    (he : ∀ low, env.apps low = registered low ops) (sp : Option Str) (w : Where) (app : Str) :
    (getApp env sp w app).val.map Prod.fst = (l.get (env.lower app)).map Prod.fst := by
  rw [C44_lookup u ops l hu hr h]
  have hcheck : ∀ n s, (checkAvailability w n s).val = .ok () := by
    intro n s
    unfold checkAvailability
    split
    · rfl
    · split <;> rfl
  obtain ⟨v, hv⟩ := Option.ne_none_iff_exists'.1 hr
  have hvu := registered_unknown hu hv
  unfold getApp
  rw [he, he, hv, hvu]
  cases hk : registered (env.lower app) ops with
  | some a =>
    simp only [Option.some_or, Tr.note, Tr.bind, hcheck]
    rfl
  | none =>
    simp only [Option.none_or, Tr.note, Tr.bind, hcheck]
    rfl

/-- C44: the same for functions. -/
theorem C44_refines_functions (env : FEnv) (ops : List (LoaderOp FuncInfo)) (l : Loader FuncInfo) (u : FuncInfo)
    (hu : ∀ a, LoaderOp.register (c! "unknown") a ∈ ops → a = u)
    (hr : registered (c! "unknown") ops ≠ none) (h : Loader.empty.run ops = .ok l)
    (he : ∀ low, env.funcs low = registered low ops) (w : Where) (func : Str) :
    (getFunc env w func).val = (l.get (env.lower func)).map Prod.fst := by
  rw [C44_lookup u ops l hu hr h]
  obtain ⟨v, hv⟩ := Option.ne_none_iff_exists'.1 hr
  have hvu := registered_unknown hu hv
  unfold getFunc
  dsimp only
  rw [he, he, hv, hvu]
  cases hk : registered (env.lower func) ops with
  | some a =>
    simp only [Option.some_or, Tr.note, Tr.bind, Option.getD_some]
    split
    · split <;> rfl
    · rfl
  | none =>
    simp only [Option.none_or, Tr.note, Tr.bind, Option.getD_none]
    split
    · split <;> rfl
    · rfl

/-- C44: an application use has exactly one of three outcomes: nothing if the exact name is
registered; "bad case" if a name is registered that differs in case; "missing" otherwise.
(Names that are a spelling of `unknown` are left out, see `C44_unknown`; for `Background`
see C46.) -/
theorem C44_outcome (env : AEnv) (sp : Option Str) (w : Where) (app : Str)
    (hreg : ∀ low a, env.apps low = some a → env.lower a.name = low)
    (hu : ∃ u, env.apps (c! "unknown") = some u ∧ u.name = c! "Unknown" ∧ u.beh ≠ .background)
    (hn : env.lower app ≠ c! "unknown") (hl : env.lower (c! "Unknown") = c! "unknown")
    (hb : ∀ a, env.apps (env.lower app) = some a → a.beh ≠ .background) :
    (msgs (getApp env sp w app).ev =
      if ∃ a, env.apps (env.lower app) = some a ∧ a.name = app then []
      else match env.apps (env.lower app) with
        | some a => [mkMsg .W_APP_BAD_CASE w [(c! "app", strV app), (c! "proper", strV a.name)]]
        | none => [mkMsg .E_APP_MISSING w [(c! "app", strV app)]]) := by
  obtain ⟨u, hu1, hu2, hu3⟩ := hu
  unfold getApp
  cases hk : env.apps (env.lower app) with
  | some a =>
    have hbb := hb a hk
    have hname : a.name ≠ c! "Unknown" := by
      intro h
      have := hreg _ _ hk
      rw [h, hl] at this
      exact hn this.symm
    simp only [Option.some_or, Tr.note, Tr.bind, appName, if_neg hbb, checkAvailability, Option.some.injEq,
      exists_eq_left']
    by_cases h1 : a.name = app
    · simp [h1, Tr.pure, msgs]
    · simp only [h1, hname, if_false]
      rfl
  | none =>
    have h1 : ¬ (c! "Unknown" = app) := by
      intro h; rw [← h, hl] at hn; exact hn rfl
    simp only [Option.none_or, hu1, Tr.note, Tr.bind, appName, if_neg hu3, hu2, checkAvailability, if_neg h1]
    rfl

/-- C44, a detail: an application written `Unknown` is not reported as missing; any other
spelling of that name is. -/
theorem C44_unknown (env : AEnv) (sp : Option Str) (w : Where) (app : Str)
    (hu : ∃ u, env.apps (c! "unknown") = some u ∧ u.name = c! "Unknown" ∧ u.beh ≠ .background)
    (hn : env.lower app = c! "unknown") :
    msgs (getApp env sp w app).ev =
      if app = c! "Unknown" then [] else [mkMsg .E_APP_MISSING w [(c! "app", strV app)]] := by
  obtain ⟨u, hu1, hu2, hu3⟩ := hu
  unfold getApp
  rw [hn, hu1]
  simp only [Option.some_or, Tr.note, Tr.bind, appName, if_neg hu3, hu2, checkAvailability]
  by_cases h : app = c! "Unknown"
  · subst h; rfl
  · have h' : ¬ (c! "Unknown" = app) := fun e => h e.symm
    simp only [h, h', if_false, if_true]
    rfl

/-! ## C45 -/

theorem mem_insertStr (x y : Str) (l : List Str) : y ∈ insertStr x l ↔ y = x ∨ y ∈ l := by
  induction l with
  | nil => simp [insertStr]
  | cons z l ih =>
    rw [insertStr]
    split
    · rename_i h; subst h; simp
    · split
      · simp
      · simp [ih]
        constructor
        · rintro (h | h | h) <;> simp [h]
        · rintro (h | h | h) <;> simp [h]

theorem sorted_insertStr (x : Str) (l : List Str) (h : l.Pairwise (· < ·)) : (insertStr x l).Pairwise (· < ·) := by
  induction l with
  | nil => simp [insertStr]
  | cons z l ih =>
    rw [insertStr]
    rw [List.pairwise_cons] at h
    split
    · rw [List.pairwise_cons]; exact h
    · rename_i hne
      split
      · rename_i hlt
        rw [List.pairwise_cons, List.pairwise_cons]
        refine ⟨?_, h⟩
        intro y hy
        rcases List.mem_cons.1 hy with rfl | hy
        · exact hlt
        · exact List.lt_trans hlt (h.1 y hy)
      · rename_i hlt
        rw [List.pairwise_cons]
        refine ⟨?_, ih h.2⟩
        intro y hy
        rcases (mem_insertStr ..).1 hy with rfl | hy
        · have : z ≤ y := List.not_lt.1 hlt
          exact Classical.byContradiction fun hc =>
            hne (List.le_antisymm (List.not_lt.1 hc) this)
        · exact h.1 y hy

theorem sortStrs_spec (l : List Str) : (sortStrs l).Pairwise (· < ·) ∧ ∀ x, x ∈ sortStrs l ↔ x ∈ l := by
  induction l with
  | nil => simp [sortStrs]
  | cons y l ih =>
    refine ⟨sorted_insertStr _ _ ih.1, ?_⟩
    intro x
    have : sortStrs (y :: l) = insertStr y (sortStrs l) := rfl
    rw [this, mem_insertStr, ih.2, List.mem_cons]

/-- C45: after any history, the list of used modules is strictly sorted (so without
duplicates) and has exactly the modules of what was looked up (`unknown` left out). -/
theorem C45_modules (mod : α → Str) (u : α) (ops : List (LoaderOp α)) (l : Loader α)
    (hu : ∀ a, LoaderOp.register (c! "unknown") a ∈ ops → a = u)
    (h : Loader.empty.run ops = .ok l) :
    (l.usedModules mod).Pairwise (· < ·) ∧
    ∀ m, m ∈ l.usedModules mod ↔
      m ≠ c! "unknown" ∧ ∃ low, LoaderOp.get low ∈ ops ∧ mod ((registered low ops).getD u) = m := by
  have hi := loader_inv' hu h
  obtain ⟨s1, s2⟩ := sortStrs_spec (l.used.filterMap fun i => (l.table.lookup i).map mod)
  refine ⟨s1.filter _, ?_⟩
  intro m
  have obj : ∀ low a, l.table.lookup low = some a → (registered low ops).getD u = a := by
    intro low a ha
    rcases hi.some _ _ ha with h | ⟨h, ha, _⟩
    · simp [h]
    · simp [h, ha]
  rw [Loader.usedModules, List.mem_filter, s2, List.mem_filterMap]
  simp only [Option.map_eq_some_iff, decide_eq_true_eq]
  rw [And.comm]
  refine and_congr_right fun _ => ?_
  constructor
  · rintro ⟨low, hlow, a, ha, rfl⟩
    obtain ⟨op, ho, rfl⟩ := (hi.used low).1 hlow
    exact ⟨low, ho, by rw [obj _ _ ha]⟩
  · rintro ⟨low, ho, rfl⟩
    have hlow := (hi.used low).2 ⟨_, ho, rfl⟩
    obtain ⟨a, ha⟩ := hi.known low hlow
    exact ⟨low, hlow, a, ha, by rw [obj _ _ ha]⟩

theorem sorted_ext {a b : List Str} (ha : a.Pairwise (· < ·)) (hb : b.Pairwise (· < ·))
    (h : ∀ x, x ∈ a ↔ x ∈ b) : a = b := by
  induction a generalizing b with
  | nil =>
    cases b with
    | nil => rfl
    | cons y b => have := (h y).2 (by simp); simp at this
  | cons x a ih =>
    cases b with
    | nil => have := (h x).1 (by simp); simp at this
    | cons y b =>
      rw [List.pairwise_cons] at ha hb
      have hxy : x = y := by
        rcases List.mem_cons.1 ((h x).1 (by simp)) with h1 | h1
        · exact h1
        · rcases List.mem_cons.1 ((h y).2 (by simp)) with h2 | h2
          · exact h2.symm
          · exact absurd (List.lt_trans (hb.1 x h1) (ha.1 y h2)) (List.lt_irrefl _)
      subst hxy
      congr 1
      apply ih ha.2 hb.2
      intro z
      constructor
      · intro hz
        rcases List.mem_cons.1 ((h z).1 (by simp [hz])) with rfl | h1
        · exact absurd (ha.1 z hz) (List.lt_irrefl _)
        · exact h1
      · intro hz
        rcases List.mem_cons.1 ((h z).2 (by simp [hz])) with rfl | h1
        · exact absurd (hb.1 z hz) (List.lt_irrefl _)
        · exact h1

theorem registered_map_get (low : Str) (lows : List Str) :
    registered low (lows.map (LoaderOp.get (α := α))) = none := by
  induction lows with
  | nil => rfl
  | cons x lows ih => exact ih

/-- C45: the order of the look-ups, and how often something is looked up, do not matter. -/
theorem C45_order (mod : α → Str) (u : α) (ops : List (LoaderOp α)) (lows lows' : List Str) (l l' : Loader α)
    (hu : ∀ a, LoaderOp.register (c! "unknown") a ∈ ops → a = u)
    (hs : ∀ low, low ∈ lows ↔ low ∈ lows')
    (h : Loader.empty.run (ops ++ lows.map .get) = .ok l)
    (h' : Loader.empty.run (ops ++ lows'.map .get) = .ok l') :
    l.usedModules mod = l'.usedModules mod := by
  have hu1 : ∀ (x : List Str) a, LoaderOp.register (c! "unknown") a ∈ ops ++ x.map .get → a = u := by
    intro x a ha
    rcases List.mem_append.1 ha with ha | ha
    · exact hu a ha
    · simp at ha
  obtain ⟨a1, a2⟩ := C45_modules mod u _ l (hu1 lows) h
  obtain ⟨b1, b2⟩ := C45_modules mod u _ l' (hu1 lows') h'
  apply sorted_ext a1 b1
  intro m
  rw [a2, b2]
  simp only [registered_append, registered_map_get, Option.none_or, List.mem_append, List.mem_map,
    LoaderOp.get.injEq, exists_eq_right, hs]

private def opsEx : List (LoaderOp AppInfo) :=
  [.register (c! "unknown") ⟨c! "Unknown", c! "unknown", .plain⟩,
   .register (c! "dial") ⟨c! "Dial", c! "app_dial", .plain⟩,
   .register (c! "answer") ⟨c! "Answer", c! "<builtin>", .plain⟩,
   .get (c! "dial"), .get (c! "nosuchapp"), .get (c! "answer"), .get (c! "dial")]

example : (Loader.empty.run opsEx).map (fun l => l.usedModules AppInfo.module) =
    .ok [c! "<builtin>", c! "app_dial"] := by decide
example : (Loader.empty.run opsEx).map (fun l => (l.get (c! "nosuchapp")).map fun r => r.1.name) =
    .ok (.ok (c! "Unknown")) := by decide

/-! ## C46 -/

/-- The spelling chosen after a sequence of uses of any applications. -/
def chosenAfter (env : AEnv) (w : Where) : Option Str → List Str → Except Exc (Option Str)
  | sp, [] => .ok sp
  | sp, u :: us =>
    match (getApp env sp w u).val with
    | .error e => .error e
    | .ok r => chosenAfter env w r.2 us

theorem getApp_val {env : AEnv} (hu : env.apps (c! "unknown") ≠ none) (sp : Option Str) (w : Where) (app : Str) :
    ∃ a, (env.apps (env.lower app)).or (env.apps (c! "unknown")) = some a ∧
      (getApp env sp w app).val = .ok (a, chooseSpelling sp a app) ∧
      (getApp env sp w app).ev =
        .app (env.lower app) :: (checkAvailability w (appName (chooseSpelling sp a app) a) app).ev := by
  obtain ⟨v, hv⟩ := Option.ne_none_iff_exists'.1 hu
  obtain ⟨a, ha⟩ : ∃ a, (env.apps (env.lower app)).or (env.apps (c! "unknown")) = some a := by
    rw [hv]; cases env.apps (env.lower app) <;> simp
  refine ⟨a, ha, ?_⟩
  have hcheck : ∀ n s, (checkAvailability w n s).val = .ok () := by
    intro n s
    unfold checkAvailability
    split
    · rfl
    · split <;> rfl
  unfold getApp
  rw [ha]
  simp [Tr.note, Tr.bind, hcheck, Tr.pure]

/-- Is this one of the two spellings? -/
private def isSp (u : Str) : Bool := u = c! "Background" || u = c! "BackGround"

theorem chosenAfter_eq {env : AEnv} (w : Where) (bg : AppInfo) (hu : env.apps (c! "unknown") ≠ none)
    (hbg : env.apps (c! "background") = some bg) (hb : bg.beh = .background)
    (ho : ∀ low a, env.apps low = some a → a.beh = .background → low = c! "background")
    (hl1 : env.lower (c! "Background") = c! "background") (hl2 : env.lower (c! "BackGround") = c! "background")
    (us : List Str) : chosenAfter env w none us = .ok (us.find? isSp) ∧
      ∀ s, chosenAfter env w (some s) us = .ok (some s) := by
  have hun : ∀ a, env.apps (c! "unknown") = some a → a.beh ≠ .background := by
    intro a ha hb'
    have := ho _ _ ha hb'
    simp at this
  induction us with
  | nil => exact ⟨rfl, fun _ => rfl⟩
  | cons u us ih =>
    constructor
    · obtain ⟨a, ha, hv, _⟩ := getApp_val hu none w u
      rw [chosenAfter, hv]
      dsimp only
      by_cases hs : isSp u = true
      · have hlow : env.lower u = c! "background" := by
          simp [isSp] at hs
          rcases hs with rfl | rfl <;> assumption
        rw [hlow, hbg] at ha
        simp at ha
        subst ha
        have : chooseSpelling none bg u = some u := by
          simp [isSp] at hs
          simp [chooseSpelling, hb, hs]
        rw [this, (ih.2 u), List.find?_cons_of_pos hs]
      · have : chooseSpelling none a u = none := by
          unfold chooseSpelling
          simp [isSp] at hs
          simp [hs]
        rw [this, ih.1, List.find?_cons_of_neg hs]
    · intro s
      obtain ⟨a, ha, hv, _⟩ := getApp_val hu (some s) w u
      rw [chosenAfter, hv]
      have : chooseSpelling (some s) a u = some s := by simp [chooseSpelling]
      dsimp only
      rw [this]
      exact ih.2 s

/-- C46: in any run (a sequence of uses of any applications), a use of `Background` in any
spelling is accepted silently iff it is the accepted spelling, that is, the first of
`Background` and `BackGround` in the run; all others get one message. -/
theorem C46_background (env : AEnv) (w : Where) (bg : AppInfo) (hu : env.apps (c! "unknown") ≠ none)
    (hbg : env.apps (c! "background") = some bg) (hb : bg.beh = .background) (hname : bg.name = c! "Background")
    (ho : ∀ low a, env.apps low = some a → a.beh = .background → low = c! "background")
    (hl1 : env.lower (c! "Background") = c! "background") (hl2 : env.lower (c! "BackGround") = c! "background")
    (before : List Str) (u : Str) (hlow : env.lower u = c! "background") :
    ∃ sp, chosenAfter env w none before = .ok sp ∧
      msgs (getApp env sp w u).ev =
        if u = spelling (before ++ [u]) then []
        else [mkMsg .W_APP_BAD_CASE w [(c! "app", strV u), (c! "proper", strV (spelling (before ++ [u])))]] := by
  obtain ⟨hc, _⟩ := chosenAfter_eq w bg hu hbg hb ho hl1 hl2 before
  refine ⟨_, hc, ?_⟩
  obtain ⟨a, ha, _, hev⟩ := getApp_val hu (before.find? isSp) w u
  rw [hlow, hbg] at ha
  simp at ha
  subst ha
  have hsp : spelling (before ++ [u]) = ((before ++ [u]).find? isSp).getD (c! "Background") := rfl
  have happ : appName (chooseSpelling (before.find? isSp) bg u) bg = spelling (before ++ [u]) := by
    rw [hsp, List.find?_append]
    unfold appName
    rw [if_pos hb, hname]
    cases hf : before.find? isSp with
    | some s => simp [chooseSpelling]
    | none =>
      by_cases hs : isSp u = true
      · have h' := hs
        simp [isSp] at hs
        simp [chooseSpelling, hb, hs, List.find?, h']
      · have h' := hs
        simp [isSp] at hs
        simp [chooseSpelling, hs, List.find?, h']
  have hun : spelling (before ++ [u]) ≠ c! "Unknown" := by
    rw [hsp]
    cases hf : (before ++ [u]).find? isSp with
    | none => simp
    | some s =>
      have := List.find?_some hf
      simp [isSp] at this
      rcases this with rfl | rfl <;> simp
  rw [hev, happ]
  unfold checkAvailability
  by_cases h : u = spelling (before ++ [u])
  · rw [if_pos h.symm, if_pos h]; rfl
  · rw [if_neg (Ne.symm h), if_neg hun, if_neg h]; rfl

private def envB : AEnv where
  lower := fun s => s.map Char.toLower
  funcs := fun _ => none
  apps := fun s =>
    if s = c! "background" then some ⟨c! "Background", c! "<builtin>", .background⟩
    else if s = c! "unknown" then some ⟨c! "Unknown", c! "unknown", .plain⟩
    else none

example : chosenAfter envB ⟨[], 1, []⟩ none [c! "Dial", c! "BackGround", c! "Background"] =
    .ok (some (c! "BackGround")) := by decide
example : spelling [c! "Dial", c! "BackGround", c! "Background"] = c! "BackGround" := by decide

end ALint.Props
