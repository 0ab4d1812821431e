import Verif.Proofs.Located
import Verif.Proofs.Filter
import Verif.Proofs.TroubleFile
import Verif.Model.Odbc
import Verif.Spec.Odbc
import Verif.Spec.App

/-!
# Reading func_odbc.conf
-/

namespace ALint
open ALint.Spec

/-! ## Settings of one function -/

theorem indexOf?_none {x : Str} {l : List Str} : indexOf? x l = none ↔ x ∉ l := by
  induction l with
  | nil => simp [indexOf?]
  | cons y ys ih =>
    unfold indexOf?
    by_cases h : x = y
    · simp [h]
    · simp [h, ih]

/-- Is the line kept, after those in `sets`? -/
def odbcKeep (sets : List VarE) (v : VarE) : Bool :=
  decide (v.key ∈ odbcSettings) && (sets.find? (·.key == v.key)).isNone

/-- The lines kept. -/
def odbcKept (sets : List VarE) : List VarE → List VarE
  | [] => sets
  | v :: vs => odbcKept (if odbcKeep sets v then sets ++ [v] else sets) vs

/-- The messages about unknown or repeated settings. -/
def isSettingKind (m : Msg) : Bool := m.kind = .E_CONF_KEY_INVALID || m.kind = .E_CONF_KEY_DUPE

/-- What it says about the line. -/
def lineReport (sets : List VarE) (v : VarE) : List Msg :=
  if v.key ∉ odbcSettings then [mkMsg .E_CONF_KEY_INVALID v.at_ [(c! "key", .one (.str v.key))]]
  else match sets.find? (·.key == v.key) with
    | some u => [⟨.E_CONF_KEY_DUPE, v.at_, [(c! "key", .one (.str v.key))], some u.at_⟩]
    | none => []

theorem emit_plain {m : Msg} (h : Prints m) : (Res.emit m).val = .ok () := by
  obtain ⟨t, ht⟩ := h
  simp [Res.emit, ht, Except.map]

theorem order_eq : odbcOrder = odbcSettings := rfl

theorem checkOrder_spec (sets : List VarE) (v : VarE) :
    (checkOrder sets v).val = .ok (odbcKeep sets v) ∧
    (checkOrder sets v).log.filter isSettingKind = lineReport sets v := by
  unfold checkOrder odbcKeep lineReport
  rw [← order_eq]
  cases hi : indexOf? v.key odbcOrder with
  | none =>
    have := indexOf?_none.1 hi
    simp only [this, decide_false, Bool.false_and, not_false_eq_true, if_true]
    rw [Res.bind_of_ok (emit_plain ⟨_, rfl⟩)]
    exact ⟨rfl, rfl⟩
  | some pos =>
    have : v.key ∈ odbcOrder := by
      by_cases h : v.key ∈ odbcOrder
      · exact h
      · rw [indexOf?_none.2 h] at hi; simp at hi
    simp only [this, decide_true, Bool.true_and, not_true_eq_false, if_false]
    cases hf : sets.find? (·.key == v.key) with
    | some u =>
      simp only
      rw [Res.bind_of_ok (emit_plain ⟨_, rfl⟩)]
      exact ⟨rfl, rfl⟩
    | none =>
      simp only
      split
      · exact ⟨rfl, rfl⟩
      · split
        · rw [Res.bind_of_ok (emit_plain ⟨_, rfl⟩)]
          exact ⟨rfl, rfl⟩
        · exact ⟨rfl, rfl⟩

theorem add_spec (f : OdbcFn) (v : VarE) :
    (f.add v).val = .ok { f with sets := if odbcKeep f.sets v then f.sets ++ [v] else f.sets } ∧
    (f.add v).log.filter isSettingKind = lineReport f.sets v := by
  obtain ⟨h1, h2⟩ := checkOrder_spec f.sets v
  unfold OdbcFn.add
  rw [Res.bind_of_ok h1]
  by_cases hk : odbcKeep f.sets v = true
  · simp only [hk, if_true, List.filter_append, h2]
    have key : ∀ x : Res Unit, x.val = .ok () → x.log.filter isSettingKind = [] →
        (Res.bind x fun _ => Res.pure { f with sets := f.sets ++ [v] }).val = .ok { f with sets := f.sets ++ [v] } ∧
        lineReport f.sets v ++ (Res.bind x fun _ => Res.pure { f with sets := f.sets ++ [v] }).log.filter isSettingKind =
          lineReport f.sets v := by
      intro x hx hl
      rw [Res.bind_of_ok hx]
      simp [hl]
    apply key
    · split
      · have : (if v.key = c! "read" ∨ v.key = c! "write" then Res.emit (mkMsg .W_ODBC_LEGACY v.at_ [])
            else Res.pure ()).val = .ok () := by split <;> rfl
        rw [Res.bind_of_ok this]
        dsimp only
        split <;> rfl
      · rfl
    · split
      · have : (if v.key = c! "read" ∨ v.key = c! "write" then Res.emit (mkMsg .W_ODBC_LEGACY v.at_ [])
            else Res.pure ()).val = .ok () := by split <;> rfl
        rw [Res.bind_of_ok this]
        rw [List.filter_append]
        split <;> split <;> rfl
      · rfl
  · simp only [Bool.not_eq_true] at hk
    simp [hk, h2]

/-! ## The sections of a file -/

/-- The functions, newest first, after more lines. -/
def odbcMore (fns : List OdbcFn) (es : List Elem) : List OdbcFn :=
  ((sectionsOf es).map fun s => ⟨s.1.name, s.1.templates, s.1.comment, s.1.at_, odbcKept [] s.2⟩).reverse ++
    match fns with
    | [] => []
    | f :: rest => { f with sets := odbcKept f.sets (settingsBelow es) } :: rest

/-- Messages about the settings kept so far and more lines. -/
def keptReports (sets : List VarE) : List VarE → List Msg
  | [] => []
  | v :: vs => lineReport sets v ++ keptReports (if odbcKeep sets v then sets ++ [v] else sets) vs

/-- Messages about settings. -/
def moreReports (fns : List OdbcFn) (es : List Elem) : List Msg :=
  (match fns with
    | [] => []
    | f :: _ => keptReports f.sets (settingsBelow es)) ++ (sectionsOf es).flatMap fun s => keptReports [] s.2

theorem context_spec (fns : List OdbcFn) (c : CtxE) :
    (odbcContext fns c).val = .ok (⟨c.name, c.templates, c.comment, c.at_, []⟩ :: fns) ∧
    (odbcContext fns c).log.filter isSettingKind = [] := by
  unfold odbcContext
  have h1 : (if odbcNameOk c.name then Res.pure ()
      else Res.emit (mkMsg .W_ODBC_BADTOKENS c.at_ [(c! "name", .one (.str c.name))])).val = .ok () := by
    split <;> rfl
  have h2 : (if c.templates.isEmpty then Res.pure () else Res.emit (mkMsg .I_NOTIMPL_TEMPLATES c.at_ [])).val = .ok () := by
    split <;> rfl
  rw [Res.bind_of_ok h1]
  dsimp only
  rw [Res.bind_of_ok h2]
  refine ⟨rfl, ?_⟩
  simp only [List.filter_append]
  split <;> split <;> rfl

/-- The functions after a line. -/
def odbcLine (v : VarE) : List OdbcFn → List OdbcFn
  | [] => []
  | f :: rest => { f with sets := if odbcKeep f.sets v then f.sets ++ [v] else f.sets } :: rest

/-- What is reported about it. -/
def odbcLineReport (v : VarE) : List OdbcFn → List Msg
  | [] => []
  | f :: _ => lineReport f.sets v

theorem varset_spec (fns : List OdbcFn) (v : VarE) :
    (odbcVarset fns v).val = .ok (odbcLine v fns) ∧
    (odbcVarset fns v).log.filter isSettingKind = odbcLineReport v fns := by
  unfold odbcVarset
  have h1 : (if v.arrow then Res.emit (mkMsg .H_CONF_HAS_ARROW v.at_ []) else Res.pure ()).val = .ok () := by
    split <;> rfl
  have h2 : (if v.arrow then Res.emit (mkMsg .H_CONF_HAS_ARROW v.at_ []) else Res.pure ()).log.filter isSettingKind = [] := by
    split <;> rfl
  rw [Res.bind_of_ok h1, List.filter_append, h2]
  cases fns with
  | nil => exact ⟨rfl, rfl⟩
  | cons f rest =>
    obtain ⟨h3, h4⟩ := add_spec f v
    simp only
    rw [Res.bind_of_ok h3]
    simp [h4, odbcLine, odbcLineReport]

theorem feed_odbc (fns : List OdbcFn) (es : List Elem) :
    (feed odbcStep fns es).val = .ok (odbcMore fns es) ∧
    (feed odbcStep fns es).log.filter isSettingKind = moreReports fns es := by
  induction es generalizing fns with
  | nil => cases fns <;> exact ⟨rfl, rfl⟩
  | cons e es ih =>
    rw [feed]
    cases e with
    | ctx c =>
      obtain ⟨h1, h2⟩ := context_spec fns c
      rw [show odbcStep fns (.ctx c) = odbcContext fns c from rfl]
      rw [Res.bind_of_ok (wrapExc_ok.2 h1)]
      simp only [List.filter_append, wrapExc_log]
      obtain ⟨h3, h4⟩ := ih (⟨c.name, c.templates, c.comment, c.at_, []⟩ :: fns)
      refine ⟨h3.trans ?_, ?_⟩
      · cases fns <;> simp [odbcMore, sectionsOf, settingsBelow, odbcKept]
      · rw [h4]
        simp only [h2]
        cases fns <;> simp [moreReports, sectionsOf, settingsBelow, keptReports]
    | var v =>
      obtain ⟨h1, h2⟩ := varset_spec fns v
      rw [show odbcStep fns (.var v) = odbcVarset fns v from rfl]
      rw [Res.bind_of_ok (wrapExc_ok.2 h1)]
      simp only [List.filter_append, wrapExc_log]
      obtain ⟨h3, h4⟩ := ih (odbcLine v fns)
      refine ⟨h3.trans ?_, ?_⟩
      · cases fns <;> simp [odbcMore, sectionsOf, settingsBelow, odbcKept, odbcLine]
      · rw [h4]
        simp only [h2]
        cases fns <;> simp [moreReports, sectionsOf, settingsBelow, keptReports, odbcLine, odbcLineReport]
    | empty b w =>
      rw [Res.bind_of_ok (wrapExc_ok.2 rfl)]
      obtain ⟨h3, h4⟩ := ih fns
      refine ⟨h3.trans ?_, ?_⟩
      · cases fns <;> simp [odbcMore, sectionsOf, settingsBelow]
      · simp only [List.filter_append, wrapExc_log, h4]
        cases fns <;> simp [odbcStep, moreReports, sectionsOf, settingsBelow]

/-! ## The lines kept -/

theorem find_append_other {sets : List VarE} {v : VarE} {k : Str} :
    (sets ++ [v]).find? (·.key == k) = (sets.find? (·.key == k)).or (if v.key = k then some v else none) := by
  rw [List.find?_append]
  congr 1
  by_cases h : v.key = k <;> simp [h]

/-- What is kept agrees with all lines as to the first line of each known setting. -/
def Agree (sets all : List VarE) : Prop :=
  ∀ k ∈ odbcSettings, sets.find? (·.key == k) = all.find? (·.key == k)

theorem Agree.snoc {sets all : List VarE} (h : Agree sets all) (v : VarE) :
    Agree (if odbcKeep sets v then sets ++ [v] else sets) (all ++ [v]) := by
  intro k hk
  rw [find_append_other, ← h k hk]
  by_cases hv : v.key = k
  · subst hv
    unfold odbcKeep
    simp only [hk, decide_true, Bool.true_and, Option.isNone_iff_eq_none, if_true]
    cases hf : sets.find? (·.key == v.key) with
    | none => simp only [if_true]; rw [find_append_other, hf]; simp
    | some u => simp [hf]
  · simp only [if_neg hv, Option.or_none]
    split
    · rw [find_append_other]; simp [hv]
    · rfl

theorem kept_agree {sets all : List VarE} (h : Agree sets all) (vs : List VarE) :
    Agree (odbcKept sets vs) (all ++ vs) := by
  induction vs generalizing sets all with
  | nil => simpa [odbcKept] using h
  | cons v vs ih =>
    have := ih (h.snoc v)
    rwa [List.append_assoc] at this

theorem zips_append {α β : Type} {R : α → β → Prop} {a : List α} {b : List β} {a' : List α} {b' : List β}
    (h : Zips R a b) (h' : Zips R a' b') : Zips R (a ++ a') (b ++ b') := by
  induction h with
  | nil => exact h'
  | cons h _ ih => exact .cons h ih

theorem zips_reports {sets all : List VarE} (h : Agree sets all) (vs : List VarE) :
    Zips (fun m (r : MK × Where × Str × Option Where) =>
        m = (⟨r.1, r.2.1, [(c! "key", .one (.str r.2.2.1))], r.2.2.2⟩ : Msg))
      (keptReports sets vs) (settingReports all vs) := by
  induction vs generalizing sets all with
  | nil => exact .nil
  | cons v vs ih =>
    rw [keptReports, settingReports]
    refine zips_append ?_ (ih (h.snoc v))
    unfold lineReport
    by_cases hk : v.key ∈ odbcSettings
    · simp only [hk, not_true_eq_false, if_false, h _ hk]
      cases all.find? (fun u => u.key == v.key)
      · exact .nil
      · exact .cons rfl .nil
    · simp only [hk, not_false_eq_true, if_true]
      exact .cons rfl .nil

/-- The lines kept are among all, in order, one for each setting, and known. -/
theorem kept_shape (sets vs : List VarE) (hn : (sets.map (·.key)).Nodup) (hk : ∀ v ∈ sets, v.key ∈ odbcSettings) :
    (∃ l, odbcKept sets vs = sets ++ l ∧ List.Sublist l vs) ∧ ((odbcKept sets vs).map (·.key)).Nodup ∧
    ∀ v ∈ odbcKept sets vs, v.key ∈ odbcSettings := by
  induction vs generalizing sets with
  | nil => exact ⟨⟨[], by simp [odbcKept], by simp⟩, hn, hk⟩
  | cons v vs ih =>
    rw [odbcKept]
    by_cases h : odbcKeep sets v = true
    · simp only [h, if_true]
      unfold odbcKeep at h
      simp only [Bool.and_eq_true, decide_eq_true_eq, Option.isNone_iff_eq_none] at h
      obtain ⟨⟨l, h1, h2⟩, h3, h4⟩ := ih (sets ++ [v]) (by
          rw [List.map_append, List.nodup_append]
          refine ⟨hn, by simp, ?_⟩
          intro a ha b hb
          simp only [List.map_cons, List.map_nil, List.mem_singleton] at hb
          subst hb
          obtain ⟨u, hu, rfl⟩ := List.mem_map.1 ha
          have := List.find?_eq_none.1 h.2 u hu
          simpa using this) (by
          intro u hu
          rcases List.mem_append.1 hu with hu | hu
          · exact hk u hu
          · simp at hu; subst hu; exact h.1)
      exact ⟨⟨v :: l, by simp [h1], h2.cons_cons _⟩, h3, h4⟩
    · simp only [h, Bool.false_eq_true, if_false]
      obtain ⟨⟨l, h1, h2⟩, h3, h4⟩ := ih sets hn hk
      exact ⟨⟨l, h1, h2.cons _⟩, h3, h4⟩

/-! ## The functions defined -/

/-- The function a section becomes. -/
def odbcFn (s : CtxE × List VarE) : OdbcFn := ⟨s.1.name, s.1.templates, s.1.comment, s.1.at_, odbcKept [] s.2⟩

theorem agree_nil (vs : List VarE) : Agree (odbcKept [] vs) vs := kept_agree (all := []) (fun _ _ => rfl) vs

theorem odbcFn_get (s : CtxE × List VarE) {k : Str} (hk : k ∈ odbcSettings) : (odbcFn s).get k = settingOf s.2 k := by
  unfold OdbcFn.get settingOf odbcFn
  rw [agree_nil s.2 k hk]

theorem odbcFn_name (s : CtxE × List VarE) : (odbcFn s).funcName = odbcName s := by
  unfold OdbcFn.funcName OdbcFn.prefix_ odbcName
  rw [odbcFn_get s (by decide)]
  cases h : settingOf s.2 (c! "prefix") with
  | none => simp [odbcFn]
  | some p => cases p <;> simp [odbcFn]

theorem odbcFn_sql (s : CtxE × List VarE) : (odbcFn s).hasSql = decide (DefinesOdbc s) := by
  have key : ∀ k, (settingOf s.2 k).isSome = true ↔ ∃ v ∈ s.2, v.key = k := by
    intro k
    simp [settingOf]
  rw [Bool.eq_iff_iff]
  unfold OdbcFn.hasSql
  rw [odbcFn_get s (by decide), odbcFn_get s (by decide), odbcFn_get s (by decide), odbcFn_get s (by decide)]
  simp only [Bool.or_eq_true, key, decide_eq_true_eq, DefinesOdbc, List.mem_cons, List.not_mem_nil, or_false]
  constructor
  · rintro (((⟨v, h1, h2⟩ | ⟨v, h1, h2⟩) | ⟨v, h1, h2⟩) | ⟨v, h1, h2⟩)
    · exact ⟨v, h1, .inr (.inr (.inl h2))⟩
    · exact ⟨v, h1, .inr (.inr (.inr h2))⟩
    · exact ⟨v, h1, .inl h2⟩
    · exact ⟨v, h1, .inr (.inl h2)⟩
  · rintro ⟨v, h1, h2 | h2 | h2 | h2⟩
    · exact .inl (.inr ⟨v, h1, h2⟩)
    · exact .inr ⟨v, h1, h2⟩
    · exact .inl (.inl (.inl ⟨v, h1, h2⟩))
    · exact .inl (.inl (.inr ⟨v, h1, h2⟩))

/-- Registering these names, in order. -/
def registerAll (env : FEnv) (names : List Str) : FEnv :=
  names.foldl (fun env n => env.register ⟨n, c! "func_odbc", .plain⟩) env

theorem registerAll_spec (env : FEnv) (names : List Str) :
    (registerAll env names).lower = env.lower ∧
    ∀ k, (registerAll env names).funcs k =
      match names.reverse.find? (fun n => env.lower n == k) with
      | some n => some ⟨n, c! "func_odbc", .plain⟩
      | none => env.funcs k := by
  induction names generalizing env with
  | nil => exact ⟨rfl, fun _ => rfl⟩
  | cons n ns ih =>
    obtain ⟨h1, h2⟩ := ih (env.register ⟨n, c! "func_odbc", .plain⟩)
    refine ⟨h1, fun k => ?_⟩
    rw [registerAll, List.foldl_cons]
    refine (h2 k).trans ?_
    rw [List.reverse_cons, List.find?_append]
    have hl : (env.register ⟨n, c! "func_odbc", .plain⟩).lower = env.lower := rfl
    rw [hl]
    cases hf : ns.reverse.find? (fun n => env.lower n == k) with
    | some m => rfl
    | none =>
      by_cases hk : k = env.lower n
      · simp [FEnv.register, hk]
      · have : (env.lower n == k) = false := by simpa using Ne.symm hk
        simp [FEnv.register, hk, this]

theorem finalizeAll_spec (env : FEnv) (ss : List (CtxE × List VarE)) :
    (∀ env', (finalizeAll env (ss.map odbcFn)).val = .ok env' → env' = registerAll env (odbcNames ss)) ∧
    (∀ m ∈ (finalizeAll env (ss.map odbcFn)).log, m.kind = .E_ODBC_NOSQL) ∧
    ((∃ env', (finalizeAll env (ss.map odbcFn)).val = .ok env') ↔
      ∀ n ∈ odbcNames ss, ∀ c ∈ n, c.toNat ≠ 0) := by
  induction ss generalizing env with
  | nil =>
    refine ⟨?_, by simp [finalizeAll], by simp [finalizeAll, odbcNames]⟩
    intro env' h
    simp only [List.map_nil, finalizeAll, Res.pure_val, Except.ok.injEq] at h
    exact h ▸ rfl
  | cons s ss ih =>
    rw [List.map_cons, finalizeAll]
    unfold OdbcFn.finalize
    rw [odbcFn_sql, odbcFn_name]
    by_cases hd : DefinesOdbc s
    · have hn : odbcNames (s :: ss) = odbcName s :: odbcNames ss := by simp [odbcNames, hd]
      simp only [hd, decide_true, if_true]
      by_cases h0 : (odbcName s).any (fun c => c.toNat = 0) = true
      · simp only [h0, if_true]
        refine ⟨?_, ?_, ?_⟩
        · simp [Res.bind, Res.raise]
        · simp [Res.bind, Res.raise]
        · constructor
          · simp [Res.bind, Res.raise]
          · intro h
            rw [List.any_eq_true] at h0
            obtain ⟨c, hc, h1⟩ := h0
            exact absurd (by simpa using h1) (h (odbcName s) (by simp [hn]) c hc)
      · simp only [h0, Bool.false_eq_true, if_false, Res.pure_bind]
        obtain ⟨h1, h2, h3⟩ := ih (env.register ⟨odbcName s, c! "func_odbc", .plain⟩)
        refine ⟨fun env' h => ?_, h2, ?_⟩
        · rw [h1 env' h, hn]; rfl
        · rw [h3, hn]
          simp only [List.mem_cons, forall_eq_or_imp]
          constructor
          · intro h
            refine ⟨fun c hc he => ?_, h⟩
            exact h0 (List.any_eq_true.2 ⟨c, hc, by simpa using he⟩)
          · exact fun h => h.2
    · have hn : odbcNames (s :: ss) = odbcNames ss := by simp [odbcNames, hd]
      simp only [hd, decide_false, Bool.false_eq_true, if_false]
      have he : (Res.bind (Res.emit (mkMsg .E_ODBC_NOSQL (odbcFn s).at_ [])) fun _ => Res.pure env) =
          ⟨[mkMsg .E_ODBC_NOSQL (odbcFn s).at_ []], .ok env⟩ := rfl
      rw [he, Res.bind_of_ok rfl, hn]
      obtain ⟨h1, h2, h3⟩ := ih env
      refine ⟨h1, ?_, h3⟩
      intro m hm
      rcases List.mem_append.1 hm with hm | hm
      · simp at hm; subst hm; rfl
      · exact h2 m hm

/-- Loading, in terms of the elements of the file. -/
theorem loadOdbc_spec {fs : FS} {env env' : FEnv} {n : Nat} {path : Str} {content : Bytes} {fns : List OdbcFn}
    (h : (loadOdbc fs env n path content).val = .ok (some (env', fns))) :
    ∃ es, (pipeRun fs collect n ⟨[openFrame path content], [], [], []⟩).val = .ok (some es) ∧
      fns = (sectionsOf es).map odbcFn ∧ env' = registerAll env (odbcNames (sectionsOf es)) ∧
      (loadOdbc fs env n path content).log.filter isSettingKind =
        (sectionsOf es).flatMap fun s => keptReports [] s.2 := by
  unfold loadOdbc at h ⊢
  obtain ⟨o, h1, h2, h3⟩ := Res.bind_ok h
  rw [h3]
  cases o with
  | none => simp at h2
  | some fs' =>
    dsimp only at h2 ⊢
    obtain ⟨e, h4, h5, h6⟩ := Res.bind_ok h2
    simp only [Res.pure_val, Except.ok.injEq, Option.some.injEq, Prod.mk.injEq] at h5
    obtain ⟨rfl, rfl⟩ := h5
    obtain ⟨es, g1, g2, g3⟩ := pipeRun_filter fs odbcStep isSettingKind (by
      intro m hm
      unfold isSettingKind
      cases hk : m.kind <;> first | rfl | (rw [hk] at hm; cases hm)) n _ fs' h1
    obtain ⟨f1, f2⟩ := feed_odbc [] es
    have hfs : fs' = odbcMore [] es := by
      have := g1.symm.trans f1
      simpa using this
    have hr : fs'.reverse = (sectionsOf es).map odbcFn := by
      rw [hfs]
      simp only [odbcMore, List.append_nil, List.reverse_reverse]
      rfl
    rw [hr] at h4 h6 ⊢
    obtain ⟨k1, k2, _⟩ := finalizeAll_spec env (sectionsOf es)
    refine ⟨es, by simpa [PState.with_] using g2 [], rfl, k1 e h4, ?_⟩
    rw [h6, List.filter_append, g3]
    dsimp only
    rw [f2]
    have : (finalizeAll env ((sectionsOf es).map odbcFn)).log.filter isSettingKind = [] :=
      filter_none fun m hm => by simp [isSettingKind, k2 m hm]
    simp [this, moreReports]

/-- When loading succeeds. -/
theorem loadOdbc_ok {fs : FS} {env : FEnv} {n : Nat} {path : Str} {content : Bytes} {es : List Elem}
    (h : (pipeRun fs collect n ⟨[openFrame path content], [], [], []⟩).val = .ok (some es)) :
    (∃ r, (loadOdbc fs env n path content).val = .ok (some r)) ↔
      ∀ f ∈ odbcNames (sectionsOf es), ∀ c ∈ f, c.toNat ≠ 0 := by
  obtain ⟨es', h1, h2⟩ := pipeRun_feed fs odbcStep n
    (⟨[openFrame path content], [], [], []⟩ : PState (List OdbcFn)) [] es h
  rw [List.nil_append] at h1
  subst h1
  rw [(feed_odbc [] es).1] at h2
  have hr : (odbcMore [] es).reverse = (sectionsOf es).map odbcFn := by
    simp only [odbcMore, List.append_nil, List.reverse_reverse]
    rfl
  rw [← (finalizeAll_spec env (sectionsOf es)).2.2]
  unfold loadOdbc
  rw [Res.bind_of_ok (a := some (odbcMore [] es)) h2]
  dsimp only
  rw [hr]
  cases hv : (finalizeAll env ((sectionsOf es).map odbcFn)).val with
  | error e => rw [Res.bind_of_error hv]; simp
  | ok env' => rw [Res.bind_of_ok hv]; simp

/-! ## Looking functions up -/

/-- The function a name stands for. -/
def FEnv.found (env : FEnv) (f : Str) : Option FuncInfo := (env.funcs (env.lower f)).or (env.funcs (c! "unknown"))

/-- What is said about the name of a function. -/
def funcReport (env : FEnv) (w : Where) (f : Str) : List Msg :=
  match env.found f with
  | none => []
  | some fi =>
    if fi.name = f then []
    else if fi.name = c! "UNKNOWN" then [mkMsg .E_FUNC_MISSING w [(c! "func", .one (.str f))]]
    else [mkMsg .E_FUNC_BAD_CASE w [(c! "func", .one (.str f)), (c! "proper", .one (.str fi.name))]]

theorem getFunc_msgs (env : FEnv) (w : Where) (f : Str) : evMsgs (getFunc env w f).ev = funcReport env w f := by
  unfold getFunc funcReport FEnv.found
  dsimp only
  split
  · rename_i h; rw [h]; rfl
  · rename_i fi h
    rw [h]
    by_cases h1 : fi.name = f
    · simp [h1, Tr.bind, Tr.note, Tr.pure, evMsgs]
    · by_cases h2 : fi.name = c! "UNKNOWN"
      · rw [if_pos h1, if_pos h2]
        dsimp only
        rw [if_neg h1, if_pos h2]
        rfl
      · simp only [h1, h2, ne_eq, not_false_eq_true, if_true, if_false]
        rfl

/-- Reports about functions are made as described. -/
def funcInv (env : FEnv) (w : Where) : EvInv where
  P := fun evs => ∀ m, Ev.msg m ∈ evs → (m.kind = .E_FUNC_MISSING ∨ m.kind = .E_FUNC_BAD_CASE) →
    ∃ f, m ∈ funcReport env w f
  nil := by simp
  append := by
    intro a b ha hb m hm
    rcases List.mem_append.1 hm with hm | hm
    · exact ha m hm
    · exact hb m hm

theorem mem_evMsgs {m : Msg} {evs : List Ev} : m ∈ evMsgs evs ↔ Ev.msg m ∈ evs := by
  unfold evMsgs
  rw [List.mem_filterMap]
  constructor
  · rintro ⟨e, he, h⟩
    cases e <;> simp at h
    exact h ▸ he
  · exact fun h => ⟨_, h, rfl⟩

theorem func_runApp (env : AEnv) (depth : Nat) (sp : Option Str) (w : Where) (raw : Arg) (m : Msg)
    (h : m ∈ evMsgs (runApp env depth sp w raw).ev) (hk : m.kind = .E_FUNC_MISSING ∨ m.kind = .E_FUNC_BAD_CASE) :
    ∃ f, m ∈ funcReport env.toFEnv w f := by
  have ha : Allows (funcInv env.toFEnv w) w env.toFEnv :=
    ⟨by
      intro m _ _ h1 _ m' h h2
      simp at h
      subst h
      rcases h2 with h2 | h2
      · exact absurd h2 h1.2.1
      · exact absurd h2 h1.2.2,
    by
      intro f m hm _
      exact ⟨f, by rw [← getFunc_msgs]; exact mem_evMsgs.2 hm⟩,
    by intro f m h; simp at h⟩
  have hc : ∀ n, Keeps (funcInv env.toFEnv w) (countVar w n) := by
    intro n
    rw [countVar_eq]
    intro m hm hk
    by_cases hl : legalName n = true
    · simp [hl] at hm
    · simp [hl] at hm; subst hm; simp [mkMsg] at hk
  exact keeps_runApp ha hc depth sp raw m (mem_evMsgs.1 h) hk

theorem func_check (fs : FS) (env : DEnv) (sp : Option Str) (n : Nat) (path : Str) (content : Bytes) (m : Msg)
    (h : m ∈ (checkDialplan fs env sp n path content).log)
    (hk : m.kind = .E_FUNC_MISSING ∨ m.kind = .E_FUNC_BAD_CASE) : ∃ f, m ∈ funcReport env.toFEnv m.at_ f := by
  rcases placed_check fs env sp n path content m h with h | h
  · obtain ⟨d, sp', raw, hr⟩ := h.2.2.2.1 (by rcases hk with hk | hk <;> rw [hk] <;> rfl)
    exact func_runApp env.toAEnv d sp' m.at_ raw m hr hk
  · exfalso
    rcases h.1 with h | h <;> rw [h] at hk <;> simp at hk

end ALint
