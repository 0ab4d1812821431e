import Verif.Proofs.Odbc
import Verif.Spec.OdbcLog

/-!
# What is said about a func_odbc.conf
-/

namespace ALint
open ALint.Spec

theorem odbcKept_append (sets vs : List VarE) :
    ∀ above, Agree sets above → odbcKept sets vs = sets ++ firstsBelow above vs := by
  induction vs generalizing sets with
  | nil => intro above _; simp [odbcKept, firstsBelow]
  | cons v vs ih =>
    intro above h
    rw [odbcKept, ih _ _ (h.snoc v), firstsBelow]
    have hk : odbcKeep sets v = true ↔ (v.key ∈ odbcSettings ∧ ∀ u ∈ above, u.key ≠ v.key) := by
      unfold odbcKeep
      rw [Bool.and_eq_true, decide_eq_true_iff]
      constructor
      · rintro ⟨h1, h2⟩
        rw [h _ h1, Option.isNone_iff_eq_none, List.find?_eq_none] at h2
        exact ⟨h1, fun u hu he => h2 u hu (by simpa using he)⟩
      · rintro ⟨h1, h2⟩
        refine ⟨h1, ?_⟩
        rw [h _ h1, Option.isNone_iff_eq_none, List.find?_eq_none]
        exact fun u hu he => h2 u hu (by simpa using he)
    by_cases hc : odbcKeep sets v = true
    · rw [if_pos hc, if_pos (hk.1 hc)]; simp
    · rw [if_neg hc, if_neg (fun h => hc (hk.2 h))]; simp

theorem odbcKept_firsts (vs : List VarE) : odbcKept [] vs = firsts vs :=
  odbcKept_append [] vs [] (fun _ _ => rfl)

theorem odbcKept_two (sets us vs : List VarE) : odbcKept sets (us ++ vs) = odbcKept (odbcKept sets us) vs := by
  induction us generalizing sets with
  | nil => rfl
  | cons u us ih => exact ih _

theorem indexOf?_some {x : Str} {l : List Str} (h : x ∈ l) : indexOf? x l = some (l.idxOf x) := by
  induction l with
  | nil => simp at h
  | cons y ys ih =>
    unfold indexOf?
    by_cases he : x = y
    · subst he; simp
    · have h' : x ∈ ys := by simpa [he] using h
      rw [if_neg he, ih h', List.idxOf_cons]
      have : (y == x) = false := by simpa using Ne.symm he
      rw [this]
      rfl

theorem sqlKey_iff (k : Str) : isSqlKey k = true ↔
    k ∈ [c! "readsql", c! "writesql", c! "insertsql", c! "read", c! "write"] := by
  unfold isSqlKey
  exact List.contains_iff_mem

theorem semi_iff (s : Str) : s.getLast? = some ';' ↔ [';'] <:+ s := by
  constructor
  · intro h
    obtain ⟨l, rfl⟩ := List.getLast?_eq_some_iff.1 h
    exact ⟨l, rfl⟩
  · rintro ⟨l, rfl⟩
    simp

/-- What `checkOrder` says. -/
def orderSays (above : List VarE) (v : VarE) : List Msg :=
  if v.key ∉ odbcSettings then [⟨.E_CONF_KEY_INVALID, v.at_, [(c! "key", .one (.str v.key))], none⟩]
  else match above.find? (fun u => u.key == v.key) with
    | some u => [⟨.E_CONF_KEY_DUPE, v.at_, [(c! "key", .one (.str v.key))], some u.at_⟩]
    | none => if Late above v.key then [⟨.W_CONF_KEY_LATE, v.at_, [(c! "key", .one (.str v.key))], none⟩] else []

theorem checkOrder_says (sets : List VarE) (v : VarE) (above : List VarE) (h : sets = firsts above) :
    (checkOrder sets v).log = orderSays above v := by
  have ha : Agree sets above := by rw [h, ← odbcKept_firsts]; exact agree_nil above
  have hkn : ∀ u ∈ sets, u.key ∈ odbcSettings := by
    rw [h, ← odbcKept_firsts]
    exact (kept_shape [] above (by simp) (by simp)).2.2
  unfold checkOrder orderSays
  by_cases hk : v.key ∈ odbcSettings
  · rw [show odbcOrder = odbcSettings from rfl, indexOf?_some hk]
    simp only [hk, not_true_eq_false, if_false, ha _ hk]
    cases above.find? (fun u => u.key == v.key) with
    | some u => rfl
    | none =>
      simp only
      cases hl : sets.getLast? with
      | none =>
        have : ¬ Late above v.key := by
          rintro ⟨u, h1, _⟩
          rw [← h, hl] at h1
          cases h1
        rw [if_neg this]
        rfl
      | some u =>
        have hm : u.key ∈ odbcSettings := hkn u (List.mem_of_getLast? hl)
        simp only [Option.bind_some, indexOf?_some hm]
        by_cases hlt : odbcSettings.idxOf v.key < odbcSettings.idxOf u.key
        · rw [if_pos hlt, if_pos ⟨u, by rw [← h]; exact hl, hlt⟩]
          rfl
        · rw [if_neg hlt, if_neg]
          · rfl
          · rintro ⟨u', h1, h2⟩
            rw [← h, hl] at h1
            cases h1
            exact hlt h2
  · rw [show odbcOrder = odbcSettings from rfl, indexOf?_none.2 hk]
    simp only [hk, not_false_eq_true, if_true]
    rfl

theorem add_says (f : OdbcFn) (v : VarE) (above : List VarE) (h : f.sets = firsts above) :
    (f.add v).log = settingSays above v := by
  have ha : Agree f.sets above := by rw [h, ← odbcKept_firsts]; exact agree_nil above
  have h1 := (checkOrder_spec f.sets v).1
  have h2 := checkOrder_says f.sets v above h
  unfold OdbcFn.add
  rw [Res.bind_of_ok h1, h2]
  unfold orderSays settingSays odbcKeep
  by_cases hk : v.key ∈ odbcSettings
  · simp only [hk, not_true_eq_false, if_false, ha _ hk, decide_true, Bool.true_and]
    cases above.find? (fun u => u.key == v.key) with
    | some u => rfl
    | none =>
      simp only [Option.isNone_none, if_true]
      by_cases hs : isSqlKey v.key = true
      · have hs' := (sqlKey_iff _).1 hs
        rw [if_pos hs]
        simp only [hs', true_and]
        by_cases hr : v.key = c! "read" ∨ v.key = c! "write"
        · have hr' : v.key ∈ [c! "read", c! "write"] := by simpa using hr
          rw [if_pos hr, if_pos hr']
          by_cases ht : v.value.getLast? = some ';'
          · rw [if_pos ht, if_pos ((semi_iff _).1 ht), List.append_assoc]
            rfl
          · rw [if_neg ht, if_neg (fun x => ht ((semi_iff _).2 x)), List.append_assoc]
            rfl
        · have hr' : ¬ v.key ∈ [c! "read", c! "write"] := by simpa using hr
          rw [if_neg hr, if_neg hr']
          by_cases ht : v.value.getLast? = some ';'
          · rw [if_pos ht, if_pos ((semi_iff _).1 ht), List.append_assoc]
            rfl
          · rw [if_neg ht, if_neg (fun x => ht ((semi_iff _).2 x)), List.append_assoc]
            rfl
      · have hs' : ¬ v.key ∈ [c! "readsql", c! "writesql", c! "insertsql", c! "read", c! "write"] :=
          fun x => hs ((sqlKey_iff _).2 x)
        have hr' : ¬ v.key ∈ [c! "read", c! "write"] := by
          intro x
          apply hs'
          simp only [List.mem_cons, List.not_mem_nil, or_false] at x ⊢
          exact .inr (.inr (.inr x))
        have hx : ¬ (v.key ∈ [c! "readsql", c! "writesql", c! "insertsql", c! "read", c! "write"] ∧
          [';'] <:+ v.value) := fun x => hs' x.1
        rw [if_neg hs, if_neg hr', if_neg hx, List.append_assoc]
        rfl
  · simp [hk]

theorem nameTail_iff (gap : Bool) (s : Str) : odbcNameTail gap s = true ↔
    (∀ g ∈ (List.splitOn '_' s).tail, g ≠ [] ∧ ∀ c ∈ g, ('A' ≤ c ∧ c ≤ 'Z') ∨ ('0' ≤ c ∧ c ≤ '9')) ∧
    ∃ g, (List.splitOn '_' s).head? = some g ∧ (gap = true → g ≠ []) ∧
      ∀ c ∈ g, ('A' ≤ c ∧ c ≤ 'Z') ∨ ('0' ≤ c ∧ c ≤ '9') := by
  induction s generalizing gap with
  | nil => cases gap <;> simp [odbcNameTail]
  | cons c cs ih =>
    rw [odbcNameTail]
    have hne : List.splitOn '_' cs ≠ [] := by simp
    obtain ⟨g, gs, hg⟩ := List.exists_cons_of_ne_nil hne
    by_cases hc : c = '_'
    · subst hc
      have : List.splitOn '_' ('_' :: cs) = [] :: List.splitOn '_' cs := by simp [List.splitOn, List.splitOnP_cons_eq_if_modifyHead]
      rw [if_pos rfl, this, Bool.and_eq_true, ih, hg]
      cases gap <;> simp <;> grind
    · have : List.splitOn '_' (c :: cs) = (List.splitOn '_' cs).modifyHead (List.cons c) := by
        simp [List.splitOn, List.splitOnP_cons_eq_if_modifyHead, hc]
      rw [if_neg hc, this, Bool.and_eq_true, ih, hg]
      simp
      grind

theorem nameOk_iff (name : Str) : odbcNameOk name = true ↔ GoodOdbcName name := by
  unfold GoodOdbcName
  cases name with
  | nil => simp [odbcNameOk]
  | cons c cs =>
    have hne : List.splitOn '_' cs ≠ [] := by simp
    obtain ⟨g, gs, hg⟩ := List.exists_cons_of_ne_nil hne
    rw [odbcNameOk, Bool.and_eq_true, nameTail_iff, hg]
    by_cases hc : c = '_'
    · subst hc
      have : List.splitOn '_' ('_' :: cs) = [] :: List.splitOn '_' cs := by simp [List.splitOn, List.splitOnP_cons_eq_if_modifyHead]
      rw [this]
      simp
    · have : List.splitOn '_' (c :: cs) = (List.splitOn '_' cs).modifyHead (List.cons c) := by
        simp [List.splitOn, List.splitOnP_cons_eq_if_modifyHead, hc]
      rw [this, hg]
      simp
      grind

/-- The settings above, of the section being read. -/
def aboveOf (fns : List OdbcFn) (above : Option (List VarE)) : Prop :=
  match fns, above with
  | [], none => True
  | f :: _, some vs => f.sets = firsts vs
  | _, _ => False

theorem feed_says (fns : List OdbcFn) (above : Option (List VarE)) (es : List Elem) (h : aboveOf fns above) :
    (feed odbcStep fns es).log.filter odbcOwn = odbcSays above es := by
  induction es generalizing fns above with
  | nil => rfl
  | cons e es ih =>
    rw [feed]
    cases e with
    | ctx c =>
      obtain ⟨h1, _⟩ := context_spec fns c
      rw [show odbcStep fns (.ctx c) = odbcContext fns c from rfl]
      rw [Res.bind_of_ok (wrapExc_ok.2 h1)]
      simp only [List.filter_append, wrapExc_log]
      rw [ih _ (some []) (by simp [aboveOf, firsts, firstsBelow]), odbcSays]
      congr 1
      unfold odbcContext
      by_cases hn : GoodOdbcName c.name
      · rw [if_pos hn, if_pos ((nameOk_iff _).2 hn)]
        by_cases ht : c.templates.isEmpty = true
        · rw [if_pos ht]; rfl
        · rw [if_neg ht]; rfl
      · rw [if_neg hn, if_neg (fun x => hn ((nameOk_iff _).1 x))]
        by_cases ht : c.templates.isEmpty = true
        · rw [if_pos ht]; rfl
        · rw [if_neg ht]; rfl
    | var v =>
      obtain ⟨h1, _⟩ := varset_spec fns v
      rw [show odbcStep fns (.var v) = odbcVarset fns v from rfl]
      rw [Res.bind_of_ok (wrapExc_ok.2 h1)]
      simp only [List.filter_append, wrapExc_log]
      rw [ih _ (above.map (· ++ [v])) ?_]
      · conv => rhs; rw [odbcSays]
        congr 1
        have ha : (if v.arrow then Res.emit (mkMsg .H_CONF_HAS_ARROW v.at_ []) else Res.pure ()) =
            ⟨if v.arrow then [⟨.H_CONF_HAS_ARROW, v.at_, [], none⟩] else [], .ok ()⟩ := by
          split <;> rfl
        unfold odbcVarset
        rw [ha, Res.bind_of_ok rfl, List.filter_append]
        congr 1
        · split <;> rfl
        · cases fns with
          | nil =>
            cases above with
            | none => rfl
            | some vs => exact h.elim
          | cons f rest =>
            cases above with
            | none => exact h.elim
            | some vs =>
              simp only
              rw [Res.bind_of_ok (add_spec f v).1]
              simp only [Res.pure_log, List.append_nil]
              rw [add_says f v vs h, belowSays]
              apply List.filter_eq_self.2
              intro m hm
              unfold settingSays at hm
              split at hm
              · simp at hm; subst hm; rfl
              · split at hm
                · simp at hm; subst hm; rfl
                · simp only [List.mem_append] at hm
                  rcases hm with (hm | hm) | hm
                  all_goals
                    split at hm
                    · simp at hm; subst hm; rfl
                    · simp at hm
      · cases fns with
        | nil =>
          cases above with
          | none => trivial
          | some vs => exact h.elim
        | cons f rest =>
          cases above with
          | none => exact h.elim
          | some vs =>
            have : f.sets = firsts vs := h
            change (if odbcKeep f.sets v then f.sets ++ [v] else f.sets) = firsts (vs ++ [v])
            rw [← odbcKept_firsts, odbcKept_two, odbcKept_firsts, ← this]
            rfl
    | empty b w =>
      rw [Res.bind_of_ok (wrapExc_ok.2 rfl)]
      simp only [List.filter_append, wrapExc_log]
      rw [ih fns above h]
      rfl

theorem finalize_says (env : FEnv) (ss : List (CtxE × List VarE)) (h : ∃ e, (finalizeAll env (ss.map odbcFn)).val = .ok e) :
    (finalizeAll env (ss.map odbcFn)).log =
      (ss.filter (fun s => ¬ DefinesOdbc s)).map fun s => ⟨.E_ODBC_NOSQL, s.1.at_, [], none⟩ := by
  induction ss generalizing env with
  | nil => rfl
  | cons s ss ih =>
    obtain ⟨e, h⟩ := h
    rw [List.map_cons, finalizeAll] at h ⊢
    obtain ⟨env', h1, h2, h3⟩ := Res.bind_ok h
    rw [h3, ih env' ⟨e, h2⟩]
    unfold OdbcFn.finalize at h1 ⊢
    rw [odbcFn_sql, odbcFn_name] at h1 ⊢
    by_cases hd : DefinesOdbc s
    · simp only [hd, decide_true, if_true] at h1 ⊢
      by_cases h0 : (odbcName s).any (fun c => c.toNat = 0) = true
      · simp [h0, Res.raise] at h1
      · simp only [h0, Bool.false_eq_true, if_false]
        simp [hd]
    · simp only [hd, decide_false, Bool.false_eq_true, if_false]
      simp [hd]
      rfl

theorem load_says {fs : FS} {env env' : FEnv} {n : Nat} {path : Str} {content : Bytes} {fns : List OdbcFn}
    (h : (loadOdbc fs env n path content).val = .ok (some (env', fns))) :
    ∃ es, (pipeRun fs collect n ⟨[openFrame path content], [], [], []⟩).val = .ok (some es) ∧
      (loadOdbc fs env n path content).log.filter odbcOwn = odbcSays none es ++ nothingDefined es := by
  unfold loadOdbc at h ⊢
  obtain ⟨o, h1, h2, h3⟩ := Res.bind_ok h
  rw [h3]
  cases o with
  | none => simp at h2
  | some fs' =>
    dsimp only at h2 ⊢
    obtain ⟨e, h4, h5, h6⟩ := Res.bind_ok h2
    obtain ⟨es, g1, g2, g3⟩ := pipeRun_filter fs odbcStep odbcOwn (by
      intro m hm
      unfold odbcOwn
      cases hk : m.kind <;> first | rfl | (rw [hk] at hm; cases hm)) n _ fs' h1
    have f1 := (feed_odbc [] es).1
    have hfs : fs' = odbcMore [] es := by
      have := g1.symm.trans f1
      simpa using this
    have hr : fs'.reverse = (sectionsOf es).map odbcFn := by
      rw [hfs]
      simp only [odbcMore, List.append_nil, List.reverse_reverse]
      rfl
    rw [hr] at h4 h6 ⊢
    refine ⟨es, by simpa [PState.with_] using g2 [], ?_⟩
    rw [h6, List.filter_append, g3]
    dsimp only
    rw [feed_says [] none es trivial, finalize_says env _ ⟨_, h4⟩]
    congr 1
    simp only [Res.pure_log, List.append_nil]
    apply List.filter_eq_self.2
    intro m hm
    obtain ⟨s, _, rfl⟩ := List.mem_map.1 hm
    rfl

end ALint
