import Verif.Spec.OdbcParts
import Verif.Props.Status
import Verif.Props.OdbcSound
import Verif.Proofs.Sections

/-!
# The order of the functions of a func_odbc.conf (proofs)
-/

namespace ALint.Proofs
open ALint Spec Props

/-! ## What is said, line by line, for any kind of file -/

/-- All that is said about the lines and about what they mean, but for terminators and blank lines (cf. `tellAll`). -/
def tellBy {σ : Type} (agg : σ → Elem → Res σ) : σ → List Told → Res σ
  | s, [] => .pure s
  | s, x :: xs => Res.bind ⟨x.msgs, .ok ()⟩ fun _ =>
      Res.bind (feed agg s x.gives.elem?.toList) fun s' => tellBy agg s' xs

theorem feed_blank {σ : Type} {agg : σ → Elem → Res σ} (hagg : ∀ s b w, agg s (.empty b w) = .pure s) : ∀ (es : List Elem) (st : σ),
    feed agg st es = feed agg st (es.filter notBlank)
  | [], _ => rfl
  | .empty b w :: es, st => by
    rw [List.filter_cons_of_neg (by simp [notBlank]), feed, hagg]
    have : wrapExc (Res.pure st) = .pure st := rfl
    rw [this, Res.pure_bind]
    exact feed_blank hagg es st
  | .ctx c :: es, st => by
    rw [List.filter_cons_of_pos (by simp [notBlank]), feed, feed]
    congr 1
    funext s
    exact feed_blank hagg es s
  | .var v :: es, st => by
    rw [List.filter_cons_of_pos (by simp [notBlank]), feed, feed]
    congr 1
    funext s
    exact feed_blank hagg es s

/-- What is said in a whole reading, but for terminators and blank lines. -/
theorem pipeRun_tellsBy (fs : FS) {σ : Type} {agg : σ → Elem → Res σ} (hagg : ∀ s b w, agg s (.empty b w) = .pure s) : ∀ (n : Nat) (st : PState σ) (out : σ),
    (pipeRun fs agg n st).val = .ok (some out) →
    ∃ told : List Told, told.map (·.line) = pipeLines fs agg n st ∧
      (∀ x ∈ told, lineModel fs x.line = some (x.msgs, x.gives)) ∧
      substance (pipeRun fs agg n st).log = substance (tellBy agg st.agg told).log ∧
      (tellBy agg st.agg told).val = .ok out := by
  intro n
  induction n with
  | zero => intro st out h; simp [pipeRun] at h
  | succ n ih =>
    intro st out h
    rw [pipeRun] at h ⊢
    rw [pipeLines]
    cases hn : nextLine st.frames with
    | none =>
      have hp : pipeStep fs agg st = none := by unfold pipeStep; rw [hn]
      simp only [hp] at h ⊢
      obtain ⟨a, h1, h2, h3⟩ := Res.bind_ok h
      simp only [Res.pure_val, Except.ok.injEq, Option.some.injEq] at h2
      subst h2
      unfold pipeEnd at h1
      obtain ⟨u, h4, h5, h6⟩ := Res.bind_ok h1
      obtain ⟨u', h7, h8, h9⟩ := Res.bind_ok h5
      have hb : feed agg st.agg (vswEnd st.vsw).1 = .pure st.agg := by
        rw [feed_blank hagg, show (vswEnd st.vsw).1.filter notBlank = [] from vswEndFrom_blank true st.vsw]
        rfl
      rw [hb] at h8
      refine ⟨[], rfl, by simp, ?_, h8⟩
      have e : (Res.bind (pipeEnd agg st) fun s => Res.pure (some s)).log = ffEnd st.ff ++ (vswEnd st.vsw).2 := by
        rw [h3, show (pipeEnd agg st).log = _ from h6]
        simp only at h9 ⊢
        rw [h9, hb]
        simp [emitAll_told _ h4, emitAll_told _ h7]
      rw [e, substance_append, substance_nil (l := ffEnd st.ff) (fun m hm => spacing_about (popFileinfo_about none st.ff m hm)),
        substance_nil (l := (vswEnd st.vsw).2) (spacing_vswEnd st.vsw true)]
      rfl
    | some p =>
      obtain ⟨w, frames⟩ := p
      cases hp : pipeStep fs agg st with
      | none => unfold pipeStep at hp; rw [hn] at hp; cases hp
      | some r =>
        simp only [hp] at h ⊢
        obtain ⟨st', h1, h2, h3⟩ := Res.bind_ok h
        simp only [h1]
        unfold pipeStep at hp
        simp only [hn, Option.some.injEq] at hp
        rw [← hp] at h1
        obtain ⟨_, he1, h4, h5⟩ := Res.bind_ok h1
        rw [hp] at h5
        cases hl : (lineStep fs st.ff frames w).2 with
        | error e => rw [hl] at h4; simp at h4
        | ok x =>
          obtain ⟨rs, oe⟩ := x
          obtain ⟨a, b, g, g1, g2, g3, g4, g5, g6⟩ := lineStep_parts hl
          have hf := substance_nil (spacing_ffStage st.ff w (textOf w))
          rw [hl] at h4 h5
          cases oe with
          | none =>
            simp only [Res.pure_val, Except.ok.injEq] at h4
            subst h4
            obtain ⟨told, t1, t2, t3, t4⟩ := ih ⟨rs.frames, rs.ff, st.vsw, st.agg⟩ out h2
            have e : tellBy agg st.agg (⟨w, a ++ b, g⟩ :: told) =
                ⟨a ++ b ++ (tellBy agg st.agg told).log, (tellBy agg st.agg told).val⟩ := by
              simp only [tellBy, g2, Option.toList, feed, Res.pure_bind]
              rfl
            refine ⟨⟨w, a ++ b, g⟩ :: told, by simp [t1], ?_, ?_, ?_⟩
            · intro x hx
              rcases List.mem_cons.1 hx with rfl | hx
              · exact g1
              · exact t2 x hx
            · rw [e, h3, h5]
              simp only [Res.pure_log, List.append_nil]
              rw [emitAll_told _ he1, g4]
              simp only [substance_append, hf, t3, List.append_assoc, List.nil_append]
            · rw [e]; exact t4
          | some e =>
            simp only at h4 h5
            obtain ⟨_, he2, h6, h7⟩ := Res.bind_ok h4
            obtain ⟨ag, h8, h9, h10⟩ := Res.bind_ok h6
            simp only [Res.pure_val, Except.ok.injEq] at h9
            subst h9
            obtain ⟨told, t1, t2, t3, t4⟩ := ih ⟨rs.frames, rs.ff, (vswStep st.vsw e).1, ag⟩ out h2
            have hfe : feed agg st.agg (vswStep st.vsw e).2.1 = feed agg st.agg [e] := by
              rw [feed_blank hagg, vswStep_blank, ← feed_blank hagg]
            rw [hfe] at h8
            have ht : tellBy agg st.agg (⟨w, a ++ b, g⟩ :: told) =
                ⟨a ++ b ++ (feed agg st.agg [e]).log ++ (tellBy agg ag told).log, (tellBy agg ag told).val⟩ := by
              simp only [tellBy, g2, Option.toList]
              rw [Res.bind_of_ok h8]
              simp [Res.bind]
            refine ⟨⟨w, a ++ b, g⟩ :: told, by simp [t1], ?_, ?_, ?_⟩
            · intro x hx
              rcases List.mem_cons.1 hx with rfl | hx
              · exact g1
              · exact t2 x hx
            · rw [ht, h3, h5, h7, h10, hfe]
              simp only [Res.pure_log, List.append_nil]
              rw [emitAll_told _ he1, emitAll_told _ he2, g4]
              simp only [substance_append, hf, substance_nil (spacing_vswStep st.vsw e), t3, List.append_assoc,
                List.nil_append]
            · rw [ht]; exact t4

theorem pipeRun_of_tellsBy {fs : FS} {σ : Type} {agg : σ → Elem → Res σ} (hagg : ∀ s b w, agg s (.empty b w) = .pure s) : ∀ (n : Nat) (st : PState σ) (told : List Told) (out : σ),
    readFuel fs opens n st.frames = (told.map (·.line), true) → (∀ x ∈ told, lineModel fs x.line = some (x.msgs, x.gives)) →
    (tellBy agg st.agg told).val = .ok out → (pipeRun fs agg n st).val = .ok (some out)
  | 0, st, told, out, h, _, _ => by simp [readFuel] at h
  | n + 1, st, told, out, h, hm, hv => by
    rw [readFuel_succ] at h
    rw [pipeRun]
    cases hn : nextLine st.frames with
    | none =>
      simp only [hn, Prod.mk.injEq, and_true] at h
      have : told = [] := by cases told with
        | nil => rfl
        | cons x xs => cases h
      subst this
      have hp : pipeStep fs agg st = none := by simp [pipeStep, hn]
      simp only [hp]
      have h1 := emitAll_fine (fine_ffEnd (pipeIn_true st).ff)
      have h2 := emitAll_fine (fine_vswEnd (pipeIn_true st).vsw).1
      have hb : feed agg st.agg (vswEnd st.vsw).1 = .pure st.agg := by
        rw [feed_blank hagg, show (vswEnd st.vsw).1.filter notBlank = [] from vswEndFrom_blank true st.vsw]
        rfl
      unfold pipeEnd
      rw [Res.bind_assoc, Res.bind_of_ok h1]
      dsimp only
      rw [Res.bind_assoc, Res.bind_of_ok h2]
      dsimp only
      rw [hb]
      simp only [tellBy, Res.pure_val, Except.ok.injEq] at hv
      subst hv
      rfl
    | some p =>
      obtain ⟨w, rest⟩ := p
      simp only [hn, Prod.mk.injEq] at h
      obtain ⟨e1, e2⟩ := h
      cases told with
      | nil => cases e1
      | cons x xs =>
        simp only [List.map_cons, List.cons.injEq] at e1
        obtain ⟨rfl, e1⟩ := e1
        have hx := hm x List.mem_cons_self
        obtain ⟨rs, hl⟩ := lineStep_of_model hx st.ff rest
        simp only [tellBy] at hv
        obtain ⟨_, _, hv, -⟩ := Res.bind_ok hv
        obtain ⟨ag, hv1, hv2, -⟩ := Res.bind_ok hv
        have hrv : ∃ r st', pipeStep fs agg st = some r ∧ r.val = .ok st' ∧ st'.agg = ag := by
          unfold pipeStep
          simp only [hn, hl]
          obtain ⟨l1, l2⟩ := fine_lineStep (pipeIn_true st).ff (w := x.line) trivial fs rest
          rw [Res.bind_of_ok (emitAll_fine l1)]
          cases hg : x.gives.elem? with
          | none =>
            rw [hg] at hv1
            simp only [Option.toList, feed, Res.pure_val, Except.ok.injEq] at hv1
            exact ⟨_, _, rfl, rfl, hv1⟩
          | some e =>
            rw [hg] at hv1
            have hfe : feed agg st.agg (vswStep st.vsw e).2.1 = feed agg st.agg [e] := by
              rw [feed_blank hagg, vswStep_blank, ← feed_blank hagg]
            dsimp only
            rw [Res.bind_of_ok (emitAll_fine (fine_vswStep (pipeIn_true st).vsw (e := e) trivial).1), hfe, Res.bind_of_ok (x := feed agg st.agg [e]) hv1]
            exact ⟨_, _, rfl, rfl, rfl⟩
        obtain ⟨r, st', hp, hr, ha⟩ := hrv
        simp only [hp]
        rw [Res.bind_of_ok hr]
        refine pipeRun_of_tellsBy hagg n st' xs out ?_ (fun y hy => hm y (List.mem_cons_of_mem _ hy)) (by rw [ha]; exact hv2)
        rw [pipeStep_frames fs _ st st' x.line rest r hn hp hr]
        exact Prod.ext e1 e2


/-! ## Reading a func_odbc.conf -/

theorem elemsOf_cons (x : Told) (xs : List Told) : elemsOf (x :: xs) = x.gives.elem?.toList ++ elemsOf xs := by
  unfold elemsOf
  rw [List.filterMap_cons]
  cases x.gives.elem? <;> rfl

theorem elemsOf_append (a b : List Told) : elemsOf (a ++ b) = elemsOf a ++ elemsOf b := List.filterMap_append

/-- Everything is fed; what is said about the lines comes in between. -/
theorem tellBy_feed {σ : Type} {agg : σ → Elem → Res σ} : ∀ (told : List Told) {s out : σ}, (feed agg s (elemsOf told)).val = .ok out →
    (tellBy agg s told).val = .ok out ∧
      (tellBy agg s told).log.Perm (told.flatMap (·.msgs) ++ (feed agg s (elemsOf told)).log)
  | [], s, out, h => ⟨h, .refl _⟩
  | x :: xs, s, out, h => by
    rw [elemsOf_cons, feed_append] at h ⊢
    obtain ⟨u, h1, h2, h3⟩ := Res.bind_ok h
    obtain ⟨i1, i2⟩ := tellBy_feed xs h2
    have e : tellBy agg s (x :: xs) = ⟨x.msgs ++ ((feed agg s x.gives.elem?.toList).log ++ (tellBy agg u xs).log), (tellBy agg u xs).val⟩ := by
      rw [tellBy]
      rw [Res.bind_of_ok (x := ⟨x.msgs, .ok ()⟩) rfl, Res.bind_of_ok h1]
    rw [e, h3]
    refine ⟨i1, ?_⟩
    rw [List.flatMap_cons, List.append_assoc]
    refine List.Perm.append_left _ ?_
    refine (List.Perm.append_left _ i2).trans ?_
    rw [← List.append_assoc, ← List.append_assoc]
    exact List.Perm.append_right _ List.perm_append_comm

/-- All that is said about a func_odbc.conf, but for terminators and blank lines, and but for the order. -/
def odbcGist (told : List Told) : List Msg :=
  told.flatMap (·.msgs) ++ odbcTells none (elemsOf told) ++ nothingDefined (elemsOf told)

theorem odbcStep_empty (s : List OdbcFn) (b : Bool) (w : Where) : odbcStep s (.empty b w) = .pure s := rfl

theorem odbcMore_nil (es : List Elem) : (odbcMore [] es).reverse = (sectionsOf es).map odbcFn := by
  simp only [odbcMore, List.append_nil, List.reverse_reverse]
  rfl

/-- The names are fine. -/
def NoNul (names : List Str) : Prop := ∀ f ∈ names, ∀ c ∈ f, c.toNat ≠ 0

theorem load_tells {fs : FS} {env env' : FEnv} {n : Nat} {path : Str} {content : Bytes} {log : List Msg} {fns : List OdbcFn}
    (h : loadOdbc fs env n path content = ⟨log, .ok (some (env', fns))⟩) :
    ∃ t told, ReadTold fs path content t told ∧ (substance log).Perm (substance (odbcGist told)) ∧
      fns = (sectionsOf (elemsOf told)).map odbcFn ∧ env' = registerAll env (odbcNames (sectionsOf (elemsOf told))) ∧
      NoNul (odbcNames (sectionsOf (elemsOf told))) := by
  have hv := congrArg Res.val h
  have hl := congrArg Res.log h
  simp only at hv hl
  unfold loadOdbc at hv hl
  obtain ⟨r, h1, h2, h3⟩ := Res.bind_ok hv
  rw [h3] at hl
  cases r with
  | none => simp at h2
  | some s =>
    obtain ⟨told, t1, t2, t3, t4⟩ := pipeRun_tellsBy fs odbcStep_empty n _ s h1
    obtain ⟨t, ht, hfl⟩ := C02_pipeline fs _ _ path content n _ h1
    obtain ⟨k1, k2⟩ := tellBy_feed told (feed_odbc [] (elemsOf told)).1
    dsimp only at h2 hl t3 t4
    rw [t4] at k1
    simp only [Except.ok.injEq] at k1
    obtain ⟨e, h4, h5, h6⟩ := Res.bind_ok h2
    simp only [Res.pure_val, Except.ok.injEq, Option.some.injEq, Prod.mk.injEq] at h5
    obtain ⟨rfl, rfl⟩ := h5
    rw [k1, odbcMore_nil] at h4 h6 hl
    have hr := finalizeAll_spec env (sectionsOf (elemsOf told))
    refine ⟨t, told, ⟨ht, t1.trans hfl, t2⟩, ?_, by rw [k1, odbcMore_nil], hr.1 _ h4, hr.2.2.1 ⟨_, h4⟩⟩
    rw [← hl]
    have hb : (Res.bind (finalizeAll env ((sectionsOf (elemsOf told)).map odbcFn)) fun env =>
        (Res.pure (some (env, (sectionsOf (elemsOf told)).map odbcFn)) : Res (Option (FEnv × List OdbcFn)))).log =
        nothingDefined (elemsOf told) := by
      rw [h6, finalize_says env _ ⟨_, h4⟩]
      simp [nothingDefined]
    rw [hb, substance_append, t3]
    unfold odbcGist
    rw [substance_append]
    refine List.Perm.append_right _ ?_
    rw [← feed_tells [] none (elemsOf told) trivial]
    exact k2.filter _

theorem load_of_tells {fs : FS} {env : FEnv} {path : Str} {content : Bytes} {t : Items} {told : List Told}
    (hr : ReadTold fs path content t told) (hn : NoNul (odbcNames (sectionsOf (elemsOf told)))) :
    ∃ log, (substance log).Perm (substance (odbcGist told)) ∧ ∀ n, t.flatten.length + 1 ≤ n → loadOdbc fs env n path content =
      ⟨log, .ok (some (registerAll env (odbcNames (sectionsOf (elemsOf told))), (sectionsOf (elemsOf told)).map odbcFn))⟩ := by
  obtain ⟨k1, -⟩ := tellBy_feed told (feed_odbc [] (elemsOf told)).1
  have e := C02_expansion fs opens path content t hr.expand
  rw [← hr.lines] at e
  have hp := pipeRun_of_tellsBy odbcStep_empty _ ⟨[openFrame path content], [], [], []⟩ told _ e hr.models k1
  have hs := finalizeAll_spec env (sectionsOf (elemsOf told))
  obtain ⟨env', h4⟩ := hs.2.2.2 hn
  obtain rfl := hs.1 _ h4
  have hv : ∃ log, loadOdbc fs env (t.flatten.length + 1) path content = ⟨log, .ok (some (registerAll env
      (odbcNames (sectionsOf (elemsOf told))), (sectionsOf (elemsOf told)).map odbcFn))⟩ := by
    rw [hr.lines] at hp
    unfold loadOdbc
    rw [Res.bind_of_ok hp]
    dsimp only
    rw [odbcMore_nil, Res.bind_of_ok h4]
    exact ⟨_, rfl⟩
  obtain ⟨log, h1⟩ := hv
  refine ⟨log, ?_, fun n hn => ?_⟩
  · obtain ⟨t', told', hr', hs, -⟩ := load_tells h1
    rwa [told_eq (a := told') (b := told) (by rw [hr'.lines, hr.lines, expand_same hr'.expand hr.expand]) hr'.models hr.models] at hs
  · rw [loadOdbc_fuel hn (congrArg Res.val h1), h1]

/-! ## The places of the lines do not matter -/

theorem find_re (φ : Where → Where) (k : Str) (l : List VarE) :
    (l.map (reV φ)).find? (fun u => u.key == k) = (l.find? fun u => u.key == k).map (reV φ) := by
  rw [List.find?_map]
  rfl

theorem firstsBelow_re (φ : Where → Where) : ∀ (vs above : List VarE),
    firstsBelow (above.map (reV φ)) (vs.map (reV φ)) = (firstsBelow above vs).map (reV φ)
  | [], _ => rfl
  | v :: vs, above => by
    have e : (∀ u ∈ above.map (reV φ), u.key ≠ (reV φ v).key) ↔ ∀ u ∈ above, u.key ≠ v.key := by
      simp only [List.forall_mem_map]
      exact Iff.rfl
    have ih := firstsBelow_re φ vs (above ++ [v])
    rw [List.map_append] at ih
    simp only [List.map_cons, firstsBelow, List.map_append] at ih ⊢
    rw [show List.map (reV φ) [] = [] from rfl] at ih
    rw [ih]
    congr 1
    by_cases h : v.key ∈ odbcSettings ∧ ∀ u ∈ above, u.key ≠ v.key
    · rw [if_pos h, if_pos ⟨h.1, e.2 h.2⟩]; rfl
    · rw [if_neg h, if_neg fun q => h ⟨q.1, e.1 q.2⟩]; rfl

theorem late_re (φ : Where → Where) (above : List VarE) (k : Str) : Late (above.map (reV φ)) k ↔ Late above k := by
  unfold Late firsts
  rw [show firstsBelow [] (above.map (reV φ)) = (firstsBelow [] above).map (reV φ) from firstsBelow_re φ above [], List.getLast?_map]
  constructor
  · rintro ⟨u, h1, h2⟩
    obtain ⟨u', h3, rfl⟩ := Option.map_eq_some_iff.1 h1
    exact ⟨u', h3, h2⟩
  · rintro ⟨u, h1, h2⟩
    exact ⟨reV φ u, by rw [h1]; rfl, h2⟩

theorem map_ite {α β : Type} (f : α → β) {p q : Prop} [Decidable p] [Decidable q] (h : p ↔ q) (x y : List α) :
    (if p then x.map f else y.map f) = (if q then x else y).map f := by
  by_cases hq : q
  · rw [if_pos hq, if_pos (h.2 hq)]
  · rw [if_neg hq, if_neg fun hp => hq (h.1 hp)]

theorem settingSays_re (φ : Where → Where) (above : List VarE) (v : VarE) :
    settingSays (above.map (reV φ)) (reV φ v) = (settingSays above v).map (reM φ) := by
  unfold settingSays
  rw [show (reV φ v).key = v.key from rfl, show (reV φ v).value = v.value from rfl, show (reV φ v).at_ = φ v.at_ from rfl, find_re]
  by_cases hk : v.key ∉ odbcSettings
  · rw [if_pos hk, if_pos hk]; rfl
  · rw [if_neg hk, if_neg hk]
    cases above.find? fun u => u.key == v.key with
    | some u => rfl
    | none =>
      simp only [Option.map_none, List.map_append]
      congr 1
      · congr 1
        · exact map_ite (reM φ) (late_re φ above v.key) [⟨.W_CONF_KEY_LATE, v.at_, _, none⟩] []
        · exact map_ite (reM φ) Iff.rfl [⟨.W_ODBC_LEGACY, v.at_, [], none⟩] []
      · exact map_ite (reM φ) Iff.rfl [⟨.W_ODBC_TAILSEMI, v.at_, [], none⟩] []

theorem odbcTells_re (φ : Where → Where) : ∀ (es : List Elem) (above : Option (List VarE)),
    odbcTells (above.map (List.map (reV φ))) (es.map (reE φ)) = (odbcTells above es).map (reM φ)
  | [], _ => rfl
  | .empty _ _ :: es, above => odbcTells_re φ es above
  | .ctx c :: es, above => by
    have ih := odbcTells_re φ es (some [])
    simp only [List.map_cons, reE, odbcTells, List.map_append]
    rw [← ih]
    congr 1
    congr 1
    · exact map_ite (reM φ) Iff.rfl [] [⟨.W_ODBC_BADTOKENS, c.at_, _, none⟩]
    · exact map_ite (reM φ) Iff.rfl [] [⟨.I_NOTIMPL_TEMPLATES, c.at_, [], none⟩]
  | .var v :: es, above => by
    have ih := odbcTells_re φ es (above.map (· ++ [v]))
    simp only [List.map_cons, reE, odbcTells, List.map_append]
    rw [← ih]
    congr 1
    · congr 1
      · exact map_ite (reM φ) Iff.rfl [⟨.H_CONF_HAS_ARROW, v.at_, [], none⟩] []
      · cases above with
        | none => rfl
        | some vs => exact settingSays_re φ vs v
    · cases above with
      | none => rfl
      | some vs => simp

def reSect (φ : Where → Where) (s : CtxE × List VarE) : CtxE × List VarE := (reC φ s.1, s.2.map (reV φ))

theorem settingsBelow_re (φ : Where → Where) : ∀ es : List Elem, settingsBelow (es.map (reE φ)) = (settingsBelow es).map (reV φ)
  | [] => rfl
  | .ctx _ :: _ => rfl
  | .var v :: es => by simp only [List.map_cons, reE, settingsBelow, settingsBelow_re φ es]
  | .empty _ _ :: es => settingsBelow_re φ es

theorem sectionsOf_re (φ : Where → Where) : ∀ es : List Elem, sectionsOf (es.map (reE φ)) = (sectionsOf es).map (reSect φ)
  | [] => rfl
  | .ctx c :: es => by
    simp only [List.map_cons, reE, sectionsOf, sectionsOf_re φ es, settingsBelow_re φ es]
    rfl
  | .var v :: es => sectionsOf_re φ es
  | .empty _ _ :: es => sectionsOf_re φ es

theorem defines_re (φ : Where → Where) (s : CtxE × List VarE) : DefinesOdbc (reSect φ s) ↔ DefinesOdbc s := by
  unfold DefinesOdbc reSect
  simp only [List.mem_map]
  constructor
  · rintro ⟨_, ⟨v, h1, rfl⟩, h2⟩; exact ⟨v, h1, h2⟩
  · rintro ⟨v, h1, h2⟩; exact ⟨_, ⟨v, h1, rfl⟩, h2⟩

theorem filter_re {α : Type} {f : α → α} {p : α → Bool} (h : ∀ x, p (f x) = p x) (l : List α) : (l.map f).filter p = (l.filter p).map f := by
  rw [List.filter_map]
  congr 2
  funext x
  exact h x

theorem nothingDefined_re (φ : Where → Where) (es : List Elem) : nothingDefined (es.map (reE φ)) = (nothingDefined es).map (reM φ) := by
  unfold nothingDefined
  rw [sectionsOf_re, filter_re fun s => by simp only [defines_re], List.map_map, List.map_map]
  rfl

theorem odbcNames_re (φ : Where → Where) (ss : List (CtxE × List VarE)) : odbcNames (ss.map (reSect φ)) = odbcNames ss := by
  unfold odbcNames
  rw [filter_re fun s => by simp only [defines_re], List.map_map]
  congr 1
  funext s
  simp only [Function.comp, odbcName, settingOf, reSect, find_re, Option.map_map]
  rfl

theorem kept_re (φ : Where → Where) : ∀ (vs sets : List VarE), odbcKept (sets.map (reV φ)) (vs.map (reV φ)) = (odbcKept sets vs).map (reV φ)
  | [], _ => rfl
  | v :: vs, sets => by
    have e : odbcKeep (sets.map (reV φ)) (reV φ v) = odbcKeep sets v := by
      unfold odbcKeep
      rw [show (reV φ v).key = v.key from rfl, find_re, Option.isNone_map]
    simp only [List.map_cons, odbcKept, e]
    rw [← kept_re φ vs]
    split
    · rw [List.map_append]; rfl
    · rfl

theorem fnText_re (φ : Where → Where) (ss : List (CtxE × List VarE)) :
    ((ss.map (reSect φ)).map odbcFn).map fnText = (ss.map odbcFn).map fnText := by
  simp only [List.map_map]
  congr 1
  funext s
  simp only [Function.comp, odbcFn, fnText, reSect]
  rw [show odbcKept [] (s.2.map (reV φ)) = (odbcKept [] s.2).map (reV φ) from kept_re φ s.2 [], List.map_map]
  rfl

theorem elemsOf_re (φ : Where → Where) : ∀ told : List Told, elemsOf (told.map (reTold φ)) = (elemsOf told).map (reE φ)
  | [] => rfl
  | x :: xs => by
    rw [List.map_cons, elemsOf_cons, elemsOf_cons, List.map_append, elemsOf_re φ xs]
    congr 1
    obtain ⟨_, _, g⟩ := x
    cases g <;> rfl

theorem gist_re (φ : Where → Where) (told : List Told) : odbcGist (told.map (reTold φ)) = (odbcGist told).map (reM φ) := by
  unfold odbcGist
  rw [elemsOf_re, nothingDefined_re, show odbcTells none ((elemsOf told).map (reE φ)) = (odbcTells none (elemsOf told)).map (reM φ) from
    odbcTells_re φ (elemsOf told) none]
  simp only [List.map_append, List.flatMap_map, List.map_flatMap]
  rfl

/-! ## The parts in another order -/

theorem settings_header (c : CtxE) (b : List Elem) : ∀ a : List Elem, settingsBelow (a ++ .ctx c :: b) = settingsBelow a
  | [] => rfl
  | .ctx _ :: _ => rfl
  | .var v :: a => by simp only [List.cons_append, settingsBelow, settings_header c b a]
  | .empty _ _ :: a => settings_header c b a

theorem sections_header (c : CtxE) (b : List Elem) : ∀ a : List Elem,
    sectionsOf (a ++ .ctx c :: b) = sectionsOf a ++ sectionsOf (.ctx c :: b)
  | [] => rfl
  | .ctx d :: a => by
    rw [List.cons_append, sectionsOf, sections_header c b a, settings_header]
    rfl
  | .var v :: a => sections_header c b a
  | .empty _ _ :: a => sections_header c b a

theorem tells_header (c : CtxE) (b : List Elem) : ∀ (a : List Elem) (above : Option (List VarE)),
    odbcTells above (a ++ .ctx c :: b) = odbcTells above a ++ odbcTells none (.ctx c :: b)
  | [], _ => rfl
  | .ctx d :: a, above => by
    have ih := tells_header c b a (some [])
    simp only [List.cons_append, odbcTells, List.append_assoc] at ih ⊢
    rw [ih]
  | .var v :: a, above => by
    have ih := tells_header c b a (above.map (· ++ [v]))
    simp only [List.cons_append, odbcTells, List.append_assoc] at ih ⊢
    rw [ih]
  | .empty _ _ :: a, above => tells_header c b a above

theorem part_elems {told : List Told} (h : PartLines told) : ∃ c b, elemsOf told = .ctx c :: b := by
  obtain ⟨c, hc⟩ := h.header
  cases told with
  | nil => cases hc
  | cons x xs =>
    simp only [List.head?_cons, Option.map_some, Option.some.injEq] at hc
    rw [elemsOf_cons, hc]
    exact ⟨c, elemsOf xs, rfl⟩

/-- Each part is for itself. -/
theorem parts_apart {κ : Type} : ∀ {l : List (κ × List Told)} (a : List Elem) (above : Option (List VarE)), (∀ x ∈ l, PartLines x.2) →
    sectionsOf (a ++ elemsOf (flatLines l)) = sectionsOf a ++ l.flatMap (fun x => sectionsOf (elemsOf x.2)) ∧
    odbcTells above (a ++ elemsOf (flatLines l)) = odbcTells above a ++ l.flatMap fun x => odbcTells none (elemsOf x.2)
  | [], a, above, _ => by simp [flatLines, elemsOf]
  | x :: l, a, above, h => by
    have e : elemsOf (flatLines (x :: l)) = elemsOf x.2 ++ elemsOf (flatLines l) := by
      unfold flatLines
      rw [List.flatMap_cons, elemsOf_append]
    obtain ⟨c, b, hb⟩ := part_elems (h x List.mem_cons_self)
    obtain ⟨h1, h2⟩ := parts_apart (a ++ elemsOf x.2) above fun y hy => h y (List.mem_cons_of_mem _ hy)
    rw [e, ← List.append_assoc, h1, h2, hb, sections_header, tells_header, List.flatMap_cons, List.flatMap_cons, hb]
    simp only [List.append_assoc]
    exact ⟨trivial, trivial⟩

theorem parts_gist {κ : Type} {l l' : List (κ × List Told)} (hp : l.Perm l') (h : ∀ x ∈ l, PartLines x.2) (ta : List Told) :
    (sectionsOf (elemsOf (ta ++ flatLines l))).Perm (sectionsOf (elemsOf (ta ++ flatLines l'))) ∧
    (odbcGist (ta ++ flatLines l)).Perm (odbcGist (ta ++ flatLines l')) := by
  have h' : ∀ x ∈ l', PartLines x.2 := fun x hx => h x (hp.mem_iff.2 hx)
  obtain ⟨a1, a2⟩ := parts_apart (elemsOf ta) none h
  obtain ⟨b1, b2⟩ := parts_apart (elemsOf ta) none h'
  have hs : (sectionsOf (elemsOf (ta ++ flatLines l))).Perm (sectionsOf (elemsOf (ta ++ flatLines l'))) := by
    rw [elemsOf_append, elemsOf_append, a1, b1]
    exact List.Perm.append_left _ (hp.flatMap_right _)
  refine ⟨hs, ?_⟩
  unfold odbcGist
  refine List.Perm.append (List.Perm.append ?_ ?_) ?_
  · rw [List.flatMap_append, List.flatMap_append]
    exact List.Perm.append_left _ ((hp.flatMap_right _).flatMap_right _)
  · rw [elemsOf_append, elemsOf_append, a2, b2]
    exact List.Perm.append_left _ (hp.flatMap_right _)
  · exact (hs.filter _).map _

theorem register_perm (env : FEnv) {names names' : List Str} (hp : names.Perm names') :
    KnowsSame (registerAll env names) (registerAll env names') ∧
    ((names.map env.lower).Nodup → (registerAll env names').funcs = (registerAll env names).funcs) := by
  obtain ⟨l1, f1⟩ := registerAll_spec env names
  obtain ⟨l2, f2⟩ := registerAll_spec env names'
  have hp : names.reverse.Perm names'.reverse := (List.reverse_perm _).trans (hp.trans (List.reverse_perm _).symm)
  have key : ∀ k, (names.reverse.find? (fun n => env.lower n == k) = none ∧ names'.reverse.find? (fun n => env.lower n == k) = none) ∨
      ∃ n n', names.reverse.find? (fun n => env.lower n == k) = some n ∧ names'.reverse.find? (fun n => env.lower n == k) = some n' ∧
        env.lower n = k ∧ env.lower n' = k ∧ n ∈ names.reverse ∧ n' ∈ names.reverse := by
    intro k
    cases h1 : names.reverse.find? (fun n => env.lower n == k) with
    | none =>
      refine .inl ⟨rfl, List.find?_eq_none.2 fun x hx => List.find?_eq_none.1 h1 x (hp.mem_iff.2 hx)⟩
    | some n =>
      cases h2 : names'.reverse.find? (fun n => env.lower n == k) with
      | none =>
        exact absurd (List.find?_some h1) (List.find?_eq_none.1 h2 n (hp.mem_iff.1 (List.mem_of_find?_eq_some h1)))
      | some n' =>
        exact .inr ⟨n, n', rfl, rfl, by simpa using List.find?_some h1, by simpa using List.find?_some h2,
          List.mem_of_find?_eq_some h1, hp.mem_iff.2 (List.mem_of_find?_eq_some h2)⟩
  refine ⟨⟨l2.trans l1.symm, fun k => ?_⟩, fun hnd => ?_⟩
  · rw [f1, f2, l1]
    rcases key k with ⟨e1, e2⟩ | ⟨n, n', e1, e2, e3, e4, -⟩
    · rw [e1, e2]; exact .inl rfl
    · rw [e1, e2]; exact .inr ⟨_, n', rfl, rfl, e3, e4⟩
  · funext k
    rw [f1, f2]
    rcases key k with ⟨e1, e2⟩ | ⟨n, n', e1, e2, e3, e4, m1, m2⟩
    · rw [e1, e2]
    · have : n = n' := by
        have hinj : ∀ {l : List Str}, (l.map env.lower).Nodup → ∀ {a b}, a ∈ l → b ∈ l → env.lower a = env.lower b → a = b := by
          intro l
          induction l with
          | nil => intro _ a b ha; cases ha
          | cons x l ih =>
            intro hn a b ha hb he
            simp only [List.map_cons, List.nodup_cons, List.mem_map, not_exists, not_and] at hn
            rcases List.mem_cons.1 ha with ha' | ha' <;> rcases List.mem_cons.1 hb with hb' | hb'
            · rw [ha', hb']
            · subst ha'; exact absurd he.symm (hn.1 b hb')
            · subst hb'; exact absurd he (hn.1 a ha')
            · exact ih hn.2 ha' hb' he
        exact hinj hnd (List.mem_reverse.1 m1) (List.mem_reverse.1 m2) (e3.trans e4.symm)
      rw [e1, e2, this]

theorem part_placeless (_ : Unit) : Placeless PartLines where
  re := by
    intro l
    have gives : ∀ x : Told, (reTold textOnly x).gives = reG textOnly x.gives := fun _ => rfl
    have hh : (l.map (reTold textOnly)).head?.map (·.gives) = (l.head?.map (·.gives)).map (reG textOnly) := by
      cases l <;> rfl
    constructor
    · rintro ⟨⟨c, h1⟩, h2⟩
      refine ⟨?_, fun x hx f hf => h2 (reTold textOnly x) (List.mem_map_of_mem hx) f (by rw [gives, hf]; rfl)⟩
      rw [hh] at h1
      obtain ⟨g, h3, h4⟩ := Option.map_eq_some_iff.1 h1
      cases g with
      | elem e =>
        cases e with
        | ctx c' => exact ⟨c', h3⟩
        | var v => cases h4
        | empty b w => cases h4
      | file f => cases h4
      | nothing => cases h4
    · rintro ⟨⟨c, h1⟩, h2⟩
      refine ⟨⟨reC textOnly c, by rw [hh, h1]; rfl⟩, fun x hx f hf => ?_⟩
      obtain ⟨y, hy, rfl⟩ := List.mem_map.1 hx
      refine h2 y hy f ?_
      rw [gives] at hf
      cases hg : y.gives with
      | elem e => rw [hg] at hf; cases hf
      | file p => rw [hg] at hf; exact hf
      | nothing => rw [hg] at hf; cases hf
  shut := fun _ h => h.shut

theorem odbc_moved {fs fs' : FS} {env env1 : FEnv} {n : Nat} {path : Str} {pre : Bytes} {parts parts' : List Bytes}
    (hm : PartsMoved fs fs' path pre parts parts') {log : List Msg} {fns : List OdbcFn}
    (h : loadOdbc fs env n path (pre ++ parts.flatten) = ⟨log, .ok (some (env1, fns))⟩) :
    ∃ k log' env2 fns', (∀ n', k ≤ n' → loadOdbc fs' env n' path (pre ++ parts'.flatten) = ⟨log', .ok (some (env2, fns'))⟩) ∧
      SameInSomeOrder (substance log) (substance log') ∧ (fns.map fnText).Perm (fns'.map fnText) ∧ KnowsSame env1 env2 ∧
      ((fns.map fun f => env.lower f.funcName).Nodup → env2.funcs = env1.funcs) := by
  have hfl : ∀ l : List Bytes, (l.map fun b => ((), b)).flatMap (·.2) = l.flatten := by
    intro l
    rw [List.flatMap_map]
    exact List.flatMap_id ..
  obtain ⟨t, told, hread, hs, rfl, rfl, hnul⟩ := load_tells h
  obtain ⟨hown, hagree, hmod⟩ := replaced_agree hm.before hm.others hread
  have hsec : ∀ x ∈ parts.map (fun b => ((), b)), TextIs fs path x.2 PartLines := by
    intro x hx
    obtain ⟨b, hb, rfl⟩ := List.mem_map.1 hx
    exact hm.header b hb
  have hsec' : ∀ x ∈ parts'.map (fun b => ((), b)), TextIs fs path x.2 PartLines :=
    fun x hx => hsec x ((hm.same.map _).mem_iff.2 hx)
  have hexp := hread.expand
  rw [physLines_more _ pre hm.whole] at hexp
  obtain ⟨tA, tB, hA, hB, hf⟩ := expand_parts _ _ hexp
  have inA : ∀ w ∈ tA.flatten, w ∈ t.flatten := fun w hw => by rw [hf]; exact List.mem_append_left _ hw
  have hA' := expand_agree hA fun w hw => hagree w (inA w hw)
  obtain ⟨ta, tb, rfl, ha1, hb1⟩ := told_split (hread.lines.trans hf)
  obtain ⟨ts, g1, g2, g3⟩ := texts_laid fs' part_placeless hsec (0 + (physLines pre).length)
  obtain ⟨ts', g1', g2', g3'⟩ := texts_laid fs' part_placeless hsec' (0 + (physLines pre).length)
  rw [hfl] at g1 g1'
  obtain ⟨tB1, e1, e2⟩ := laid_expand (fs'' := fs) g1
  have hB1 := expand_same hB e1
  subst hB1
  have htb : tb = flatLines ts := told_eq (by rw [hb1, e2]) (fun y hy => hread.models y (List.mem_append_right _ hy)) g1.here
  subst htb
  obtain ⟨ts2, q1, q2⟩ := moved_tolds (hm.same.map fun b => ((), b)) (fun _ b => sayings fs path PartLines b) ts g3
  have q2 := q2.trans g3'.symm
  have hre : (ta ++ flatLines ts').map (reTold textOnly) = (ta ++ flatLines ts2).map (reTold textOnly) := by
    rw [List.map_append, List.map_append, flatLines_re q2.symm]
  obtain ⟨w1, w2⟩ := parts_gist q1 g2 ta
  have hsre : (sectionsOf (elemsOf (ta ++ flatLines ts'))).map (reSect textOnly) =
      (sectionsOf (elemsOf (ta ++ flatLines ts2))).map (reSect textOnly) := by
    rw [← sectionsOf_re, ← sectionsOf_re, ← elemsOf_re, ← elemsOf_re, hre]
  have hnames : odbcNames (sectionsOf (elemsOf (ta ++ flatLines ts'))) = odbcNames (sectionsOf (elemsOf (ta ++ flatLines ts2))) := by
    rw [← odbcNames_re textOnly, hsre, odbcNames_re]
  have hpn : (odbcNames (sectionsOf (elemsOf (ta ++ flatLines ts)))).Perm (odbcNames (sectionsOf (elemsOf (ta ++ flatLines ts')))) := by
    rw [hnames]
    exact (w1.filter _).map _
  obtain ⟨tB', e1', e2'⟩ := laid_expand (fs'' := fs') g1'
  obtain ⟨t', j1, j2⟩ := expand_join hA' e1'
  rw [← physLines_more _ pre hm.whole] at j1
  have hread' : ReadTold fs' path (pre ++ parts'.flatten) t' (ta ++ flatLines ts') := by
    refine ⟨j1, ?_, fun x hx => ?_⟩
    · rw [List.map_append, ha1, j2, e2']
    · rcases List.mem_append.1 hx with hx | hx
      · exact hmod x (List.mem_append_left _ hx)
      · exact g1'.there x hx
  obtain ⟨log', l1, l2⟩ := load_of_tells (env := env) hread' fun f hf => hnul f (hpn.mem_iff.2 hf)
  have hperm : ((substance log).map (reM textOnly)).Perm ((substance log').map (reM textOnly)) := by
    refine (hs.map _).trans ((?_ : List.Perm _ _).trans (l1.map (reM textOnly)).symm)
    rw [← substance_map, ← substance_map, ← gist_re, ← gist_re, hre, gist_re, gist_re]
    exact (w2.map _).filter _
  obtain ⟨l, p1, p2⟩ := perm_lifted _ hperm rfl
  obtain ⟨r1, r2⟩ := register_perm env hpn
  refine ⟨_, log', _, _, l2, ⟨l, p1, zips_words p2⟩, ?_, r1, fun hnd => r2 ?_⟩
  · rw [← fnText_re textOnly (sectionsOf (elemsOf (ta ++ flatLines ts'))), hsre, fnText_re]
    exact (w1.map _).map _
  · rw [List.map_map] at hnd
    unfold odbcNames
    rw [List.map_map]
    refine List.Nodup.sublist ((List.filter_sublist).map _) ?_
    have : (env.lower ∘ odbcName) = ((fun f : OdbcFn => env.lower f.funcName) ∘ odbcFn) := by
      funext s
      simp only [Function.comp, odbcFn_name]
    rw [this]
    exact hnd

end ALint.Proofs
