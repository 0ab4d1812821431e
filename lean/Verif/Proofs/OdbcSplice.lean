import Verif.Proofs.OdbcParts

/-!
# Lines put into a func_odbc.conf (proofs)
-/

namespace ALint.Proofs
open ALint Spec Props

def reFn (φ : Where → Where) (f : OdbcFn) : OdbcFn := ⟨f.name, f.templates, f.comment, φ f.at_, f.sets.map (reV φ)⟩

theorem checkOrder_bare {φ : Where → Where} (sets : List VarE) (v : VarE) :
    Bares φ id (checkOrder sets v) (checkOrder (sets.map (reV φ)) (reV φ v)) := by
  unfold checkOrder
  rw [show (reV φ v).key = v.key from rfl, show (reV φ v).at_ = φ v.at_ from rfl, find_re, List.getLast?_map]
  cases indexOf? v.key odbcOrder with
  | none => exact .bind (.emit rfl) fun _ => .pure rfl
  | some pos =>
    cases sets.find? fun u => u.key == v.key with
    | some old => exact .bind (.emit rfl) fun _ => .pure rfl
    | none =>
      rw [show (sets.getLast?.map (reV φ)).bind (fun l => indexOf? l.key odbcOrder) = sets.getLast?.bind fun l => indexOf? l.key odbcOrder by
        cases sets.getLast? <;> rfl]
      cases sets.getLast?.bind fun l => indexOf? l.key odbcOrder with
      | none => exact .pure rfl
      | some last => exact .ite (.bind (.emit rfl) fun _ => .pure rfl) (.pure rfl)

theorem add_bare {φ : Where → Where} (f : OdbcFn) (v : VarE) : Bares φ (reFn φ) (f.add v) ((reFn φ f).add (reV φ v)) := by
  unfold OdbcFn.add
  refine .bind (checkOrder_bare f.sets v) fun ok => ?_
  cases ok with
  | false => exact .pure rfl
  | true =>
    refine .bind (g := id) (.ite (.bind (g := id) (.ite (.emit rfl) .unit) fun _ => .ite (.emit rfl) .unit) .unit) fun _ => ?_
    refine .pure ?_
    simp [reFn]

theorem odbcStep_bare {φ : Where → Where} (fns : List OdbcFn) (e : Elem) :
    Bares φ (List.map (reFn φ)) (odbcStep fns e) (odbcStep (fns.map (reFn φ)) (reE φ e)) := by
  cases e with
  | empty c w => exact .pure rfl
  | ctx c =>
    refine .bind (g := id) (.ite .unit (.emit rfl)) fun _ => .bind (g := id) (.ite .unit (.emit rfl)) fun _ => .pure rfl
  | var v =>
    refine .bind (g := id) (.ite (.emit rfl) .unit) fun _ => ?_
    cases fns with
    | nil => exact .bind (.emit rfl) fun _ => .pure rfl
    | cons f rest => exact .bind (add_bare f v) fun _ => .pure rfl

theorem get_re (φ : Where → Where) (f : OdbcFn) (k : Str) : (reFn φ f).get k = f.get k := by
  unfold OdbcFn.get
  rw [show (reFn φ f).sets = f.sets.map (reV φ) from rfl, find_re, Option.map_map]
  rfl

theorem finalize_bare {φ : Where → Where} (env : FEnv) (f : OdbcFn) : Bares φ id (f.finalize env) ((reFn φ f).finalize env) := by
  have h1 : (reFn φ f).hasSql = f.hasSql := by simp only [OdbcFn.hasSql, get_re]
  have h2 : (reFn φ f).funcName = f.funcName := by
    simp only [OdbcFn.funcName, OdbcFn.prefix_, get_re]
    rfl
  unfold OdbcFn.finalize
  rw [h1, h2]
  exact .ite (.ite (.raise _) (.pure rfl)) (.bind (.emit rfl) fun _ => .pure rfl)

theorem finalizeAll_bare {φ : Where → Where} : ∀ (fns : List OdbcFn) (env : FEnv),
    Bares φ id (finalizeAll env fns) (finalizeAll env (fns.map (reFn φ)))
  | [], _ => .pure rfl
  | f :: fns, env => .bind (finalize_bare env f) fun env => finalizeAll_bare fns env

theorem tellBy_bare {φ : Where → Where} {σ : Type} {g : σ → σ} {agg : σ → Elem → Res σ}
    (ha : ∀ s e, Bares φ g (agg s e) (agg (g s) ((reE φ) e))) : ∀ (told : List Told) (s : σ),
    Bares φ g (tellBy agg s told) (tellBy agg (g s) (told.map (reTold φ)))
  | [], _ => .pure rfl
  | x :: xs, s => by
    have e : (reTold φ x).gives.elem?.toList = x.gives.elem?.toList.map (reE φ) := by
      unfold reTold
      cases x.gives <;> rfl
    refine .bind (g := id) rfl fun _ => ?_
    rw [e]
    exact .bind (feed_bare ha _ s) fun s' => tellBy_bare ha xs s'

theorem tellBy_append {σ : Type} {agg : σ → Elem → Res σ} (b : List Told) : ∀ (a : List Told) (s : σ),
    tellBy agg s (a ++ b) = Res.bind (tellBy agg s a) fun s' => tellBy agg s' b
  | [], s => by simp [tellBy, Res.pure_bind]
  | x :: xs, s => by
    simp only [List.cons_append, tellBy, Res.bind_assoc]
    congr 1; funext _; congr 1; funext s'
    exact tellBy_append b xs s'

theorem tellBy_mute {σ : Type} {agg : σ → Elem → Res σ} (hagg : ∀ s b w, agg s (.empty b w) = .pure s) :
    ∀ (a : List Told) (s : σ), (∀ x ∈ a, Mute x) → tellBy agg s a = .pure s
  | [], _, _ => rfl
  | x :: xs, s, h => by
    obtain ⟨h1, h2⟩ := h x List.mem_cons_self
    have hf : feed agg s x.gives.elem?.toList = .pure s := by
      rw [feed_blank hagg]
      cases hg : x.gives.elem? with
      | none => rfl
      | some e => simp [h2 e hg, feed]
    simp only [tellBy, h1, hf, Res.pure_bind]
    rw [tellBy_mute hagg xs s fun y hy => h y (List.mem_cons_of_mem _ hy)]
    rfl

/-- All that is said when a func_odbc.conf is read, but for terminators and blank lines. -/
def loadTell (env : FEnv) (told : List Told) : Res (FEnv × List OdbcFn) :=
  Res.bind (tellBy odbcStep [] told) fun fns => Res.bind (finalizeAll env fns.reverse) fun env => .pure (env, fns.reverse)

def reLoaded (φ : Where → Where) (r : FEnv × List OdbcFn) : FEnv × List OdbcFn := (r.1, r.2.map (reFn φ))

theorem loadedText_re (φ : Where → Where) (r : FEnv × List OdbcFn) : loadedText (reLoaded φ r) = loadedText r := by
  unfold loadedText reLoaded
  simp only [List.map_map]
  congr 2
  funext f
  simp only [Function.comp, fnText, reFn, List.map_map]
  rfl

theorem loadTell_bare {φ : Where → Where} (env : FEnv) (told : List Told) :
    Bares φ (reLoaded φ) (loadTell env told) (loadTell env (told.map (reTold φ))) := by
  refine .bind (tellBy_bare (g := List.map (reFn φ)) odbcStep_bare told []) fun fns => ?_
  rw [← List.map_reverse]
  exact .bind (finalizeAll_bare fns.reverse env) fun _ => .pure rfl

theorem loadTell_skip {env : FEnv} {a b c : List Told} (h : ∀ x ∈ b, Mute x) : loadTell env (a ++ (b ++ c)) = loadTell env (a ++ c) := by
  unfold loadTell
  simp only [tellBy_append, Res.bind_assoc]
  congr 1
  funext s
  rw [tellBy_mute odbcStep_empty b s h, Res.pure_bind]

theorem loadTell_same {env : FEnv} {a b : List Told} (h : b.map (reTold textOnly) = a.map (reTold textOnly))
    {st : FEnv × List OdbcFn} (hv : (loadTell env a).val = .ok st) :
    ∃ st', (loadTell env b).val = .ok st' ∧ loadedText st' = loadedText st ∧
      (substance (loadTell env a).log).map (reM textOnly) = (substance (loadTell env b).log).map (reM textOnly) := by
  have h1 := loadTell_bare (φ := textOnly) env a
  have h2 := loadTell_bare (φ := textOnly) env b
  rw [h] at h2
  have h3 := h1.symm.trans h2
  simp only [Res.mk.injEq] at h3
  obtain ⟨h4, h5⟩ := h3
  rw [hv] at h5
  cases hb : (loadTell env b).val with
  | error e => rw [hb] at h5; cases h5
  | ok st' =>
    rw [hb] at h5
    simp only [Except.map, Except.ok.injEq] at h5
    refine ⟨st', rfl, ?_, ?_⟩
    · rw [← loadedText_re textOnly st', ← h5, loadedText_re]
    · rw [← substance_map, ← substance_map, h4]

theorem load_tellsAll {fs : FS} {env : FEnv} {n : Nat} {path : Str} {content : Bytes} {log : List Msg} {st : FEnv × List OdbcFn}
    (h : loadOdbc fs env n path content = ⟨log, .ok (some st)⟩) :
    ∃ t told, ReadTold fs path content t told ∧ (loadTell env told).val = .ok st ∧ substance log = substance (loadTell env told).log := by
  have hv := congrArg Res.val h
  have hl := congrArg Res.log h
  simp only at hv hl
  unfold loadOdbc at hv hl
  obtain ⟨r, h1, h2, h3⟩ := Res.bind_ok hv
  rw [h3] at hl
  cases r with
  | none => simp at h2
  | some s =>
    obtain ⟨told, t1, t2, t3, t4⟩ := pipeRun_tellsBy fs odbcStep_empty n _ s h1
    obtain ⟨t, ht, hfl⟩ := C02_pipeline fs _ _ path content n _ h1
    refine ⟨t, told, ⟨ht, t1.trans hfl, t2⟩, ?_⟩
    dsimp only at h2 hl t3 t4
    obtain ⟨e, h4, h5, h6⟩ := Res.bind_ok h2
    simp only [Res.pure_val, Except.ok.injEq, Option.some.injEq] at h5
    subst h5
    have e : loadTell env told = ⟨(tellBy odbcStep [] told).log ++ (finalizeAll env s.reverse).log, .ok (e, s.reverse)⟩ := by
      unfold loadTell
      rw [Res.bind_of_ok t4, Res.bind_of_ok h4]
      simp
    rw [e, ← hl, h6]
    refine ⟨rfl, ?_⟩
    simp only [substance_append, t3]
    simp [substance]

theorem load_of_tellsAll {fs : FS} {env : FEnv} {path : Str} {content : Bytes} {t : Items} {told : List Told}
    (hr : ReadTold fs path content t told) {st : FEnv × List OdbcFn} (hv : (loadTell env told).val = .ok st) :
    ∃ log, substance log = substance (loadTell env told).log ∧
      ∀ n, t.flatten.length + 1 ≤ n → loadOdbc fs env n path content = ⟨log, .ok (some st)⟩ := by
  have e := C02_expansion fs opens path content t hr.expand
  rw [← hr.lines] at e
  obtain ⟨s, h1, h2, -⟩ := Res.bind_ok (show (Res.bind (tellBy odbcStep [] told) fun fns => Res.bind (finalizeAll env fns.reverse) fun env =>
    .pure (env, fns.reverse)).val = .ok st from hv)
  obtain ⟨env', h3, h4, -⟩ := Res.bind_ok h2
  simp only [Res.pure_val, Except.ok.injEq] at h4
  subst h4
  have hp := pipeRun_of_tellsBy odbcStep_empty _ ⟨[openFrame path content], [], [], []⟩ told _ e hr.models h1
  rw [hr.lines] at hp
  obtain ⟨log, h5⟩ : ∃ log, loadOdbc fs env (t.flatten.length + 1) path content = ⟨log, .ok (some (env', s.reverse))⟩ := by
    unfold loadOdbc
    rw [Res.bind_of_ok hp]
    dsimp only
    rw [Res.bind_of_ok h3]
    exact ⟨_, rfl⟩
  refine ⟨log, ?_, fun n hn => by rw [loadOdbc_fuel hn (congrArg Res.val h5), h5]⟩
  obtain ⟨t', told', hr', -, hs⟩ := load_tellsAll h5
  rw [hs, told_eq (a := told') (b := told) (by rw [hr'.lines, hr.lines, expand_same hr'.expand hr.expand]) hr'.models hr.models]

end ALint.Proofs
