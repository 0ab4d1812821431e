import Verif.Proofs.CanonState
import Verif.Proofs.TroubleFile
import Verif.Spec.CanonAgain

/-!
# Making the patterns of a dialplan canonical: reading the files again
-/

namespace ALint
open Spec Props
open Pattern (parse canonical isCanonical Values exampleOf matchesSame)

/-! ## Lines -/

theorem tells_notBad {fs : FS} {w : Where} {ms : List Msg} {g : Gives} (h : LineTells fs w ms g) : ¬ BadLine w := by
  have hm := lineModel_file (lineTells_model h)
  rintro (⟨h1, b, h2, h3⟩ | ⟨p, h1, c, h2, h3⟩)
  · cases h with
    | mk d =>
      cases d with
      | utf8 e => exact h1 ⟨_, e⟩
      | cp1252 _ e =>
        have : cp1252Byte b ∈ w.line.map cp1252Byte := List.mem_map.2 ⟨b, h2, rfl⟩
        rw [e, h3] at this
        simp at this
  · rw [h1] at hm
    cases h with
    | mk _ _ _ _ _ _ _ r =>
      have hc : c = '\x00' := Char.toNat_inj.1 (by rw [h3]; rfl)
      cases r <;> try cases hm
      exact absurd (hc ▸ h2) (by assumption)

/-- What a line comes to does not depend on the files. -/
theorem tells_elsewhere {fs : FS} (fs' : FS) {w : Where} {ms : List Msg} {g : Gives} (h : LineTells fs w ms g) :
    ∃ ms', LineTells fs' w ms' g := by
  have hg : ∀ (p : Prop) (m : Msg), ∃ ms : List Msg, Spec.Tells p m ms := fun p m => by
    by_cases hp : p
    · exact ⟨_, .inl ⟨hp, rfl⟩⟩
    · exact ⟨_, .inr ⟨hp, rfl⟩⟩
  cases h with
  | mk h1 h2 h3 t1 t2 t3 t4 h5 =>
    cases h5 with
    | header a b => exact ⟨_, .mk h1 h2 h3 t1 t2 t3 t4 (.header a b)⟩
    | template a b => exact ⟨_, .mk h1 h2 h3 t1 t2 t3 t4 (.template a b)⟩
    | arrow a b c d e f => exact ⟨_, .mk h1 h2 h3 t1 t2 t3 t4 (.arrow a b c d e f)⟩
    | equals a b c d e f => exact ⟨_, .mk h1 h2 h3 t1 t2 t3 t4 (.equals a b c d e f)⟩
    | blank a => exact ⟨_, .mk h1 h2 h3 t1 t2 t3 t4 (.blank a)⟩
    | exec a b c d e f g i => exact ⟨_, .mk h1 h2 h3 t1 t2 t3 t4 (.exec a b c d e f g i)⟩
    | «include» a b c d e f i j k l m n =>
      obtain ⟨ms', hms⟩ := hg _ _
      exact ⟨_, .mk h1 h2 h3 t1 t2 t3 t4 (.include a b c d e f i j k l m hms)⟩
    | hash a b c d e f => exact ⟨_, .mk h1 h2 h3 t1 t2 t3 t4 (.hash a b c d e f)⟩
    | other a b c d => exact ⟨_, .mk h1 h2 h3 t1 t2 t3 t4 (.other a b c d)⟩

theorem tells_step {fs : FS} {w : Where} {ms : List Msg} {e : Elem} (h : LineTells fs w ms (.elem e)) :
    ∃ rs, (lineStep fs [] [] w).2 = .ok (rs, some e) := by
  cases hs : (lineStep fs [] [] w).2 with
  | error x => exact absurd (fails_lineStep.1 ⟨x, hs⟩) (tells_notBad h)
  | ok r =>
    obtain ⟨rs, oe⟩ := r
    obtain ⟨ms', g, h1, h2, -⟩ := lineStep_told hs
    rw [lineTells_model h] at h1
    cases h1
    exact ⟨rs, by rw [← h2]; rfl⟩

theorem step_tells {fs : FS} {w : Where} {e : Elem} {rs : RState} (h : (lineStep fs [] [] w).2 = .ok (rs, some e)) :
    ∃ ms, LineTells fs w ms (.elem e) := by
  obtain ⟨ms', g, h1, h2, -⟩ := lineStep_told h
  have := lineTells_exists h1
  cases g with
  | elem e' => cases h2; exact ⟨_, this⟩
  | file p => cases h2
  | nothing => cases h2

/-! ## Patterns -/

theorem example_ended {l : List Pattern.Item} (h : ∀ i ∈ l, i.1 < 0x200) :
    exampleOf ⟨1, l ++ [(0x30000, none)]⟩ = exampleOf ⟨0, l⟩ := by
  unfold exampleOf
  simp only [Nat.one_ne_zero, if_false, if_true, List.flatMap_append]
  simp only [List.flatMap_cons, List.flatMap_nil]
  rw [if_neg (by decide), if_neg (by decide), if_pos trivial, List.append_nil, List.append_nil]
  induction l with
  | nil => rfl
  | cons i l ih =>
    have := h i (by simp)
    rw [List.flatMap_cons, List.map_cons, ih fun j hj => h j (by simp [hj]), if_neg (by omega), if_neg (by omega),
      if_neg (by omega)]
    rfl

theorem parse_shape {raw : Str} {v : Values} (h : parse raw = .ok v) :
    (v.kind = 0 ∧ ∀ i ∈ v.items, i.1 < 0x200) ∨ (v.kind = 1 ∧ ∃ l, v.items = l ++ [(0x30000, none)]) := by
  cases raw with
  | nil => simp [parse] at h
  | cons c p =>
    by_cases hc : c = '_'
    · subst hc
      obtain ⟨ts, -, -, rfl⟩ := Pattern.parse_pattern_ok h
      exact .inr ⟨rfl, _, rfl⟩
    · rw [Pattern.parse_literal hc] at h
      cases h
      refine .inl ⟨rfl, fun i hi => ?_⟩
      obtain ⟨b, hb, rfl⟩ := List.mem_map.1 hi
      have := Pattern.utf8_le _ b (List.mem_filter.1 hb).1
      dsimp only
      omega

theorem example_same {raw raw' : Str} {v w : Values} (h : parse raw = .ok v) (hw : parse raw' = .ok w)
    (hs : matchesSame v w = true) : exampleOf w = exampleOf v := by
  obtain ⟨k, l⟩ := v
  obtain ⟨k', l'⟩ := w
  unfold matchesSame at hs
  rcases parse_shape h with ⟨h1, h2⟩ | ⟨h1, a, h2⟩ <;> rcases parse_shape hw with ⟨h3, h4⟩ | ⟨h3, b, h4⟩ <;>
    dsimp only at h1 h2 h3 h4 <;> subst h1 <;> subst h3
  · simp at hs; rw [hs]
  · subst h4
    simp at hs
    subst hs
    exact example_ended h2
  · subst h2
    simp at hs
    subst hs
    exact (example_ended h4).symm
  · simp at hs; rw [hs]

/-! ## The lines after the rewrite -/

/-- A line after the rewrite. -/
def rewritten (hs : List Msg) (w : Where) : Where :=
  match hs.find? (·.at_ = w) with
  | none => w
  | some m =>
    match canonIssue m with
    | none => w
    | some i => { w with line := (i.out w.line).1.flatten }

/-- The element of a line. -/
def elemAt (fs : FS) (w : Where) : Option Elem := (lineModel fs w).bind fun r => r.2.elem?

/-- The element of the line after the rewrite. -/
def reread (fs : FS) (hs : List Msg) (e : Elem) : Elem := (elemAt fs (rewritten hs e.at_)).getD e

theorem rewritten_place (hs : List Msg) (w : Where) : SamePlace w (rewritten hs w) := by
  unfold rewritten
  split
  · exact ⟨rfl, rfl⟩
  · split <;> exact ⟨rfl, rfl⟩

/-- A line with a hint, before and after. -/
structure Turned (env : DEnv) (fs : FS) (hs : List Msg) (m : Msg) (v : VarE) (pat rest : Str) (vals vals' : Values)
    (a b : Bytes) : Prop where
  msg : m = hintMsg v.at_ pat vals
  line : PatLine v pat rest vals
  before : v.at_.line = a ++ utf8 pat ++ 0x2c :: b
  after : rewritten hs v.at_ = { v.at_ with line := a ++ utf8 (canonical vals) ++ 0x2c :: b }
  noLf : 0x0a ∉ utf8 (canonical vals)
  was : ∃ ms, LineTells fs v.at_ ms (.elem (.var v))
  is_ : ∃ ms, LineTells fs (rewritten hs v.at_) ms (.elem (.var
    { v with value := canonical vals ++ ',' :: rest, at_ := rewritten hs v.at_ }))
  re : Rewrote env (rewritten hs) v { v with value := canonical vals ++ ',' :: rest, at_ := rewritten hs v.at_ } pat vals vals'
  stands : ∀ e, Describes (canonical vals) e ↔ Describes pat e

section
variable {fs : FS} {env : DEnv} {n : Nat} {path : Str} {st : DState} {content : Bytes} {t : Items}
    {told : List Told} {es : List Elem} {log : List Msg}

theorem ReadsAll.turned (h : ReadsAll fs env n path st content t told es) (hlog : (readDialplan fs env n path).log = log)
    (hf : Fit log) {w : Where} {m : Msg} (hm : (hintsOf log).find? (·.at_ = w) = some m) :
    ∃ v pat rest vals vals' a b, v.at_ = w ∧ Turned env fs (hintsOf log) m v pat rest vals vals' a b := by
  have hmem := List.mem_of_find?_eq_some hm
  have hat := List.find?_some hm
  rw [decide_eq_true_eq] at hat
  have h0 := h
  subst hlog
  obtain ⟨v, pat, rest, vals, ms, h1, h2, h3, rfl⟩ := h.hint hmem
  obtain rfl : v.at_ = w := hat
  have hpos := expand_lineno h.tree _ h2
  obtain ⟨text, htext⟩ := hf.text _ (List.mem_filter.1 hmem).1 rfl
  obtain ⟨f1, f2, f3, f4⟩ := hf.pats v.at_.filename v.at_.lineno.toNat pat (canonical vals)
    (hintAt_mem.2 ⟨_, hmem, rfl, by show v.at_.lineno = _; omega, rfl⟩)
  obtain ⟨rs, hread⟩ := tells_step h1
  obtain ⟨line, rs', vals', a, b, l1, l2, -, l4, l5, l6, -, l8, l9, l10, l11, -⟩ :=
    C65_line_partial env none fs [] [] v.at_ text rs v pat rest vals htext hread h3.key h3.value h3.noComma h3.parses h3.odd
      f1 f2 f3 f4
  have hafter : rewritten (hintsOf (readDialplan fs env n path).log) v.at_ = { v.at_ with line := line } := by
    unfold rewritten
    rw [hm]
    dsimp only
    rw [canonIssue_hintMsg]
    dsimp only
    rw [l5]
    simp
  have hmoved : ∀ sp, (fromVarset env sp { v with value := canonical vals ++ ',' :: rest, at_ := { v.at_ with line := line } }).val =
      (fromVarset env sp v).val.map (moveStep { v.at_ with line := line } (canonical vals, vals')) := by
    intro sp
    obtain ⟨line2, rs2, vals2, a2, b2, k1, k2, -, k4, k5, k6, -, k8, k9, k10, k11, k12⟩ :=
      C65_line_partial env sp fs [] [] v.at_ text rs v pat rest vals htext hread h3.key h3.value h3.noComma h3.parses h3.odd
        f1 f2 f3 f4
    obtain rfl : line = line2 := by rw [l5] at k5; simpa using k5
    obtain rfl : vals' = vals2 := by rw [l8] at k8; simpa using k8
    rw [k12]
  obtain ⟨w', w1, -, w3, -⟩ := Pattern.canonical_roundtrip h3.parses f1
  rw [l8] at w1
  cases w1
  refine ⟨v, pat, rest, vals, vals', a, b, rfl, rfl, h3, l1, by rw [hafter, l2], l4, ⟨_, h1⟩, ?_, ?_, l10⟩
  · rw [hafter]
    exact step_tells l6
  · refine ⟨rfl, h3.parses, h3.odd, l8, w3, example_same h3.parses l8 l9, ?_, ?_⟩
    · rw [isCanonical, Pattern.noDash_canonical h3.parses f1 f2, w3]; simp
    · rw [hafter]; exact hmoved

/-- Every line, before and after. -/
theorem ReadsAll.both (h : ReadsAll fs env n path st content t told es) (hlog : (readDialplan fs env n path).log = log)
    (hf : Fit log) (fs' : FS) {w : Where} (hw : w ∈ t.flatten) :
    ∃ ms g ms' g', LineTells fs w ms g ∧ LineTells fs' (rewritten (hintsOf log) w) ms' g' ∧ g'.file? = g.file? ∧
      g'.elem? = g.elem?.map (reread fs (hintsOf log)) := by
  rw [← h.lines] at hw
  obtain ⟨x, hx, rfl⟩ := List.mem_map.1 hw
  have ht := h.tells x hx
  cases hm : (hintsOf log).find? (·.at_ = x.line) with
  | none =>
    have hr : rewritten (hintsOf log) x.line = x.line := by unfold rewritten; rw [hm]
    obtain ⟨ms', ht'⟩ := tells_elsewhere fs' ht
    refine ⟨_, _, ms', _, ht, by rw [hr]; exact ht', rfl, ?_⟩
    cases he : x.gives.elem? with
    | none => rfl
    | some e =>
      have hat := lineTells_at ht he
      have : reread fs (hintsOf log) e = e := by
        unfold reread elemAt
        rw [hat, hr, lineTells_model ht]
        show x.gives.elem?.getD e = e
        rw [he]; rfl
      rw [Option.map_some, this]
  | some m =>
    obtain ⟨v, pat, rest, vals, vals', a, b, hv, hT⟩ := h.turned hlog hf hm
    obtain ⟨ms1, t1⟩ := hT.was
    obtain ⟨ms2, t2⟩ := hT.is_
    obtain ⟨ms3, t3⟩ := tells_elsewhere fs' t2
    have hmod := lineTells_model t2
    rw [← hv]
    refine ⟨_, _, _, _, t1, t3, rfl, ?_⟩
    simp only [Gives.elem?, Option.map_some, Option.some.injEq]
    unfold reread elemAt
    rw [show (Elem.var v).at_ = v.at_ from rfl, hmod]
    rfl

end

/-! ## The files after the rewrite -/

def Spec.Items.each (φ : Where → Where) : Items → Items
  | .nil => .nil
  | .line w rest => .line (φ w) (rest.each φ)
  | .incl w f sub rest => .incl (φ w) f (sub.each φ) (rest.each φ)

theorem Spec.Items.each_flatten (φ : Where → Where) : ∀ (t : Items), (t.each φ).flatten = t.flatten.map φ
  | .nil => rfl
  | .line w rest => by simp [Spec.Items.each, Items.flatten, Spec.Items.each_flatten φ rest]
  | .incl w f sub rest => by simp [Spec.Items.each, Items.flatten, Spec.Items.each_flatten φ rest, Spec.Items.each_flatten φ sub]

theorem Spec.Items.each_files (φ : Where → Where) : ∀ (t : Items), (t.each φ).files = t.files
  | .nil => rfl
  | .line w rest => by simp [Spec.Items.each, Items.files, Spec.Items.each_files φ rest]
  | .incl w f sub rest => by simp [Spec.Items.each, Items.files, Spec.Items.each_files φ rest, Spec.Items.each_files φ sub]

/-- The lines of a file after the rewrite. -/
def linesAfter (φ : Where → Where) (f : Str) (n : Nat) (ls : List Bytes) : List Bytes :=
  (numbered f n ls).map fun w => (φ w).line

theorem expand_each {fs fs' : FS} {inc : Where → Option Str} {φ : Where → Where} (hφ : ∀ w, SamePlace w (φ w))
    (hnone : ∀ p, fs p = none → fs' p = none) {f : Str} {n : Nat} {ls : List Bytes} {t : Items}
    (h : Expand fs inc f n ls t) : (∀ w ∈ t.flatten, inc (φ w) = inc w) →
    (∀ p ∈ t.files, ∀ c, fs p = some c → ∃ c', fs' p = some c' ∧ physLines c' = linesAfter φ p 0 (physLines c)) →
    Expand fs' inc f n (linesAfter φ f n ls) (t.each φ) := by
  have hw : ∀ (f : Str) (n : Nat) (l : Bytes), φ ⟨f, (n : Int) + 1, l⟩ = ⟨f, (n : Int) + 1, (φ ⟨f, (n : Int) + 1, l⟩).line⟩ := by
    intro f n l
    obtain ⟨h1, h2⟩ := hφ ⟨f, (n : Int) + 1, l⟩
    generalize φ ⟨f, (n : Int) + 1, l⟩ = w at h1 h2
    obtain ⟨a, b, c⟩ := w
    dsimp only at h1 h2
    rw [h1, h2]
  induction h with
  | nil => intro _ _; exact .nil
  | @line f n l ls t h1 _ ih =>
    intro hi hf
    rw [Items.flatten] at hi
    rw [Items.files] at hf
    show Expand _ _ _ _ ((φ ⟨f, (n : Int) + 1, l⟩).line :: linesAfter φ f (n + 1) ls) (.line (φ ⟨f, (n : Int) + 1, l⟩) (t.each φ))
    have hp := hi _ (List.mem_cons_self ..)
    have := hw f n l
    rw [this]
    refine .line ?_ (ih (fun w hw => hi w (by simp [hw])) hf)
    rw [← this]
    unfold pulls at h1 ⊢
    rw [hp]
    cases hq : inc ⟨f, (n : Int) + 1, l⟩ with
    | none => rfl
    | some q =>
      rw [hq] at h1
      dsimp only at h1 ⊢
      rw [Option.map_eq_none_iff] at h1
      rw [hnone q h1]; rfl
  | @incl f n l ls p c sub t h1 _ _ ih1 ih2 =>
    intro hi hf
    rw [Items.flatten] at hi
    rw [Items.files] at hf
    show Expand _ _ _ _ ((φ ⟨f, (n : Int) + 1, l⟩).line :: linesAfter φ f (n + 1) ls)
      (.incl (φ ⟨f, (n : Int) + 1, l⟩) p (sub.each φ) (t.each φ))
    have hp := hi _ (List.mem_cons_self ..)
    have := hw f n l
    unfold pulls at h1
    cases hq : inc ⟨f, (n : Int) + 1, l⟩ with
    | none => rw [hq] at h1; simp at h1
    | some q =>
      rw [hq] at h1
      simp only [Option.map_eq_some_iff, Prod.mk.injEq] at h1
      obtain ⟨c', h2, rfl, rfl⟩ := h1
      obtain ⟨c2, g1, g2⟩ := hf q (by simp) c' h2
      have hsub := ih1 (fun w hw => hi w (by simp [hw])) (fun p hp => hf p (by simp [hp]))
      rw [← g2] at hsub
      rw [this]
      refine .incl ?_ hsub (ih2 (fun w hw => hi w (by simp [hw])) (fun p hp => hf p (by simp [hp])))
      rw [← this]
      unfold pulls
      rw [hp, hq]
      dsimp only
      rw [g1]; rfl

theorem readFuel_short (fs : FS) (inc : Where → Option Str) : ∀ (n : Nat) (frames : List Frame),
    (readFuel fs inc n frames).2 = true → (readFuel fs inc n frames).1.length < n := by
  intro n
  induction n with
  | zero => intro frames h; simp [readFuel] at h
  | succ n ih =>
    intro frames h
    rw [readFuel_succ] at h ⊢
    cases hn : nextLine frames with
    | none => simp
    | some x =>
      obtain ⟨w, rest⟩ := x
      rw [hn] at h
      dsimp only at h ⊢
      have := ih _ h
      simp only [List.length_cons]
      omega

theorem feed_notBlank {env : DEnv} : ∀ (es : List Elem) (st : DState),
    feed (dialplanStep env) st es = feed (dialplanStep env) st (es.filter notBlank)
  | [], _ => rfl
  | .ctx c :: es, st => by
    rw [List.filter_cons_of_pos rfl, feed, feed]
    congr 1
    funext s
    exact feed_notBlank es s
  | .var v :: es, st => by
    rw [List.filter_cons_of_pos rfl, feed, feed]
    congr 1
    funext s
    exact feed_notBlank es s
  | .empty _ _ :: es, st => by
    rw [List.filter_cons_of_neg (by simp [notBlank]), feed, ← feed_notBlank es st]
    rfl

/-! ## Reading again -/

/-- What holds of the patterns of the dialplan. -/
structure FixesTo (log : List Msg) (p : Str × Values) : Prop where
  good : GoodPat p
  parsed : parse p.1 = .ok p.2
  parses : parse (fixPat p).1 = .ok (fixPat p).2
  stands : ∀ e, Describes (fixPat p).1 e ↔ Describes p.1 e
  spelling : (fixPat p).1 = p.1 ∨ ∃ f l, HintAt log f l p.1 (fixPat p).1

theorem fixesTo_canonical {log : List Msg} {p : Str × Values} (h : parse p.1 = .ok p.2) (hc : isCanonical p.1 p.2 = true) :
    FixesTo log p := by
  have : fixPat p = p := by rw [fixPat, if_pos hc]
  exact ⟨goodPat_canonical hc, h, by rw [this]; exact h, by rw [this]; simp, .inl (by rw [this])⟩

section
variable {fs : FS} {env : DEnv} {n : Nat} {path : Str} {st : DState} {content : Bytes} {t : Items}
    {told : List Told} {es : List Elem} {log : List Msg}

theorem elems_places {fs : FS} : ∀ {told : List Told}, (∀ x ∈ told, LineTells fs x.line x.msgs x.gives) →
    ((elemsOf told).map (·.at_)).Sublist (told.map (·.line))
  | [], _ => List.Sublist.refl _
  | x :: xs, ht => by
    have ih' := elems_places (told := xs) fun y hy => ht y (by simp [hy])
    have hx := ht x (by simp)
    unfold elemsOf at ih' ⊢
    rw [List.filterMap_cons, List.map_cons]
    cases hg : x.gives.elem? with
    | none => exact ih'.cons _
    | some e =>
      rw [List.map_cons, lineTells_at hx hg]
      exact ih'.cons_cons _

theorem only_hint {l : List Msg} {m : Msg} {w : Where} (hord : l.Pairwise fun a b : Msg => Further a.at_ b.at_)
    (hmem : m ∈ l) (hmat : m.at_ = w) : l.filter (fun x => decide (x.at_ = w)) = [m] := by
  have hnone : ∀ (l : List Msg), (∀ x ∈ l, x.at_ ≠ m.at_) → l.filter (fun x => decide (x.at_ = w)) = [] := by
    intro l hl
    rw [List.filter_eq_nil_iff]
    intro x hx hd
    rw [decide_eq_true_eq] at hd
    exact hl x hx (hd.trans hmat.symm)
  have hirr : ∀ {a b : Msg}, Further a.at_ b.at_ → a.at_ ≠ b.at_ := by
    intro a b hab e
    have := hab (by rw [e])
    rw [e] at this
    omega
  induction hord with
  | nil => cases hmem
  | @cons x xs hx _ ih =>
    rcases List.mem_cons.1 hmem with rfl | hmem
    · rw [List.filter_cons_of_pos (by simpa using hmat), hnone xs fun y hy => (hirr (hx y hy)).symm]
    · rw [List.filter_cons_of_neg, ih hmem]
      intro hd
      rw [decide_eq_true_eq] at hd
      exact hirr (hx m hmem) (hd.trans hmat.symm)

theorem ReadsAll.enough (h : ReadsAll fs env n path st content t told es)
    (hv : (readDialplan fs env n path).val = .ok (.ok st)) : t.flatten.length < n := by
  unfold readDialplan opening at hv
  simp only [h.root, finished] at hv
  obtain ⟨o, h1, h2, -⟩ := Res.bind_ok hv
  cases o with
  | none => simp at h2
  | some s =>
    have h3 := (pipeRun_reader fs (dialplanStep env) n _ _ h1).2
    simp only [Option.isSome_some] at h3
    have h4 := C02_expansion fs opens path content t h.tree
    have h5 := readFuel_mono fs opens n (max n (t.flatten.length + 1)) _ h3.symm (Nat.le_max_left ..)
    have h6 := readFuel_mono fs opens (t.flatten.length + 1) (max n (t.flatten.length + 1)) [openFrame path content]
      (by rw [h4]) (Nat.le_max_right ..)
    have h7 := readFuel_short fs opens n _ h3.symm
    rw [← h5, h6, h4] at h7
    exact h7

theorem ReadsAll.elemsAgain (h : ReadsAll fs env n path st content t told es) (hlog : (readDialplan fs env n path).log = log)
    (hf : Fit log) (fs' : FS) {told' : List Told} (h1 : told'.map (·.line) = t.flatten.map (rewritten (hintsOf log)))
    (h2 : ∀ x ∈ told', LineTells fs' x.line x.msgs x.gives) :
    (elemsOf told').filter notBlank = (es.filter notBlank).map (reread fs (hintsOf log)) := by
  rw [h.elems]
  have e1 := elemsOf_flatten told fun x hx => lineTells_model (h.tells x hx)
  have e2 := elemsOf_flatten told' fun x hx => lineTells_model (h2 x hx)
  rw [h1, List.filterMap_map] at e2
  rw [h.lines] at e1
  have key : ∀ w ∈ t.flatten, elemAt fs' (rewritten (hintsOf log) w) = (elemAt fs w).map (reread fs (hintsOf log)) ∧
      ∀ e, elemAt fs w = some e → notBlank (reread fs (hintsOf log) e) = notBlank e := by
    intro w hw
    obtain ⟨ms, g, ms', g', b1, b2, b3, b4⟩ := h.both hlog hf fs' hw
    refine ⟨?_, ?_⟩
    · unfold elemAt
      rw [lineTells_model b1, lineTells_model b2]
      exact b4
    · intro e he
      have hg : g.elem? = some e := by
        unfold elemAt at he
        rw [lineTells_model b1] at he
        exact he
      have hat := lineTells_at b1 hg
      cases hm : (hintsOf log).find? (·.at_ = w) with
      | none =>
        have hr : rewritten (hintsOf log) w = w := by unfold rewritten; rw [hm]
        unfold reread
        rw [hat, hr, he]; rfl
      | some m =>
        obtain ⟨v, pat, rest, vals, vals', a, b, hv, hT⟩ := h.turned hlog hf hm
        obtain ⟨ms1, t1⟩ := hT.was
        obtain ⟨ms2, t2⟩ := hT.is_
        rw [hv] at t1
        obtain ⟨-, rfl⟩ := C96_unique _ _ _ _ _ _ b1 t1
        cases hg
        unfold reread elemAt
        rw [show (Elem.var v).at_ = v.at_ from rfl, lineTells_model t2]
        rfl
  rw [e1, e2]
  clear e1 e2 h1 h2 h
  generalize t.flatten = l at key
  induction l with
  | nil => rfl
  | cons w l ih =>
    have ih' := ih fun x hx => key x (by simp [hx])
    obtain ⟨k1, k2⟩ := key w (by simp)
    change (List.filterMap (fun w => elemAt fs' (rewritten (hintsOf log) w)) (w :: l)).filter notBlank =
      ((List.filterMap (fun w => elemAt fs w) (w :: l)).filter notBlank).map (reread fs (hintsOf log))
    change (List.filterMap (fun w => elemAt fs' (rewritten (hintsOf log) w)) l).filter notBlank =
      ((List.filterMap (fun w => elemAt fs w) l).filter notBlank).map (reread fs (hintsOf log)) at ih'
    rw [List.filterMap_cons, List.filterMap_cons, k1]
    cases he : elemAt fs w with
    | none => exact ih'
    | some e =>
      dsimp only [Option.map_some]
      rw [List.filter_cons, List.filter_cons, k2 e he, ih']
      split <;> rfl

theorem ReadsAll.again (h : ReadsAll fs env n path st content t told es) (hlog : (readDialplan fs env n path).log = log)
    (hv : (readDialplan fs env n path).val = .ok (.ok st)) (hf : Fit log) (hnd : (path :: t.files).Nodup) (fs' : FS)
    (hnone : ∀ p, fs p = none → fs' p = none)
    (hsome : ∀ p ∈ path :: t.files, ∀ c, fs p = some c → ∃ c', fs' p = some c' ∧
      physLines c' = linesAfter (rewritten (hintsOf log)) p 0 (physLines c)) :
    ∃ st', (readDialplan fs' env n path).val = .ok (.ok st') ∧ Sim (rewritten (hintsOf log)) st st' ∧
      GoodDp (FixesTo log) st.dp ∧ hintsOf (readDialplan fs' env n path).log = [] := by
  obtain ⟨content', hroot', hphys⟩ := hsome path (List.mem_cons_self ..) content h.root
  have hboth := fun w hw => h.both hlog hf fs' (w := w) hw
  have htree : Expand fs' opens path 0 (physLines content') (t.each (rewritten (hintsOf log))) := by
    rw [hphys]
    refine expand_each (rewritten_place _) hnone h.tree ?_ fun p hp c hc => hsome p (by simp [hp]) c hc
    intro w hw
    obtain ⟨ms, g, ms', g', b1, b2, b3, -⟩ := hboth w hw
    rw [(C96_knows fs').1 _ _ _ b2, (C96_knows fs).1 _ _ _ b1, b3]
  have hn := h.enough hv
  have hread : readFuel fs' opens n [openFrame path content'] = (t.flatten.map (rewritten (hintsOf log)), true) := by
    have h1 := C02_expansion fs' opens path content' _ htree
    rw [Spec.Items.each_flatten, List.length_map] at h1
    rw [readFuel_mono fs' opens (t.flatten.length + 1) n _ (by rw [h1]) (by omega), h1]
  obtain ⟨o, ho⟩ := pipeRun_good fs' n ⟨[openFrame path content'], [], [], []⟩ (by
    intro w hw
    dsimp only at hw
    rw [hread] at hw
    obtain ⟨w0, hw0, rfl⟩ := List.mem_map.1 hw
    obtain ⟨ms, g, ms', g', b1, b2, b3, -⟩ := hboth w0 hw0
    exact tells_notBad b2)
  have hsomeo := (pipeRun_reader fs' collect n _ _ ho).2
  dsimp only at hsomeo
  rw [hread] at hsomeo
  obtain ⟨out, rfl⟩ := Option.isSome_iff_exists.1 hsomeo
  obtain ⟨es', he', hfeed⟩ := pipeRun_feed fs' (dialplanStep env) n ⟨[openFrame path content'], [], [], .init none⟩ [] out ho
  rw [List.nil_append] at he'
  subst he'
  obtain ⟨told', ⟨t1, t', t2, t3, -⟩, t4⟩ := C96_files fs' n path content' hroot'
    (pipeRun fs' collect n ⟨[openFrame path content'], [], [], []⟩).log out (by rw [← ho])
  have hflat : t'.flatten = t.flatten.map (rewritten (hintsOf log)) := by
    rw [C02_unique fs' opens path 0 _ _ _ (t2 _ (C96_knows fs').1) htree, Spec.Items.each_flatten]
  have hes := t4.trans (h.elemsAgain hlog hf fs' (t3.trans hflat) t1)
  -- the elements
  have hplaces : ((es.filter notBlank).map (·.at_)).Sublist t.flatten := by
    rw [h.elems, ← h.lines]
    refine (List.filter_sublist.map _).trans ?_
    exact elems_places h.tells
  have hnodup : t.flatten.Nodup := (expand_places h.tree hnd).2.2.2.imp (fun {a b} hab e => by
    subst e; have := hab rfl; omega)
  have hfed := h.fed
  rw [feed_notBlank] at hfed
  have hhs : hintsOf (feed (dialplanStep env) (.init none) (es.filter notBlank)).log = hintsOf log := by
    rw [← feed_notBlank, ← h.hints, hlog]
  have hord : (hintsOf log).Pairwise fun a b : Msg => Further a.at_ b.at_ := by
    rw [← hlog]; exact h.order hnd
  obtain ⟨hgood, st', hst', hsim, hhint⟩ := feed_sim (φ := rewritten (hintsOf log)) (Q := FixesTo log) (env := env)
    (fun p hp => hp.good) (fun p h1 h2 => fixesTo_canonical h1 h2) (reread fs (hintsOf log)) (es.filter notBlank)
    (.init none) st (.init none) ⟨rfl, rfl, rfl, fun _ => rfl⟩ (by intro c hc; cases hc) hfed
    (by
      intro e he hb
      rw [(List.mem_filter.1 he).2] at hb
      cases hb)
    (by
      rw [List.filter_filter]
      simp only [Bool.and_self]
      exact hnodup.sublist hplaces)
    (by
      intro e he
      rw [hhs]
      have hew := hplaces.subset (List.mem_map.2 ⟨e, he, rfl⟩)
      have hel : elemAt fs e.at_ = some e := by
        rw [h.elems] at he
        obtain ⟨x, hx, hg⟩ := List.mem_filterMap.1 (List.mem_filter.1 he).1
        have hat := lineTells_at (h.tells x hx) hg
        unfold elemAt
        rw [hat, lineTells_model (h.tells x hx)]
        exact hg
      cases hm : (hintsOf log).find? (·.at_ = e.at_) with
      | none =>
        have hr : rewritten (hintsOf log) e.at_ = e.at_ := by unfold rewritten; rw [hm]
        have : reread fs (hintsOf log) e = e := by unfold reread; rw [hr, hel]; rfl
        rw [this]
        refine .same ?_ hr
        rw [List.filter_eq_nil_iff]
        exact List.find?_eq_none.1 hm
      | some m =>
        obtain ⟨v, pat, rest, vals, vals', a, b, hvat, hT⟩ := h.turned hlog hf hm
        obtain ⟨ms1, t1⟩ := hT.was
        obtain ⟨ms2, t2⟩ := hT.is_
        have hev : e = .var v := by
          have := lineTells_model t1
          unfold elemAt at hel
          rw [← hvat, this] at hel
          simp only [Option.bind_some, Gives.elem?, Option.some.injEq] at hel
          exact hel.symm
        subst hev
        have hre : reread fs (hintsOf log) (.var v) =
            .var { v with value := canonical vals ++ ',' :: rest, at_ := rewritten (hintsOf log) v.at_ } := by
          unfold reread elemAt
          rw [show (Elem.var v).at_ = v.at_ from rfl, lineTells_model t2]
          rfl
        rw [hre]
        have hmem := List.mem_of_find?_eq_some hm
        have hmat := List.find?_some hm
        refine .line (pat := pat) (vals := vals) (vals' := vals') ?_ ?_ hT.re
        · rw [← hT.msg]
          rw [decide_eq_true_eq] at hmat
          exact only_hint hord hmem hmat
        · have hfix := hT.re.fix
          refine ⟨hT.re.good, hT.re.parsed, by rw [hfix]; exact hT.re.parses, by rw [hfix]; exact hT.stands, .inr ?_⟩
          rw [hfix]
          have hpos := expand_lineno h.tree _ hew
          refine ⟨v.at_.filename, v.at_.lineno.toNat, hintAt_mem.2 ⟨m, hmem, ?_, ?_, ?_⟩⟩
          · rw [hT.msg]; rfl
          · rw [hT.msg]
            show v.at_.lineno = _
            have : 0 < v.at_.lineno := hpos
            omega
          · rw [hT.msg]; rfl)
  rw [← hes, ← feed_notBlank] at hst' hhint
  have hval : (readDialplan fs' env n path).val = .ok (.ok st') := by
    unfold readDialplan opening
    simp only [hroot', finished]
    have hp : (pipeRun fs' (dialplanStep env) n ⟨[openFrame path content'], [], [], .init none⟩).val = .ok (some st') := by
      rw [hfeed, hst']; rfl
    rw [Res.bind_of_ok hp]
    dsimp only
    rw [Res.bind_of_ok (onComplete_ok st'.dp)]
    rfl
  refine ⟨st', hval, hsim, hgood, ?_⟩
  obtain ⟨c2, t2', told2, es2, h2⟩ := readDialplan_all hval
  have hc := h2.root
  rw [hroot'] at hc
  cases hc
  have hflat2 : t2'.flatten = t.flatten.map (rewritten (hintsOf log)) := by
    rw [C02_unique fs' opens path 0 _ _ _ h2.tree htree, Spec.Items.each_flatten]
  have hes2 := h2.elems.trans (h.elemsAgain hlog hf fs' (h2.lines.trans hflat2) h2.tells)
  rw [h2.hints, feed_notBlank, hes2, ← hes, ← feed_notBlank]
  exact hhint

end
end ALint
