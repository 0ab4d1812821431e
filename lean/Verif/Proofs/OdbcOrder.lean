import Verif.Spec.OdbcOrder
import Verif.Proofs.OdbcParts
import Verif.Proofs.Anywhere

/-!
# The order of the settings of a function (proofs)
-/

namespace ALint.Proofs
open ALint Spec Props

theorem settingLines_placeless (keys : List Str) : Placeless (SettingLines keys) := kinds_placeless (K := fun v => v.key ∈ keys) fun _ => Iff.rfl

/-- No headers. -/
def Bodies (es : List Elem) : Prop := ∀ e ∈ es, ∀ c, e ≠ .ctx c

def KeysIn (keys : List Str) (es : List Elem) : Prop := ∀ v ∈ settingsBelow es, v.key ∈ keys

theorem settingLines_elems {keys : List Str} {told : List Told} (h : SettingLines keys told) : Bodies (elemsOf told) ∧ KeysIn keys (elemsOf told) := by
  induction told with
  | nil => exact ⟨fun e he => (by cases he), fun v hv => (by cases hv)⟩
  | cons x xs ih =>
    obtain ⟨i1, i2⟩ := ih fun y hy => h y (List.mem_cons_of_mem _ hy)
    rw [elemsOf_cons]
    rcases h x List.mem_cons_self with hg | ⟨b, w, hg⟩ | ⟨v, hg, hv⟩
    · rw [hg]; exact ⟨i1, i2⟩
    · rw [hg]
      refine ⟨fun e he c => ?_, i2⟩
      rcases List.mem_cons.1 he with rfl | he
      · exact nofun
      · exact i1 e he c
    · rw [hg]
      refine ⟨fun e he c => ?_, fun u hu => ?_⟩
      · rcases List.mem_cons.1 he with rfl | he
        · exact nofun
        · exact i1 e he c
      · rcases List.mem_cons.1 hu with rfl | hu
        · exact hv
        · exact i2 u hu

/-- The same settings in another order, each with the same first line. -/
structure SameSets (a b : List VarE) : Prop where
  same : a.Perm b
  find : ∀ k : Str, a.find? (fun u => u.key == k) = b.find? fun u => u.key == k

theorem SameSets.rfl' (a : List VarE) : SameSets a a := ⟨.refl _, fun _ => rfl⟩

theorem SameSets.front {a b : List VarE} (h : SameSets a b) (c : List VarE) : SameSets (c ++ a) (c ++ b) :=
  ⟨h.same.append_left _, fun k => by rw [List.find?_append, List.find?_append, h.find]⟩

theorem SameSets.back {a b : List VarE} (h : SameSets a b) (c : List VarE) : SameSets (a ++ c) (b ++ c) :=
  ⟨h.same.append_right _, fun k => by rw [List.find?_append, List.find?_append, h.find]⟩

theorem find_none_of {keys : List Str} {x : List VarE} (h : ∀ v ∈ x, v.key ∈ keys) {k : Str} (hk : k ∉ keys) : x.find? (fun u => u.key == k) = none := by
  rw [List.find?_eq_none]
  intro u hu he
  exact hk ((beq_iff_eq.1 he) ▸ h u hu)

theorem SameSets.swap {kx ky : List Str} (hd : ∀ k ∈ kx, k ∉ ky) {x y : List VarE} (hx : ∀ v ∈ x, v.key ∈ kx) (hy : ∀ v ∈ y, v.key ∈ ky) :
    SameSets (x ++ y) (y ++ x) := by
  refine ⟨List.perm_append_comm, fun k => ?_⟩
  rw [List.find?_append, List.find?_append]
  by_cases hk : k ∈ kx
  · rw [find_none_of hy (hd k hk)]
    cases x.find? (fun u => u.key == k) <;> rfl
  · rw [find_none_of hx hk]
    cases y.find? (fun u => u.key == k) <;> rfl

/-! ## Sections -/

structure SameSect (s s' : CtxE × List VarE) : Prop where
  header : s.1 = s'.1
  sets : SameSets s.2 s'.2

theorem settings_body {b : List Elem} : ∀ {a : List Elem}, Bodies a → settingsBelow (a ++ b) = settingsBelow a ++ settingsBelow b
  | [], _ => rfl
  | .ctx c :: _, h => absurd rfl (h _ List.mem_cons_self c)
  | .var v :: a, h => by simp only [List.cons_append, settingsBelow, settings_body fun e he => h e (List.mem_cons_of_mem _ he)]
  | .empty _ _ :: a, h => settings_body (a := a) fun e he => h e (List.mem_cons_of_mem _ he)

theorem sections_body {b : List Elem} : ∀ {a : List Elem}, Bodies a → sectionsOf (a ++ b) = sectionsOf b
  | [], _ => rfl
  | .ctx c :: _, h => absurd rfl (h _ List.mem_cons_self c)
  | .var _ :: a, h => sections_body (a := a) fun e he => h e (List.mem_cons_of_mem _ he)
  | .empty _ _ :: a, h => sections_body (a := a) fun e he => h e (List.mem_cons_of_mem _ he)

theorem settings_swapped {p q : List Elem} (h : SameSets (settingsBelow p) (settingsBelow q)) : ∀ a : List Elem,
    SameSets (settingsBelow (a ++ p)) (settingsBelow (a ++ q))
  | [] => h
  | .ctx _ :: _ => .rfl' _
  | .var v :: a => (settings_swapped h a).front [v]
  | .empty _ _ :: a => settings_swapped h a

theorem sections_swapped {p q : List Elem} (h : SameSets (settingsBelow p) (settingsBelow q)) (hs : sectionsOf p = sectionsOf q) : ∀ a : List Elem,
    Zips SameSect (sectionsOf (a ++ p)) (sectionsOf (a ++ q))
  | [] => by
    rw [List.nil_append, List.nil_append, hs]
    exact zips_self (fun s => ⟨rfl, .rfl' _⟩) _
  | .ctx _ :: a => .cons ⟨rfl, settings_swapped h a⟩ (sections_swapped h hs a)
  | .var _ :: a => sections_swapped h hs a
  | .empty _ _ :: a => sections_swapped h hs a

theorem zips_filter_map {α β : Type} {R : α → α → Prop} {p : α → Bool} {f : α → β} (hp : ∀ a b, R a b → p a = p b) (hf : ∀ a b, R a b → f a = f b) :
    ∀ {l l' : List α}, Zips R l l' → (l.filter p).map f = (l'.filter p).map f
  | _, _, .nil => rfl
  | _, _, .cons (a := a) (b := b) h hs => by
    rw [List.filter_cons, List.filter_cons, hp _ _ h]
    split
    · rw [List.map_cons, List.map_cons, hf _ _ h, zips_filter_map hp hf hs]
    · exact zips_filter_map hp hf hs

theorem SameSect.defines {s s' : CtxE × List VarE} (h : SameSect s s') : DefinesOdbc s ↔ DefinesOdbc s' := by
  unfold DefinesOdbc
  constructor
  · rintro ⟨v, h1, h2⟩; exact ⟨v, h.sets.same.mem_iff.1 h1, h2⟩
  · rintro ⟨v, h1, h2⟩; exact ⟨v, h.sets.same.mem_iff.2 h1, h2⟩

theorem names_same {l l' : List (CtxE × List VarE)} (h : Zips SameSect l l') : odbcNames l = odbcNames l' :=
  zips_filter_map (fun a b k => by simp only [k.defines]) (fun a b k => by unfold odbcName settingOf; rw [k.header, k.sets.find]) h

theorem nothing_same {e e' : List Elem} (h : Zips SameSect (sectionsOf e) (sectionsOf e')) : nothingDefined e = nothingDefined e' := by
  unfold nothingDefined
  exact zips_filter_map (fun a b k => by simp only [k.defines]) (fun a b k => by rw [k.header]) h

theorem values_odbcFn (s : CtxE × List VarE) : fnValues (odbcFn s) =
    (s.1.name, s.1.templates, fun k => if k ∈ odbcSettings then (s.2.find? fun v => v.key == k).map (·.value) else none) := by
  unfold fnValues
  refine Prod.ext rfl (Prod.ext rfl ?_)
  funext k
  dsimp only
  by_cases hk : k ∈ odbcSettings
  · rw [if_pos hk]
    exact odbcFn_get s hk
  · rw [if_neg hk]
    have h := (kept_shape [] s.2 (by simp) (by simp)).2.2
    have : (odbcFn s).sets.find? (fun v => v.key == k) = none := by
      rw [List.find?_eq_none]
      intro v hv he
      exact hk ((beq_iff_eq.1 he) ▸ h v hv)
    rw [this]
    rfl

theorem values_same : ∀ {l l' : List (CtxE × List VarE)}, Zips SameSect l l' → (l.map odbcFn).map fnValues = (l'.map odbcFn).map fnValues
  | _, _, .nil => rfl
  | _, _, .cons h hs => by
    simp only [List.map_cons, values_same hs, values_odbcFn, h.header, h.sets.find]

/-! ## Messages -/

theorem butLate_append (a b : List Msg) : butLate (a ++ b) = butLate a ++ butLate b := List.filter_append ..

theorem settingSays_butLate {a b : List VarE} (v : VarE) (h : a.find? (fun u => u.key == v.key) = b.find? fun u => u.key == v.key) :
    butLate (settingSays a v) = butLate (settingSays b v) := by
  unfold settingSays
  rw [h]
  by_cases hk : v.key ∉ odbcSettings
  · rw [if_pos hk, if_pos hk]
  · rw [if_neg hk, if_neg hk]
    cases b.find? fun u => u.key == v.key with
    | some u => rfl
    | none =>
      dsimp only
      simp only [butLate_append]
      congr 2
      split <;> split <;> rfl

/-- What is said depends only on the first lines of the settings above. -/
theorem tells_same {keys : List Str} : ∀ (es : List Elem) (a b : List VarE), KeysIn keys es →
    (∀ k ∈ keys, a.find? (fun u => u.key == k) = b.find? fun u => u.key == k) →
    butLate (odbcTells (some a) es) = butLate (odbcTells (some b) es)
  | [], _, _, _, _ => rfl
  | .empty _ _ :: es, a, b, h, hf => tells_same es a b h hf
  | .ctx c :: es, a, b, h, hf => rfl
  | .var v :: es, a, b, h, hf => by
    simp only [odbcTells, butLate_append, belowSays, Option.map_some]
    rw [settingSays_butLate v (hf v.key (h v List.mem_cons_self)),
      tells_same es (a ++ [v]) (b ++ [v]) (fun u hu => h u (List.mem_cons_of_mem _ hu)) fun k hk => by
        rw [List.find?_append, List.find?_append, hf k hk]]

theorem tells_body : ∀ {a : List Elem} (b : List Elem) (above : Option (List VarE)), Bodies a →
    odbcTells above (a ++ b) = odbcTells above a ++ odbcTells (above.map (· ++ settingsBelow a)) b
  | [], b, above, _ => by cases above <;> simp [odbcTells, settingsBelow]
  | .ctx c :: a, _, _, h => absurd rfl (h _ List.mem_cons_self c)
  | .empty _ _ :: a, b, above, h => tells_body (a := a) b above fun e he => h e (List.mem_cons_of_mem _ he)
  | .var v :: a, b, above, h => by
    have ih := tells_body (a := a) b (above.map (· ++ [v])) fun e he => h e (List.mem_cons_of_mem _ he)
    simp only [List.cons_append, odbcTells, List.append_assoc, settingsBelow, ih, Option.map_map]
    congr 4
    cases above <;> simp

theorem tells_two {kx ky : List Str} (hd : ∀ k ∈ kx, k ∉ ky) {x y : List Elem} (hx : Bodies x ∧ KeysIn kx x) (hy : Bodies y ∧ KeysIn ky y) (r : List Elem)
    (above : Option (List VarE)) : (butLate (odbcTells above (x ++ (y ++ r)))).Perm (butLate (odbcTells above (y ++ (x ++ r)))) := by
  rw [tells_body _ _ hx.1, tells_body _ _ hy.1, tells_body _ above hy.1, tells_body _ _ hx.1]
  cases above with
  | none =>
    simp only [Option.map_none, butLate_append, ← List.append_assoc]
    exact List.perm_append_comm.append_right _
  | some a =>
    simp only [Option.map_some, butLate_append, ← List.append_assoc]
    have e1 : butLate (odbcTells (some (a ++ settingsBelow x)) y) = butLate (odbcTells (some a) y) := tells_same y _ _ hy.2 fun k hk => by
      rw [List.find?_append, find_none_of hx.2 fun h => hd k h hk]
      cases a.find? (fun u => u.key == k) <;> rfl
    have e2 : butLate (odbcTells (some (a ++ settingsBelow y)) x) = butLate (odbcTells (some a) x) := tells_same x _ _ hx.2 fun k hk => by
      rw [List.find?_append, find_none_of hy.2 (hd k hk)]
      cases a.find? (fun u => u.key == k) <;> rfl
    have e3 : butLate (odbcTells (some (a ++ settingsBelow x ++ settingsBelow y)) r) = butLate (odbcTells (some (a ++ settingsBelow y ++ settingsBelow x)) r) :=
      tells_same (keys := (settingsBelow r).map (·.key)) r _ _ (fun v hv => List.mem_map_of_mem hv) fun k _ => by
        rw [List.append_assoc, List.append_assoc]
        exact ((SameSets.swap hd hx.2 hy.2).front a).find k
    rw [e1, e2, e3]
    exact List.perm_append_comm.append_right _

theorem tells_swapped {p q : List Elem} (h : ∀ above, (butLate (odbcTells above p)).Perm (butLate (odbcTells above q))) : ∀ (a : List Elem) (above : Option (List VarE)),
    (butLate (odbcTells above (a ++ p))).Perm (butLate (odbcTells above (a ++ q)))
  | [], above => h above
  | .empty _ _ :: a, above => tells_swapped h a above
  | .ctx c :: a, above => by
    simp only [List.cons_append, odbcTells, butLate_append]
    exact (tells_swapped h a _).append_left _
  | .var v :: a, above => by
    simp only [List.cons_append, odbcTells, butLate_append]
    exact (tells_swapped h a _).append_left _

theorem order_gist {kx ky : List Str} (hd : ∀ k ∈ kx, k ∉ ky) {x y : List Told} (hx : SettingLines kx x) (hy : SettingLines ky y) (ta r : List Told) :
    Zips SameSect (sectionsOf (elemsOf (ta ++ (x ++ (y ++ r))))) (sectionsOf (elemsOf (ta ++ (y ++ (x ++ r))))) ∧
    (butLate (odbcGist (ta ++ (x ++ (y ++ r))))).Perm (butLate (odbcGist (ta ++ (y ++ (x ++ r))))) := by
  have hx := settingLines_elems hx
  have hy := settingLines_elems hy
  have z : Zips SameSect (sectionsOf (elemsOf (ta ++ (x ++ (y ++ r))))) (sectionsOf (elemsOf (ta ++ (y ++ (x ++ r))))) := by
    simp only [elemsOf_append]
    refine sections_swapped ?_ ?_ _
    · rw [settings_body hx.1, settings_body hy.1, settings_body hy.1, settings_body hx.1, ← List.append_assoc, ← List.append_assoc]
      exact (SameSets.swap hd hx.2 hy.2).back _
    · rw [sections_body hx.1, sections_body hy.1, sections_body hy.1, sections_body hx.1]
  refine ⟨z, ?_⟩
  unfold odbcGist
  rw [nothing_same z]
  simp only [butLate_append]
  refine List.Perm.append_right _ (List.Perm.append ?_ ?_)
  · refine List.Perm.filter _ ?_
    simp only [List.flatMap_append]
    refine List.Perm.append_left _ ?_
    simp only [← List.append_assoc]
    exact List.perm_append_comm.append_right _
  · simp only [elemsOf_append]
    exact tells_swapped (fun above => tells_two hd hx hy _ above) _ _

theorem butLate_re (φ : Where → Where) (l : List Msg) : butLate (l.map (reM φ)) = (butLate l).map (reM φ) :=
  filter_re (f := reM φ) (p := fun m => decide (m.kind ≠ .W_CONF_KEY_LATE)) (fun _ => rfl) l

theorem butLate_substance (l : List Msg) : butLate (substance l) = substance (butLate l) := by
  unfold butLate substance
  rw [List.filter_filter, List.filter_filter]
  congr 1
  funext m
  exact Bool.and_comm ..

theorem odbc_swapped {kx ky : List Str} (hd : ∀ k ∈ kx, k ∉ ky) {fs fs' : FS} {env env1 : FEnv} {n : Nat} {path : Str} {above one two rest : Bytes}
    (hs : PartsSwapped fs fs' path above one two rest) (h1 : TextIs fs path one (SettingLines kx)) (h2 : TextIs fs path two (SettingLines ky))
    {log : List Msg} {fns : List OdbcFn} (h : loadOdbc fs env n path (above ++ (one ++ (two ++ rest))) = ⟨log, .ok (some (env1, fns))⟩) :
    ∃ k log' fns', (∀ n', k ≤ n' → loadOdbc fs' env n' path (above ++ (two ++ (one ++ rest))) = ⟨log', .ok (some (env1, fns'))⟩) ∧
      SameInSomeOrder (butLate (substance log)) (butLate (substance log')) ∧ fns'.map fnValues = fns.map fnValues := by
  have hP1 := settingLines_placeless kx
  have hP2 := settingLines_placeless ky
  obtain ⟨t, told, hread, hlog, rfl, rfl, hnul⟩ := load_tells h
  obtain ⟨-, hagree, hmod⟩ := replaced_agree hs.before hs.others hread
  have hexp := hread.expand
  rw [physLines_more _ above hs.whole, physLines_more _ one h1.1, physLines_more _ two h2.1] at hexp
  obtain ⟨tA, t1, hA, e1, f1⟩ := expand_parts _ _ hexp
  obtain ⟨tX, t2, hX1, e2, f2⟩ := expand_parts _ _ e1
  obtain ⟨tY, tR, hY1, hR1, f3⟩ := expand_parts _ _ e2
  have hlines := hread.lines
  rw [f1, f2, f3] at hlines
  obtain ⟨ta, m1, rfl, ea, hlines⟩ := told_split hlines
  obtain ⟨x, m2, rfl, ex, hlines⟩ := told_split hlines
  obtain ⟨y, r, rfl, ey, er⟩ := told_split hlines
  obtain ⟨x', gx1, gx2, gx3⟩ := text_laid fs' hP1 h1 (0 + (physLines above).length)
  obtain ⟨tX', ix1, ix2⟩ := laid_expand (fs'' := fs) gx1
  have := expand_same hX1 ix1
  subst this
  have := told_eq (fs := fs) (a := x) (b := x') (by rw [ex, ix2]) (fun z hz => hread.models z (by simp [hz])) gx1.here
  subst this
  obtain ⟨y', gy1, gy2, gy3⟩ := text_laid fs' hP2 h2 (0 + (physLines above).length + (physLines one).length)
  obtain ⟨tY', iy1, iy2⟩ := laid_expand (fs'' := fs) gy1
  have := expand_same hY1 iy1
  subst this
  have := told_eq (fs := fs) (a := y) (b := y') (by rw [ey, iy2]) (fun z hz => hread.models z (by simp [hz])) gy1.here
  subst this
  -- the new file
  obtain ⟨yn, ny1, -, ny3⟩ := text_laid fs' hP2 h2 (0 + (physLines above).length)
  obtain ⟨tYn, jy1, jy2⟩ := laid_expand (fs'' := fs') ny1
  obtain ⟨xn, nx1, -, nx3⟩ := text_laid fs' hP1 h1 (0 + (physLines above).length + (physLines two).length)
  obtain ⟨tXn, jx1, jx2⟩ := laid_expand (fs'' := fs') nx1
  have hR2 := expand_agree hR1 fun w hw => hagree w (by rw [f1, f2, f3]; simp [hw])
  obtain ⟨tRn, jr1, jr2⟩ := expand_elsewhere (f' := path) (fun _ => rfl)
    (0 + (physLines above).length + (physLines two).length + (physLines one).length) hR2
  obtain ⟨rn, kr1, kr2, kr3⟩ := tolds_elsewhere (fs := fs') textOnly_of (told := r) (fun z hz => hmod z (by simp [hz])) (by rw [er]; exact jr2)
  have hA' := expand_agree hA fun w hw => hagree w (by rw [f1]; simp [hw])
  obtain ⟨u1, v1, v2⟩ := expand_join jx1 jr1
  obtain ⟨u2, v3, v4⟩ := expand_join jy1 v1
  obtain ⟨u3, v5, v6⟩ := expand_join hA' v3
  rw [← physLines_more _ one h1.1, ← physLines_more _ two h2.1, ← physLines_more _ above hs.whole] at v5
  have hread' : ReadTold fs' path (above ++ (two ++ (one ++ rest))) u3 (ta ++ (yn ++ (xn ++ rn))) := by
    refine ⟨v5, ?_, fun z hz => ?_⟩
    · rw [v6, v4, v2]
      simp only [List.map_append, ea, kr1, jx2, jy2]
    · simp only [List.mem_append] at hz
      rcases hz with hz | hz | hz | hz
      · exact hmod z (by simp [hz])
      · exact ny1.there z hz
      · exact nx1.there z hz
      · exact kr2 z hz
  have hre : (ta ++ (yn ++ (xn ++ rn))).map (reTold textOnly) = (ta ++ (y ++ (x ++ r))).map (reTold textOnly) := by
    simp only [List.map_append, kr3, nx3, gx3, ny3, gy3]
  obtain ⟨w1, w2⟩ := order_gist hd gx2 gy2 ta r
  have hsre : (sectionsOf (elemsOf (ta ++ (yn ++ (xn ++ rn))))).map (reSect textOnly) =
      (sectionsOf (elemsOf (ta ++ (y ++ (x ++ r))))).map (reSect textOnly) := by
    rw [← sectionsOf_re, ← sectionsOf_re, ← elemsOf_re, ← elemsOf_re, hre]
  have hnames : odbcNames (sectionsOf (elemsOf (ta ++ (yn ++ (xn ++ rn))))) = odbcNames (sectionsOf (elemsOf (ta ++ (x ++ (y ++ r))))) := by
    rw [← odbcNames_re textOnly, hsre, odbcNames_re, names_same w1]
  obtain ⟨log', l1, l2⟩ := load_of_tells (env := env) hread' (by rw [hnames]; exact hnul)
  rw [hnames] at l2
  have hperm : ((butLate (substance log)).map (reM textOnly)).Perm ((butLate (substance log')).map (reM textOnly)) := by
    refine ((hlog.filter _).map _).trans ((?_ : List.Perm _ _).trans ((l1.filter _).map (reM textOnly)).symm)
    show ((butLate (substance _)).map _).Perm ((butLate (substance _)).map _)
    rw [← butLate_re, ← butLate_re, ← substance_map, ← substance_map, ← gist_re, ← gist_re, hre, gist_re, gist_re, butLate_substance, butLate_substance,
      butLate_re, butLate_re]
    exact (w2.map _).filter _
  obtain ⟨l, p1, p2⟩ := perm_lifted _ hperm rfl
  refine ⟨_, log', _, l2, ⟨l, p1, zips_words p2⟩, ?_⟩
  have hval : ∀ l : List (CtxE × List VarE), ((l.map (reSect textOnly)).map odbcFn).map fnValues = (l.map odbcFn).map fnValues := by
    intro l
    simp only [List.map_map]
    congr 1
    funext s
    simp only [Function.comp, values_odbcFn, reSect, find_re, Option.map_map]
    rfl
  rw [← hval, hsre, hval, values_same w1]

end ALint.Proofs
