import Verif.Spec.OdbcSound
import Verif.Proofs.OdbcLog

/-!
# Proofs about a sound func_odbc.conf
-/

namespace ALint
open Spec

theorem feed_tells (fns : List OdbcFn) (above : Option (List VarE)) (es : List Elem) (h : aboveOf fns above) :
    (feed odbcStep fns es).log = odbcTells above es := by
  induction es generalizing fns above with
  | nil => rfl
  | cons e es ih =>
    rw [feed]
    cases e with
    | ctx c =>
      obtain ⟨h1, _⟩ := context_spec fns c
      rw [show odbcStep fns (.ctx c) = odbcContext fns c from rfl]
      rw [Res.bind_of_ok (wrapExc_ok.2 h1)]
      simp only [wrapExc_log]
      rw [ih _ (some []) (by simp [aboveOf, firsts, firstsBelow]), odbcTells]
      congr 1
      unfold odbcContext
      by_cases hn : GoodOdbcName c.name
      · rw [if_pos hn, if_pos ((nameOk_iff _).2 hn)]
        by_cases ht : c.templates = []
        · rw [if_pos ht, if_pos (by simp [ht])]; rfl
        · rw [if_neg ht, if_neg (by simpa using ht)]; rfl
      · rw [if_neg hn, if_neg (fun x => hn ((nameOk_iff _).1 x))]
        by_cases ht : c.templates = []
        · rw [if_pos ht, if_pos (by simp [ht])]; rfl
        · rw [if_neg ht, if_neg (by simpa using ht)]; rfl
    | var v =>
      obtain ⟨h1, _⟩ := varset_spec fns v
      rw [show odbcStep fns (.var v) = odbcVarset fns v from rfl]
      rw [Res.bind_of_ok (wrapExc_ok.2 h1)]
      simp only [wrapExc_log]
      rw [ih _ (above.map (· ++ [v])) ?_]
      · conv => rhs; rw [odbcTells]
        congr 1
        have ha : (if v.arrow then Res.emit (mkMsg .H_CONF_HAS_ARROW v.at_ []) else Res.pure ()) =
            ⟨if v.arrow then [⟨.H_CONF_HAS_ARROW, v.at_, [], none⟩] else [], .ok ()⟩ := by
          split <;> rfl
        unfold odbcVarset
        rw [ha, Res.bind_of_ok rfl]
        congr 1
        cases fns with
        | nil =>
          cases above with
          | none => rfl
          | some vs => exact h.elim
        | cons f rest =>
          cases above with
          | none => exact h.elim
          | some vs =>
            simp only
            rw [Res.bind_of_ok (add_spec f v).1]
            simp only [Res.pure_log, List.append_nil]
            rw [add_says f v vs h, belowSays]
      · cases fns with
        | nil =>
          cases above with
          | none => trivial
          | some vs => exact h.elim
        | cons f rest =>
          cases above with
          | none => exact h.elim
          | some vs =>
            have : f.sets = firsts vs := h
            change (if odbcKeep f.sets v then f.sets ++ [v] else f.sets) = firsts (vs ++ [v])
            rw [← odbcKept_firsts, odbcKept_two, odbcKept_firsts, ← this]
            rfl
    | empty b w =>
      rw [Res.bind_of_ok (wrapExc_ok.2 rfl)]
      simp only [wrapExc_log]
      rw [ih fns above h]
      rfl

/-- What is said about the settings of a section. -/
def tellBelow : List VarE → List VarE → List Msg
  | _, [] => []
  | above, v :: vs =>
    (if v.arrow then [⟨.H_CONF_HAS_ARROW, v.at_, [], none⟩] else []) ++ settingSays above v ++ tellBelow (above ++ [v]) vs

def tellHeader (c : CtxE) : List Msg :=
  (if GoodOdbcName c.name then [] else [⟨.W_ODBC_BADTOKENS, c.at_, [(c! "name", .one (.str c.name))], none⟩]) ++
  (if c.templates = [] then [] else [⟨.I_NOTIMPL_TEMPLATES, c.at_, [], none⟩])

def tellSections (ss : List (CtxE × List VarE)) : List Msg := ss.flatMap fun s => tellHeader s.1 ++ tellBelow [] s.2

theorem tells_some (vs : List VarE) (es : List Elem) :
    odbcTells (some vs) es = tellBelow vs (settingsBelow es) ++ tellSections (sectionsOf es) := by
  induction es generalizing vs with
  | nil => rfl
  | cons e es ih =>
    cases e with
    | ctx c => simp [odbcTells, settingsBelow, sectionsOf, tellBelow, tellSections, tellHeader, ih]
    | var v => simp [odbcTells, settingsBelow, sectionsOf, tellBelow, ih, belowSays]
    | empty b w => simp [odbcTells, settingsBelow, sectionsOf, ih]

theorem tells_none (es : List Elem) : odbcTells none es = [] ↔ settingsBelow es = [] ∧ tellSections (sectionsOf es) = [] := by
  induction es with
  | nil => simp [odbcTells, settingsBelow, sectionsOf, tellSections]
  | cons e es ih =>
    cases e with
    | ctx c =>
      simp [odbcTells, settingsBelow, sectionsOf, tellSections, tellHeader, tells_some]
    | var v => simp [odbcTells, settingsBelow, belowSays]
    | empty b w => simpa [odbcTells, settingsBelow, sectionsOf] using ih

/-- Nothing is to be said about the line itself. -/
def SoundLine (v : VarE) : Prop :=
  v.arrow = false ∧ v.key ∈ odbcSettings ∧ v.key ∉ [c! "read", c! "write"] ∧
    (v.key ∈ [c! "readsql", c! "writesql", c! "insertsql"] → ¬ [';'] <:+ v.value)

theorem firsts_all {vs : List VarE} (hk : ∀ v ∈ vs, v.key ∈ odbcSettings)
    (ho : vs.Pairwise fun u v => odbcSettings.idxOf u.key < odbcSettings.idxOf v.key) : firsts vs = vs := by
  have gen : ∀ (vs above : List VarE), (∀ v ∈ vs, v.key ∈ odbcSettings) →
      (above ++ vs).Pairwise (fun u v => odbcSettings.idxOf u.key < odbcSettings.idxOf v.key) → firstsBelow above vs = vs := by
    intro vs
    induction vs with
    | nil => intros; rfl
    | cons v vs ih =>
      intro above hk ho
      have h1 : ∀ u ∈ above, u.key ≠ v.key := by
        intro u hu e
        rw [List.pairwise_append] at ho
        have := ho.2.2 u hu v (by simp)
        rw [e] at this
        omega
      rw [firstsBelow, if_pos ⟨hk v (by simp), h1⟩, ih (above ++ [v]) (fun u hu => hk u (by simp [hu])) (by simpa using ho)]
      rfl
  exact gen vs [] hk (by simpa using ho)

theorem idx_inj {a b : Str} (ha : a ∈ odbcSettings) (h : odbcSettings.idxOf a = odbcSettings.idxOf b) : a = b := by
  have h1 : odbcSettings.idxOf a < odbcSettings.length := List.idxOf_lt_length_of_mem ha
  have h2 : odbcSettings.idxOf b < odbcSettings.length := h ▸ h1
  have e1 := List.getElem_idxOf h1
  have e2 := List.getElem_idxOf h2
  rw [← e1, ← e2]
  simp only [h]

theorem not_late_iff {above : List VarE} {key : Str} (hk : ∀ v ∈ above, v.key ∈ odbcSettings)
    (ho : above.Pairwise fun u v => odbcSettings.idxOf u.key < odbcSettings.idxOf v.key)
    (hne : ∀ u ∈ above, u.key ≠ key) :
    ¬ Late above key ↔ ∀ u ∈ above, odbcSettings.idxOf u.key < odbcSettings.idxOf key := by
  unfold Late
  rw [firsts_all hk ho]
  constructor
  · intro h u hu
    have hneq : odbcSettings.idxOf u.key ≠ odbcSettings.idxOf key := fun e => hne u hu (idx_inj (hk u hu) e)
    have hab : above ≠ [] := List.ne_nil_of_mem hu
    obtain ⟨l, hl⟩ : ∃ l, above.getLast? = some l := ⟨_, List.getLast?_eq_some_getLast hab⟩
    have hlm : l ∈ above := List.mem_of_getLast? hl
    have hln : odbcSettings.idxOf l.key ≠ odbcSettings.idxOf key := fun e => hne l hlm (idx_inj (hk l hlm) e)
    have hle : ¬ odbcSettings.idxOf key < odbcSettings.idxOf l.key := fun hlt => h ⟨l, hl, hlt⟩
    obtain ⟨init, rfl⟩ := List.getLast?_eq_some_iff.1 hl
    rcases List.mem_append.1 hu with hu | hu
    · rw [List.pairwise_append] at ho
      have := ho.2.2 u hu l (by simp)
      omega
    · rw [List.mem_singleton.1 hu]
      omega
  · rintro h ⟨u, hu, hlt⟩
    have := h u (List.mem_of_getLast? hu)
    omega

theorem tellBelow_nil (above vs : List VarE) (hk : ∀ v ∈ above, v.key ∈ odbcSettings)
    (ho : above.Pairwise fun u v => odbcSettings.idxOf u.key < odbcSettings.idxOf v.key) :
    tellBelow above vs = [] ↔ (∀ v ∈ vs, SoundLine v) ∧
      (above ++ vs).Pairwise fun u v => odbcSettings.idxOf u.key < odbcSettings.idxOf v.key := by
  induction vs generalizing above with
  | nil => simp [tellBelow, ho]
  | cons v vs ih =>
    rw [tellBelow]
    simp only [List.append_eq_nil_iff]
    have hf := firsts_all hk ho
    have key : ((if v.arrow then [(⟨.H_CONF_HAS_ARROW, v.at_, [], none⟩ : Msg)] else []) = [] ∧ settingSays above v = []) ↔
        SoundLine v ∧ ∀ u ∈ above, odbcSettings.idxOf u.key < odbcSettings.idxOf v.key := by
      have harr : (if v.arrow then [(⟨.H_CONF_HAS_ARROW, v.at_, [], none⟩ : Msg)] else []) = [] ↔ v.arrow = false := by
        cases v.arrow <;> simp
      rw [harr, settingSays]
      by_cases hin : v.key ∈ odbcSettings
      · rw [if_neg (fun h => h hin)]
        cases hfd : above.find? (fun u => u.key == v.key) with
        | some u =>
          have hu := List.mem_of_find?_eq_some hfd
          have he := List.find?_some hfd
          simp only [beq_iff_eq] at he
          simp only [List.cons_ne_nil, and_false, false_iff, not_and]
          intro _ h
          have := h u hu
          rw [he] at this
          omega
        | none =>
          have hne : ∀ u ∈ above, u.key ≠ v.key := by
            intro u hu e
            have := List.find?_eq_none.1 hfd u hu
            simp [e] at this
          have hlate : ¬ Late above v.key ↔ ∀ u ∈ above, odbcSettings.idxOf u.key < odbcSettings.idxOf v.key :=
            not_late_iff hk ho hne
          simp only [List.append_eq_nil_iff, ite_eq_right_iff, List.cons_ne_nil, imp_false, hlate]
          unfold SoundLine
          simp only [List.mem_cons, List.not_mem_nil, or_false]
          constructor
          · rintro ⟨h1, ⟨h2, h3⟩, h4⟩
            exact ⟨⟨h1, hin, h3, fun h5 h6 => h4 ⟨by grind, h6⟩⟩, h2⟩
          · rintro ⟨⟨h1, _, h3, h4⟩, h2⟩
            exact ⟨h1, ⟨h2, h3⟩, fun h5 => h4 (by grind) h5.2⟩
      · rw [if_pos hin]
        simp only [List.cons_ne_nil, and_false, false_iff, not_and]
        exact fun h => absurd h.2.1 hin
    rw [key]
    constructor
    · rintro ⟨⟨h1, h2⟩, h3⟩
      have := (ih (above ++ [v]) (by
        intro u hu
        rcases List.mem_append.1 hu with hu | hu
        · exact hk u hu
        · rw [List.mem_singleton.1 hu]; exact h1.2.1) (by
        rw [List.pairwise_append]
        exact ⟨ho, by simp, fun u hu w hw => by rw [List.mem_singleton.1 hw]; exact h2 u hu⟩)).1 h3
      refine ⟨?_, by simpa using this.2⟩
      intro u hu
      rcases List.mem_cons.1 hu with rfl | hu
      · exact h1
      · exact this.1 u hu
    · rintro ⟨h1, h2⟩
      have hv := h1 v (by simp)
      have hlt : ∀ u ∈ above, odbcSettings.idxOf u.key < odbcSettings.idxOf v.key := by
        rw [List.pairwise_append] at h2
        exact fun u hu => h2.2.2 u hu v (by simp)
      refine ⟨⟨hv, hlt⟩, ?_⟩
      refine (ih (above ++ [v]) ?_ ?_).2 ⟨fun u hu => h1 u (by simp [hu]), by simpa using h2⟩
      · intro u hu
        rcases List.mem_append.1 hu with hu | hu
        · exact hk u hu
        · rw [List.mem_singleton.1 hu]; exact hv.2.1
      · rw [List.pairwise_append]
        exact ⟨ho, by simp, fun u hu w hw => by rw [List.mem_singleton.1 hw]; exact hlt u hu⟩

theorem section_sound (s : CtxE × List VarE) :
    (tellHeader s.1 ++ tellBelow [] s.2 = [] ∧ DefinesOdbc s) ↔ SoundSection s := by
  rw [List.append_eq_nil_iff, tellBelow_nil [] s.2 (by simp) .nil]
  unfold tellHeader DefinesOdbc
  simp only [List.append_eq_nil_iff, List.nil_append, ite_eq_left_iff, List.cons_ne_nil, imp_false, Classical.not_not]
  constructor
  · rintro ⟨⟨⟨h1, h2⟩, h3, h4⟩, v, hv, hk⟩
    refine ⟨h1, h2, fun v hv => ⟨(h3 v hv).1, (h3 v hv).2.1, (h3 v hv).2.2.1⟩, fun v hv => (h3 v hv).2.2.2, h4, v, hv, ?_⟩
    have := (h3 v hv).2.2.1
    simp only [List.mem_cons, List.not_mem_nil, or_false] at this hk
    grind
  · rintro ⟨h1, h2, h3, h4, h5, v, hv, hk⟩
    refine ⟨⟨⟨h1, h2⟩, fun v hv => ⟨(h3 v hv).1, (h3 v hv).2.1, (h3 v hv).2.2, h4 v hv⟩, h5⟩, v, hv, ?_⟩
    simp only [List.mem_cons, List.not_mem_nil, or_false]
    grind

theorem sound_iff (es : List Elem) : odbcTells none es = [] ∧ nothingDefined es = [] ↔ SoundOdbc es := by
  rw [tells_none]
  unfold tellSections nothingDefined
  simp only [List.flatMap_eq_nil_iff, List.map_eq_nil_iff, List.filter_eq_nil_iff, decide_not, Bool.not_eq_true',
    decide_eq_false_iff_not, Classical.not_not]
  constructor
  · rintro ⟨⟨h1, h2⟩, h3⟩
    exact ⟨h1, fun s hs => (section_sound s).1 ⟨h2 s hs, h3 s hs⟩⟩
  · rintro ⟨h1, h2⟩
    exact ⟨⟨h1, fun s hs => ((section_sound s).2 (h2 s hs)).1⟩, fun s hs => ((section_sound s).2 (h2 s hs)).2⟩

theorem sections_filter (es : List Elem) : sectionsOf (es.filter notBlank) = sectionsOf es ∧
    settingsBelow (es.filter notBlank) = settingsBelow es ∧
    ∀ above, odbcTells above (es.filter notBlank) = odbcTells above es := by
  induction es with
  | nil => exact ⟨rfl, rfl, fun _ => rfl⟩
  | cons e es ih =>
    obtain ⟨h1, h2, h3⟩ := ih
    cases e with
    | ctx c =>
      rw [show (Elem.ctx c :: es).filter notBlank = .ctx c :: es.filter notBlank from rfl]
      simp [sectionsOf, settingsBelow, odbcTells, h1, h2, h3]
    | var v =>
      rw [show (Elem.var v :: es).filter notBlank = .var v :: es.filter notBlank from rfl]
      simp [sectionsOf, settingsBelow, odbcTells, h1, h2, h3]
    | empty b w =>
      rw [show (Elem.empty b w :: es).filter notBlank = es.filter notBlank from rfl]
      simp [sectionsOf, settingsBelow, odbcTells, h1, h2, h3]

end ALint
