import Verif.Spec.OdbcWithout
import Verif.Proofs.OdbcOrder
import Verif.Proofs.OdbcIdle

/-!
# A func_odbc.conf without one of its functions (proofs)
-/

namespace ALint.Proofs
open ALint Spec Props

theorem headerGiven_re (g : Gives) : HeaderGiven (reG textOnly g) ↔ HeaderGiven g := by
  unfold HeaderGiven
  cases g with
  | elem e =>
    cases e with
    | ctx c => exact ⟨fun _ => ⟨c, rfl⟩, fun _ => ⟨_, rfl⟩⟩
    | var v => exact ⟨fun ⟨_, h⟩ => (by cases h), fun ⟨_, h⟩ => (by cases h)⟩
    | empty b w => exact ⟨fun ⟨_, h⟩ => (by cases h), fun ⟨_, h⟩ => (by cases h)⟩
  | file f => exact ⟨fun ⟨_, h⟩ => (by cases h), fun ⟨_, h⟩ => (by cases h)⟩
  | nothing => exact ⟨fun ⟨_, h⟩ => (by cases h), fun ⟨_, h⟩ => (by cases h)⟩

theorem fileGiven_re (g : Gives) : (∀ f, reG textOnly g ≠ .file f) ↔ ∀ f, g ≠ .file f := by
  cases g with
  | elem e => exact ⟨fun _ _ h => (by cases h), fun _ _ h => (by cases h)⟩
  | file f => exact ⟨fun h => absurd rfl (h f), fun h => absurd rfl (h f)⟩
  | nothing => exact ⟨fun _ _ h => (by cases h), fun _ _ h => (by cases h)⟩

theorem belowGiven_re (g : Gives) : BelowGiven (reG textOnly g) ↔ BelowGiven g := by
  unfold BelowGiven
  rw [headerGiven_re, fileGiven_re]

theorem oneSection_placeless : Placeless OneSection where
  re := by
    intro l
    cases l with
    | nil => exact ⟨fun ⟨_, _, h, _⟩ => (by cases h), fun ⟨_, _, h, _⟩ => (by cases h)⟩
    | cons x xs =>
      constructor
      · rintro ⟨y, ys, h, h1, h2⟩
        rw [List.map_cons, List.cons.injEq] at h
        obtain ⟨rfl, rfl⟩ := h
        exact ⟨x, xs, rfl, (headerGiven_re _).1 h1, fun z hz => (belowGiven_re _).1 (h2 _ (List.mem_map_of_mem hz))⟩
      · rintro ⟨y, ys, h, h1, h2⟩
        rw [List.cons.injEq] at h
        obtain ⟨rfl, rfl⟩ := h
        refine ⟨_, _, List.map_cons .., (headerGiven_re _).2 h1, fun z hz => ?_⟩
        obtain ⟨u, hu, rfl⟩ := List.mem_map.1 hz
        exact (belowGiven_re _).2 (h2 u hu)
  shut := by
    rintro l ⟨x, xs, rfl, ⟨c, h1⟩, h2⟩ y hy f hf
    rcases List.mem_cons.1 hy with rfl | hy
    · rw [h1] at hf; cases hf
    · exact (h2 y hy).1 f hf

/-- The elements of a section. -/
theorem oneSection_elems {told : List Told} (h : OneSection told) : ∃ c b, elemsOf told = .ctx c :: b ∧ Bodies b ∧ told.head?.map (·.gives) = some (.elem (.ctx c)) := by
  obtain ⟨x, xs, rfl, ⟨c, h1⟩, h2⟩ := h
  refine ⟨c, elemsOf xs, by rw [elemsOf_cons, h1]; rfl, fun e he d hd => ?_, by simp [h1]⟩
  subst hd
  obtain ⟨y, hy, hg⟩ := List.mem_filterMap.1 he
  refine (h2 y hy).2 ⟨d, ?_⟩
  cases hgv : y.gives with
  | elem e => rw [hgv] at hg; simpa [Gives.elem?] using hg
  | file f => rw [hgv] at hg; cases hg
  | nothing => rw [hgv] at hg; cases hg

theorem sections_one (c : CtxE) {b : List Elem} (hb : Bodies b) : sectionsOf (.ctx c :: b) = [(c, settingsBelow b)] := by
  have h := sections_body (b := []) hb
  rw [List.append_nil] at h
  rw [sectionsOf, h]
  rfl

/-! ## What is said is about the lines -/

def ElemIn (ws : List Where) : Elem → Prop
  | .ctx c => c.at_ ∈ ws
  | .var v => v.at_ ∈ ws
  | .empty _ _ => True

theorem settingSays_at (above : List VarE) (v : VarE) : ∀ m ∈ settingSays above v, m.at_ = v.at_ := by
  intro m hm
  unfold settingSays at hm
  split at hm
  · rw [List.mem_singleton.1 hm]
  · split at hm
    · rw [List.mem_singleton.1 hm]
    · simp only [List.mem_append] at hm
      rcases hm with (hm | hm) | hm <;> split at hm <;> first | (rw [List.mem_singleton.1 hm]) | cases hm

theorem tells_at {ws : List Where} : ∀ (es : List Elem) (above : Option (List VarE)), (∀ e ∈ es, ElemIn ws e) → ∀ m ∈ odbcTells above es, m.at_ ∈ ws
  | [], _, _, m, hm => by cases hm
  | .empty _ _ :: es, above, h, m, hm => tells_at es above (fun e he => h e (List.mem_cons_of_mem _ he)) m hm
  | .ctx c :: es, above, h, m, hm => by
    have hc : c.at_ ∈ ws := h _ List.mem_cons_self
    simp only [odbcTells, List.mem_append] at hm
    rcases hm with (hm | hm) | hm
    · split at hm
      · cases hm
      · rw [List.mem_singleton.1 hm]; exact hc
    · split at hm
      · cases hm
      · rw [List.mem_singleton.1 hm]; exact hc
    · exact tells_at es _ (fun e he => h e (List.mem_cons_of_mem _ he)) m hm
  | .var v :: es, above, h, m, hm => by
    have hv : v.at_ ∈ ws := h _ List.mem_cons_self
    simp only [odbcTells, List.mem_append] at hm
    rcases hm with (hm | hm) | hm
    · split at hm
      · rw [List.mem_singleton.1 hm]; exact hv
      · cases hm
    · cases above with
      | none => rw [List.mem_singleton.1 (show m ∈ [_] from hm)]; exact hv
      | some a => rw [settingSays_at a v m hm]; exact hv
    · exact tells_at es _ (fun e he => h e (List.mem_cons_of_mem _ he)) m hm

theorem sections_at {ws : List Where} : ∀ (es : List Elem), (∀ e ∈ es, ElemIn ws e) → ∀ s ∈ sectionsOf es, s.1.at_ ∈ ws
  | [], _, s, hs => by cases hs
  | .empty _ _ :: es, h, s, hs => sections_at es (fun e he => h e (List.mem_cons_of_mem _ he)) s hs
  | .var _ :: es, h, s, hs => sections_at es (fun e he => h e (List.mem_cons_of_mem _ he)) s hs
  | .ctx c :: es, h, s, hs => by
    rcases List.mem_cons.1 hs with rfl | hs
    · exact h _ List.mem_cons_self
    · exact sections_at es (fun e he => h e (List.mem_cons_of_mem _ he)) s hs

theorem elems_at {fs : FS} {x : List Told} (hx : ∀ z ∈ x, lineModel fs z.line = some (z.msgs, z.gives)) : ∀ e ∈ elemsOf x, ElemIn (x.map (·.line)) e := by
  intro e he
  obtain ⟨z, hz, hg⟩ := List.mem_filterMap.1 he
  have hl := lineTells_at (lineTells_exists (hx z hz)) (e := e) hg
  cases e with
  | ctx c => exact List.mem_map.2 ⟨z, hz, hl.symm⟩
  | var v => exact List.mem_map.2 ⟨z, hz, hl.symm⟩
  | empty b w => trivial

theorem gist_at {fs : FS} {x : List Told} (hx : ∀ z ∈ x, lineModel fs z.line = some (z.msgs, z.gives)) : ∀ m ∈ odbcGist x, m.at_ ∈ x.map (·.line) := by
  intro m hm
  unfold odbcGist at hm
  simp only [List.mem_append] at hm
  rcases hm with (hm | hm) | hm
  · obtain ⟨z, hz, hm⟩ := List.mem_flatMap.1 hm
    exact List.mem_map.2 ⟨z, hz, (lineTells_place (lineTells_exists (hx z hz)) m hm).symm⟩
  · exact tells_at _ _ (elems_at hx) m hm
  · unfold nothingDefined at hm
    obtain ⟨s, hs, rfl⟩ := List.mem_map.1 hm
    exact sections_at _ (elems_at hx) s (List.mem_filter.1 hs).1

/-! ## Without the section -/

def NextElems (es : List Elem) : Prop := es = [] ∨ ∃ c b, es = .ctx c :: b

theorem sections_next (a : List Elem) {r : List Elem} (h : NextElems r) : sectionsOf (a ++ r) = sectionsOf a ++ sectionsOf r := by
  rcases h with rfl | ⟨c, b, rfl⟩
  · simp [sectionsOf]
  · exact sections_header c b a

theorem tells_next (a : List Elem) {r : List Elem} (h : NextElems r) (above : Option (List VarE)) : odbcTells above (a ++ r) = odbcTells above a ++ odbcTells none r := by
  rcases h with rfl | ⟨c, b, rfl⟩
  · simp [odbcTells]
  · exact tells_header c b a above

theorem perm_four {α : Type} (a b c d : List α) : ((a ++ b) ++ (c ++ d)).Perm ((a ++ c) ++ (b ++ d)) := by
  simp only [List.append_assoc]
  exact (List.perm_append_comm_assoc b c d).append_left a

theorem gist_next (a : List Told) {r : List Told} (h : NextElems (elemsOf r)) : (odbcGist (a ++ r)).Perm (odbcGist a ++ odbcGist r) := by
  unfold odbcGist nothingDefined
  rw [elemsOf_append, sections_next _ h, tells_next _ h, List.filter_append, List.map_append, List.flatMap_append]
  exact ((perm_four ..).append_right _).trans (perm_four ..)

/-- What follows the section. -/
theorem next_elems {fs : FS} {path : Str} {rest : Bytes} (h : SectionNext fs path rest) {k : Nat} {t : Items} (ht : Expand fs opens path k (physLines rest) t)
    {r : List Told} (hr : r.map (·.line) = t.flatten) (hm : ∀ z ∈ r, lineModel fs z.line = some (z.msgs, z.gives)) : NextElems (elemsOf r) := by
  rcases h with rfl | ⟨next, more, rfl, h⟩
  · have : t.flatten = [] := by
      have e : physLines ([] : Bytes) = [] := by decide
      rw [e] at ht
      cases ht
      rfl
    rw [this] at hr
    cases r with
    | nil => exact .inl rfl
    | cons _ _ => cases hr
  · rw [physLines_more _ next h.1] at ht
    obtain ⟨t1, t2, h1, -, f⟩ := expand_parts _ _ ht
    rw [f] at hr
    obtain ⟨x, y, rfl, ex, -⟩ := told_split hr
    obtain ⟨x', g1, g2, -⟩ := text_laid fs oneSection_placeless h k
    obtain ⟨t', i1, i2⟩ := laid_expand (fs'' := fs) g1
    have := expand_same h1 i1
    subst this
    have := told_eq (fs := fs) (a := x) (b := x') (by rw [ex, i2]) (fun z hz => hm z (by simp [hz])) g1.here
    subst this
    obtain ⟨c, b, e, -⟩ := oneSection_elems g2
    rw [elemsOf_append, e]
    exact .inr ⟨c, _, rfl⟩

theorem register_without (env : FEnv) (a c : List Str) (n k : Str) (hk : k ≠ env.lower n) :
    (registerAll env (a ++ (n :: c))).funcs k = (registerAll env (a ++ c)).funcs k := by
  rw [(registerAll_spec ..).2, (registerAll_spec ..).2]
  have : (a ++ (n :: c)).reverse.find? (fun n => env.lower n == k) = (a ++ c).reverse.find? fun n => env.lower n == k := by
    simp only [List.reverse_append, List.reverse_cons, List.find?_append]
    have e : [n].find? (fun n => env.lower n == k) = none := by
      rw [List.find?_eq_none]
      intro x hx
      rw [List.mem_singleton.1 hx]
      simp only [beq_iff_eq]
      exact fun h => hk h.symm
    rw [e, Option.or_none]
  rw [this]

theorem odbc_without {fs fs' : FS} {env env1 : FEnv} {n : Nat} {path : Str} {above part rest : Bytes} (hp : PartAbsent fs fs' path above part rest)
    (h1 : TextIs fs path part OneSection) (hn : SectionNext fs path rest)
    {log : List Msg} {fns : List OdbcFn} (h : loadOdbc fs env n path (above ++ (part ++ rest)) = ⟨log, .ok (some (env1, fns))⟩) :
    ∃ k log' env2 fns', (∀ n', k ≤ n' → loadOdbc fs' env n' path (above ++ rest) = ⟨log', .ok (some (env2, fns'))⟩) ∧
      SectionLess (linesFrom path (physLines above).length (physLines part)) (substance log) (substance log') ∧
      ∃ a f c, fns = a ++ f :: c ∧ f.at_ ∈ linesFrom path (physLines above).length (physLines part) ∧
        fns'.map fnText = (a ++ c).map fnText ∧ env2.lower = env1.lower ∧ (∀ k, k ≠ env.lower f.funcName → env2.funcs k = env1.funcs k) ∧
        ((∀ g ∈ a ++ c, env.lower g.funcName ≠ env.lower f.funcName) → env2.funcs (env.lower f.funcName) = env.funcs (env.lower f.funcName)) := by
  obtain ⟨t, told, hread, hlog, rfl, rfl, hnul⟩ := load_tells h
  obtain ⟨-, hagree, hmod⟩ := replaced_agree hp.present hp.others hread
  have hexp := hread.expand
  rw [physLines_more _ above hp.whole, physLines_more _ part h1.1] at hexp
  obtain ⟨tA, t1, hA, e1, f1⟩ := expand_parts _ _ hexp
  obtain ⟨tX, tR, hX1, hR1, f2⟩ := expand_parts _ _ e1
  have hlines := hread.lines
  rw [f1, f2] at hlines
  obtain ⟨ta, m1, rfl, ea, hlines⟩ := told_split hlines
  obtain ⟨x, r, rfl, ex, er⟩ := told_split hlines
  obtain ⟨x', gx1, gx2, -⟩ := text_laid fs' oneSection_placeless h1 (0 + (physLines above).length)
  obtain ⟨tX', ix1, ix2⟩ := laid_expand (fs'' := fs) gx1
  have := expand_same hX1 ix1
  subst this
  have := told_eq (fs := fs) (a := x) (b := x') (by rw [ex, ix2]) (fun z hz => hread.models z (by simp [hz])) gx1.here
  subst this
  have hnext := next_elems hn hR1 er fun z hz => hread.models z (by simp [hz])
  have hws : x.map (·.line) = linesFrom path (physLines above).length (physLines part) := by rw [gx1.lines, Nat.zero_add]
  -- the new file
  have hR2 := expand_agree hR1 fun w hw => hagree w (by rw [f1, f2]; simp [hw])
  obtain ⟨tRn, jr1, jr2⟩ := expand_elsewhere (f' := path) (fun _ => rfl) (0 + (physLines above).length) hR2
  obtain ⟨rn, kr1, kr2, kr3⟩ := tolds_elsewhere (fs := fs') textOnly_of (told := r) (fun z hz => hmod z (by simp [hz])) (by rw [er]; exact jr2)
  have hA' := expand_agree hA fun w hw => hagree w (by rw [f1]; simp [hw])
  obtain ⟨u3, v5, v6⟩ := expand_join hA' jr1
  rw [← physLines_more _ above hp.whole] at v5
  have hread' : ReadTold fs' path (above ++ rest) u3 (ta ++ rn) := by
    refine ⟨v5, ?_, fun z hz => ?_⟩
    · rw [v6]
      simp only [List.map_append, ea, kr1]
    · simp only [List.mem_append] at hz
      rcases hz with hz | hz
      · exact hmod z (by simp [hz])
      · exact kr2 z hz
  have hre : (ta ++ rn).map (reTold textOnly) = (ta ++ r).map (reTold textOnly) := by
    simp only [List.map_append, kr3]
  obtain ⟨c, b, hxe, hb, -⟩ := oneSection_elems gx2
  have hxn : NextElems (elemsOf x) := .inr ⟨c, b, hxe⟩
  have hxrn : NextElems (elemsOf (x ++ r)) := by rw [elemsOf_append, hxe]; exact .inr ⟨c, _, rfl⟩
  have hs1 : sectionsOf (elemsOf (ta ++ (x ++ r))) = sectionsOf (elemsOf ta) ++ (c, settingsBelow b) :: sectionsOf (elemsOf r) := by
    rw [elemsOf_append, sections_next _ hxrn, elemsOf_append, sections_next _ hnext, hxe, sections_one c hb]
    rfl
  have hs2 : sectionsOf (elemsOf (ta ++ r)) = sectionsOf (elemsOf ta) ++ sectionsOf (elemsOf r) := by
    rw [elemsOf_append, sections_next _ hnext]
  have hgist : (odbcGist (ta ++ (x ++ r))).Perm (odbcGist x ++ odbcGist (ta ++ r)) := by
    refine (gist_next ta hxrn).trans (((gist_next x hnext).append_left _).trans ?_)
    refine (List.perm_append_comm_assoc ..).trans ?_
    exact (gist_next ta hnext).symm.append_left _
  have hsre : (sectionsOf (elemsOf (ta ++ rn))).map (reSect textOnly) = (sectionsOf (elemsOf (ta ++ r))).map (reSect textOnly) := by
    rw [← sectionsOf_re, ← sectionsOf_re, ← elemsOf_re, ← elemsOf_re, hre]
  have hnames : odbcNames (sectionsOf (elemsOf (ta ++ rn))) = odbcNames (sectionsOf (elemsOf (ta ++ r))) := by
    rw [← odbcNames_re textOnly, hsre, odbcNames_re]
  have hsub : ∀ f ∈ odbcNames (sectionsOf (elemsOf (ta ++ r))), f ∈ odbcNames (sectionsOf (elemsOf (ta ++ (x ++ r)))) := by
    rw [hs1, hs2]
    unfold odbcNames
    intro f hf
    obtain ⟨s, hs, rfl⟩ := List.mem_map.1 hf
    refine List.mem_map.2 ⟨s, ?_, rfl⟩
    rw [List.mem_filter] at hs ⊢
    exact ⟨by rcases List.mem_append.1 hs.1 with h | h <;> simp [h], hs.2⟩
  obtain ⟨log', l1, l2⟩ := load_of_tells (env := env) hread' (by rw [hnames]; exact fun f hf => hnul f (hsub f hf))
  rw [hnames] at l2
  have hperm : ((substance log).map (reM textOnly)).Perm ((substance (odbcGist x) ++ substance log').map (reM textOnly)) := by
    refine (hlog.map _).trans ((?_ : List.Perm _ _).trans ((l1.append_left _).map (reM textOnly)).symm)
    rw [List.map_append, ← substance_map, ← substance_map, ← substance_map, ← gist_re (told := ta ++ rn), hre, gist_re, ← substance_append, ← List.map_append]
    exact (hgist.map _).filter _
  obtain ⟨l, p1, p2⟩ := perm_lifted _ hperm rfl
  have hat : ∀ m ∈ substance (odbcGist x), m.at_ ∈ linesFrom path (physLines above).length (physLines part) := fun m hm =>
    hws ▸ gist_at gx1.here m (List.mem_filter.1 hm).1
  refine ⟨_, log', _, _, l2, ⟨_, hat, l, p1, zips_words p2⟩, (sectionsOf (elemsOf ta)).map odbcFn, odbcFn (c, settingsBelow b),
    (sectionsOf (elemsOf r)).map odbcFn, by rw [hs1]; simp, ?_, ?_, ?_, fun k hk => ?_, fun hno => ?_⟩
  · rw [← hws]
    exact sections_at _ (elems_at gx1.here) (c, settingsBelow b) (by rw [hxe, sections_one c hb]; exact List.mem_singleton.2 rfl)
  · rw [← fnText_re textOnly (sectionsOf (elemsOf (ta ++ rn))), hsre, fnText_re, hs2, List.map_append]
  · rw [(registerAll_spec ..).1, (registerAll_spec ..).1]
  · rw [hs1, hs2]
    rw [odbcFn_name] at hk
    unfold odbcNames
    rw [List.filter_append, List.filter_append, List.filter_cons, List.map_append, List.map_append]
    split
    · rw [List.map_cons, register_without _ _ _ _ _ hk]
    · rfl
  · rw [(registerAll_spec ..).2]
    have : (odbcNames (sectionsOf (elemsOf (ta ++ r)))).reverse.find? (fun n => env.lower n == env.lower (odbcFn (c, settingsBelow b)).funcName) = none := by
      rw [List.find?_eq_none]
      intro y hy he
      rw [List.mem_reverse, hs2] at hy
      obtain ⟨s, hs, rfl⟩ := List.mem_map.1 hy
      refine hno (odbcFn s) ?_ (by rw [odbcFn_name]; exact beq_iff_eq.1 he)
      rw [← List.map_append]
      exact List.mem_map_of_mem (List.mem_filter.1 hs).1
    rw [this]

end ALint.Proofs
