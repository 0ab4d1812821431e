import Verif.Proofs.FlatLine
import Verif.Proofs.Located
import Verif.Proofs.Pattern

/-!
# The messages about a dialplan have no line feeds
-/

namespace ALint
open ALint.Spec
open Pattern (Values usedList members exampleOf)

/-! ## Examples of patterns -/

/-- The byte shown for an item is no line feed. -/
def ItemFlat (i : Pattern.Item) : Prop := i.1 &&& 0xff ≠ 10

theorem ofNat_byte {n : Nat} (h : n &&& 0xff ≠ 10) : Flat [Char.ofNat (n &&& 0xff)] :=
  .cons (fun hc => h (ofNat_lf hc)) .nil

theorem flat_exampleOf {v : Values} (h : ∀ i ∈ v.items, ItemFlat i) : Flat (exampleOf v) := by
  unfold exampleOf
  split
  · intro hm
    obtain ⟨i, hi, hc⟩ := List.mem_map.1 hm
    exact h i hi (ofNat_lf hc)
  · intro hm
    obtain ⟨i, hi, hc⟩ := List.mem_flatMap.1 hm
    split at hc
    · revert hc; decide
    · split at hc
      · revert hc; decide
      · split at hc
        · cases hc
        · exact ofNat_byte (h i hi) hc

/-- Below every byte of a set is one that is written. -/
theorem inSet_below {l : List Nat} {c : Nat} (h : inSet l c = true) : ∃ a ∈ l, a ≤ c ∧ inSet l a = true := by
  fun_induction inSet l c with
  | case1 => simp at h
  | case2 a c => rw [beq_iff_eq] at h; subst h; exact ⟨_, by simp, Nat.le_refl _, by simp [inSet]⟩
  | case3 c a b =>
    simp only [Bool.or_eq_true, beq_iff_eq] at h
    rcases h with rfl | rfl
    · exact ⟨_, by simp, Nat.le_refl _, by simp [inSet]⟩
    · exact ⟨_, by simp, Nat.le_refl _, by simp [inSet]⟩
  | case4 a b rest c ih =>
    simp only [Bool.or_eq_true, between, decide_eq_true_eq] at h
    rcases h with h | h
    · by_cases hab : a ≤ b
      · exact ⟨a, by simp, by omega, by simp only [inSet, between, if_true, Bool.or_eq_true, decide_eq_true_eq]; left; omega⟩
      · exact ⟨b, by simp, by omega, by simp only [inSet, between, if_true, Bool.or_eq_true, decide_eq_true_eq]; left; omega⟩
    · obtain ⟨x, h1, h2, h3⟩ := ih h
      exact ⟨x, by simp [h1], h2, by simp [inSet, h3]⟩
  | case5 a d b rest c hd ih =>
    simp only [Bool.or_eq_true, beq_iff_eq] at h
    rcases h with rfl | h
    · exact ⟨_, by simp, Nat.le_refl _, by simp [inSet, hd]⟩
    · obtain ⟨x, h1, h2, h3⟩ := ih h
      exact ⟨x, List.mem_cons_of_mem _ h1, h2, by simp [inSet, hd, h3]⟩

theorem or_low (n f : Nat) (hf : f < 256) : (n * 0x100 ||| f) &&& 0xff = f := by
  have h : ∀ m : Nat, m &&& 0xff = m % 256 := fun m => Nat.and_two_pow_sub_one_eq_mod m 8
  rw [h]
  have : n * 0x100 ||| f = n * 0x100 + f := by
    have := Nat.two_pow_add_eq_or_of_lt (i := 8) hf n
    rw [show n * 0x100 = 2 ^ 8 * n by omega]
    exact this.symm
  rw [this]
  omega

theorem flat_parseRangeList {raw : List Nat} {i : Pattern.Item} (h : 10 ∉ raw) (hi : Pattern.parseRangeList raw = .ok i) :
    ItemFlat i := by
  unfold Pattern.parseRangeList at hi
  rw [Pattern.sortedSet_usedList] at hi
  have hs := Pattern.members_sorted (inSet raw)
  have hm : ∀ c, c ∈ members (inSet raw) ↔ c < 256 ∧ inSet raw c = true := by
    intro c; simp [members]
  generalize members (inSet raw) = l at hi hs hm
  cases l with
  | nil => simp at hi
  | cons f o =>
    obtain ⟨hf, hin⟩ := (hm f).1 (by simp)
    obtain ⟨a, ha, hle, hia⟩ := inSet_below hin
    have hfa : f = a := by
      have hma := (hm a).2 ⟨by omega, hia⟩
      rcases List.mem_cons.1 hma with h | h
      · exact h.symm
      · have := (List.pairwise_cons.1 hs).1 a h
        omega
    have h10 : f ≠ 10 := by rintro rfl; exact h (hfa ▸ ha)
    have hlow := or_low (f :: o).length f hf
    dsimp only at hi
    unfold ItemFlat
    split at hi
    · cases hi; dsimp only; rw [hlow]; exact h10
    · cases hi; dsimp only; rw [hlow]; exact h10

theorem splitBracket_mem {l a b : List Nat} (h : Pattern.splitBracket l = some (a, b)) :
    (∀ x ∈ a, x ∈ l) ∧ ∀ x ∈ b, x ∈ l := by
  induction l generalizing a b with
  | nil => cases h
  | cons x l ih =>
    rw [Pattern.splitBracket] at h
    split at h
    · cases h; simp +contextual
    · split at h
      · cases h
      · rename_i i r hs
        cases h
        obtain ⟨h1, h2⟩ := ih hs
        refine ⟨fun y hy => ?_, fun y hy => List.mem_cons_of_mem _ (h2 y hy)⟩
        rcases List.mem_cons.1 hy with rfl | hy
        · simp
        · exact List.mem_cons_of_mem _ (h1 y hy)

theorem itemFlat_byte {b : Nat} (h : b ≠ 10) (hb : b < 256) : ItemFlat (0x100 + b, none) := by
  have h' : ∀ m : Nat, m &&& 0xff = m % 256 := fun m => Nat.and_two_pow_sub_one_eq_mod m 8
  unfold ItemFlat
  dsimp only
  rw [h']
  omega

theorem flat_parseBytes {fuel : Nat} {raw : List Nat} {items : List Pattern.Item} (h : 10 ∉ raw) (hb : ∀ b ∈ raw, b < 256)
    (hi : Pattern.parseBytesFuel fuel raw = .ok items) : ∀ i ∈ items, ItemFlat i := by
  induction fuel generalizing raw items with
  | zero =>
    cases raw with
    | nil =>
      simp only [Pattern.parseBytesFuel, Except.ok.injEq] at hi
      subst hi; intro i hi; rw [List.mem_singleton.1 hi]; unfold ItemFlat; decide
    | cons b bs =>
      simp only [Pattern.parseBytesFuel, Except.ok.injEq] at hi
      subst hi; simp
  | succ n ih =>
    cases raw with
    | nil =>
      simp only [Pattern.parseBytesFuel, Except.ok.injEq] at hi
      subst hi; intro i hi; rw [List.mem_singleton.1 hi]; unfold ItemFlat; decide
    | cons b bs =>
      have h' : 10 ∉ bs := fun hm => h (by simp [hm])
      have hb' : ∀ b ∈ bs, b < 256 := fun x hx => hb x (by simp [hx])
      have one : ∀ {rest : List Nat} {it : Pattern.Item} {items}, 10 ∉ rest → (∀ b ∈ rest, b < 256) → ItemFlat it →
          (Pattern.parseBytesFuel n rest).map (it :: ·) = .ok items → ∀ i ∈ items, ItemFlat i := by
        intro rest it items h1 h2 h3 h4
        cases hp : Pattern.parseBytesFuel n rest with
        | error e => simp [hp, Except.map] at h4
        | ok l =>
          simp only [hp, Except.map, Except.ok.injEq] at h4
          subst h4
          intro i hi
          rcases List.mem_cons.1 hi with rfl | hi
          · exact h3
          · exact ih h1 h2 hp i hi
      rw [Pattern.parseBytesFuel] at hi
      split at hi
      · exact ih h' hb' hi
      · split at hi
        · exact one h' hb' (by unfold ItemFlat; decide) hi
        · split at hi
          · exact one h' hb' (by unfold ItemFlat; decide) hi
          · split at hi
            · exact one h' hb' (by unfold ItemFlat; decide) hi
            · split at hi
              · exact one h' hb' (by unfold ItemFlat; decide) hi
              · split at hi
                · exact one h' hb' (by unfold ItemFlat; decide) hi
                · split at hi
                  · split at hi
                    · cases hi
                    · rename_i inner rest hs
                      obtain ⟨m1, m2⟩ := splitBracket_mem hs
                      split at hi
                      · cases hi
                      · rename_i it hit
                        exact one (fun hm => h' (m2 _ hm)) (fun x hx => hb' x (m2 x hx))
                          (flat_parseRangeList (fun hm => h' (m1 _ hm)) hit) hi
                  · exact one h' hb' (itemFlat_byte (fun hc => h (by simp [hc])) (hb b (by simp))) hi

theorem utf8_bytes (s : Str) : ∀ b ∈ utf8 s, b < 256 := by
  intro b hb
  unfold utf8 at hb
  obtain ⟨c, _, hb⟩ := List.mem_flatMap.1 hb
  obtain ⟨x, _, rfl⟩ := List.mem_map.1 hb
  exact x.toNat_lt

theorem utf8_lf {s : Str} (h : Flat s) : 10 ∉ utf8 s := by
  intro hm
  exact h (byte_mem_utf8 (c := '\n') (by decide) hm)

theorem flat_parse {raw : Str} {v : Values} (h : Flat raw) (hv : Pattern.parse raw = .ok v) : Flat (exampleOf v) := by
  apply flat_exampleOf
  cases raw with
  | nil => cases hv
  | cons c cs =>
    unfold Pattern.parse at hv
    dsimp only at hv
    split at hv
    · split at hv
      · rename_i items hi
        cases hv
        exact flat_parseBytes (utf8_lf h.tail) (utf8_bytes _) hi
      · cases hv
    · cases hv
      intro i hi
      obtain ⟨b, hb, rfl⟩ := List.mem_map.1 hi
      have hb := (List.mem_filter.1 hb).1
      exact itemFlat_byte (fun hc => utf8_lf h (hc ▸ hb)) (utf8_bytes _ b hb)

/-! ## Results of runs -/

/-- All messages are without line feeds, and the result has the property. -/
structure ResFlat {α : Type} (Q : α → Prop) (x : Res α) : Prop where
  msgs : LogAll FlatMsg x
  val : ∀ a, x.val = .ok a → Q a

namespace ResFlat
variable {α β : Type} {Q : α → Prop} {R : β → Prop}

theorem pure {a : α} (h : Q a) : ResFlat Q (Res.pure a) :=
  ⟨.pure _, by intro b hb; simp only [Res.pure_val, Except.ok.injEq] at hb; exact hb ▸ h⟩
theorem raise (e : Exc) : ResFlat Q (Res.raise e : Res α) := ⟨.raise _, by simp⟩
theorem lift {x : Except Exc α} (h : ∀ a, x = .ok a → Q a) : ResFlat Q (Res.lift x) := ⟨.lift _, h⟩
theorem emit {m : Msg} (h : FlatMsg m) : ResFlat (fun _ => True) (Res.emit m) := ⟨.emit h, fun _ _ => trivial⟩
theorem bind {x : Res α} {f : α → Res β} (hx : ResFlat Q x) (hf : ∀ a, Q a → ResFlat R (f a)) : ResFlat R (Res.bind x f) := by
  refine ⟨.bind_ok hx.msgs fun a ha => (hf a (hx.val a ha)).msgs, fun b hb => ?_⟩
  obtain ⟨a, h1, h2, _⟩ := Res.bind_ok hb
  exact (hf a (hx.val a h1)).val b h2
theorem ite {c : Prop} [Decidable c] {x y : Res α} (hx : ResFlat Q x) (hy : ResFlat Q y) : ResFlat Q (if c then x else y) := by
  split <;> assumption
end ResFlat

macro "plainMsg" : tactic => `(tactic| exact ResFlat.emit (flatMsg_none rfl))

theorem toRes_flat {α : Type} {Q : α → Prop} {x : Tr α} (h : TrFlat Q x) : ResFlat (fun r : α × List Ev => Q r.1) x.toRes := by
  constructor
  · intro m hm
    unfold Tr.toRes evMsgs at hm
    obtain ⟨e, he, h'⟩ := List.mem_filterMap.1 hm
    cases e <;> simp at h'
    exact h.msgs m (h' ▸ he)
  · rintro ⟨a, us⟩ ha
    unfold Tr.toRes at ha
    cases hx : x.val with
    | error e => simp [hx, Except.map] at ha
    | ok b =>
      simp only [hx, Except.map, Except.ok.injEq, Prod.mk.injEq] at ha
      obtain ⟨rfl, _⟩ := ha
      exact h.val _ hx

/-! ## The dialplan -/

/-- No line feed in what is kept of an extension line. -/
structure ExtFlat (e : ExtLine) : Prop where
  pat : ∀ p, e.pat = some p → Flat (exampleOf p.2)
  jumps : ∀ j ∈ e.jumps, j.Flat

def DVarFlat (d : DVar) : Prop := ∀ e, d = .ext e → ExtFlat e

theorem flat_expectArrow (v : VarE) : ResFlat (fun _ => True) (expectArrow v) := by
  unfold expectArrow
  exact .ite (.pure trivial) (by plainMsg)

theorem flat_readPrio (w : Where) (p : Str) : ResFlat (fun _ => True) (readPrio w p) := by
  unfold readPrio
  refine .ite (.pure trivial) (.ite ?_ (.ite ?_ ?_))
  · split
    · exact .pure trivial
    · exact .raise _
  · exact .bind (Q := fun _ => True) (by plainMsg) fun _ _ => .pure trivial
  · exact .bind (Q := fun _ => True) (by plainMsg) fun _ _ => .pure trivial

theorem flat_readLabel (w : Where) (l : Option Str) : ResFlat (fun _ => True) (readLabel w l) := by
  unfold readLabel
  split
  · exact .pure trivial
  · exact .ite (.pure trivial) (.bind (Q := fun _ => True) (by plainMsg) fun _ _ => .pure trivial)

theorem flat_splitExten {v : VarE} (h : Flat v.value) {r : Option Str × Str} (hr : splitExten v = .ok r) :
    (∀ p, r.1 = some p → Flat p) ∧ Flat r.2 := by
  unfold splitExten at hr
  split at hr
  · split at hr
    · cases hr
    · rename_i p rest hs
      obtain ⟨h1, h2⟩ := h.splitOnce hs
      cases hr
      refine ⟨fun q hq => ?_, h2⟩
      dsimp only at hq
      split at hq
      · cases hq
      · cases hq; exact h1
  · cases hr; exact ⟨by simp, h⟩

theorem flat_splitApp {s : Str} (h : Flat s) : Flat (splitApp s).2 := by
  unfold splitApp
  split
  · rename_i p hp
    obtain ⟨a, b⟩ := p
    exact (h.splitOnce hp).2
  · exact .nil

theorem flat_readExten {env : DEnv} {sp : Option Str} {v : VarE} (h : Flat v.value) :
    ResFlat (fun r => DVarFlat r.2.2) (readExten env sp v) := by
  have no : ∀ x : Option Str × List Ev, DVarFlat (x.1, x.2, DVar.nothing).2.2 := fun _ e he => nomatch he
  unfold readExten
  refine .bind (.lift fun _ hr => flat_splitExten h hr) fun pr hpr => ?_
  refine .bind (flat_readPrio _ _) fun prio _ => ?_
  cases prio with
  | none => exact .pure (no (_, _))
  | some prio =>
    refine .bind (flat_readLabel _ _) fun label _ => ?_
    cases label with
    | none => exact .pure (no (_, _))
    | some label =>
      refine .bind (Q := fun o : Option (Str × Values) => ∀ p, o = some p → Flat (exampleOf p.2)) (.lift ?_) fun pat hpat =>
        .bind (toRes_flat (flat_runApp _ (.str (flat_splitApp hpr.2)))) fun r hr => .pure fun e he => ?_
      · intro o ho p hp
        subst hp
        unfold readPattern at ho
        split at ho
        · cases ho
        · rename_i raw hraw
          split at ho
          · rename_i v' hv'
            cases ho
            exact flat_parse (hpr.1 _ hraw) hv'
          · cases ho
      · cases he
        exact ⟨hpat, hr⟩

theorem flat_fromVarset {env : DEnv} {sp : Option Str} {v : VarE} (h : Flat v.value) :
    ResFlat (fun r => DVarFlat r.2.2) (fromVarset env sp v) := by
  have no : ∀ x : Option Str × List Ev, DVarFlat (x.1, x.2, DVar.nothing).2.2 := fun _ e he => nomatch he
  unfold fromVarset
  refine .ite (.bind (flat_expectArrow v) fun _ _ => flat_readExten h) ?_
  refine .ite (.bind (flat_expectArrow v) fun _ _ => .pure fun e he => nomatch he) ?_
  refine .ite (.bind (flat_expectArrow v) fun _ _ => .bind (Q := fun _ => True) (by plainMsg) fun _ _ => .pure (no (_, _))) ?_
  refine .ite (.bind (flat_expectArrow v) fun _ _ => .bind (Q := fun _ => True) (by plainMsg) fun _ _ => .pure (no (_, _))) ?_
  exact .bind (Q := fun _ => True) (by plainMsg) fun _ _ => .pure (no (_, _))

theorem flat_badOrder {w : Where} {raw : Str} {prio : Arg} (h : prio.Flat) : FlatMsg (badOrder w raw prio) :=
  .skip rfl (.take h .nil)

theorem flat_resolvePrio {e : ExtLine} {last : Option Nat} {c : DCtx} {raw : Str} {pat : Values} :
    ResFlat (fun _ => True) (resolvePrio last c raw pat e) := by
  have hb : ∀ n : Nat, ResFlat (fun _ => True) (Res.emit (badOrder e.at_ raw (natV n))) := fun n =>
    .emit (flat_badOrder .int)
  unfold resolvePrio
  split
  · refine .ite (.bind (Q := fun _ => True) (by plainMsg) fun _ _ => .pure trivial) ?_
    refine .bind (Q := fun _ => True) (.lift fun _ _ => trivial) fun bad _ => ?_
    refine .bind (Q := fun _ => True) (.ite (.emit (flat_badOrder (.str ?_))) (.pure trivial)) fun _ _ => .pure trivial
    unfold Flat
    decide
  · refine .ite (.bind (Q := fun _ => True) (by plainMsg) fun _ _ => .pure trivial) (.ite ?_ (.pure trivial))
    split
    · exact .bind (hb _) fun _ _ => .pure trivial
    · exact .ite (.bind (hb _) fun _ _ => .pure trivial) (.pure trivial)

theorem flat_cacheCheck {c : DCtx} {key : Str} {prio : Nat} {label : Option Str} {w : Where} :
    ResFlat (fun _ => True) (cacheCheck c key prio label w) := by
  unfold cacheCheck
  split
  · split <;> exact .pure trivial
  · split
    · exact .bind (Q := fun _ => True) (by plainMsg) fun _ _ => .pure trivial
    · dsimp only
      split
      · exact .pure trivial
      · split
        · exact .bind (Q := fun _ => True) (by plainMsg) fun _ _ => .pure trivial
        · exact .pure trivial

/-- No line feed in a destination. -/
structure DestFlat (d : Dest) : Prop where
  context : d.context.Flat
  exten : d.exten.Flat
  prio : d.prio.Flat

theorem flat_completeDest {ctx ex : Str} {w : Where} {j : Jump} {d : Dest} (hc : Flat ctx) (he : Flat ex) (hj : j.Flat)
    (h : completeDest ctx ex w j = .ok d) : DestFlat d := by
  have key : ∀ {x : Except Exc V} {p : Except Exc Arg} {c : V}, c.Flat → (∀ v, x = .ok v → v.Flat) →
      (∀ a, p = .ok a → a.Flat) →
      (match x, p with
        | .error e, _ => Except.error e
        | .ok _, .error e => .error e
        | .ok x, .ok p => .ok (⟨c, x, p, w⟩ : Dest)) = .ok d → DestFlat d := by
    intro x p c h1 h2 h3 h4
    cases x with
    | error e => cases h4
    | ok x =>
      cases p with
      | error e => cases h4
      | ok p => cases h4; exact ⟨h1, h2 _ rfl, h3 _ rfl⟩
  unfold completeDest at h
  refine key ?_ ?_ ?_ h
  · split
    · exact hj.context
    · exact .str hc
  · intro v hv
    split at hv
    · cases hv; exact .str he
    · split at hv
      · split at hv
        · rename_i s hs
          cases hv
          exact .str (hj.exten.format he hs)
        · cases hv; exact hj.exten
        · cases hv
      · cases hv; exact hj.exten
  · intro a ha
    split at ha
    · split at ha
      · split at ha
        · cases ha; exact .int
        · cases ha
      · cases ha; exact hj.prio
    · cases ha; exact hj.prio

theorem flat_completeDests {ctx ex : Str} {w : Where} {js : List Jump} {ds : List Dest} (hc : Flat ctx) (he : Flat ex)
    (hj : ∀ j ∈ js, j.Flat) (h : completeDests ctx ex w js = .ok ds) : ∀ d ∈ ds, DestFlat d := by
  induction js generalizing ds with
  | nil =>
    simp only [completeDests, Except.ok.injEq] at h
    subst h; simp
  | cons j js ih =>
    rw [completeDests] at h
    cases hd : completeDest ctx ex w j with
    | error e => simp [hd] at h
    | ok d =>
      simp only [hd] at h
      cases hr : completeDests ctx ex w js with
      | error e => simp [hr, Except.map] at h
      | ok ds' =>
        simp only [hr, Except.map, Except.ok.injEq] at h
        subst h
        intro x hx
        rcases List.mem_cons.1 hx with rfl | hx
        · exact flat_completeDest hc he (hj j (by simp)) hd
        · exact ih (fun j h => hj j (by simp [h])) hr x hx

/-- No line feed in a context. -/
structure CtxFlat (c : DCtx) : Prop where
  name : Flat c.name
  steps : ∀ s ∈ c.steps, Flat (exampleOf s.pat)

structure AddedFlat (a : Added) : Prop where
  ctx : CtxFlat a.ctx
  dests : ∀ d ∈ a.dests, DestFlat d

theorem flat_storeStep {c : DCtx} {raw : Str} {pat : Values} {prio : Nat} {e : ExtLine} (hc : CtxFlat c)
    (hp : Flat (exampleOf pat)) (he : ExtFlat e) : ResFlat AddedFlat (storeStep c raw pat prio e) := by
  unfold storeStep
  dsimp only
  refine .bind flat_cacheCheck fun r _ => ?_
  cases r with
  | none => exact .pure ⟨⟨hc.name, hc.steps⟩, by simp⟩
  | some r =>
    obtain ⟨pc, l, ls⟩ := r
    refine .bind (.lift fun ds hds => flat_completeDests hc.name hp he.jumps hds) fun ds hds => .pure ⟨⟨hc.name, ?_⟩, hds⟩
    intro s hs
    rcases List.mem_append.1 hs with hs | hs
    · exact hc.steps s hs
    · rw [List.mem_singleton.1 hs]; exact hp

theorem flat_addExt {last : Option Nat} {c : DCtx} {e : ExtLine} (hc : CtxFlat c) (he : ExtFlat e) :
    ResFlat AddedFlat (addExt last c e) := by
  unfold addExt
  dsimp only
  have hc' : CtxFlat { c with sorted := none } := ⟨hc.name, hc.steps⟩
  split
  · exact .bind (Q := fun _ => True) (by plainMsg) fun _ _ => .pure ⟨hc', by simp⟩
  · rename_i raw pat hr
    have hp : Flat (exampleOf pat) := by
      unfold resolvePat at hr
      split at hr
      · rename_i p hep
        cases hr
        exact he.pat _ hep
      · cases hl : c.steps.getLast? with
        | none => simp [hl] at hr
        | some s =>
          simp only [hl, Option.map_some, Option.some.injEq, Prod.mk.injEq] at hr
          rw [← hr.2]
          exact hc.steps s (List.mem_of_getLast? hl)
    refine .bind flat_resolvePrio fun r _ => ?_
    cases r with
    | none => exact .pure ⟨hc', by simp⟩
    | some prio => exact flat_storeStep hc' hp he

/-- No line feed in a dialplan. -/
structure DpFlat (dp : Dialplan) : Prop where
  contexts : ∀ c ∈ dp.contexts, CtxFlat c
  dests : ∀ d ∈ dp.dests, DestFlat d

theorem DpFlat.init : DpFlat .init := ⟨by simp [Dialplan.init], by simp [Dialplan.init]⟩

theorem DpFlat.put {dp : Dialplan} (h : DpFlat dp) {c : DCtx} (hc : CtxFlat c) : ∀ d ∈ putCtx c dp.contexts, CtxFlat d := by
  intro d hd
  rcases putCtx_mem hd with hd | hd
  · exact h.contexts d hd
  · exact hd ▸ hc

theorem flat_addGeneral {dp : Dialplan} (h : DpFlat dp) (c : CtxE) : ResFlat DpFlat (addGeneral dp c) := by
  unfold addGeneral
  split
  · exact .bind (Q := fun _ => True) (by plainMsg) fun _ _ => .raise _
  · exact .bind (Q := fun _ => True) (.ite (by plainMsg) (.pure trivial)) fun _ _ => .pure ⟨h.contexts, h.dests⟩

theorem flat_addGlobals {dp : Dialplan} (h : DpFlat dp) (c : CtxE) :
    ResFlat (fun r => DpFlat r.1) (addGlobals dp c) := by
  unfold addGlobals
  split
  · exact .bind (Q := fun _ => True) (by plainMsg) fun _ _ => .pure h
  · exact .bind (Q := fun _ => True) (.ite (by plainMsg) (.pure trivial)) fun _ _ => .pure ⟨h.contexts, h.dests⟩

theorem flat_onDialplanContext {dp dp' : Dialplan} (h : DpFlat dp) {c : CtxE} (hc : Flat c.name)
    (hd : onDialplanContext dp c = .ok dp') : DpFlat dp' := by
  unfold onDialplanContext at hd
  split at hd
  · rename_i old ho
    have hold := h.contexts old (get_in ho)
    unfold updateCtx at hd
    split at hd
    · rename_i new hn
      split at hn
      · simp at hn
      · split at hn
        · simp at hn
        · simp only [Except.ok.injEq] at hn hd
          subst hn hd
          exact ⟨h.put ⟨hold.name, hold.steps⟩, h.dests⟩
    · simp at hd
  · simp only [Except.ok.injEq] at hd
    subst hd
    refine ⟨?_, h.dests⟩
    intro d hd
    rcases List.mem_append.1 hd with hd | hd
    · exact h.contexts d hd
    · rw [List.mem_singleton.1 hd]
      exact ⟨hc, by simp⟩

theorem flat_onContext {st : DState} (h : DpFlat st.dp) {c : CtxE} (hc : Flat c.name) :
    ResFlat (fun st' => DpFlat st'.dp) (onContext st c) := by
  unfold onContext
  refine .ite (.bind (flat_addGeneral h c) fun _ hd => .pure hd) (.ite (.bind (flat_addGlobals h c) fun _ hd => .pure hd) ?_)
  exact .bind (Q := fun _ => True) (.ite (.pure trivial) (by plainMsg)) fun _ _ =>
    .bind (.lift fun _ hd => flat_onDialplanContext h hc hd) fun _ hd => .pure hd

theorem flat_canonCheck (e : ExtLine) : ResFlat (fun _ => True) (canonCheck e) := by
  unfold canonCheck
  split
  · exact .pure trivial
  · exact .ite (.pure trivial) (by plainMsg)

theorem flat_onDVar {dp : Dialplan} {c : DCtx} {d : DVar} (h : DpFlat dp) (hc : CtxFlat c) (hd : DVarFlat d) :
    ResFlat DpFlat (onDVar dp c d) := by
  cases d with
  | nothing => exact .pure h
  | include_ name w => exact .pure ⟨h.put ⟨hc.name, hc.steps⟩, h.dests⟩
  | ext e =>
    refine .bind (flat_canonCheck e) fun _ _ => .bind (flat_addExt hc (hd e rfl)) fun a ha => .pure ⟨h.put ha.ctx, ?_⟩
    intro d hd
    rcases List.mem_append.1 hd with hd | hd
    · exact h.dests d hd
    · exact ha.dests d hd

theorem flat_onVarset {env : DEnv} {st : DState} (h : DpFlat st.dp) {v : VarE} (hv : Flat v.value) :
    ResFlat (fun st' => DpFlat st'.dp) (onVarset env st v) := by
  unfold onVarset
  split
  · exact .bind (Q := fun _ => True) (by plainMsg) fun _ _ => .pure h
  · exact .pure ⟨h.contexts, h.dests⟩
  · exact .pure ⟨h.contexts, h.dests⟩
  · exact .pure h
  · split
    · exact .raise _
    · rename_i n c hc
      exact .bind (flat_fromVarset hv) fun r hr =>
        .bind (flat_onDVar h (h.contexts c (get_in hc)) hr) fun dp hdp => .pure hdp

theorem flat_step {env : DEnv} {st : DState} {e : Elem} (h : DpFlat st.dp) (he : ElemFlat e) :
    ResFlat (fun st' => DpFlat st'.dp) (dialplanStep env st e) := by
  cases e with
  | ctx c => exact flat_onContext h he
  | var v => exact flat_onVarset h he.2
  | empty c w => exact .pure h

theorem flat_destArgs {d : Dest} (h : DestFlat d) (ns : List Str) (l : Str) : FlatArgs ns (destArgs d l) :=
  .take h.context (.take h.exten (.take h.prio .nil))

theorem flat_walkDest {dp : Dialplan} {depth : Nat} {d : Dest} (h : DestFlat d) :
    ResFlat (fun _ => True) (walkDest dp depth d) := by
  unfold walkDest
  refine .ite ?_ ?_
  · split
    · exact .ite (.pure trivial) (.emit (flat_destArgs h _ _))
    · exact .pure trivial
  · split
    · exact .emit (flat_destArgs h _ _)
    · refine .ite ?_ ?_
      · split
        · exact .ite (.pure trivial) (.emit (flat_destArgs h _ _))
        · exact .pure trivial
      · split
        · refine .bind (Q := fun _ => True) (.lift fun _ _ => trivial) fun r _ => ?_
          cases r with
          | none => exact .emit (flat_destArgs h _ _)
          | some s => exact .pure trivial
        · exact .raise _

theorem flat_walkDests {dp : Dialplan} {depth : Nat} {ds : List Dest} (h : ∀ d ∈ ds, DestFlat d) :
    ResFlat (fun _ => True) (walkDests dp depth ds) := by
  induction ds with
  | nil => exact .pure trivial
  | cons d ds ih => exact .bind (flat_walkDest (h d (by simp))) fun _ _ => ih fun d hd => h d (by simp [hd])

/-! ## Whole checks -/

/-- No line feed in what is printed of the values, and the places have names and lines
without. -/
structure Lineless (m : Msg) : Prop where
  flat : FlatMsg m
  at_ : FlatWhere m.at_
  prev : ∀ w, m.previous = some w → FlatWhere w

theorem fine_lineless {m : Msg} (h : Fine FlatWhere m) : Lineless m := by
  refine ⟨flatMsg_none ?_, h.at_, by simp [h.prev]⟩
  have := h.kind
  generalize m.kind = k at this
  cases k <;> first | rfl | cases this

theorem logAll_and {α : Type} {P Q : Msg → Prop} {x : Res α} (h1 : LogAll P x) (h2 : LogAll Q x) :
    LogAll (fun m => P m ∧ Q m) x := fun m hm => ⟨h1 m hm, h2 m hm⟩

theorem lineless_of {α : Type} {E : AEnv} {x : Res α} (h1 : LogAll (Placed E FlatWhere) x) (h2 : LogAll FlatMsg x) : LogAll Lineless x :=
  (logAll_and h1 h2).mono fun _ h => ⟨h.2, h.1.2.1, h.1.2.2.1⟩

theorem flat_dialplan (env : DEnv) :
    ConsumesFlat Lineless (fun st : DState => DpIn FlatWhere st.dp ∧ DpFlat st.dp) (dialplanStep env) := by
  intro st e hst hw he
  obtain ⟨h1, h2⟩ := placed_step env st e hst.1 hw
  have h3 := flat_step (env := env) hst.2 he
  exact ⟨lineless_of h1 h3.msgs, fun t ht => ⟨h2 t ht, h3.val t ht⟩⟩

theorem flat_onComplete {dp : Dialplan} (h : DpIn FlatWhere dp) : LogAll Lineless (onComplete dp) := by
  refine (top_onComplete h).mono fun m hm => ?_
  obtain ⟨hk, _, hp, _, hl, w, hw, hf⟩ := hm
  refine ⟨flatMsg_none ?_, ⟨hf ▸ hw.1, by rw [hl]; simp [LineShape]⟩, by simp [hp]⟩
  rcases hk with hk | hk <;> rw [hk] <;> rfl

/-- Every message of checking a dialplan. -/
theorem flat_checkDialplan (fs : FS) (env : DEnv) (sp : Option Str) (n : Nat) {path : Str} (hp : Flat path) (content : Bytes) :
    LogAll Lineless (checkDialplan fs env sp n path content) := by
  have hst : PipeIn FlatWhere (⟨[openFrame path content], [], [], DState.init sp⟩ : PState DState) :=
    ⟨by simpa using flat_frame hp content, by simp [FfIn], by simp [VswIn]⟩
  obtain ⟨h1, h2⟩ := pipeRun_flat (fs := fs) (fun _ h => fine_lineless h) (flat_dialplan env) n hst ⟨DpIn.init, DpFlat.init⟩
  unfold checkDialplan
  refine LogAll.bind_ok h1 fun r hr => ?_
  cases r with
  | none => exact .pure _
  | some st =>
    obtain ⟨i1, i2⟩ := h2 st hr
    exact .bind (flat_onComplete i1) fun _ =>
      .bind (lineless_of (E := env.toAEnv) (placed_walkDests i1.dests _) (flat_walkDests i2.dests).msgs) fun _ => .pure _

end ALint
