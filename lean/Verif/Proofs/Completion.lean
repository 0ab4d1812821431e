import Verif.Spec.Completion
import Verif.Proofs.AppSays
import Verif.Proofs.Jumps

/-!
# The destinations of jumps, exactly
-/

namespace ALint
open ALint.Spec

/-! ## The values that come up -/

/-- What is known of the kinds of variables that are read. -/
def TameKind (k : Kind) (n s l : V) : Prop :=
  (k = .slice → ∃ a, s = .int a ∧ (l = .none ∨ ∃ b, l = .int b ∧ b ≠ 0 ∧ (a < 0 → 0 < b → a + b < 0))) ∧
  (k = .func ∨ k = .funcSlice → ∀ x t, n.format x = .ok t → '(' ∈ t)

mutual
/-- A text with variables as they are read. -/
def _root_.ALint.V.Tame : V → Prop
  | .str _ => True
  | .lst items => V.TameAll items
  | .atom k n s l => V.Tame n ∧ TameKind k n s l
  | .int _ => False
  | .none => False
def _root_.ALint.V.TameAll : List V → Prop
  | [] => True
  | v :: vs => V.Tame v ∧ V.TameAll vs
end

theorem tameAll_iff (vs : List V) : V.TameAll vs ↔ ∀ v ∈ vs, v.Tame := by
  induction vs with
  | nil => simp [V.TameAll]
  | cons v vs ih => simp [V.TameAll, ih]

mutual
theorem tame_tokens : (v : V) → v.Tame → ∀ t ∈ v.tokens, t.Tame
  | .str s, _, t, ht => by
    rw [V.tokens] at ht
    obtain ⟨c, _, rfl⟩ := List.mem_map.1 ht
    simp [V.Tame]
  | .lst items, h, t, ht => by
    rw [V.tokens] at ht
    rw [V.Tame] at h
    exact tameAll_tokens items h t ht
  | .atom k n s l, h, t, ht => by
    simp only [V.tokens, List.mem_singleton] at ht
    exact ht ▸ h
  | .int _, h, _, _ => by rw [V.Tame] at h; exact h.elim
  | .none, h, _, _ => by rw [V.Tame] at h; exact h.elim
theorem tameAll_tokens : (vs : List V) → V.TameAll vs → ∀ t ∈ V.tokensAll vs, t.Tame
  | [], _, t, ht => by simp [V.tokensAll] at ht
  | v :: vs, h, t, ht => by
    rw [V.TameAll] at h
    rw [V.tokensAll, List.mem_append] at ht
    exact ht.elim (tame_tokens v h.1 t) (tameAll_tokens vs h.2 t)
end

theorem tame_joinItems (vs : List V) (h : ∀ v ∈ vs, v.Tame) : ∀ v ∈ joinItems vs, v.Tame := by
  induction vs with
  | nil => simp [joinItems]
  | cons w vs ih =>
    have ih := ih fun v hv => h v (List.mem_cons_of_mem _ hv)
    have hw := h w List.mem_cons_self
    rw [joinItems]
    split
    · unfold joinCons
      split
      · rename_i heq _
        intro v hv
        rcases List.mem_cons.1 hv with rfl | hv
        · simp [V.Tame]
        · exact ih v (by rw [heq]; exact List.mem_cons_of_mem _ hv)
      · intro v hv
        rcases List.mem_cons.1 hv with rfl | hv
        · exact hw
        · exact ih v hv
    · exact ih

theorem tame_join {vs : List V} (h : ∀ v ∈ vs, v.Tame) : (join vs).Tame := by
  have hj := tame_joinItems vs h
  unfold join
  split
  · simp [V.Tame]
  · rename_i v hv; exact hj v (by simp [hv])
  · rw [V.Tame, tameAll_iff]; exact hj

theorem format_joinItems {x : Str} (vs : List V) : ∀ s, V.formatAll x (joinItems vs) = .ok s →
    ∀ u, V.str u ∈ vs → ∀ c ∈ u, c ∈ s := by
  induction vs with
  | nil => simp
  | cons w vs ih =>
    intro s hs u hu c hc
    rw [joinItems] at hs
    have tail : ∀ (v : V) (r : List V), V.formatAll x (v :: r) = .ok s → ∃ a b, v.format x = .ok a ∧
        V.formatAll x r = .ok b ∧ s = a ++ b := by
      intro v r h
      rw [V.formatAll] at h
      cases h1 : v.format x with
      | error e => rw [h1] at h; cases h
      | ok a =>
        rw [h1] at h
        cases h2 : V.formatAll x r with
        | error e => simp only [h2] at h; cases h
        | ok b =>
          simp only [h2] at h
          cases h
          exact ⟨a, b, rfl, rfl, rfl⟩
    split at hs
    · unfold joinCons at hs
      split at hs
      · rename_i a b r heq _
        obtain ⟨p, q, h1, h2, rfl⟩ := tail _ _ hs
        rw [V.format, Except.ok.injEq] at h1
        subst h1
        have hin : V.formatAll x (joinItems vs) = .ok (b ++ q) := by
          rw [heq, V.formatAll, V.format, h2]
          rfl
        rcases List.mem_cons.1 hu with he | hu
        · cases he; simp [hc]
        · have := ih _ hin u hu c hc
          rw [List.append_assoc]
          exact List.mem_append_right _ this
      · obtain ⟨p, q, h1, h2, rfl⟩ := tail _ _ hs
        rcases List.mem_cons.1 hu with he | hu
        · subst he
          rw [V.format, Except.ok.injEq] at h1
          subst h1
          simp [hc]
        · exact List.mem_append_right _ (ih _ h2 u hu c hc)
    · rename_i hf
      rcases List.mem_cons.1 hu with he | hu
      · subst he
        cases u with
        | nil => cases hc
        | cons a b => simp [V.truthy] at hf
      · exact ih _ hs u hu c hc

theorem format_join {x : Str} {vs : List V} {s : Str} (h : (join vs).format x = .ok s) {u : Str} (hu : V.str u ∈ vs) {c : Char}
    (hc : c ∈ u) : c ∈ s := by
  unfold join at h
  split at h
  · rename_i h0
    have := format_joinItems (x := x) vs [] (by rw [h0, V.formatAll]) u hu c hc
    cases this
  · rename_i v hv
    refine format_joinItems (x := x) vs s ?_ u hu c hc
    rw [hv, V.formatAll, h, V.formatAll]
    simp [Except.map]
  · rw [V.format] at h
    exact format_joinItems vs s h u hu c hc

/-! ## Reading -/

theorem tame_sepBy {c : Char} {parts : List (List V)} (h : ∀ t ∈ sepBy (tk c) parts, t.Tame) : ∀ p ∈ parts, ∀ t ∈ p, t.Tame := by
  induction parts with
  | nil => simp
  | cons p parts ih =>
    cases parts with
    | nil =>
      intro q hq t ht
      rw [sepBy] at h
      rcases List.mem_cons.1 hq with rfl | hq
      · exact h t ht
      · cases hq
    | cons q' parts =>
      rw [sepBy] at h
      intro q hq t ht
      rcases List.mem_cons.1 hq with rfl | hq
      · exact h t (List.mem_append_left _ ht)
      · exact ih (fun t ht => h t (List.mem_append_right _ (List.mem_cons_of_mem _ ht))) q hq t ht

theorem tame_fields {c : Char} {v : V} {parts : List V} (h : Fields c v parts) (hv : v.Tame) : ∀ p ∈ parts, p.Tame := by
  induction h with
  | text h1 h2 h3 h4 =>
    intro p hp
    obtain ⟨q, hq, rfl⟩ := List.mem_map.1 hp
    have := tame_tokens _ hv
    rw [h3] at this
    exact tame_join (tame_sepBy this q hq)
  | inside h1 h2 ih => exact ih (by simp [V.Tame])
  | whole h1 h2 =>
    intro p hp
    rw [List.mem_singleton] at hp
    subst hp
    rw [V.Tame] at hv
    exact hv.1

theorem tame_slice {w : Where} {data name start length : V} {evs : List Ev} (h : SliceSays w data name start length evs)
    (hd : data.Tame) : name.Tame ∧ (takenPart name start length).Tame := by
  have var : ∀ {n l : V}, n.Tame → (takenPart n .none l).Tame := by
    intro n l hn
    simp only [takenPart, if_true, V.Tame, TameKind]
    exact ⟨hn, by simp, by simp⟩
  have good : ∀ {n s l : V}, n.Tame → (s.isVar = true ∨ ∃ a, s = .int a ∧ (l.isVar = true ∨ l = .none ∨
      ∃ b, l = .int b ∧ b ≠ 0 ∧ (a < 0 → 0 < b → a + b < 0))) → (takenPart n s l).Tame := by
    intro n s l hn hs
    have dyn : (V.atom .dynSlice n s l).Tame := by rw [V.Tame]; exact ⟨hn, by simp [TameKind]⟩
    rcases hs with hs | ⟨a, rfl, h⟩
    · have hne : s ≠ .none := by rintro rfl; cases hs
      simp only [takenPart, if_neg hne, hs, Bool.true_or, if_true]
      exact dyn
    · have hne : V.int a ≠ .none := nofun
      have hv : (V.int a).isVar = false := rfl
      rcases h with h | h
      · simp only [takenPart, if_neg hne, h, Bool.or_true, if_true]
        exact dyn
      · have hl : l.isVar = false := by rcases h with rfl | ⟨b, rfl, _⟩ <;> rfl
        simp only [takenPart, if_neg hne, hv, hl, Bool.or_false, Bool.false_eq_true, if_false, V.Tame, TameKind]
        exact ⟨hn, fun _ => ⟨a, rfl, h⟩, by simp⟩
  have means : ∀ {s start : V}, Means s start → start.isVar = true ∨ ∃ a, start = .int a := by
    rintro s start (⟨h1, rfl⟩ | ⟨_, n, _, rfl, _⟩)
    · exact .inl h1
    · exact .inr ⟨n, rfl⟩
  cases h with
  | wrongNumber h1 _ _ _ => have hn := tame_fields h1 hd _ List.mem_cons_self; exact ⟨hn, var hn⟩
  | start h1 h2 _ =>
    have hn := tame_fields h1 hd _ List.mem_cons_self
    refine ⟨hn, good hn ?_⟩
    rcases means h2 with h | ⟨a, rfl⟩
    · exact .inl h
    · exact .inr ⟨a, rfl, .inr (.inl rfl)⟩
  | zero h1 _ => have hn := tame_fields h1 hd _ List.mem_cons_self; exact ⟨hn, var hn⟩
  | badStart h1 _ _ => have hn := tame_fields h1 hd _ List.mem_cons_self; exact ⟨hn, var hn⟩
  | both h1 h2 h3 h4 =>
    have hn := tame_fields h1 hd _ List.mem_cons_self
    refine ⟨hn, good hn ?_⟩
    obtain ⟨hs, hl, _⟩ := h4
    rcases hs with ⟨a, rfl⟩ | hs
    · refine .inr ⟨a, rfl, ?_⟩
      rcases hl with rfl | hl | ⟨a', b, he, rfl, hb, hlt⟩
      · exact .inr (.inl rfl)
      · exact .inl hl
      · cases he
        exact .inr (.inr ⟨b, rfl, hb, fun ha _ => hlt ha⟩)
    · exact .inl hs
  | badLength h1 _ _ => have hn := tame_fields h1 hd _ List.mem_cons_self; exact ⟨hn, var hn⟩
  | unfit h1 h2 _ _ _ =>
    have hn := tame_fields h1 hd _ List.mem_cons_self
    refine ⟨hn, good hn ?_⟩
    rcases means h2 with h | ⟨a, rfl⟩
    · exact .inl h
    · exact .inr ⟨a, rfl, .inr (.inl rfl)⟩
  | unfitZero h1 _ _ => have hn := tame_fields h1 hd _ List.mem_cons_self; exact ⟨hn, var hn⟩

theorem tame_parts {w : Where} {data : V} {rest : List V} {args start length : V} {evs : List Ev}
    (h : CallParts w data rest args start length evs) (hr : ∀ t ∈ rest, t.Tame) : args.Tame := by
  cases h with
  | «open» _ _ => exact tame_join hr
  | closed => exact tame_join fun t ht => hr t (List.mem_append_left _ ht)
  | part _ _ _ => exact tame_join fun t ht => hr t (List.mem_append_left _ ht)
  | excess _ _ _ _ _ => exact tame_join fun t ht => hr t (List.mem_append_left _ ht)

theorem tame_curly {env : FEnv} {w : Where} {data v : V} {evs : List Ev} (h : CurlySays env w data v evs) (hd : data.Tame) :
    v.Tame := by
  cases h with
  | var _ _ _ => rw [V.Tame]; exact ⟨hd, by simp [TameKind]⟩
  | slice _ _ h _ => exact (tame_slice h hd).2
  | @call f rest args start length fi parts look call h1 _ _ h2 _ _ =>
    have ht := tame_tokens _ hd
    rw [h1] at ht
    have ha := tame_parts h2 fun t hr => ht t (List.mem_append_right _ (List.mem_cons_of_mem _ hr))
    unfold called
    rw [V.Tame]
    refine ⟨tame_join ?_, ?_, ?_⟩
    · intro v hv
      simp only [List.mem_cons, List.not_mem_nil, or_false] at hv
      rcases hv with rfl | rfl | rfl | rfl <;> simp [V.Tame, ha]
    · split <;> simp
    · intro _ x t h
      exact format_join h (u := c! "(") (by simp) (by simp)

theorem tame_reads {env : FEnv} {w : Where} {s : Str} {l : List V} {evs : List Ev} (h : TextReads env w s l evs) :
    ∀ v ∈ l, v.Tame := by
  have str : ∀ s : Str, (V.str s).Tame := fun s => by simp [V.Tame]
  induction h with
  | plain _ => intro v hv; rw [List.mem_singleton] at hv; exact hv ▸ str _
  | curly _ _ _ hv _ ih1 ih2 =>
    intro u hu
    rcases List.mem_cons.1 hu with rfl | hu
    · exact str _
    · rcases List.mem_cons.1 hu with rfl | hu
      · exact tame_curly hv (tame_join ih1)
      · exact ih2 u hu
  | square _ _ _ _ ih1 ih2 =>
    intro u hu
    rcases List.mem_cons.1 hu with rfl | hu
    · exact str _
    · rcases List.mem_cons.1 hu with rfl | hu
      · rw [V.Tame]; exact ⟨tame_join ih1, by simp [TameKind]⟩
      · exact ih2 u hu

theorem tame_data {env : FEnv} {w : Where} {app s : Str} {v : V} {evs : List Ev} (h : DataSays env w app s v evs) : v.Tame := by
  cases h with
  | text h => exact tame_join (tame_reads h)
  | unread _ => simp [V.Tame]

/-! ## The jumps of an application -/

theorem tame_unquote (e : Bool) (ts : List V) : ∀ t ∈ unquoteToks e ts, t ∈ ts := by
  induction ts generalizing e with
  | nil => simp [unquoteToks]
  | cons t ts ih =>
    intro u hu
    have h1 := ih true u
    have h2 := ih false u
    cases e <;> cases t <;> simp only [unquoteToks] at hu <;> (try split at hu) <;> (try split at hu) <;>
      simp only [List.mem_cons] at hu ⊢ <;> (try rcases hu with hu | hu) <;> first
        | exact .inl hu
        | exact .inr (h1 hu)
        | exact .inr (h2 hu)

/-- Given as a text with variables, or not at all. -/
def Usable (v : V) : Prop := v = .none ∨ v.Tame

theorem usable_aligned {args : List V} {c e p : V} (h : Aligned args c e p) (ha : ∀ a ∈ args, a.Tame) : Usable e := by
  have : e ∈ List.replicate (3 - args.length) V.none ++ args := by rw [← h]; simp
  rcases List.mem_append.1 this with h | h
  · exact .inl (List.mem_replicate.1 h).2
  · exact .inr (ha _ h)

theorem tame_args {d : Char} {data : V} {args : List V} (h : ArgsOf d data args) (hd : data.Tame) : ∀ a ∈ args, a.Tame := by
  obtain ⟨parts, h1, rfl⟩ := h
  intro a ha
  obtain ⟨p, hp, rfl⟩ := List.mem_map.1 ha
  have := tame_tokens _ hd
  rw [← h1.2.1] at this
  exact tame_join (tame_sepBy this p hp)

theorem usable_goto {args : List V} {j : Jump} (h : GotoSays args j) (ha : ∀ a ∈ args, a.Tame) : Usable j.exten := by
  obtain ⟨_, c, e, p, h, rfl⟩ := h
  exact usable_aligned h ha

theorem usable_gosub {w : Where} {name : Str} {warn : Bool} {args : List V} {j : Jump} {evs : List Ev}
    (h : GosubSays w name warn args j evs) (ha : ∀ a ∈ args, a.Tame) : Usable j.exten := by
  cases h with
  | upTo3 _ h _ => exact usable_aligned h ha
  | more _ _ => exact .inr (ha _ (by simp))

theorem tame_acts {w : Where} {name : Str} {data : V} {cond : List V} {acts : List Arg} {evs : List Ev}
    (h : PartsSay w name data cond acts evs) (hd : data.Tame) :
    ∀ a ∈ acts, (∀ v, a = .one v → v.Tame) ∧ ∀ vs, a = .many vs → ∀ v ∈ vs, v.Tame := by
  have ht := tame_tokens _ hd
  have key : ∀ (c s : List V) (more as : List (List V)), Pieces '?' data.tokens (c :: s :: more) →
      Pieces ':' (unquoteToks false s) as →
      ∀ a ∈ ((as.take 2).filter (!·.isEmpty)).map (fun a => Arg.one (join a)),
        (∀ v, a = .one v → v.Tame) ∧ ∀ vs, a = .many vs → ∀ v ∈ vs, v.Tame := by
    intro c s more as h1 h2 a ha
    obtain ⟨p, hp, rfl⟩ := List.mem_map.1 ha
    refine ⟨?_, nofun⟩
    rintro v ⟨⟩
    have hp : p ∈ as := List.mem_of_mem_take (List.mem_filter.1 hp).1
    rw [← h1.2.1] at ht
    have hs := tame_sepBy ht s (by simp)
    have hu : ∀ t ∈ sepBy (tk ':') as, t.Tame := by
      intro t ht
      have e : sepBy (tk ':') as = unquoteToks false s := h2.2.1
      rw [e] at ht
      exact hs t (tame_unquote _ _ t ht)
    exact tame_join (tame_sepBy hu p hp)
  cases h with
  | two h1 h2 => exact key _ _ _ _ h1 h2
  | many h1 h2 => exact key _ _ _ _ h1 h2
  | old _ h2 _ _ =>
    intro a ha
    rw [List.mem_singleton] at ha
    subst ha
    refine ⟨nofun, ?_⟩
    rintro vs ⟨⟩ v hv
    obtain ⟨p, hp, rfl⟩ := List.mem_map.1 hv
    rw [← h2.2.1] at ht
    exact tame_join (tame_sepBy ht p (List.mem_cons_of_mem _ hp))
  | few _ _ => simp

theorem tame_actionArgs {act : Arg} {args : List V} (h : ActionArgs act args)
    (ha : (∀ v, act = .one v → v.Tame) ∧ ∀ vs, act = .many vs → ∀ v ∈ vs, v.Tame) : ∀ a ∈ args, a.Tame := by
  cases h with
  | @text v args h =>
    obtain ⟨parts, h1, rfl⟩ := h
    intro a h
    obtain ⟨p, hp, rfl⟩ := List.mem_map.1 h
    have := tame_tokens _ (ha.1 v rfl)
    rw [← h1.2.1] at this
    exact tame_join fun t ht => tame_sepBy this p hp t (tame_unquote _ _ t ht)
  | @old vs =>
    intro a h
    rw [List.mem_singleton] at h
    subst h
    exact tame_join fun v hv => ha.2 vs rfl v (List.mem_filter.1 hv).1

theorem zips_mem {α β : Type} {R : α → β → Prop} {as : List α} {bs : List β} (h : Zips R as bs) :
    ∀ b ∈ bs, ∃ a ∈ as, R a b := by
  induction h with
  | nil => simp
  | cons h _ ih =>
    intro b hb
    rcases List.mem_cons.1 hb with rfl | hb
    · exact ⟨_, List.mem_cons_self, h⟩
    · obtain ⟨a, ha, h⟩ := ih b hb
      exact ⟨a, List.mem_cons_of_mem _ ha, h⟩

/-- The extension of a jump is a text with variables, or missing. -/
theorem line_usable {env : AEnv} {w : Where} {sp sp' : Option Str} {raw : V} {evs : List Ev} {js : List Jump}
    (h : LineSays env w sp raw evs sp' js) : ∀ j ∈ js, Usable j.exten := by
  cases h with
  | blankBehind _ _ => simp
  | noName _ => simp
  | app _ _ _ _ _ _ _ hd hc =>
    have hv := tame_data hd
    cases hc with
    | plain _ _ => simp
    | set _ _ _ => simp
    | args _ _ _ _ _ _ => simp
    | goto _ ha _ _ hg =>
      intro j hj
      rw [List.mem_singleton] at hj
      exact hj ▸ usable_goto hg (tame_args ha hv)
    | gosub _ ha _ _ hg =>
      intro j hj
      rw [List.mem_singleton] at hj
      exact hj ▸ usable_gosub hg (tame_args ha hv)
    | ifTime _ _ => simp
    | gotoIf _ hc hz =>
      intro j hj
      obtain ⟨a, ha, args, h1, h2⟩ := zips_mem hz j hj
      cases hc with
      | mk hp _ _ _ _ => exact usable_goto h2 (tame_actionArgs h1 (tame_acts hp hv a ha))
    | gosubIf _ hc hz =>
      intro j hj
      obtain ⟨q, hq, rfl⟩ := List.mem_map.1 hj
      obtain ⟨a, ha, args, h1, h2⟩ := zips_mem hz q hq
      cases hc with
      | mk hp _ _ _ _ => exact usable_gosub h2 (tame_actionArgs h1 (tame_acts hp hv a ha))
    | execIf _ _ _ => simp

/-! ## Completing -/

mutual
theorem taken_format {x : Str} : ∀ {v : V} {s : Str}, Taken x v s → v.format x = .ok s
  | _, _, .text s => by simp [V.format]
  | _, _, .joined items s h => by rw [V.format]; exact takenAll_format h
  | _, _, .whole k name a b hk h => taken_atom h (by rcases hk with rfl | rfl | rfl <;> rfl)
  | _, _, .from_ name start h => taken_atom h (by simp [formatKind, sliceFormat, pySlice_none])
  | _, _, .slice name start n h hn hneg =>
    taken_atom h (by simp [formatKind, sliceFormat, hn, pySlice_some x start n hn hneg])
theorem taken_atom {x : Str} {name a b : V} {k : Kind} {s : Str} : Taken x name (c! "EXTEN") →
    formatKind k x a b = .ok s → (V.atom k name a b).format x = .ok s
  | h, hk => by
    have := taken_format h
    cases name with
    | str key =>
      simp only [V.format, Except.ok.injEq] at this
      subst this
      simp [V.format, lookupExten, hk]
    | lst items =>
      rw [V.format] at this
      simp [V.format, this, lookupExten, hk]
    | atom k' n' a' b' =>
      rw [V.format, this]
      simp [lookupExten, hk]
    | int n => simp [V.format] at this
    | none => simp [V.format] at this
theorem takenAll_format {x : Str} : ∀ {vs : List V} {s : Str}, TakenAll x vs s → V.formatAll x vs = .ok s
  | _, _, .nil => by simp [V.formatAll]
  | _, _, .cons v vs s t h hs => by
    rw [V.formatAll, taken_format h, takenAll_format hs]
    rfl
end

/-- The text of a variable, from that of its name. -/
theorem format_atom (x : Str) (k : Kind) (n s l : V) (hn : n.Tame) : (V.atom k n s l).format x =
    match n.format x with
    | .error e => .error e
    | .ok key => if key = c! "EXTEN" then formatKind k x s l else .error .keyError := by
  have look : ∀ key, (match lookupExten x key with
      | .error e => Except.error e
      | .ok value => formatKind k value s l) = if key = c! "EXTEN" then formatKind k x s l else .error .keyError := by
    intro key
    unfold lookupExten
    by_cases h : key = c! "EXTEN"
    · rw [if_pos h, if_pos h]
    · rw [if_neg h, if_neg h]
  cases n with
  | str key => simp only [V.format]; exact look key
  | lst items =>
    simp only [V.format]
    cases V.formatAll x items with
    | error e => rfl
    | ok key => exact look key
  | atom k' n' s' l' =>
    rw [V.format]
    cases (V.atom k' n' s' l').format x with
    | error e => rfl
    | ok key => exact look key
  | int n => rw [V.Tame] at hn; exact hn.elim
  | none => rw [V.Tame] at hn; exact hn.elim

mutual
/-- There is a text as in the specification, or a name is not known. -/
theorem tame_format {x : Str} : (v : V) → v.Tame → (∃ s, v.format x = .ok s ∧ Taken x v s) ∨ v.format x = .error .keyError
  | .str s, _ => .inl ⟨s, by rw [V.format], .text s⟩
  | .lst items, h => by
    rw [V.Tame] at h
    rw [V.format]
    rcases tameAll_format items h with ⟨s, h1, h2⟩ | h1
    · exact .inl ⟨s, h1, .joined items s h2⟩
    · exact .inr h1
  | .atom k n s l, h => by
    rw [V.Tame] at h
    rw [format_atom x k n s l h.1]
    rcases tame_format n h.1 with ⟨key, h1, h2⟩ | h1
    · rw [h1]
      simp only
      split
      · rename_i hkey
        subst hkey
        have hk := h.2
        have hw := fun hk => Taken.whole (x := x) k n s l hk h2
        cases k with
        | var => exact .inl ⟨x, rfl, hw (.inl rfl)⟩
        | expr => exact .inl ⟨x, rfl, hw (.inr (.inl rfl))⟩
        | dynSlice => exact .inl ⟨x, rfl, hw (.inr (.inr rfl))⟩
        | func => exact absurd (hk.2 (.inl rfl) x _ h1) (by decide)
        | funcSlice => exact absurd (hk.2 (.inr rfl) x _ h1) (by decide)
        | slice =>
          obtain ⟨a, rfl, rfl | ⟨b, rfl, hb, hneg⟩⟩ := hk.1 rfl
          · exact .inl ⟨_, by simp [formatKind, sliceFormat, pySlice_none], .from_ n a h2⟩
          · exact .inl ⟨_, by simp [formatKind, sliceFormat, hb, pySlice_some x a b hb hneg], .slice n a b h2 hb hneg⟩
      · exact .inr rfl
    · rw [h1]
      exact .inr rfl
  | .int _, h => by rw [V.Tame] at h; exact h.elim
  | .none, h => by rw [V.Tame] at h; exact h.elim
theorem tameAll_format {x : Str} : (vs : List V) → V.TameAll vs →
    (∃ s, V.formatAll x vs = .ok s ∧ TakenAll x vs s) ∨ V.formatAll x vs = .error .keyError
  | [], _ => .inl ⟨[], by rw [V.formatAll], .nil⟩
  | v :: vs, h => by
    rw [V.TameAll] at h
    rw [V.formatAll]
    rcases tame_format v h.1 with ⟨s, h1, h2⟩ | h1
    · rcases tameAll_format vs h.2 with ⟨t, h3, h4⟩ | h3
      · exact .inl ⟨s ++ t, by rw [h1, h3]; rfl, .cons v vs s t h2 h4⟩
      · exact .inr (by rw [h1, h3]; rfl)
    · exact .inr (by rw [h1])
end

theorem extenFor_usable {x : Str} {e : V} (h : Usable e) : ∃ v, extenFor x e = .ok v ∧ (Missing e → v = .str x) ∧
    (∀ s, ¬ Missing e → Taken x e s → v = .str s) ∧ (¬ Missing e → (∀ s, ¬ Taken x e s) → v = e) := by
  unfold extenFor
  rw [missing_iff]
  cases ht : e.truthy with
  | false => exact ⟨.str x, by simp, by simp, by simp, by simp⟩
  | true =>
    simp only [Bool.not_true, Bool.false_eq_true, if_false]
    have hm : e.Tame := by
      rcases h with rfl | h
      · cases ht
      · exact h
    cases hv : e.isVar with
    | false =>
      refine ⟨e, by simp, by simp, ?_, by simp⟩
      intro s _ hs
      cases hs with
      | text => rfl
      | _ => cases hv
    | true =>
      simp only [if_true]
      rcases tame_format (x := x) e hm with ⟨s, h1, h2⟩ | h1
      · refine ⟨.str s, by rw [h1], by simp, ?_, fun _ hn => absurd h2 (hn s)⟩
        intro t _ h3
        have := taken_format h3
        rw [h1] at this
        cases this
        rfl
      · refine ⟨e, by rw [h1], by simp, ?_, by simp⟩
        intro t _ h3
        have := taken_format h3
        rw [h1] at this
        cases this

theorem prioFor_iff (p q : Arg) : prioFor p = .ok q ↔ (∀ s, p = .one (.str s) → isDigitS s = true → ∃ n, decNat 0 s = some n ∧ q = natV n) ∧
    ((∀ s, p = .one (.str s) → isDigitS s = false) → q = p) := by
  unfold prioFor
  split
  · rename_i s
    cases hs : isDigitS s with
    | false =>
      rw [if_neg (by simp)]
      constructor
      · rintro ⟨⟩
        refine ⟨?_, fun _ => rfl⟩
        rintro t ⟨⟩ ht
        rw [hs] at ht
        cases ht
      · rintro ⟨_, h⟩
        rw [h]
        rintro t ⟨⟩
        exact hs
    | true =>
      rw [if_pos rfl]
      have no : ¬ ∀ t, Arg.one (.str s) = .one (.str t) → isDigitS t = false := fun h => by
        have := h s rfl
        rw [hs] at this
        cases this
      cases hn : decNat 0 s with
      | none =>
        constructor
        · rintro ⟨⟩
        · rintro ⟨h, _⟩
          obtain ⟨n, h, _⟩ := h s rfl hs
          rw [hn] at h
          cases h
      | some n =>
        constructor
        · rintro ⟨⟩
          refine ⟨?_, fun h => absurd h no⟩
          rintro t ⟨⟩ _
          exact ⟨n, hn, rfl⟩
        · rintro ⟨h, _⟩
          obtain ⟨m, hm, rfl⟩ := h s rfl hs
          rw [hn] at hm
          cases hm
          rfl
  · rename_i hne
    constructor
    · rintro ⟨⟩
      exact ⟨fun s hs => absurd hs (hne s), fun _ => rfl⟩
    · rintro ⟨_, h⟩
      rw [h fun s hs => absurd hs (hne s)]

theorem prioFor_error (p : Arg) : (∃ e, prioFor p = .error e) ↔ BadNumber p := by
  unfold prioFor BadNumber
  split
  · rename_i s
    cases hs : isDigitS s with
    | false => simp [hs]
    | true =>
      simp only [if_true]
      cases hn : decNat 0 s with
      | none => simp [hs, hn]
      | some n => simp [hs, hn]
  · rename_i hne
    constructor
    · rintro ⟨e, ⟨⟩⟩
    · rintro ⟨s, rfl, _⟩
      exact absurd rfl (hne s)

theorem completeDest_eq (name x : Str) (w : Where) (j : Jump) : completeDest name x w j =
    match extenFor x j.exten, prioFor j.prio with
      | .error e, _ => .error e
      | .ok _, .error e => .error e
      | .ok x, .ok p => .ok ⟨if j.context.truthy then j.context else .str name, x, p, w⟩ := by
  unfold completeDest extenFor prioFor
  obtain ⟨c, e, p⟩ := j
  cases p with
  | many l => rfl
  | one v => cases v <;> rfl

/-- The destination of a jump, exactly. -/
theorem completeDest_iff {name x : Str} {w : Where} {j : Jump} (h : Usable j.exten) (d : Dest) :
    completeDest name x w j = .ok d ↔ CompletedAs name x w j d := by
  obtain ⟨v, h1, h2, h3, h4⟩ := extenFor_usable (x := x) h
  rw [completeDest_eq, h1]
  constructor
  · intro hd
    cases hp : prioFor j.prio with
    | error e => rw [hp] at hd; cases hd
    | ok p =>
      rw [hp] at hd
      cases hd
      have hq := (prioFor_iff _ _).1 hp
      refine ⟨rfl, ?_, ?_, h2, h3, h4, hq.1, hq.2⟩
      · intro hm
        rw [missing_iff] at hm
        simp [Bool.not_eq_false _ ▸ hm]
      · intro hm
        rw [missing_iff] at hm
        simp [hm]
  · intro hd
    rw [(prioFor_iff _ _).2 ⟨hd.number, hd.other⟩]
    obtain ⟨c', x', p', w'⟩ := d
    obtain ⟨k1, k2, k3, k4, k5, k6, -, -⟩ := hd
    simp only at k1 k2 k3 k4 k5 k6
    have hx : v = x' := by
      by_cases hm : Missing j.exten
      · rw [h2 hm, k4 hm]
      · by_cases ht : ∃ s, Taken x j.exten s
        · obtain ⟨s, hs⟩ := ht
          rw [h3 s hm hs, k5 s hm hs]
        · rw [h4 hm fun s hs => ht ⟨s, hs⟩, k6 hm fun s hs => ht ⟨s, hs⟩]
    have hc : (if j.context.truthy then j.context else .str name) = c' := by
      by_cases hm : Missing j.context
      · rw [k3 hm, (missing_iff _).1 hm]
        rfl
      · rw [k2 hm]
        rw [missing_iff] at hm
        simp only [Bool.not_eq_false] at hm
        rw [hm]
        rfl
    simp [hx, hc, k1]

theorem completeDest_error {name x : Str} {w : Where} {j : Jump} (h : Usable j.exten) :
    (∃ e, completeDest name x w j = .error e) ↔ BadNumber j.prio := by
  obtain ⟨v, h1, -⟩ := extenFor_usable (x := x) h
  rw [completeDest_eq, h1, ← prioFor_error]
  cases prioFor j.prio with
  | error e => simp
  | ok p => simp

theorem completeDests_zips {name x : Str} {w : Where} : ∀ {js : List Jump} {ds : List Dest}, (∀ j ∈ js, Usable j.exten) →
    completeDests name x w js = .ok ds → Zips (CompletedAs name x w) js ds
  | [], ds, _, h => by
    rw [completeDests] at h
    cases h
    exact .nil
  | j :: js, ds, hu, h => by
    rw [completeDests] at h
    cases hd : completeDest name x w j with
    | error e => rw [hd] at h; cases h
    | ok d =>
      rw [hd] at h
      simp only at h
      cases hr : completeDests name x w js with
      | error e => rw [hr] at h; cases h
      | ok r =>
        rw [hr] at h
        cases h
        exact .cons ((completeDest_iff (hu j List.mem_cons_self) d).1 hd)
          (completeDests_zips (fun j hj => hu j (List.mem_cons_of_mem _ hj)) hr)

theorem zips_unique {α β : Type} {R : α → β → Prop} (hR : ∀ a b c, R a b → R a c → b = c) {as : List α} {bs cs : List β}
    (h : Zips R as bs) : Zips R as cs → bs = cs := by
  induction h generalizing cs with
  | nil => rintro ⟨⟩; rfl
  | cons h _ ih =>
    intro h'
    cases h' with
    | cons h1 h2 => rw [hR _ _ _ h h1, ih h2]

theorem completedAs_unique {name x : Str} {w : Where} {j : Jump} {d1 d2 : Dest} (h1 : CompletedAs name x w j d1)
    (h2 : CompletedAs name x w j d2) : d1 = d2 := by
  obtain ⟨c, e, p, w1⟩ := d1
  obtain ⟨c', e', p', w2⟩ := d2
  have hw : w1 = w2 := h1.place.trans h2.place.symm
  have hc : c = c' := by
    by_cases hm : Missing j.context
    · exact (h1.sameContext hm).trans (h2.sameContext hm).symm
    · exact (h1.context hm).trans (h2.context hm).symm
  have he : e = e' := by
    by_cases hm : Missing j.exten
    · exact (h1.here hm).trans (h2.here hm).symm
    · by_cases ht : ∃ s, Taken x j.exten s
      · obtain ⟨s, hs⟩ := ht
        exact (h1.taken s hm hs).trans (h2.taken s hm hs).symm
      · exact (h1.unknown hm fun s hs => ht ⟨s, hs⟩).trans (h2.unknown hm fun s hs => ht ⟨s, hs⟩).symm
  have hp : p = p' := by
    have a := (prioFor_iff j.prio p).2 ⟨h1.number, h1.other⟩
    have b := (prioFor_iff j.prio p').2 ⟨h2.number, h2.other⟩
    rw [a] at b
    cases b
    rfl
  rw [hc, he, hp, hw]

end ALint
