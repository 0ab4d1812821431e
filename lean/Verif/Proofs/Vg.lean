import Verif.Spec.Vg
import Verif.Proofs.Canon
import Verif.Proofs.Res
import Verif.Proofs.Fileformat
import Verif.Proofs.Supplies

/-!
# Lemmas about the reader of the `vg` command
-/

namespace ALint
open Spec

theorem vgCut_append (st : List Char) (s : Str) : (vgCut st s).1 ++ (vgCut st s).2 = s := by
  induction s generalizing st with
  | nil => rfl
  | cons c s ih =>
    unfold vgCut
    split
    · rfl
    · simp [ih]

theorem vgCut_cons {st : List Char} {c : Char} {s : Str} (h : ¬ (c = ';' ∧ st = [])) :
    vgCut st (c :: s) = (c :: (vgCut (vgStep st c) s).1, (vgCut (vgStep st c) s).2) := by
  rw [vgCut, if_neg h]

theorem vgCut_double (st : List Char) (rest : Str) : ∀ q : Str, MildDouble q →
    vgCut ('"' :: st) (q ++ '"' :: rest) = (q ++ '"' :: (vgCut st rest).1, (vgCut st rest).2) := by
  intro q
  induction q with
  | nil =>
    intro _
    rw [List.nil_append, vgCut_cons (by simp)]
    rfl
  | cons c q ih =>
    intro h
    obtain ⟨h1, h2⟩ := h
    simp only [List.mem_cons, not_or] at h1 h2
    have hs : vgStep ('"' :: st) c = '"' :: st := by
      unfold vgStep
      rw [if_neg (Ne.symm h1.1), if_neg (Ne.symm h2.1)]
      simp
    rw [List.cons_append, vgCut_cons (by simp), hs, ih ⟨h1.2, h2.2⟩]
    rfl

theorem vgCut_single (st : List Char) (rest : Str) : ∀ q : Str, MildSingle q →
    vgCut ('\'' :: st) (q ++ '\'' :: rest) = (q ++ '\'' :: (vgCut st rest).1, (vgCut st rest).2) := by
  intro q
  induction q with
  | nil =>
    intro _
    rw [List.nil_append, vgCut_cons (by simp)]
    rfl
  | cons c q ih =>
    intro h
    obtain ⟨h1, h2, h3⟩ := h
    simp only [List.mem_cons, not_or] at h1 h2 h3
    have hs : vgStep ('\'' :: st) c = '\'' :: st := by
      unfold vgStep
      rw [if_neg (Ne.symm h2.1), if_neg (Ne.symm h1.1), if_neg (Ne.symm h3.1)]
      simp
    rw [List.cons_append, vgCut_cons (by simp), hs, ih ⟨h1.2, h2.2, h3.2⟩]
    rfl

/-- Text in order leaves the stack as it is, and is not cut. -/
theorem vgCut_nests {semi : Bool} {s : Str} (h : Nests MildDouble MildSingle semi s) :
    ∀ (st : List Char) (rest : Str), st.head? ≠ some '"' → st.head? ≠ some '\'' → (semi = true → st ≠ []) →
      vgCut st (s ++ rest) = (s ++ (vgCut st rest).1, (vgCut st rest).2) := by
  induction h with
  | nil => intros; rfl
  | char hc _ ih =>
    intro st rest h1 h2 h3
    obtain ⟨c1, c2, c3, c4, c5⟩ := hc
    have hs : ∀ c : Char, c ≠ '"' → c ≠ '\'' → c ≠ '(' → c ≠ ')' → vgStep st c = st := by
      intro c c1 c2 c3 c4
      simp [vgStep, c1, c2, c3, c4]
    rw [List.cons_append, vgCut_cons (by simp [c5]), hs _ c1 c2 c3 c4, ih st rest h1 h2 h3]
    rfl
  | semi _ ih =>
    intro st rest h1 h2 h3
    have hs : vgStep st ';' = st := by simp [vgStep]
    rw [List.cons_append, vgCut_cons (by simp [h3 rfl]), hs, ih st rest h1 h2 h3]
    rfl
  | double hq _ ih =>
    intro st rest h1 h2 h3
    have hs : vgStep st '"' = '"' :: st := by simp [vgStep, h1]
    rw [List.cons_append, vgCut_cons (by simp), hs, List.append_assoc, List.cons_append, vgCut_double _ _ _ hq,
      ih st rest h1 h2 h3]
    simp
  | single hq _ ih =>
    intro st rest h1 h2 h3
    have hs : vgStep st '\'' = '\'' :: st := by simp [vgStep, h2]
    rw [List.cons_append, vgCut_cons (by simp), hs, List.append_assoc, List.cons_append, vgCut_single _ _ _ hq,
      ih st rest h1 h2 h3]
    simp
  | paren _ _ iq ih =>
    intro st rest h1 h2 h3
    have hs : vgStep st '(' = '(' :: st := by simp [vgStep, h1]
    have hs' : vgStep ('(' :: st) ')' = st := by simp [vgStep]
    rw [List.cons_append, vgCut_cons (by simp), hs, List.append_assoc, List.cons_append,
      iq ('(' :: st) _ (by simp) (by simp) (by simp), vgCut_cons (by simp), hs', ih st rest h1 h2 h3]
    simp

theorem endBlanks_exists (s : Str) : ∃ d b, EndBlanks s d b := by
  obtain ⟨post, h1, h2, h3⟩ := rstripP_spec isBlank s
  exact ⟨_, post, h1, h2, fun r c h => h3 c (by rw [h]; simp)⟩

theorem rstrip_unique {s d b : Str} (h : EndBlanks s d b) : rstripP isBlank s = d ∧ s.drop d.length = b := by
  obtain ⟨rfl, h1, h2⟩ := h
  refine ⟨rstripP_append _ _ _ h1 ?_, by simp⟩
  intro c hc
  obtain ⟨r, rfl⟩ := List.getLast?_eq_some_iff.1 hc
  exact h2 r c rfl

theorem moveMiddle_blanks {s d b : Str} (h : EndBlanks s d b) (c : Str) :
    (moveMiddle s c).2 = (d, b ++ c) ∧ ((moveMiddle s c).1 = true ↔ c ≠ [] ∧ d ≠ [] ∧ b = []) := by
  obtain ⟨e1, e2⟩ := rstrip_unique h
  unfold moveMiddle
  simp only [e1, e2, true_and]
  obtain ⟨rfl, h1, h2⟩ := h
  cases hb : b.getLast? with
  | some x =>
    obtain ⟨r, rfl⟩ := List.getLast?_eq_some_iff.1 hb
    have := h1 x (by simp)
    simp [← List.append_assoc, List.getLast?_append, this]
  | none =>
    obtain rfl := List.getLast?_eq_none_iff.1 hb
    cases hd : d.getLast? with
    | none =>
      obtain rfl := List.getLast?_eq_none_iff.1 hd
      simp
    | some x =>
      obtain ⟨r, rfl⟩ := List.getLast?_eq_some_iff.1 hd
      have := h2 r x rfl
      simp [this]

/-! ## Unfolding -/

theorem rstrip_id {s : Str} (h : s.getLast?.any isBlank = false) : rstripP isBlank s = s := by
  refine rstripP_self _ _ fun c hc => ?_
  rw [hc] at h
  simpa using h

theorem contributes_hash (s : Str) : (contributes s).1.head? = some '#' ↔ s.head? = some '#' := by
  have hb : isBlank '#' = false := by decide
  have r : ∀ t : Str, (rstripP isBlank t).head? = some '#' ↔ t.head? = some '#' := by
    intro t
    obtain ⟨post, e, h1, _⟩ := rstripP_spec isBlank t
    cases h : rstripP isBlank t with
    | nil =>
      rw [h] at e
      simp only [List.nil_append] at e
      subst e
      cases t with
      | nil => simp
      | cons c t =>
        have := h1 c (by simp)
        simp only [List.head?_nil, List.head?_cons, Option.some.injEq, false_iff, reduceCtorEq]
        rintro rfl
        simp [hb] at this
    | cons c x =>
      rw [h] at e
      rw [e]
      simp
  have cut : ∀ t : Str, ((vgCut [] t).1.head? = some '#') ↔ t.head? = some '#' := by
    intro t
    cases t with
    | nil => simp [vgCut]
    | cons c t =>
      unfold vgCut
      split
      · rename_i h
        simp [h.1]
      · simp
  have mv : ∀ a c : Str, (moveMiddle a c).2.1 = rstripP isBlank a := fun a c => rfl
  unfold contributes vgSplit
  rw [← r s]
  generalize rstripP isBlank s = t
  by_cases h : t = []
  · simp [h]
  · rw [if_neg h, mv, r, cut]

theorem vgLine_eq (prev : Option Logical) (w : Where) (s : Str) :
    vgLine prev w s = match prev with
      | some p => (blankMsgs (w, s) ++ (if p.2.1 = [] then [⟨.W_WSH_BOL, w, [], none⟩] else []),
          some (p.1, p.2.1 ++ (contributes s).1, p.2.2 ++ (contributes s).2), none)
      | none =>
        if s.head? = some '#' then (blankMsgs (w, s), none, some (w, contributes s))
        else (blankMsgs (w, s), some (w, contributes s), none) := by
  have e : (if s.getLast?.any isBlank then rstripP isBlank s else s) = rstripP isBlank s := by
    cases h : s.getLast?.any isBlank with
    | true => rfl
    | false => simp [rstrip_id h]
  have hh := contributes_hash s
  unfold vgLine
  simp only [e]
  cases prev with
  | some p => rfl
  | none =>
    simp only [← hh]
    rfl

/-- The lines yielded, from a state of the reader. -/
def vgYields (prev : Option Logical) : List (Where × Str) → List Logical
  | [] => prev.toList
  | l :: ls =>
    if prev.isSome && startsBlank l.2 then vgYields (vgLine prev l.1 l.2).2.1 ls
    else prev.toList ++ ((vgLine none l.1 l.2).2.2.toList ++ vgYields (vgLine none l.1 l.2).2.1 ls)

/-- The messages, from a state of the reader. -/
def vgTells (prev : Option Logical) : List (Where × Str) → List Msg
  | [] => []
  | l :: ls =>
    if prev.isSome && startsBlank l.2 then (vgLine prev l.1 l.2).1 ++ vgTells (vgLine prev l.1 l.2).2.1 ls
    else (vgLine none l.1 l.2).1 ++ vgTells (vgLine none l.1 l.2).2.1 ls

theorem hash_notBlank {s : Str} (h : s.head? = some '#') : startsBlank s = false := by
  cases s with
  | nil => simp at h
  | cons c s =>
    simp only [List.head?_cons, Option.some.injEq] at h
    subst h
    rfl

theorem vgYields_notBlank (p : Logical) {ls : List (Where × Str)} (h : ∀ x, ls.head? = some x → startsBlank x.2 = false) :
    vgYields (some p) ls = p :: vgYields none ls ∧ vgTells (some p) ls = vgTells none ls := by
  cases ls with
  | nil => exact ⟨rfl, rfl⟩
  | cons x ls =>
    have := h x rfl
    constructor
    · simp [vgYields, this]
    · simp [vgTells, this]

theorem vgYields_more (p : Logical) {more ls : List (Where × Str)} (h : ∀ m ∈ more, startsBlank m.2 = true) :
    vgYields (some p) (more ++ ls) =
        vgYields (some (p.1, p.2.1 ++ (more.map fun x => (contributes x.2).1).flatten,
          p.2.2 ++ (more.map fun x => (contributes x.2).2).flatten)) ls ∧
      vgTells (some p) (more ++ ls) = continuedMsgs p.2.1 more ++
        vgTells (some (p.1, p.2.1 ++ (more.map fun x => (contributes x.2).1).flatten,
          p.2.2 ++ (more.map fun x => (contributes x.2).2).flatten)) ls := by
  induction more generalizing p with
  | nil => simp [continuedMsgs]
  | cons m more ih =>
    have hm := h m (by simp)
    obtain ⟨i1, i2⟩ := ih (p.1, p.2.1 ++ (contributes m.2).1, p.2.2 ++ (contributes m.2).2) (fun x hx => h x (by simp [hx]))
    simp only [List.append_assoc] at i1 i2
    constructor
    · simp only [List.cons_append, vgYields, hm, Option.isSome_some, Bool.and_true, if_true, vgLine_eq, i1, List.map_cons,
        List.flatten_cons]
    · simp only [List.cons_append, vgTells, hm, Option.isSome_some, Bool.and_true, if_true, vgLine_eq, i2, List.map_cons,
        List.flatten_cons, continuedMsgs, List.append_assoc]

theorem yields_folded {ls : List (Where × Str)} {gs : List (List (Where × Str))} (h : Folded ls gs) :
    vgYields none ls = gs.filterMap unfolded ∧ vgTells none ls = (gs.map groupMsgs).flatten := by
  induction h with
  | nil => exact ⟨rfl, rfl⟩
  | hash _ ih =>
    constructor
    · simp [vgYields, vgLine_eq, ih.1, unfolded]
    · simp [vgTells, vgLine_eq, ih.2, groupMsgs, continuedMsgs]
  | @lines l more ls gs h1 h2 h3 _ ih =>
    obtain ⟨e1, e2⟩ := vgYields_more (l.1, contributes l.2) (ls := ls) h2
    obtain ⟨e3, e4⟩ := vgYields_notBlank (l.1, (contributes l.2).1 ++ (more.map fun x => (contributes x.2).1).flatten,
          (contributes l.2).2 ++ (more.map fun x => (contributes x.2).2).flatten) h3
    constructor
    · simp only [vgYields, vgLine_eq, h1, Option.isSome_none, Bool.false_and, Bool.false_eq_true, if_false, e1, e3, ih.1]
      simp [unfolded]
    · simp only [vgTells, vgLine_eq, h1, Option.isSome_none, Bool.false_and, Bool.false_eq_true, if_false, e2, e4, ih.2]
      simp [groupMsgs]

/-- Every list of lines is folded in one way. -/
theorem folded_exists : ∀ (n : Nat) (ls : List (Where × Str)), ls.length ≤ n → ∃ gs, Folded ls gs := by
  intro n
  induction n with
  | zero =>
    intro ls h
    obtain rfl : ls = [] := List.length_eq_zero_iff.1 (by omega)
    exact ⟨_, .nil⟩
  | succ n ih =>
    intro ls h
    cases ls with
    | nil => exact ⟨_, .nil⟩
    | cons l ls =>
      simp only [List.length_cons] at h
      by_cases hh : l.2.head? = some '#'
      · obtain ⟨gs, hg⟩ := ih ls (by omega)
        obtain ⟨w, s⟩ := l
        cases s with
        | nil => simp at hh
        | cons c s =>
          simp only [List.head?_cons, Option.some.injEq] at hh
          subst hh
          exact ⟨_, .hash hg⟩
      · have e := List.takeWhile_append_dropWhile (p := fun x : Where × Str => startsBlank x.2) (l := ls)
        have hl : (ls.dropWhile fun x => startsBlank x.2).length ≤ n := by
          have := congrArg List.length e
          simp only [List.length_append] at this
          omega
        obtain ⟨gs, hg⟩ := ih _ hl
        rw [← e]
        refine ⟨_, .lines hh (fun m hm => ?_) (fun x hx => ?_) hg⟩
        · exact List.all_eq_true.1 List.all_takeWhile m hm
        · have := List.head?_dropWhile_not (fun x : Where × Str => startsBlank x.2) ls
          rw [hx] at this
          simpa using this

theorem append_split {α : Type} {p : α → Bool} {a a' b b' : List α} (e : a ++ b = a' ++ b')
    (h : ∀ x ∈ a, p x = true) (h' : ∀ x ∈ a', p x = true)
    (k : ∀ x, b.head? = some x → p x = false) (k' : ∀ x, b'.head? = some x → p x = false) : a = a' ∧ b = b' := by
  induction a generalizing a' with
  | nil =>
    cases a' with
    | nil => exact ⟨rfl, e⟩
    | cons x a' =>
      simp only [List.nil_append] at e
      have := k x (by rw [e]; rfl)
      simp [h' x (by simp)] at this
  | cons x a ih =>
    cases a' with
    | nil =>
      simp only [List.nil_append] at e
      have := k' x (by rw [← e]; rfl)
      simp [h x (by simp)] at this
    | cons y a' =>
      simp only [List.cons_append, List.cons.injEq] at e
      obtain ⟨rfl, e⟩ := e
      obtain ⟨rfl, rfl⟩ := ih e (fun z hz => h z (by simp [hz])) (fun z hz => h' z (by simp [hz]))
      exact ⟨rfl, rfl⟩

theorem folded_unique {ls : List (Where × Str)} {gs gs' : List (List (Where × Str))} (h : Folded ls gs) (h' : Folded ls gs') :
    gs = gs' := by
  induction h generalizing gs' with
  | nil => cases h'; rfl
  | hash _ ih =>
    cases h' with
    | hash h' => rw [ih h']
    | lines h1 => simp at h1
  | @lines l more ls gs h1 h2 h3 _ ih =>
    generalize e : l :: (more ++ ls) = x at h'
    cases h' with
    | nil => simp at e
    | hash h' =>
      simp only [List.cons.injEq] at e
      rw [e.1] at h1
      simp at h1
    | lines k1 k2 k3 h' =>
      simp only [List.cons.injEq] at e
      obtain ⟨rfl, e⟩ := e
      obtain ⟨rfl, rfl⟩ := append_split (p := fun x => startsBlank x.2) e h2 k2 h3 k3
      rw [ih h']

/-! ## Runs -/

/-- The same outcome, with more messages. -/
structure Tells {α : Type} (extra : List Msg) (x y : Res α) : Prop where
  val : x.val = y.val
  log : ∀ a, x.val = .ok a → x.log.Perm (extra ++ y.log)

theorem Tells.refl {α : Type} (x : Res α) : Tells [] x x := ⟨rfl, fun _ _ => .refl _⟩

abbrev Anywhere : Where → Prop := fun _ => True

theorem emitAll_eq {ms : List Msg} (h : All ms (Fine Anywhere)) : Res.emitAll ms = ⟨ms, .ok ()⟩ := by
  induction ms with
  | nil => rfl
  | cons m ms ih =>
    obtain ⟨t, ht⟩ := (h m (by simp)).prints
    have : (Res.emit m).val = .ok () := by simp [Res.emit, ht, Except.map]
    show (Res.bind (Res.emit m) fun _ => Res.emitAll ms) = _
    rw [Res.bind_of_ok this, ih fun m hm => h m (by simp [hm])]
    rfl

theorem Tells.first {α : Type} {extra : List Msg} {x y : Res α} {m : List Msg} (hm : All m (Fine Anywhere)) (h : Tells extra x y) :
    Tells (m ++ extra) (.bind (.emitAll m) fun _ => x) y := by
  have e : (Res.emitAll m).val = .ok () := by rw [emitAll_eq hm]
  have e' : (Res.emitAll m).log = m := by rw [emitAll_eq hm]
  rw [Res.bind_of_ok e, e']
  refine ⟨h.val, fun a ha => ?_⟩
  have := h.log a ha
  rw [List.append_assoc]
  exact this.append_left m

theorem Tells.after {α β : Type} {extra : List Msg} {z : Res α} {f : α → Res β} {y : Res β} {b : α} (hz : z.val = .ok b)
    (h : Tells extra (f b) y) : Tells (z.log ++ extra) (.bind z f) y := by
  rw [Res.bind_of_ok hz]
  refine ⟨h.val, fun a ha => ?_⟩
  have := h.log a ha
  rw [List.append_assoc]
  exact this.append_left _

theorem Tells.under {α β : Type} {extra : List Msg} (z : Res α) {f g : α → Res β} (h : ∀ s, Tells extra (f s) (g s)) :
    Tells extra (.bind z f) (.bind z g) := by
  constructor
  · rw [Res.bind_val, Res.bind_val]
    cases z.val with
    | ok a => exact (h a).val
    | error e => rfl
  · intro a ha
    cases e : z.val with
    | ok b =>
      rw [Res.bind_of_ok e] at ha ⊢
      rw [Res.bind_of_ok e]
      have := (h b).log a ha
      show (z.log ++ (f b).log).Perm (extra ++ (z.log ++ (g b).log))
      refine (this.append_left _).trans ?_
      rw [← List.append_assoc, ← List.append_assoc]
      exact List.perm_append_comm.append_right _
    | error x =>
      rw [Res.bind_of_error e] at ha
      exact absurd ha (by simp)

theorem Tells.of_eq {α : Type} {extra extra' : List Msg} {x y y' : Res α} (h : Tells extra x y) (e : extra' = extra) (e' : y' = y) :
    Tells extra' x y' := e ▸ e' ▸ h

theorem Tells.perm {α : Type} {extra extra' : List Msg} {x y : Res α} (h : Tells extra x y) (e : extra.Perm extra') :
    Tells extra' x y := ⟨h.val, fun a ha => (h.log a ha).trans (e.append_right _)⟩

variable {σ : Type} {fs : FS}

theorem vgDeliver_frames (hfs : ∀ p, fs p = none) (agg : σ → Elem → Res σ) (st : PState σ) (l : Logical) :
    vgDeliver fs agg st l = .bind (vgDeliver fs agg ⟨[], [], st.vsw, st.agg⟩ l) fun s => .pure ⟨st.frames, st.ff, s.vsw, s.agg⟩ := by
  unfold vgDeliver
  cases h : (parserStage l.1 l.2.1 l.2.2).2 with
  | elem e => simp only [h, Res.bind_assoc, Res.pure_bind]
  | pp pp =>
    simp only [h, Res.bind_assoc]
    congr 1
    funext _
    cases pp with
    | nothing => simp [runPP, Res.lift, Res.bind, Res.pure]
    | open_ path must name =>
      unfold runPP
      simp only [hfs]
      congr 1
      · split <;> rfl
      · funext _
        split <;> simp [Res.lift, Res.bind, Res.pure]

theorem deliverAll_frames (hfs : ∀ p, fs p = none) (agg : σ → Elem → Res σ) (st : PState σ) (ls : List Logical) :
    deliverAll fs agg st ls =
      .bind (deliverAll fs agg ⟨[], [], st.vsw, st.agg⟩ ls) fun s => .pure ⟨st.frames, st.ff, s.vsw, s.agg⟩ := by
  induction ls generalizing st with
  | nil => simp [deliverAll]
  | cons l ls ih =>
    rw [deliverAll, deliverAll, vgDeliver_frames hfs, Res.bind_assoc, Res.bind_assoc]
    congr 1
    funext s
    simp only [Res.pure_bind]
    rw [ih, ih s, Res.bind_assoc]
    simp only [Res.pure_bind]

theorem deliverAll_append (agg : σ → Elem → Res σ) (st : PState σ) (a b : List Logical) :
    deliverAll fs agg st (a ++ b) = .bind (deliverAll fs agg st a) fun s => deliverAll fs agg s b := by
  induction a generalizing st with
  | nil => simp [deliverAll]
  | cons l a ih => simp only [List.cons_append, deliverAll, ih, Res.bind_assoc]

theorem deliverOpt_eq (agg : σ → Elem → Res σ) (st : PState σ) (l : Option Logical) :
    vgDeliverOpt fs agg st l = deliverAll fs agg st l.toList := by
  cases l with
  | none => rfl
  | some l =>
    show vgDeliver fs agg st l = .bind (vgDeliver fs agg st l) fun st => .pure st
    cases h : (vgDeliver fs agg st l).val with
    | ok a => rw [Res.bind_of_ok h]; simp [← h]
    | error a => rw [Res.bind_of_error h]; simp [← h]

theorem finish_frames (agg : σ → Elem → Res σ) (st : PState σ) : finish agg st = finish agg ⟨[], [], st.vsw, st.agg⟩ := rfl

theorem withoutEol_eq {t s : Str} (h : EolOff t s) : withoutEol t = s := by
  rcases h with rfl | ⟨rfl, h⟩ | ⟨rfl, h⟩
  · have : endsWith (c! "\r\n") (s ++ ['\r', '\n']) = true := (endsWith_iff _ _).2 ⟨s, rfl⟩
    unfold withoutEol
    rw [if_pos this]
    simp
  · have h1 : ¬ endsWith (c! "\r\n") (s ++ ['\n']) = true := by
      rw [endsWith_iff]
      rintro ⟨x, hx⟩
      have : s = x ++ ['\r'] := by
        have : s ++ ['\n'] = (x ++ ['\r']) ++ ['\n'] := by simpa using hx
        exact List.append_cancel_right this
      rw [this] at h
      simp at h
    have h2 : endsWith (c! "\n") (s ++ ['\n']) = true := (endsWith_iff _ _).2 ⟨s, rfl⟩
    unfold withoutEol
    rw [if_neg h1, if_pos h2]
    simp
  · have h1 : ¬ endsWith (c! "\r\n") t = true := by
      rw [endsWith_iff]
      rintro ⟨x, rfl⟩
      simp at h
    have h2 : ¬ endsWith (c! "\n") t = true := by
      rw [endsWith_iff]
      rintro ⟨x, rfl⟩
      simp at h
    unfold withoutEol
    rw [if_neg h1, if_neg h2]

theorem vgRead_eq {w : Where} {t s : Str} (ff : List FInfo) (hd : Decodes w.line t) (he : EolOff t s) :
    vgRead ff w = ⟨(encodingStage w).1 ++ ctrlStage w t ++ (ffStage ff w t).2.1, .ok ((ffStage ff w t).1, s)⟩ ∧
      (encodingStage w).2 = .ok t := by
  have e : (encodingStage w).2 = .ok t := by
    unfold encodingStage
    rcases hd with h | ⟨h, h'⟩
    · simp [h]
    · simp [h, h']
  refine ⟨?_, e⟩
  have := withoutEol_eq he
  have f1 : All (encodingStage w).1 (Fine Anywhere) := fine_encoding trivial
  have f2 : All (ctrlStage w t ++ (ffStage ff w t).2.1) (Fine Anywhere) :=
    .append (fine_ctrl trivial _) (fine_ff (fun _ _ => trivial) trivial _).1
  unfold vgRead
  simp [e, Res.bind, Res.lift, emitAll_eq f1, emitAll_eq f2, ffStage_text, this, Res.pure]

theorem fine_blank (l : Where × Str) : All (blankMsgs l) (Fine Anywhere) := by
  unfold blankMsgs
  exact .append (.ite (by fine trivial) .nil) (.ite (by fine trivial) .nil)

theorem fine_vgLine (prev : Option Logical) (w : Where) (s : Str) : All (vgLine prev w s).1 (Fine Anywhere) := by
  rw [vgLine_eq]
  cases prev with
  | none =>
    dsimp only
    split
    · exact fine_blank _
    · exact fine_blank _
  | some p => exact .append (fine_blank _) (.ite (by fine trivial) .nil)

theorem vgRun_tells (hfs : ∀ p, fs p = none) (agg : σ → Elem → Res σ) {name : Str} {i : Nat} {bs : List Bytes}
    {ls : List (Where × Str)} (h : Texts name i bs ls) : ∀ (n : Nat) (ff : List FInfo) (v : List Vsw) (a : σ) (prev : Option Logical),
      ls.length < n →
      Tells (lowerMsgs ff (ls.map (·.1)) ++ vgTells prev ls) (vgRun fs agg n ⟨[⟨name, i, bs⟩], ff, v, a⟩ prev)
        (.bind (deliverAll fs agg ⟨[], [], v, a⟩ (vgYields prev ls)) (finish agg)) := by
  induction h with
  | nil =>
    intro n ff v a prev hn
    cases n with
    | zero => simp at hn
    | succ n =>
      simp only [vgRun, nextLine, lowerMsgs, vgTells, vgYields, List.map_nil]
      refine .first (fine_ffEnd fun _ _ => trivial) (.of_eq (.refl _) rfl ?_)
      rw [deliverOpt_eq, deliverAll_frames hfs agg ⟨[⟨name, _, []⟩], ff, v, a⟩, Res.bind_assoc]
      simp only [Res.pure_bind]
      rfl
  | @cons i b t s bs ls hd he _ ih =>
    intro n ff v a prev hn
    cases n with
    | zero => simp at hn
    | succ n =>
      simp only [List.length_cons, Nat.add_lt_add_iff_right] at hn
      obtain ⟨e, e'⟩ := vgRead_eq (w := ⟨name, (i : Int) + 1, b⟩) ff hd he
      have key : ∀ ff' w, Tells (lowerMsgs ff' (ls.map (·.1)) ++
          (if (prev.isSome && startsBlank s) = true then
            (vgLine prev w s).1 ++ vgTells (vgLine prev w s).2.1 ls
          else (vgLine none w s).1 ++ vgTells (vgLine none w s).2.1 ls))
          (.bind (vgRound fs agg ⟨[⟨name, i + 1, bs⟩], ff', v, a⟩ prev w s) fun s => vgRun fs agg n s.1 s.2)
          (.bind (deliverAll fs agg ⟨[], [], v, a⟩
            (if (prev.isSome && startsBlank s) = true then vgYields (vgLine prev w s).2.1 ls
             else prev.toList ++ ((vgLine none w s).2.2.toList ++ vgYields (vgLine none w s).2.1 ls))) (finish agg)) := by
        intro ff' w
        unfold vgRound
        cases (prev.isSome && startsBlank s) with
        | true =>
          simp only [if_true, Res.bind_assoc, Res.pure_bind]
          refine .perm (.first (fine_vgLine _ _ _) (ih n ff' v a _ hn)) ?_
          rw [← List.append_assoc, ← List.append_assoc]
          exact List.perm_append_comm.append_right _
        | false =>
          simp only [Bool.false_eq_true, if_false, Res.bind_assoc, Res.pure_bind, deliverOpt_eq, deliverAll_append]
          rw [deliverAll_frames hfs]
          simp only [Res.bind_assoc, Res.pure_bind]
          refine .under _ fun st => ?_
          refine .perm (extra := (vgLine none w s).1 ++ (lowerMsgs ff' (ls.map (·.1)) ++ vgTells (vgLine none w s).2.1 ls))
            (.first (fine_vgLine _ _ _) ?_) ?_
          · rw [deliverAll_frames hfs, deliverAll_frames hfs agg st]
            simp only [Res.bind_assoc, Res.pure_bind]
            refine .under _ fun st' => ?_
            refine .of_eq (ih n ff' _ _ _ hn) rfl ?_
            rw [deliverAll_frames hfs, Res.bind_assoc]
            simp only [Res.pure_bind]
            rfl
          · rw [← List.append_assoc, ← List.append_assoc]
            exact List.perm_append_comm.append_right _
      have k := Tells.after (z := vgRead ff ⟨name, (i : Int) + 1, b⟩)
        (f := fun r => .bind (vgRound fs agg ⟨[⟨name, i + 1, bs⟩], r.1, v, a⟩ prev ⟨name, (i : Int) + 1, b⟩ r.2) fun s => vgRun fs agg n s.1 s.2)
        (by rw [e]) (key _ ⟨name, (i : Int) + 1, b⟩)
      refine .of_eq k ?_ ?_
      · simp only [lowerMsgs, vgTells, List.map_cons, e', e, List.append_assoc]
      · simp only [vgYields]

end ALint
