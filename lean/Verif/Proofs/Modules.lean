import Verif.Model.Modules
import Verif.Spec.Modules
import Verif.Proofs.Jumps
import Verif.Props.Loader
import Verif.Proofs.Str

/-!
# The listing of modules: lemmas
-/

namespace ALint
open Spec ALint.Props

/-! ## Filling lines -/

theorem commas_snoc (a : List Str) (x : Str) (h : a ≠ []) : commas (a ++ [x]) = commas a ++ c! ", " ++ x := by
  induction a with
  | nil => exact absurd rfl h
  | cons y ys ih =>
    cases ys with
    | nil => simp [commas]
    | cons z zs =>
      have := ih (by simp)
      simp only [List.cons_append, commas] at this ⊢
      rw [this]
      simp

theorem commas_eq (l : List Str) : joinStr (c! ", ") l = commas l := by
  induction l with
  | nil => rfl
  | cons x l ih => cases l with
    | nil => rfl
    | cons y l => simp only [joinStr, commas, ih]

theorem calls_ne {g : List Str} (h : g ≠ []) : calls g ≠ [] := by
  cases g with
  | nil => exact absurd rfl h
  | cons n g => cases g <;> simp [calls, commas]

theorem calls_snoc {g : List Str} (n : Str) (h : g ≠ []) : calls (g ++ [n]) = calls g ++ c! ", " ++ callText n := by
  unfold calls callText
  rw [List.map_append, List.map_singleton, commas_snoc _ _ (by simpa using h)]

/-- The lines before `strip`. -/
def rawLines : List (List Str) → List Str
  | [] => []
  | [g] => [calls g]
  | g :: h :: gs => (calls g ++ c! ", ") :: rawLines (h :: gs)

theorem fill_groups (ns : List Str) : ∀ (lines : List Str) (g : List Str), g ≠ [] →
    ((calls g).length ≤ 52 ∨ ∃ n, g = [n]) →
    ∃ gs, gs.flatten = g ++ ns ∧ (∀ x ∈ gs, x ≠ [] ∧ ((calls x).length ≤ 52 ∨ ∃ n, x = [n])) ∧ gs ≠ [] ∧
      fillLines lines (calls g) ns = lines ++ rawLines gs := by
  induction ns with
  | nil =>
    intro lines g hg hw
    exact ⟨[g], by simp, by simpa using ⟨hg, hw⟩, by simp, rfl⟩
  | cons n ns ih =>
    intro lines g hg hw
    have he : (calls g).isEmpty = false := by simpa using calls_ne hg
    simp only [fillLines, he, Bool.false_eq_true, if_false]
    split
    · have hone : calls [n] = callText n := rfl
      obtain ⟨gs, h1, h2, h3, h4⟩ := ih (lines ++ [calls g ++ c! ", "]) [n] (by simp) (.inr ⟨n, rfl⟩)
      refine ⟨g :: gs, by simp [h1], ?_, by simp, ?_⟩
      · intro x hx
        rcases List.mem_cons.1 hx with rfl | hx
        · exact ⟨hg, hw⟩
        · exact h2 x hx
      · rw [← hone, h4]
        cases gs with
        | nil => exact absurd rfl h3
        | cons y gs => simp [rawLines]
    · rename_i hlt
      have hs := calls_snoc n hg
      obtain ⟨gs, h1, h2, h3, h4⟩ := ih lines (g ++ [n]) (by simp) (.inl (by rw [hs, List.length_append]; omega))
      exact ⟨gs, by rw [h1]; simp, h2, h3, by rw [← hs, h4]⟩

theorem stripP_self {s : Str} (h1 : ∀ c, s.head? = some c → isSpace c = false)
    (h2 : ∀ c, s.getLast? = some c → isSpace c = false) : stripP isSpace s = s := by
  unfold stripP
  rw [rstripP_self _ _ h2]
  exact lstripP_append isSpace [] s (by simp) h1

theorem calls_head {g : List Str} (hg : g ≠ []) (hn : ∀ n ∈ g, ∀ c, n.head? = some c → isSpace c = false) :
    ∀ c, (calls g).head? = some c → isSpace c = false := by
  cases g with
  | nil => exact absurd rfl hg
  | cons n g =>
    intro c hc
    have : ∃ r, calls (n :: g) = n ++ c! "()" ++ r := by
      cases g with
      | nil => exact ⟨[], by simp [calls, commas]⟩
      | cons m g => exact ⟨c! ", " ++ calls (m :: g), by simp only [calls, commas, List.map_cons, List.append_assoc]⟩
    obtain ⟨r, hr⟩ := this
    rw [hr] at hc
    cases n with
    | nil =>
      simp at hc
      subst hc; decide
    | cons x n => exact hn (x :: n) (by simp) c (by simpa using hc)

theorem calls_last {g : List Str} (hg : g ≠ []) : (calls g).getLast? = some ')' := by
  have : ∀ ws : List Str, ws ≠ [] → (∀ w ∈ ws, w.getLast? = some ')') → (commas ws).getLast? = some ')' := by
    intro ws
    induction ws with
    | nil => intro h; exact absurd rfl h
    | cons w ws ih =>
      intro _ h
      cases ws with
      | nil => exact h w (by simp)
      | cons v ws =>
        rw [commas, List.getLast?_append, ih (by simp) (fun x hx => h x (by simp [hx]))]
        rfl
  refine this _ (by simpa using hg) fun w hw => ?_
  obtain ⟨n, _, rfl⟩ := List.mem_map.1 hw
  simp

theorem strip_raw {gs : List (List Str)} (h : ∀ g ∈ gs, g ≠ [])
    (hn : ∀ g ∈ gs, ∀ n ∈ g, ∀ c, n.head? = some c → isSpace c = false) :
    (rawLines gs).map (stripP isSpace) = callLines gs := by
  induction gs with
  | nil => rfl
  | cons g gs ih =>
    have hg := h g (by simp)
    have hh := calls_head hg (hn g (by simp))
    have hl := calls_last hg
    cases gs with
    | nil =>
      simp only [rawLines, callLines, List.map_cons, List.map_nil]
      rw [stripP_self hh (by intro c hc; rw [hl] at hc; simp at hc; subst hc; decide)]
    | cons k gs =>
      simp only [rawLines, callLines, List.map_cons] at ih ⊢
      have e1 : stripP isSpace (calls g ++ c! ", ") = calls g ++ c! "," := by
        unfold stripP
        have : calls g ++ c! ", " = (calls g ++ c! ",") ++ c! " " := by simp
        rw [this, rstripP_append isSpace _ _ (by intro c hc; simp at hc; subst hc; decide)
          (by intro c hc; simp at hc; subst hc; decide)]
        refine lstripP_append isSpace [] _ (by simp) fun c hc => hh c ?_
        have := calls_ne hg
        cases hx : calls g with
        | nil => exact absurd hx this
        | cons a b => rw [hx] at hc; simpa using hc
      rw [e1, ih (fun x hx => h x (by simp [hx])) (fun x hx => hn x (by simp [hx]))]

/-- The lines of one module. -/
theorem itemLines_groups (n : Str) (ns : List Str)
    (hn : ∀ m ∈ n :: ns, ∀ c, m.head? = some c → isSpace c = false) :
    ∃ gs, gs.flatten = n :: ns ∧ (∀ x ∈ gs, x ≠ [] ∧ ((calls x).length ≤ 52 ∨ ∃ m, x = [m])) ∧
      itemLines (n :: ns) = (if n.length ≤ 50 then [] else [[]]) ++ callLines gs := by
  have hone : calls [n] = callText n := rfl
  have hlen : (callText n).length = n.length + 2 := by simp [callText]
  unfold itemLines
  simp only [fillLines, List.isEmpty_nil, if_true, List.length_nil, Nat.zero_add, List.nil_append, hlen]
  obtain ⟨gs, h1, h2, h3, h4⟩ := fill_groups ns (if n.length ≤ 50 then [] else [[]]) [n] (by simp) (.inr ⟨n, rfl⟩)
  refine ⟨gs, by simpa using h1, h2, ?_⟩
  have hs := strip_raw (fun g hg => (h2 g hg).1) (fun g hg m hm => hn m (by
    have : m ∈ gs.flatten := List.mem_flatten.2 ⟨g, hg, hm⟩
    rw [h1] at this
    simpa using this))
  by_cases hx : n.length ≤ 50
  · rw [if_neg (by omega), ← hone]
    rw [if_pos hx] at h4 ⊢
    rw [h4, List.nil_append, hs]; rfl
  · rw [if_pos (by omega), ← hone]
    rw [if_neg hx] at h4 ⊢
    rw [h4, List.map_append, hs]; rfl

theorem modLines_eq (m : Str) (ls : List Str) : modLines m ls = columns m ls := by
  cases ls with
  | nil => rfl
  | cons l ls => simp [modLines, columns, modLine, column, padRight]

/-! ## Uses of the steps -/

theorem dp_uses_mono {env : DEnv} {st st' : DState} {el : Elem} (h : (dialplanStep env st el).val = .ok st') :
    ∀ e ∈ st.uses, e ∈ st'.uses := by
  cases el with
  | empty b w =>
    simp only [dialplanStep, Res.pure_val, Except.ok.injEq] at h
    subst h; exact fun _ h => h
  | ctx c =>
    have := onContext_cases h
    generalize (onContext st c).log = lg at this
    cases this <;> exact fun _ h => h
  | var v =>
    cases hcur : st.cur with
    | none =>
      simp only [dialplanStep, onVarset, hcur] at h
      obtain ⟨_, _, h2, _⟩ := Res.bind_ok h
      simp only [Res.pure_val, Except.ok.injEq] at h2
      subst h2; exact fun _ h => h
    | general | globals | detached =>
      simp only [dialplanStep, onVarset, hcur, Res.pure_val, Except.ok.injEq] at h
      subst h
      exact fun _ h => h
    | ctx n =>
      simp only [dialplanStep, onVarset, hcur] at h
      cases hg : st.dp.get n with
      | none => rw [hg] at h; simp [Res.raise] at h
      | some c =>
        rw [hg] at h
        obtain ⟨_, _, h2, _⟩ := Res.bind_ok h
        obtain ⟨_, _, h3, _⟩ := Res.bind_ok h2
        simp only [Res.pure_val, Except.ok.injEq] at h3
        subst h3
        exact fun _ h => List.mem_append.2 (.inl h)

/-- What the application of a step uses is recorded. -/
def UseInv (env : DEnv) (st : DState) : Prop :=
  ∀ n, ∀ s ∈ stepsOf st.dp n, ∃ sp, ∃ r, (runApp env.toAEnv env.depth sp s.at_ (strV s.app)).val = .ok r ∧
    ∀ e ∈ evUses (runApp env.toAEnv env.depth sp s.at_ (strV s.app)).ev, e ∈ st.uses

theorem step_uses {env : DEnv} {st st' : DState} {el : Elem} (hi : DpInv st) (hu : UseInv env st)
    (h : (dialplanStep env st el).val = .ok st') : UseInv env st' := by
  have hm := dp_uses_mono h
  have old : ∀ n, ∀ s ∈ stepsOf st.dp n, ∃ sp, ∃ r, (runApp env.toAEnv env.depth sp s.at_ (strV s.app)).val = .ok r ∧
      ∀ e ∈ evUses (runApp env.toAEnv env.depth sp s.at_ (strV s.app)).ev, e ∈ st'.uses := by
    intro n s hs
    obtain ⟨sp, r, h1, h2⟩ := hu n s hs
    exact ⟨sp, r, h1, fun e he => hm e (h2 e he)⟩
  rcases step_cases' hi h with hq | ⟨v, n, c, sp', us, e, ms, a, as, rfl, hcur, hsl, hc, hrd, ha, hdp, _, hus, _⟩
  · intro n s hs
    rw [hq.steps] at hs
    exact old n s hs
  · have hsame : a.ctx.steps = c.steps → a.ctx.name = c.name → UseInv env st' := by
      intro h1 h2 m s hs
      obtain ⟨g1, _, g3⟩ := stepsOf_added hc h2
      rw [hdp] at hs
      by_cases hmn : m = n
      · subst hmn
        rw [g1, h1, ← stepsOf_get hc] at hs
        exact old m s hs
      · simp only [stepsOf, g3 m hmn] at hs
        exact old m s hs
    cases ha with
    | noPat _ => exact hsame rfl rfl
    | noPrio raw pat ms hp _ => exact hsame rfl rfl
    | dupe raw pat ms k prev hp _ _ => exact hsame rfl rfl
    | stored raw pat ms k label' ls ds pc lms hp hrp hd hpc hlc hl hjs =>
      obtain ⟨g1, _, g3⟩ := stepsOf_added (a := ⟨{ c with
          sorted := none, lastPrio := some k,
          cache := putCache (Pattern.canonical pat) pc c.cache,
          steps := c.steps ++ [⟨raw, pat, k, label', e.app, e.comment, e.at_⟩] }, some k, ls, ds⟩) hc rfl
      intro m s hs
      rw [hdp] at hs
      by_cases hmn : m = n
      · subst hmn
        rw [g1] at hs
        rcases List.mem_append.1 hs with hs | hs
        · rw [← stepsOf_get hc] at hs
          exact old m s hs
        · simp only [List.mem_singleton] at hs
          subst hs
          cases hrd with
          | ext p r pat' prio label _ jumps _ _ hs hp' hl' hpat hrun =>
            refine ⟨st.sp, (sp', jumps), ?_⟩
            have hv := congrArg Res.val hrun
            simp only [Tr.toRes] at hv
            cases hx : (runApp env.toAEnv env.depth st.sp v.at_ (strV (splitApp r).2)).val with
            | error e => rw [hx] at hv; simp [Except.map] at hv
            | ok y =>
              rw [hx] at hv
              simp only [Except.map, Except.ok.injEq, Prod.mk.injEq] at hv
              refine ⟨by rw [hv.1], fun e he => ?_⟩
              rw [hus, ← hv.2]
              exact List.mem_append.2 (.inr he)
      · simp only [stepsOf, g3 m hmn] at hs
        exact old m s hs

theorem read_uses {env : DEnv} {sp : Option Str} {st : DState} {es : List Elem}
    (h : (feed (dialplanStep env) (.init sp) es).val = .ok st) : UseInv env st := by
  induction es using snocInd generalizing st with
  | nil =>
    simp only [feed, Res.pure_val, Except.ok.injEq] at h
    subst h
    intro n s hs
    simp [stepsOf, DState.init, Dialplan.init, Dialplan.get] at hs
  | snoc es e ih =>
    rw [feed_append] at h
    obtain ⟨s, h1, h2, _⟩ := Res.bind_ok h
    obtain ⟨s', h3, h4, _⟩ := feed_cons_ok h2
    simp only [feed, Res.pure_val, Except.ok.injEq] at h4
    subst h4
    exact step_uses (read_inv h1) (ih h1) h3

end ALint
