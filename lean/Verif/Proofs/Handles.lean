import Verif.Spec.Handles
import Verif.Proofs.Reader
import Verif.Proofs.Res

/-!
# Lemmas about open files
-/

namespace ALint
open Spec

/-! ## The trace -/

theorem Spec.OpenAfter.append {a b c : List Str} {as bs : List Act} (h : OpenAfter a as b) (h' : OpenAfter b bs c) :
    OpenAfter a (as ++ bs) c := by
  induction h with
  | done => exact h'
  | opened _ ih => exact .opened (ih h')
  | refused _ ih => exact .refused (ih h')
  | closed _ ih => exact .closed (ih h')
  | line hw _ ih => exact .line hw (ih h')

theorem Spec.OpenAfter.unique {a b c : List Str} {as : List Act} (h : OpenAfter a as b) (h' : OpenAfter a as c) : b = c := by
  induction h with
  | done => cases h'; rfl
  | opened _ ih => cases h' with | opened h' => exact ih h'
  | refused _ ih => cases h' with | refused h' => exact ih h'
  | closed _ ih => cases h' with | closed h' => exact ih h'
  | line _ _ ih => cases h' with | line _ h' => exact ih h'

theorem Spec.OpenAfter.count {a b : List Str} {as : List Act} (h : OpenAfter a as b) (p : Str) :
    as.count (.opened p) + a.count p = as.count (.closed p) + b.count p := by
  induction h with
  | done => simp
  | @opened q _ _ _ _ ih =>
    by_cases hq : q = p
    · subst hq; simp only [List.count_cons_self] at ih ⊢; rw [List.count_cons_of_ne (by simp)]; omega
    · rw [List.count_cons_of_ne hq] at ih
      rw [List.count_cons_of_ne (by simp [hq]), List.count_cons_of_ne (by simp)]; omega
  | refused _ ih =>
    rw [List.count_cons_of_ne (by simp), List.count_cons_of_ne (by simp)]; omega
  | @closed q _ _ _ _ ih =>
    by_cases hq : q = p
    · subst hq; simp only [List.count_cons_self]; rw [List.count_cons_of_ne (by simp)]; omega
    · rw [List.count_cons_of_ne hq, List.count_cons_of_ne (by simp), List.count_cons_of_ne (by simp [hq])]; omega
  | @line w _ _ _ as _ _ ih =>
    have h1 : (Act.line w :: as).count (.opened p) = as.count (.opened p) := List.count_cons_of_ne (by simp)
    have h2 : (Act.line w :: as).count (.closed p) = as.count (.closed p) := List.count_cons_of_ne (by simp)
    rw [h1, h2]; exact ih

theorem actsRound_open {fs : FS} {inc : Where → Option Str} {room : Nat} {frames frames' : List Frame} {as : List Act}
    (h : actsRound fs inc room frames = some (as, frames')) :
    OpenAfter (frames.map (·.name)) as (frames'.map (·.name)) ∧
      (frames.length ≤ room → frames'.length ≤ room ∧
        ∀ pre post o, as = pre ++ post → OpenAfter (frames.map (·.name)) pre o → o.length ≤ room) := by
  have small : ∀ {frames frames' : List Frame} {as : List Act}, OpenAfter (frames.map (·.name)) as (frames'.map (·.name)) →
      (∀ a ∈ as.dropLast, ∃ w, a = .line w) → frames.length ≤ room → frames'.length ≤ room →
      ∀ pre post o, as = pre ++ post → OpenAfter (frames.map (·.name)) pre o → o.length ≤ room := by
    intro frames frames' as hr hs h1 h2 pre post o e ho
    cases post with
    | nil =>
      rw [List.append_nil] at e
      subst e
      rw [← hr.unique ho]
      simpa using h2
    | cons x xs =>
      have hp : ∀ a ∈ pre, ∃ w, a = .line w := fun a ha => hs a (by
        rw [e, List.dropLast_append_of_ne_nil (by simp)]
        exact List.mem_append_left _ ha)
      have : ∀ {s : List Str} {pre : List Act} {o : List Str}, OpenAfter s pre o → (∀ a ∈ pre, ∃ w, a = Act.line w) → o = s := by
        intro s pre o h
        induction h with
        | done => intro _; rfl
        | opened _ _ => intro h; obtain ⟨w, hw⟩ := h _ List.mem_cons_self; cases hw
        | refused _ _ => intro h; obtain ⟨w, hw⟩ := h _ List.mem_cons_self; cases hw
        | closed _ _ => intro h; obtain ⟨w, hw⟩ := h _ List.mem_cons_self; cases hw
        | line _ _ ih => intro h; exact ih fun a ha => h a (List.mem_cons_of_mem _ ha)
      rw [this ho hp]
      simpa using h1
  have key : OpenAfter (frames.map (·.name)) as (frames'.map (·.name)) ∧ (∀ a ∈ as.dropLast, ∃ w, a = .line w) ∧
      (frames.length ≤ room → frames'.length ≤ room) := by
    cases frames with
    | nil => cases h
    | cons fr stack =>
      obtain ⟨f, k, rest⟩ := fr
      cases rest with
      | nil =>
        simp only [actsRound, Option.some.injEq, Prod.mk.injEq] at h
        obtain ⟨rfl, rfl⟩ := h
        exact ⟨.closed .done, by simp, fun h => by simp at h; omega⟩
      | cons l ls =>
        simp only [actsRound] at h
        cases hi : inc ⟨f, (k : Int) + 1, l⟩ with
        | none =>
          simp only [hi, Option.some.injEq, Prod.mk.injEq] at h
          obtain ⟨rfl, rfl⟩ := h
          exact ⟨.line (w := ⟨f, (k : Int) + 1, l⟩) rfl .done, by simp, fun h => by simpa using h⟩
        | some p =>
          simp only [hi] at h
          cases hf : fs p with
          | none =>
            simp only [hf, Option.some.injEq, Prod.mk.injEq] at h
            obtain ⟨rfl, rfl⟩ := h
            exact ⟨.line (w := ⟨f, (k : Int) + 1, l⟩) rfl (.refused .done), by simp, fun h => by simpa using h⟩
          | some c =>
            simp only [hf] at h
            by_cases hr : (⟨f, k + 1, ls⟩ :: stack : List Frame).length < room
            · rw [if_pos hr] at h
              simp only [Option.some.injEq, Prod.mk.injEq] at h
              obtain ⟨rfl, rfl⟩ := h
              exact ⟨.line (w := ⟨f, (k : Int) + 1, l⟩) rfl (.opened .done), by simp, fun _ => by simp at hr ⊢; omega⟩
            · rw [if_neg hr] at h
              simp only [Option.some.injEq, Prod.mk.injEq] at h
              obtain ⟨rfl, rfl⟩ := h
              exact ⟨.line (w := ⟨f, (k : Int) + 1, l⟩) rfl (.refused .done), by simp, fun h => by simpa using h⟩
  exact ⟨key.1, fun hl => ⟨key.2.2 hl, small key.1 key.2.1 hl (key.2.2 hl)⟩⟩

theorem Spec.OpenAfter.split {a c : List Str} : ∀ {as bs : List Act}, OpenAfter a (as ++ bs) c →
    ∃ b, OpenAfter a as b ∧ OpenAfter b bs c := by
  intro as
  induction as generalizing a with
  | nil => intro bs h; exact ⟨a, .done, h⟩
  | cons x as ih =>
    intro bs h
    rw [List.cons_append] at h
    cases h with
    | opened h => obtain ⟨b, h1, h2⟩ := ih h; exact ⟨b, .opened h1, h2⟩
    | refused h => obtain ⟨b, h1, h2⟩ := ih h; exact ⟨b, .refused h1, h2⟩
    | closed h => obtain ⟨b, h1, h2⟩ := ih h; exact ⟨b, .closed h1, h2⟩
    | line hw h => obtain ⟨b, h1, h2⟩ := ih h; exact ⟨b, .line hw h1, h2⟩

theorem actsRun_open (fs : FS) (inc : Where → Option Str) (room : Nat) : ∀ (n : Nat) (frames : List Frame),
    OpenAfter (frames.map (·.name)) (actsRun fs inc room n frames).1 ((actsRun fs inc room n frames).2.map (·.name)) ∧
      (frames.length ≤ room → ∀ pre post o, (actsRun fs inc room n frames).1 = pre ++ post →
        OpenAfter (frames.map (·.name)) pre o → o.length ≤ room) := by
  intro n
  induction n with
  | zero =>
    intro frames
    refine ⟨.done, fun hl pre post o e ho => ?_⟩
    have : pre = [] := (List.append_eq_nil_iff.1 e.symm).1
    subst this
    rw [Spec.OpenAfter.unique ho .done]
    simpa using hl
  | succ n ih =>
    intro frames
    cases hr : actsRound fs inc room frames with
    | none =>
      simp only [actsRun, hr]
      refine ⟨.done, fun hl pre post o e ho => ?_⟩
      have : pre = [] := (List.append_eq_nil_iff.1 e.symm).1
      subst this
      rw [Spec.OpenAfter.unique ho .done]
      simpa using hl
    | some r =>
      obtain ⟨as, frames'⟩ := r
      simp only [actsRun, hr]
      obtain ⟨h1, h2⟩ := actsRound_open hr
      obtain ⟨i1, i2⟩ := ih frames'
      refine ⟨h1.append i1, fun hl pre post o e ho => ?_⟩
      obtain ⟨g1, g2⟩ := h2 hl
      rcases List.append_eq_append_iff.1 e with ⟨t, rfl, e2⟩ | ⟨t, e1, e2⟩
      · obtain ⟨b, o1, o2⟩ := ho.split
        rw [← h1.unique o1] at o2
        exact i2 g1 t post o e2 o2
      · exact g2 pre t o e1 ho

/-! ## The expansion with a limit -/

theorem expandIn_exists (fs : FS) (inc : Where → Option Str) : ∀ (d : Nat) (ls : List Bytes) (f : Str) (n : Nat),
    ∃ t r, ExpandIn fs inc d f n ls t r := by
  intro d
  induction d with
  | zero =>
    intro ls
    induction ls with
    | nil => intro f n; exact ⟨_, _, .nil⟩
    | cons l ls ih =>
      intro f n
      obtain ⟨t, r, h⟩ := ih f (n + 1)
      cases hp : pulls fs inc ⟨f, (n : Int) + 1, l⟩ with
      | none => exact ⟨_, _, .line hp h⟩
      | some x => exact ⟨_, _, .full (p := x.1) (c := x.2) hp h⟩
  | succ d ihd =>
    intro ls
    induction ls with
    | nil => intro f n; exact ⟨_, _, .nil⟩
    | cons l ls ih =>
      intro f n
      obtain ⟨t, r, h⟩ := ih f (n + 1)
      cases hp : pulls fs inc ⟨f, (n : Int) + 1, l⟩ with
      | none => exact ⟨_, _, .line hp h⟩
      | some x =>
        obtain ⟨sub, r', h'⟩ := ihd (physLines x.2) x.1 0
        exact ⟨_, _, .incl (p := x.1) (c := x.2) hp h' h⟩

theorem expandIn_unique {fs : FS} {inc : Where → Option Str} {d : Nat} {f : Str} {n : Nat} {ls : List Bytes} {t t' : Items}
    {r r' : List Where} (h : ExpandIn fs inc d f n ls t r) (h' : ExpandIn fs inc d f n ls t' r') : t = t' ∧ r = r' := by
  induction h generalizing t' r' with
  | nil => cases h'; exact ⟨rfl, rfl⟩
  | line hp _ ih =>
    cases h' with
    | line _ h => obtain ⟨rfl, rfl⟩ := ih h; exact ⟨rfl, rfl⟩
    | full hp' _ => rw [hp] at hp'; cases hp'
    | incl hp' _ _ => rw [hp] at hp'; cases hp'
  | full hp _ ih =>
    cases h' with
    | line hp' _ => rw [hp] at hp'; cases hp'
    | full _ h => obtain ⟨rfl, rfl⟩ := ih h; exact ⟨rfl, rfl⟩
  | incl hp _ _ ih1 ih2 =>
    cases h' with
    | line hp' _ => rw [hp] at hp'; cases hp'
    | incl hp' h1 h2 =>
      rw [hp] at hp'
      simp only [Option.some.injEq, Prod.mk.injEq] at hp'
      obtain ⟨rfl, rfl⟩ := hp'
      obtain ⟨rfl, rfl⟩ := ih1 h1
      obtain ⟨rfl, rfl⟩ := ih2 h2
      exact ⟨rfl, rfl⟩

theorem expandIn_free {fs : FS} {inc : Where → Option Str} {d : Nat} {f : Str} {n : Nat} {ls : List Bytes} {t : Items}
    {r : List Where} (h : ExpandIn fs inc d f n ls t r) : r = [] → Expand fs inc f n ls t ∧ t.nest ≤ d := by
  induction h with
  | nil => intro _; exact ⟨.nil, Nat.zero_le _⟩
  | line hp _ ih => intro hr; exact ⟨.line hp (ih hr).1, (ih hr).2⟩
  | full _ _ _ => intro hr; cases hr
  | incl hp _ _ ih1 ih2 =>
    intro hr
    obtain ⟨h1, h2⟩ := List.append_eq_nil_iff.1 hr
    refine ⟨.incl hp (ih1 h1).1 (ih2 h2).1, ?_⟩
    have := (ih1 h1).2
    have := (ih2 h2).2
    simp only [Items.nest]
    omega

theorem expandIn_of {fs : FS} {inc : Where → Option Str} {f : Str} {n : Nat} {ls : List Bytes} {t : Items}
    (h : Expand fs inc f n ls t) : ∀ d, t.nest ≤ d → ExpandIn fs inc d f n ls t [] := by
  induction h with
  | nil => intro d _; exact .nil
  | line hp _ ih => intro d hd; exact .line hp (ih d hd)
  | incl hp _ _ ih1 ih2 =>
    intro d hd
    simp only [Items.nest] at hd
    cases d with
    | zero => omega
    | succ d => exact .incl (r := []) (r' := []) hp (ih1 d (by omega)) (ih2 (d + 1) (by omega))

theorem expandIn_refused {fs : FS} {inc : Where → Option Str} {d : Nat} {f : Str} {n : Nat} {ls : List Bytes} {t : Items}
    {r : List Where} (h : ExpandIn fs inc d f n ls t r) : ∀ w ∈ r, ∃ p c, inc w = some p ∧ fs p = some c := by
  induction h with
  | nil => intro w hw; cases hw
  | line _ _ ih => exact ih
  | @full f n l ls p c t r hp _ ih =>
    intro w hw
    rcases List.mem_cons.1 hw with rfl | hw
    · refine ⟨p, c, ?_, pulls_fs hp⟩
      unfold pulls at hp
      cases hi : inc ⟨f, (n : Int) + 1, l⟩ with
      | none => rw [hi] at hp; cases hp
      | some q =>
        rw [hi] at hp
        simp only [Option.map_eq_some_iff, Prod.mk.injEq] at hp
        obtain ⟨_, _, rfl, _⟩ := hp
        rfl
    · exact ih w hw
  | incl _ _ _ ih1 ih2 =>
    intro w hw
    rcases List.mem_append.1 hw with hw | hw
    · exact ih1 w hw
    · exact ih2 w hw

/-! ## The trace follows the expansion -/

theorem linesIn_append (as bs : List Act) : linesIn (as ++ bs) = linesIn as ++ linesIn bs := by
  induction as with
  | nil => rfl
  | cons a as ih => cases a <;> simp [linesIn, ih]

theorem actsRound_line (fs : FS) (inc : Where → Option Str) (room : Nat) (f : Str) (k : Nat) (l : Bytes) (ls : List Bytes)
    (stack : List Frame) :
    ∃ as, linesIn as = [⟨f, (k : Int) + 1, l⟩] ∧ actsRound fs inc room (⟨f, k, l :: ls⟩ :: stack) =
      some (as, match pulls fs inc ⟨f, (k : Int) + 1, l⟩ with
        | none => ⟨f, k + 1, ls⟩ :: stack
        | some (p, c) => if stack.length + 1 < room then openFrame p c :: ⟨f, k + 1, ls⟩ :: stack else ⟨f, k + 1, ls⟩ :: stack) := by
  unfold actsRound pulls
  simp only
  cases hi : inc ⟨f, (k : Int) + 1, l⟩ with
  | none => exact ⟨_, rfl, rfl⟩
  | some p =>
    simp only
    cases hf : fs p with
    | none => exact ⟨_, rfl, rfl⟩
    | some c =>
      simp only [Option.map_some, List.length_cons]
      by_cases hr : stack.length + 1 < room
      · rw [if_pos hr, if_pos hr]; exact ⟨_, rfl, rfl⟩
      · rw [if_neg hr, if_neg hr]; exact ⟨_, rfl, rfl⟩

theorem actsRun_expand {fs : FS} {inc : Where → Option Str} {room d : Nat} {f : Str} {k : Nat} {ls : List Bytes} {t : Items}
    {r : List Where} (h : ExpandIn fs inc d f k ls t r) : ∀ (stack : List Frame), stack.length + 1 + d = room →
    ∃ n as, linesIn as = t.flatten ∧ ∀ m, actsRun fs inc room (n + m) (⟨f, k, ls⟩ :: stack) =
      (as ++ (actsRun fs inc room m stack).1, (actsRun fs inc room m stack).2) := by
  induction h with
  | @nil d f n =>
    intro stack _
    refine ⟨1, [.closed f], rfl, fun m => ?_⟩
    rw [Nat.add_comm 1 m]
    simp [actsRun, actsRound]
  | @line d f n l ls t r hp _ ih =>
    intro stack hr
    obtain ⟨k, as, h1, h2⟩ := ih stack hr
    obtain ⟨a0, a1, a2⟩ := actsRound_line fs inc room f n l ls stack
    simp only [hp] at a2
    refine ⟨k + 1, a0 ++ as, by rw [linesIn_append, a1, h1]; rfl, fun m => ?_⟩
    rw [Nat.add_right_comm]
    simp only [actsRun, a2, h2, List.append_assoc]
  | @full f n l ls p c t r hp _ ih =>
    intro stack hr
    obtain ⟨k, as, h1, h2⟩ := ih stack hr
    obtain ⟨a0, a1, a2⟩ := actsRound_line fs inc room f n l ls stack
    simp only [hp] at a2
    rw [if_neg (by omega)] at a2
    refine ⟨k + 1, a0 ++ as, by rw [linesIn_append, a1, h1]; rfl, fun m => ?_⟩
    rw [Nat.add_right_comm]
    simp only [actsRun, a2, h2, List.append_assoc]
  | @incl d f n l ls p c sub t r r' hp _ _ ih1 ih2 =>
    intro stack hr
    obtain ⟨k1, as1, h1, h2⟩ := ih1 (⟨f, n + 1, ls⟩ :: stack) (by simp; omega)
    obtain ⟨k2, as2, h3, h4⟩ := ih2 stack hr
    obtain ⟨a0, a1, a2⟩ := actsRound_line fs inc room f n l ls stack
    simp only [hp] at a2
    rw [if_pos (by omega)] at a2
    refine ⟨k1 + k2 + 1, a0 ++ (as1 ++ as2), by rw [linesIn_append, linesIn_append, a1, h1, h3]; rfl, fun m => ?_⟩
    rw [Nat.add_right_comm, Nat.add_assoc k1]
    simp only [actsRun, a2]
    have := h2 (k2 + m)
    rw [show openFrame p c = ⟨p, 0, physLines c⟩ from rfl, this, h4]
    simp only [List.append_assoc]

/-! ## The pipeline -/

/-- Which files there are matters for a line only as far as the file it names. -/
theorem lineStep_congr {fs fs' : FS} {ff : List FInfo} {frames : List Frame} {w : Where}
    (h : ∀ p, opens w = some p → fs p = fs' p) : lineStep fs ff frames w = lineStep fs' ff frames w := by
  unfold opens at h
  unfold lineStep fileStage
  cases he : (encodingStage w).2 with
  | error e => simp only [he]
  | ok data =>
    simp only [he] at h ⊢
    rw [ffStage_data [] ff] at h
    cases hp : (parserStage w (commentStage w (ffStage ff w data).2.2).2.1
        (commentStage w (ffStage ff w data).2.2).2.2).2 with
    | elem e => simp only
    | pp pp =>
      cases pp with
      | nothing => simp only [runPP]
      | open_ path must name =>
        simp only [hp] at h ⊢
        simp only [runPP, h path rfl]

theorem pipeStep_congr {σ : Type} {fs fs' : FS} {agg : σ → Elem → Res σ} {st : PState σ} {w : Where} {rest : List Frame}
    (hn : nextLine st.frames = some (w, rest)) (h : ∀ p, opens w = some p → fs p = fs' p) :
    pipeStep fs agg st = pipeStep fs' agg st := by
  unfold pipeStep
  simp only [hn, lineStep_congr h]

theorem pipeRunIn_skip {σ : Type} (room : Nat) (fs : FS) (agg : σ → Elem → Res σ) (m : Nat) (f : Str) (k : Nat)
    (stack : List Frame) (ff : List FInfo) (vsw : List Vsw) (a : σ) :
    pipeRunIn room fs agg m ⟨⟨f, k, []⟩ :: stack, ff, vsw, a⟩ = pipeRunIn room fs agg m ⟨stack, ff, vsw, a⟩ := by
  cases m <;> rfl

theorem pipeLinesIn_skip {σ : Type} (room : Nat) (fs : FS) (agg : σ → Elem → Res σ) (m : Nat) (f : Str) (k : Nat)
    (stack : List Frame) (ff : List FInfo) (vsw : List Vsw) (a : σ) :
    pipeLinesIn room fs agg m ⟨⟨f, k, []⟩ :: stack, ff, vsw, a⟩ = pipeLinesIn room fs agg m ⟨stack, ff, vsw, a⟩ := by
  cases m <;> rfl

theorem pipeRun_skip {σ : Type} (fs : FS) (agg : σ → Elem → Res σ) (m : Nat) (f : Str) (k : Nat)
    (stack : List Frame) (ff : List FInfo) (vsw : List Vsw) (a : σ) :
    pipeRun fs agg m ⟨⟨f, k, []⟩ :: stack, ff, vsw, a⟩ = pipeRun fs agg m ⟨stack, ff, vsw, a⟩ := by
  cases m <;> rfl

/-- The messages of a line upon which the pipeline goes on are issued. -/
theorem pipeStep_log {σ : Type} {fs : FS} {agg : σ → Elem → Res σ} {st : PState σ} {w : Where} {rest : List Frame}
    {r : Res (PState σ)} {st' : PState σ} (hn : nextLine st.frames = some (w, rest)) (h : pipeStep fs agg st = some r)
    (hv : r.val = .ok st') : (∃ x, (lineStep fs st.ff rest w).2 = .ok x) ∧ ∀ m ∈ (lineStep fs st.ff rest w).1, m ∈ r.log := by
  unfold pipeStep at h
  simp only [hn, Option.some.injEq] at h
  subst h
  obtain ⟨_, h1, h2, h3⟩ := Res.bind_ok hv
  refine ⟨?_, fun m hm => ?_⟩
  · cases hl : (lineStep fs st.ff rest w).2 with
    | error e => rw [hl] at h2; cases h2
    | ok x => exact ⟨x, rfl⟩
  rw [h3]
  exact List.mem_append_left _ (by
    have : ∀ (ms : List Msg) {u : Unit}, (Res.emitAll ms).val = .ok u → (Res.emitAll ms).log = ms := by
      intro ms
      induction ms with
      | nil => intro _ _; rfl
      | cons x xs ih =>
        intro u h
        rw [Res.emitAll] at h ⊢
        obtain ⟨_, _, h2, h3⟩ := Res.bind_ok h
        rw [h3, ih h2]
        rfl
    rw [this _ h1]
    exact hm)

/-- What a whole stretch of lines does: an exception on the way, or the pipeline goes on behind it. -/
theorem pipeIn_expand {σ : Type} {fs : FS} {agg : σ → Elem → Res σ} {room d : Nat} {f : Str} {k : Nat} {ls : List Bytes}
    {t : Items} {r : List Where} (h : ExpandIn fs opens d f k ls t r) : ∀ (stack : List Frame), stack.length + 1 + d = room →
    ∀ (m : Nat) (ff : List FInfo) (vsw : List Vsw) (a : σ),
    ((∃ e, (pipeRunIn room fs agg (t.flatten.length + m) ⟨⟨f, k, ls⟩ :: stack, ff, vsw, a⟩).val = .error e) ∧
      pipeLinesIn room fs agg (t.flatten.length + m) ⟨⟨f, k, ls⟩ :: stack, ff, vsw, a⟩ <+: t.flatten) ∨
    ∃ ff' vsw' a' log, pipeRunIn room fs agg (t.flatten.length + m) ⟨⟨f, k, ls⟩ :: stack, ff, vsw, a⟩ =
        ⟨log ++ (pipeRunIn room fs agg m ⟨stack, ff', vsw', a'⟩).log, (pipeRunIn room fs agg m ⟨stack, ff', vsw', a'⟩).val⟩ ∧
      pipeLinesIn room fs agg (t.flatten.length + m) ⟨⟨f, k, ls⟩ :: stack, ff, vsw, a⟩ =
        t.flatten ++ pipeLinesIn room fs agg m ⟨stack, ff', vsw', a'⟩ ∧
      ∀ w ∈ r, ∃ ff frames, (∃ x, (lineStep (fun _ => none) ff frames w).2 = .ok x) ∧
        ∀ m ∈ (lineStep (fun _ => none) ff frames w).1, m ∈ log := by
  have one : ∀ (stack : List Frame) (f : Str) (k : Nat) (l : Bytes) (ls : List Bytes) (n : Nat) (ff : List FInfo)
      (vsw : List Vsw) (a : σ),
      ((∃ e, (pipeRunIn room fs agg (n + 1) ⟨⟨f, k, l :: ls⟩ :: stack, ff, vsw, a⟩).val = .error e) ∧
        pipeLinesIn room fs agg (n + 1) ⟨⟨f, k, l :: ls⟩ :: stack, ff, vsw, a⟩ = [⟨f, (k : Int) + 1, l⟩]) ∨
      ∃ ff' vsw' a' log frames, frames = (match pulls (if stack.length + 1 < room then fs else fun _ => none) opens
          ⟨f, (k : Int) + 1, l⟩ with
          | none => ⟨f, k + 1, ls⟩ :: stack
          | some (p, c) => openFrame p c :: ⟨f, k + 1, ls⟩ :: stack) ∧
        pipeRunIn room fs agg (n + 1) ⟨⟨f, k, l :: ls⟩ :: stack, ff, vsw, a⟩ =
          ⟨log ++ (pipeRunIn room fs agg n ⟨frames, ff', vsw', a'⟩).log, (pipeRunIn room fs agg n ⟨frames, ff', vsw', a'⟩).val⟩ ∧
        pipeLinesIn room fs agg (n + 1) ⟨⟨f, k, l :: ls⟩ :: stack, ff, vsw, a⟩ =
          ⟨f, (k : Int) + 1, l⟩ :: pipeLinesIn room fs agg n ⟨frames, ff', vsw', a'⟩ ∧
        ∃ ff frames, (∃ x, (lineStep (if stack.length + 1 < room then fs else fun _ => none) ff frames
            ⟨f, (k : Int) + 1, l⟩).2 = .ok x) ∧
          ∀ m ∈ (lineStep (if stack.length + 1 < room then fs else fun _ => none) ff frames ⟨f, (k : Int) + 1, l⟩).1,
            m ∈ log := by
    intro stack f k l ls n ff vsw a
    have hn : nextLine (⟨f, k, l :: ls⟩ :: stack) = some (⟨f, (k : Int) + 1, l⟩, ⟨f, k + 1, ls⟩ :: stack) := rfl
    have hroom : withRoom room (⟨f, k, l :: ls⟩ :: stack) fs = if stack.length + 1 < room then fs else fun _ => none := by
      unfold withRoom
      simp only [hn, List.length_cons]
    simp only [pipeRunIn, pipeLinesIn, pipeStepIn, hroom, hn]
    generalize (if stack.length + 1 < room then fs else fun _ => none : FS) = fs'
    cases hp : pipeStep fs' agg ⟨⟨f, k, l :: ls⟩ :: stack, ff, vsw, a⟩ with
    | none => unfold pipeStep at hp; simp only [hn] at hp; cases hp
    | some r =>
      simp only
      cases hv : r.val with
      | error e =>
        refine .inl ⟨⟨e, ?_⟩, rfl⟩
        simp [Res.bind, hv]
      | ok st' =>
        right
        have hf := pipeStep_frames fs' agg _ st' _ _ r hn hp hv
        obtain ⟨fr', ff', vsw', a'⟩ := st'
        refine ⟨ff', vsw', a', r.log, fr', hf, ?_, rfl, _, _, pipeStep_log hn hp hv⟩
        simp [Res.bind, hv]
  induction h with
  | @nil d f n =>
    intro stack _ m ff vsw a
    right
    refine ⟨ff, vsw, a, [], ?_, ?_, fun w hw => by cases hw⟩
    · simp [Items.flatten, pipeRunIn_skip]
    · simp [Items.flatten, pipeLinesIn_skip]
  | @line d f n l ls t r hp _ ih =>
    intro stack hr m ff vsw a
    simp only [Items.flatten, List.length_cons]
    rw [Nat.add_right_comm]
    rcases one stack f n l ls (t.flatten.length + m) ff vsw a with ⟨h1, h2⟩ | ⟨ff1, vsw1, a1, log1, frames, h1, h2, h3, _⟩
    · refine .inl ⟨h1, ?_⟩
      rw [h2]
      exact (List.prefix_cons_inj _).2 List.nil_prefix
    · have hfr : frames = ⟨f, n + 1, ls⟩ :: stack := by
        rw [h1]
        by_cases hx : stack.length + 1 < room
        · simp only [if_pos hx, hp]
        · have : pulls (fun _ => none) opens ⟨f, (n : Int) + 1, l⟩ = none := by unfold pulls; split <;> rfl
          simp only [if_neg hx, this]
      subst hfr
      rw [h2, h3]
      rcases ih stack hr m ff1 vsw1 a1 with ⟨⟨e, he⟩, h4⟩ | ⟨ff2, vsw2, a2, log2, h4, h5, h6⟩
      · exact .inl ⟨⟨e, he⟩, (List.prefix_cons_inj _).2 h4⟩
      · refine .inr ⟨ff2, vsw2, a2, log1 ++ log2, ?_, ?_, fun w hw => ?_⟩
        · rw [h4]; simp
        · rw [h5]; rfl
        · obtain ⟨x, y, hok, hxy⟩ := h6 w hw
          exact ⟨x, y, hok, fun m hm => List.mem_append_right _ (hxy m hm)⟩
  | @full f n l ls p c t r hp _ ih =>
    intro stack hr m ff vsw a
    simp only [Items.flatten, List.length_cons]
    rw [Nat.add_right_comm]
    rcases one stack f n l ls (t.flatten.length + m) ff vsw a with ⟨h1, h2⟩ | ⟨ff1, vsw1, a1, log1, frames, h1, h2, h3, h0⟩
    · refine .inl ⟨h1, ?_⟩
      rw [h2]
      exact (List.prefix_cons_inj _).2 List.nil_prefix
    · have hx : ¬ stack.length + 1 < room := by omega
      have hfr : frames = ⟨f, n + 1, ls⟩ :: stack := by
        rw [h1]
        have : pulls (fun _ => none) opens ⟨f, (n : Int) + 1, l⟩ = none := by unfold pulls; split <;> rfl
        simp only [if_neg hx, this]
      rw [if_neg hx] at h0
      subst hfr
      rw [h2, h3]
      rcases ih stack hr m ff1 vsw1 a1 with ⟨⟨e, he⟩, h4⟩ | ⟨ff2, vsw2, a2, log2, h4, h5, h6⟩
      · exact .inl ⟨⟨e, he⟩, (List.prefix_cons_inj _).2 h4⟩
      · refine .inr ⟨ff2, vsw2, a2, log1 ++ log2, ?_, ?_, fun w hw => ?_⟩
        · rw [h4]; simp
        · rw [h5]; rfl
        · rcases List.mem_cons.1 hw with rfl | hw
          · obtain ⟨x, y, hok, hxy⟩ := h0
            exact ⟨x, y, hok, fun m hm => List.mem_append_left _ (hxy m hm)⟩
          · obtain ⟨x, y, hok, hxy⟩ := h6 w hw
            exact ⟨x, y, hok, fun m hm => List.mem_append_right _ (hxy m hm)⟩
  | @incl d f n l ls p c sub t r r' hp _ _ ih1 ih2 =>
    intro stack hr m ff vsw a
    simp only [Items.flatten, List.length_cons, List.length_append]
    rw [Nat.add_right_comm]
    rcases one stack f n l ls (sub.flatten.length + t.flatten.length + m) ff vsw a with
      ⟨h1, h2⟩ | ⟨ff1, vsw1, a1, log1, frames, h1, h2, h3, _⟩
    · refine .inl ⟨h1, ?_⟩
      rw [h2]
      exact (List.prefix_cons_inj _).2 List.nil_prefix
    · have hfr : frames = ⟨p, 0, physLines c⟩ :: ⟨f, n + 1, ls⟩ :: stack := by
        rw [h1]
        simp only [if_pos (show stack.length + 1 < room by omega), hp]
        rfl
      subst hfr
      rw [h2, h3, Nat.add_assoc]
      rcases ih1 (⟨f, n + 1, ls⟩ :: stack) (by simp; omega) (t.flatten.length + m) ff1 vsw1 a1 with
        ⟨⟨e, he⟩, h4⟩ | ⟨ff2, vsw2, a2, log2, h4, h5, h6⟩
      · exact .inl ⟨⟨e, he⟩, (List.prefix_cons_inj _).2 (h4.trans (List.prefix_append _ _))⟩
      · rw [h4, h5]
        rcases ih2 stack hr m ff2 vsw2 a2 with ⟨⟨e, he⟩, h7⟩ | ⟨ff3, vsw3, a3, log3, h7, h8, h9⟩
        · exact .inl ⟨⟨e, he⟩, (List.prefix_cons_inj _).2 ((List.prefix_append_right_inj _).2 h7)⟩
        · refine .inr ⟨ff3, vsw3, a3, log1 ++ log2 ++ log3, ?_, ?_, fun w hw => ?_⟩
          · rw [h7]; simp
          · rw [h8]; simp
          · rcases List.mem_append.1 hw with hw | hw
            · obtain ⟨x, y, hok, hxy⟩ := h6 w hw
              exact ⟨x, y, hok, fun m hm => List.mem_append_left _ (List.mem_append_right _ (hxy m hm))⟩
            · obtain ⟨x, y, hok, hxy⟩ := h9 w hw
              exact ⟨x, y, hok, fun m hm => List.mem_append_right _ (hxy m hm)⟩

/-- Without refusals the limit changes nothing. -/
theorem pipeIn_same {σ : Type} {fs : FS} {agg : σ → Elem → Res σ} {room : Nat} {f : Str} {k : Nat} {ls : List Bytes}
    {t : Items} (h : Expand fs opens f k ls t) : ∀ (stack : List Frame), stack.length + 1 + t.nest ≤ room → ∀ (m : Nat),
    (∀ (ff : List FInfo) (vsw : List Vsw) (a : σ),
      pipeRunIn room fs agg m ⟨stack, ff, vsw, a⟩ = pipeRun fs agg m ⟨stack, ff, vsw, a⟩) →
    ∀ (ff : List FInfo) (vsw : List Vsw) (a : σ),
      pipeRunIn room fs agg (t.flatten.length + m) ⟨⟨f, k, ls⟩ :: stack, ff, vsw, a⟩ =
        pipeRun fs agg (t.flatten.length + m) ⟨⟨f, k, ls⟩ :: stack, ff, vsw, a⟩ := by
  have one : ∀ (stack : List Frame) (f : Str) (k : Nat) (l : Bytes) (ls : List Bytes) (n : Nat) (ff : List FInfo)
      (vsw : List Vsw) (a : σ), (pulls fs opens ⟨f, (k : Int) + 1, l⟩ = none ∨ stack.length + 1 < room) →
      (∀ (ff : List FInfo) (vsw : List Vsw) (a : σ) (frames : List Frame),
        frames = (match pulls fs opens ⟨f, (k : Int) + 1, l⟩ with
          | none => ⟨f, k + 1, ls⟩ :: stack
          | some (p, c) => openFrame p c :: ⟨f, k + 1, ls⟩ :: stack) →
        pipeRunIn room fs agg n ⟨frames, ff, vsw, a⟩ = pipeRun fs agg n ⟨frames, ff, vsw, a⟩) →
      pipeRunIn room fs agg (n + 1) ⟨⟨f, k, l :: ls⟩ :: stack, ff, vsw, a⟩ =
        pipeRun fs agg (n + 1) ⟨⟨f, k, l :: ls⟩ :: stack, ff, vsw, a⟩ := by
    intro stack f k l ls n ff vsw a hp hm
    have hn : nextLine (⟨f, k, l :: ls⟩ :: stack) = some (⟨f, (k : Int) + 1, l⟩, ⟨f, k + 1, ls⟩ :: stack) := rfl
    have hroom : withRoom room (⟨f, k, l :: ls⟩ :: stack) fs = if stack.length + 1 < room then fs else fun _ => none := by
      unfold withRoom
      simp only [hn, List.length_cons]
    have hs : pipeStep (withRoom room (⟨f, k, l :: ls⟩ :: stack) fs) agg ⟨⟨f, k, l :: ls⟩ :: stack, ff, vsw, a⟩ =
        pipeStep fs agg ⟨⟨f, k, l :: ls⟩ :: stack, ff, vsw, a⟩ := by
      refine pipeStep_congr hn fun p hx => ?_
      rw [hroom]
      by_cases hr : stack.length + 1 < room
      · rw [if_pos hr]
      · rw [if_neg hr]
        rcases hp with hp | hp
        · unfold pulls at hp
          rw [hx] at hp
          simp only [Option.map_eq_none_iff] at hp
          exact hp.symm
        · exact absurd hp hr
    simp only [pipeRunIn, pipeRun, pipeStepIn, hs]
    cases hp : pipeStep fs agg ⟨⟨f, k, l :: ls⟩ :: stack, ff, vsw, a⟩ with
    | none => rfl
    | some r =>
      simp only
      cases hv : r.val with
      | error e => simp [Res.bind, hv]
      | ok st' =>
        have hf := pipeStep_frames fs agg _ st' _ _ r hn hp hv
        obtain ⟨fr', ff', vsw', a'⟩ := st'
        have := hm ff' vsw' a' fr' hf
        simp [Res.bind, hv, this]
  induction h with
  | @nil f n =>
    intro stack _ m hm ff vsw a
    simp only [Items.flatten, List.length_nil, Nat.zero_add, pipeRunIn_skip, pipeRun_skip]
    exact hm ff vsw a
  | @line f n l ls t hp _ ih =>
    intro stack hr m hm ff vsw a
    simp only [Items.flatten, List.length_cons]
    rw [Nat.add_right_comm]
    refine one stack f n l ls _ ff vsw a (.inl hp) fun ff' vsw' a' frames hfr => ?_
    simp only [hp] at hfr
    subst hfr
    exact ih stack hr m hm ff' vsw' a'
  | @incl f n l ls p c sub t hp _ _ ih1 ih2 =>
    intro stack hr m hm ff vsw a
    simp only [Items.nest] at hr
    simp only [Items.flatten, List.length_cons, List.length_append]
    rw [Nat.add_right_comm]
    refine one stack f n l ls _ ff vsw a (.inr (by omega)) fun ff' vsw' a' frames hfr => ?_
    simp only [hp] at hfr
    subst hfr
    rw [Nat.add_assoc]
    exact ih1 (⟨f, n + 1, ls⟩ :: stack) (by simp; omega) _ (fun ff vsw a => ih2 stack (by omega) m hm ff vsw a) ff' vsw' a'

end ALint
