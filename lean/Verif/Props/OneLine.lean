import Verif.Spec.OneLine
import Verif.Proofs.FlatDialplan
import Verif.Props.Command
import Verif.Props.LocatedOdbc
import Verif.Props.Dialplan

/-!
# C107: the report can be read line by line
-/

namespace ALint
open Spec

/-! ## func_odbc.conf -/

theorem flat_checkOrder (sets : List VarE) (v : VarE) : LogAll FlatMsg (checkOrder sets v) := by
  unfold checkOrder
  split
  · exact .bind (.emit (flatMsg_none rfl)) fun _ => .pure _
  split
  · exact .bind (.emit (flatMsg_none rfl)) fun _ => .pure _
  split
  · exact .pure _
  split
  · exact .bind (.emit (flatMsg_none rfl)) fun _ => .pure _
  · exact .pure _

theorem flat_odbcAdd (f : OdbcFn) (v : VarE) : LogAll FlatMsg (f.add v) := by
  unfold OdbcFn.add
  exact .bind (flat_checkOrder _ _) fun ok => .ite (.bind (.ite (.bind (.ite (.emit (flatMsg_none rfl)) (.pure _))
    fun _ => .ite (.emit (flatMsg_none rfl)) (.pure _)) (.pure _)) fun _ => .pure _) (.pure _)

theorem flat_odbcStep (fns : List OdbcFn) (e : Elem) : LogAll FlatMsg (odbcStep fns e) := by
  cases e with
  | empty c w => exact .pure _
  | ctx c =>
    exact .bind (.ite (.pure _) (.emit (flatMsg_none rfl))) fun _ => .bind (.ite (.pure _) (.emit (flatMsg_none rfl)))
      fun _ => .pure _
  | var v =>
    cases fns with
    | nil => exact .bind (.ite (.emit (flatMsg_none rfl)) (.pure _)) fun _ => .bind (.emit (flatMsg_none rfl)) fun _ => .pure _
    | cons f rest => exact .bind (.ite (.emit (flatMsg_none rfl)) (.pure _)) fun _ => .bind (flat_odbcAdd f v) fun _ => .pure _

theorem flat_finalizeAll : ∀ (fns : List OdbcFn) (env : FEnv), LogAll FlatMsg (finalizeAll env fns)
  | [], _ => .pure _
  | f :: fs, env => by
    unfold finalizeAll
    refine .bind ?_ fun _ => flat_finalizeAll fs _
    unfold OdbcFn.finalize
    exact .ite (.ite (.raise _) (.pure _)) (.bind (.emit (flatMsg_none rfl)) fun _ => .pure _)

theorem lineless_at {α : Type} {x : Res α} (h1 : LogAll (AtPlaces FlatWhere) x) (h2 : LogAll FlatMsg x) : LogAll Lineless x :=
  (logAll_and h1 h2).mono fun _ h => ⟨h.2, h.1.1, h.1.2⟩

theorem flat_loadOdbc (fs : FS) (env : FEnv) (n : Nat) {path : Str} (hp : Flat path) (content : Bytes) :
    LogAll Lineless (loadOdbc fs env n path content) := by
  have hc : ConsumesFlat Lineless (fun fns : List OdbcFn => ∀ f ∈ fns, OdbcIn FlatWhere f) odbcStep := by
    intro fns e hJ hS _
    obtain ⟨h1, h2⟩ := odbcStep_consumes fns e hJ hS
    exact ⟨lineless_at h1 (flat_odbcStep _ _), h2⟩
  obtain ⟨h1, h2⟩ := pipeRun_flat (fs := fs) (fun _ h => fine_lineless h) hc n
    (st := ⟨[openFrame path content], [], [], []⟩) ⟨by simpa using flat_frame hp content, by simp [FfIn], by simp [VswIn]⟩ (by simp)
  unfold loadOdbc
  refine LogAll.bind_ok h1 fun o ho => ?_
  cases o with
  | none => exact .pure _
  | some fns =>
    exact .bind (lineless_at (atPlaces_finalize fun f hf => h2 fns ho f (List.mem_reverse.1 hf)) (flat_finalizeAll _ _))
      fun _ => .pure _

/-! ## Printing -/

theorem flat_hexDigit (n : Nat) : hexDigit n ≠ '\n' := by
  unfold hexDigit
  split <;> intro h <;> have := ofNat_lf h <;> omega

theorem flat_byteRepr {q : Nat} (hq : q ≠ 10) (b : Nat) : Flat (byteRepr q b) := by
  unfold byteRepr
  split
  · rename_i hb
    exact .cons (by decide) (.cons (fun h => by have := ofNat_lf h; omega) .nil)
  · split
    · unfold Flat; decide
    · split
      · unfold Flat; decide
      · rename_i hb
        split
        · unfold Flat; decide
        · split
          · exact .cons (by decide) (.cons (by decide) (.cons (flat_hexDigit _) (.cons (flat_hexDigit _) .nil)))
          · exact .cons (fun h => hb (ofNat_lf h)) .nil

theorem flat_bytesRepr (bs : Bytes) : Flat (bytesRepr bs) := by
  have key : ∀ q : Nat, q ≠ 10 → Flat ('b' :: Char.ofNat q :: bs.flatMap (byteRepr q) ++ [Char.ofNat q]) := by
    intro q hq
    have hc : Char.ofNat q ≠ '\n' := fun h => hq (ofNat_lf h)
    refine Flat.append (.cons (by decide) (.cons hc ?_)) (.cons hc .nil)
    intro hm
    obtain ⟨b, _, hb⟩ := List.mem_flatMap.1 hm
    exact flat_byteRepr hq b hb
  unfold bytesRepr
  dsimp only
  apply key
  split <;> decide

theorem flat_shownLine (bs : Bytes) : Flat (shownLine bs) := by
  unfold shownLine
  dsimp only
  split
  · exact (((flat_bytesRepr bs).drop _).take _).append (by unfold Flat; decide)
  · exact (flat_bytesRepr bs).drop _

theorem template_flat (k : MK) : ∀ p ∈ k.template, ∀ s, p = .lit s → Flat s := by
  have key : ∀ k ∈ MK.all, ∀ p ∈ k.template, (match p with | .lit s => !s.contains '\n' | _ => true) = true := by
    decide +kernel
  have hall : k ∈ MK.all := by cases k <;> decide
  intro p hp s hs
  have := key k hall p hp
  subst hs
  simpa [Flat] using this

theorem name_flat (k : MK) : Flat k.name ∧ ' ' ∉ k.name ∧ ':' ∉ k.name := by
  have key : ∀ k ∈ MK.all, '\n' ∉ k.name ∧ ' ' ∉ k.name ∧ ':' ∉ k.name := by decide +kernel
  exact key k (by cases k <;> decide)

theorem flat_rendered {rep : Arg → Str} (hr : ∀ a, '\n' ∉ rep a) {args : List (Str × Arg)} {ps : List Piece} {rs : List Rendered}
    (h1 : ∀ p ∈ ps, ∀ s, p = .lit s → Flat s)
    (h2 : ∀ n, .field n false ∈ ps → ∀ a, (n, a) ∈ args → a.Flat) (h : renderAll args ps = .ok rs) :
    Flat (rs.flatMap (Rendered.shown rep)) := by
  induction ps generalizing rs with
  | nil => cases h; exact .nil
  | cons p ps ih =>
    rw [renderAll] at h
    cases hp : renderPiece args p with
    | error e => simp [hp] at h
    | ok r =>
      simp only [hp] at h
      cases hq : renderAll args ps with
      | error e => simp [hq, Except.map] at h
      | ok rs' =>
        simp only [hq, Except.map, Except.ok.injEq] at h
        subst h
        rw [List.flatMap_cons]
        refine Flat.append ?_ (ih (fun p hp => h1 p (by simp [hp])) (fun n hn => h2 n (by simp [hn])) hq)
        cases p with
        | lit s => cases hp; exact h1 _ (by simp) s rfl
        | field n r0 =>
          simp only [renderPiece] at hp
          cases hl : args.lookup n with
          | none => simp [hl] at hp
          | some a =>
            simp only [hl] at hp
            cases r0 with
            | true => simp only [if_true, Except.ok.injEq] at hp; subst hp; exact hr _
            | false =>
              have ha := h2 n (by simp) a (lookup_mem hl)
              cases a with
              | many vs => simp at hp; subst hp; exact hr _
              | one v =>
                simp only [Bool.false_eq_true, if_false] at hp
                cases hv : v.toStr with
                | error e => simp [hv, Except.map] at hp
                | ok s =>
                  simp only [hv, Except.map, Except.ok.injEq] at hp
                  subst hp
                  exact V.Flat.toStr ha hv

theorem flat_text {rep : Arg → Str} (hr : ∀ a, '\n' ∉ rep a) {m : Msg} (h : FlatMsg m) {rs : List Rendered}
    (hm : m.render = .ok rs) : Flat (rs.flatMap (Rendered.shown rep)) := by
  refine flat_rendered hr (template_flat m.kind) ?_ hm
  intro n hn a ha
  refine h (n, a) ha ?_
  unfold rawNames
  exact List.mem_filterMap.2 ⟨_, hn, rfl⟩

theorem flat_place {w : Where} (h : FlatWhere w) : Flat w.text :=
  (h.1.append (by unfold Flat; decide)).append (flat_intStr _)

theorem flat_messageLines {sh : Shell} (hs : OneLineTexts sh) {m : Msg} (h : Lineless m) {rs : List Rendered}
    (hm : m.render = .ok rs) : ∀ l ∈ messageLines sh m rs, Flat l := by
  intro l hl
  unfold messageLines at hl
  rcases List.mem_append.1 hl with hl | hl
  · rcases List.mem_append.1 hl with hl | hl
    · rw [List.mem_singleton.1 hl]
      exact ((((flat_place h.at_).append (by unfold Flat; decide)).append (name_flat _).1).append (by unfold Flat; decide)).append
        (flat_text hs.rep h.flat hm)
    · split at hl
      · rw [List.mem_singleton.1 hl]
        exact Flat.append (by unfold Flat; decide) (flat_shownLine _)
      · cases hl
  · split at hl
    · unfold previousLines at hl
      split at hl
      · rename_i w hw
        rw [List.mem_singleton.1 hl]
        refine Flat.append (by unfold Flat; decide) ?_
        unfold prevText
        split
        · exact flat_place (h.prev w hw)
        · exact hs.obj w
      · cases hl
    · cases hl

theorem groupsOf_mem {sh : Shell} {ms : List Msg} {g : Msg × List Str} (h : g ∈ Props.groupsOf sh ms) :
    ∃ ps, g.1 ∈ ms ∧ g.1.render = .ok ps ∧ g.2 = messageLines sh g.1 ps := by
  induction ms with
  | nil => cases h
  | cons m ms ih =>
    have later : g ∈ Props.groupsOf sh ms → ∃ ps, g.1 ∈ m :: ms ∧ g.1.render = .ok ps ∧ g.2 = messageLines sh g.1 ps := by
      intro h
      obtain ⟨ps, h1, h2⟩ := ih h
      exact ⟨ps, by simp [h1], h2⟩
    rw [Props.groupsOf] at h
    split at h
    · exact later h
    · rename_i ps hps
      split at h
      · exact later h
      · rcases List.mem_cons.1 h with rfl | h
        · exact ⟨ps, by simp, hps, rfl⟩
        · exact later h

theorem program_err {α : Type} (sh : Shell) (r : Res (Except Stopped α)) (out : α → List Str) (status : Manager → α → Nat) :
    (program sh r out status).err = (managerAfter sh r.log).printed.flatMap fun p => messageLines sh p.1 p.2 := by
  unfold program
  dsimp only
  split <;> rfl

theorem flat_program {α : Type} {sh : Shell} (hs : OneLineTexts sh) {r : Res (Except Stopped α)} (h : LogAll Lineless r)
    (out : α → List Str) (status : Manager → α → Nat) : ∀ l ∈ (program sh r out status).err, Flat l := by
  intro l hl
  rw [program_err] at hl
  cases hm : sh.muted with
  | true =>
    rw [Props.printed_muted sh hm] at hl
    cases hl
  | false =>
    rw [Props.printed_groups sh hm] at hl
    obtain ⟨g, hg, hl⟩ := List.mem_flatMap.1 hl
    obtain ⟨ps, h1, h2, h3⟩ := groupsOf_mem hg
    rw [h3] at hl
    exact flat_messageLines hs (h _ h1) h2 l hl

theorem lineless_opening {β : Type} {fs : FS} {path : Str} {f : Bytes → Res (Except Stopped β)}
    (h : ∀ b, LogAll Lineless (f b)) : LogAll Lineless (opening fs path f) := by
  unfold opening; split
  · exact .pure _
  · exact h _

theorem lineless_finished {α β : Type} {r : Res (Option α)} {f : α → Res (Except Stopped β)} (hr : LogAll Lineless r)
    (h : ∀ a, LogAll Lineless (f a)) : LogAll Lineless (finished r f) := by
  unfold finished
  refine .bind hr fun o => ?_
  cases o with
  | none => exact .pure _
  | some a => exact h a

theorem lineless_andThen {α β : Type} {r : Res (Except Stopped α)} {f : α → Res (Except Stopped β)}
    (hr : LogAll Lineless r) (h : ∀ a, LogAll Lineless (f a)) : LogAll Lineless (andThen r f) := by
  unfold andThen
  refine .bind hr fun o => ?_
  cases o with
  | error s => exact .pure _
  | ok a => exact h a

/-- The file of functions has a name without a line feed. -/
theorem flat_odbcFile {fs : FS} {arg : Option Str} {path p : Str} (hp : Flat path) (ha : ∀ a, arg = some a → Flat a)
    (h : odbcFile fs arg path = some p) : Flat p := by
  unfold odbcFile at h
  split at h
  · cases h
  · cases h; exact ha _ rfl
  · dsimp only at h
    split at h
    · cases h
      exact flat_pathJoin (flat_dirname hp) (by unfold Flat; decide)
    · cases h

theorem lineless_check (fs : FS) (env : DEnv) (n : Nat) {arg : Option Str} {path : Str} (hp : Flat path)
    (ha : ∀ a, arg = some a → Flat a) : LogAll Lineless (dialplanCheckRun fs env n arg path) := by
  unfold dialplanCheckRun
  refine lineless_andThen ?_ fun env => lineless_opening fun c => lineless_finished (flat_checkDialplan _ _ _ _ hp _) fun _ => .pure _
  unfold readOdbc
  split
  · exact .pure _
  · rename_i p ho
    exact lineless_opening fun c => lineless_finished (flat_loadOdbc _ _ _ (flat_odbcFile hp ha ho) _) fun _ => .pure _

/-! ## Reading the report -/

theorem written_first {l l' a b : Str} (hl : '\n' ∉ l) (hl' : '\n' ∉ l') (h : l ++ '\n' :: a = l' ++ '\n' :: b) :
    l = l' ∧ a = b := by
  induction l generalizing l' with
  | nil =>
    cases l' with
    | nil => simpa using h
    | cons c l' =>
      simp only [List.nil_append, List.cons_append, List.cons.injEq] at h
      exact absurd (by simp [← h.1]) hl'
  | cons c l ih =>
    cases l' with
    | nil =>
      simp only [List.nil_append, List.cons_append, List.cons.injEq] at h
      exact absurd (by simp [h.1]) hl
    | cons c' l' =>
      simp only [List.cons_append, List.cons.injEq] at h
      obtain ⟨h1, h2⟩ := ih (l' := l') (fun hm => hl (by simp [hm])) (fun hm => hl' (by simp [hm])) h.2
      exact ⟨by rw [h.1, h1], h2⟩

theorem written_inj {a b : List Str} (ha : ∀ l ∈ a, '\n' ∉ l) (hb : ∀ l ∈ b, '\n' ∉ l) (h : written a = written b) : a = b := by
  induction a generalizing b with
  | nil =>
    cases b with
    | nil => rfl
    | cons l b => simp [written] at h
  | cons l a ih =>
    cases b with
    | nil => simp [written] at h
    | cons l' b =>
      have h' : l ++ '\n' :: written a = l' ++ '\n' :: written b := by simpa [written] using h
      obtain ⟨h1, h2⟩ := written_first (ha l (by simp)) (hb l' (by simp)) h'
      rw [h1, ih (fun l hl => ha l (by simp [hl])) (fun l hl => hb l (by simp [hl])) h2]

/-- Cutting at the first `c`. -/
theorem cut_first {c : Char} {l l' a b : Str} (hl : c ∉ l) (hl' : c ∉ l') (h : l ++ c :: a = l' ++ c :: b) :
    l = l' ∧ a = b := by
  induction l generalizing l' with
  | nil =>
    cases l' with
    | nil => simpa using h
    | cons d l' =>
      simp only [List.nil_append, List.cons_append, List.cons.injEq] at h
      exact absurd (by simp [← h.1]) hl'
  | cons d l ih =>
    cases l' with
    | nil =>
      simp only [List.nil_append, List.cons_append, List.cons.injEq] at h
      exact absurd (by simp [h.1]) hl
    | cons d' l' =>
      simp only [List.cons_append, List.cons.injEq] at h
      obtain ⟨h1, h2⟩ := ih (l' := l') (fun hm => hl (by simp [hm])) (fun hm => hl' (by simp [hm])) h.2
      exact ⟨by rw [h.1, h1], h2⟩

/-- Cutting at the last `c`. -/
theorem cut_last {c : Char} {l l' a b : Str} (ha : c ∉ a) (hb : c ∉ b) (h : l ++ c :: a = l' ++ c :: b) :
    l = l' ∧ a = b := by
  have := congrArg List.reverse h
  simp only [List.reverse_append, List.reverse_cons, List.append_assoc, List.singleton_append] at this
  obtain ⟨h1, h2⟩ := cut_first (by simpa using ha) (by simpa using hb) this
  exact ⟨List.reverse_inj.1 h2, List.reverse_inj.1 h1⟩

/-- A digit as a number. -/
def valueOf : Str → Nat := List.foldl (fun v c => v * 10 + (c.toNat - 48)) 0

theorem digit_toNat {d : Nat} (h : d < 10) : (Char.ofNat (48 + d)).toNat = 48 + d := by
  have : d = 0 ∨ d = 1 ∨ d = 2 ∨ d = 3 ∨ d = 4 ∨ d = 5 ∨ d = 6 ∨ d = 7 ∨ d = 8 ∨ d = 9 := by omega
  rcases this with rfl | rfl | rfl | rfl | rfl | rfl | rfl | rfl | rfl | rfl <;> rfl

theorem valueOf_digits {fuel n : Nat} (h : n < fuel) : valueOf (decDigits fuel n) = n := by
  induction fuel generalizing n with
  | zero => omega
  | succ fuel ih =>
    rw [decDigits]
    split
    · rename_i hn
      simp [valueOf, digit_toNat hn]
    · rename_i hn
      have := ih (n := n / 10) (by omega)
      have hd := digit_toNat (d := n % 10) (by omega)
      unfold valueOf at this ⊢
      rw [List.foldl_append, this, List.foldl_cons, List.foldl_nil, hd]
      omega

theorem digits_chars {fuel n : Nat} : ∀ c ∈ decDigits fuel n, 48 ≤ c.toNat ∧ c.toNat ≤ 57 := by
  induction fuel generalizing n with
  | zero => simp [decDigits]
  | succ fuel ih =>
    intro c hc
    rw [decDigits] at hc
    split at hc
    · rename_i hn
      rw [List.mem_singleton.1 hc, digit_toNat hn]; omega
    · rcases List.mem_append.1 hc with hc | hc
      · exact ih c hc
      · rw [List.mem_singleton.1 hc, digit_toNat (by omega)]; omega

theorem natStr_inj {a b : Nat} (h : natStr a = natStr b) : a = b := by
  have := congrArg valueOf h
  unfold natStr at this
  rwa [valueOf_digits (by omega), valueOf_digits (by omega)] at this

theorem natStr_char {n : Nat} {c : Char} (hc : c.toNat < 48 ∨ 57 < c.toNat) : c ∉ natStr n := by
  intro hm
  have := digits_chars c hm
  omega

theorem intStr_inj {a b : Int} (h : intStr a = intStr b) : a = b := by
  cases a with
  | ofNat a =>
    cases b with
    | ofNat b => rw [natStr_inj h]
    | negSucc b =>
      exact absurd (show '-' ∈ natStr a by rw [show natStr a = '-' :: natStr (b + 1) from h]; simp) (natStr_char (by decide))
  | negSucc a =>
    cases b with
    | ofNat b =>
      exact absurd (show '-' ∈ natStr b by rw [show natStr b = '-' :: natStr (a + 1) from h.symm]; simp) (natStr_char (by decide))
    | negSucc b =>
      simp only [intStr, List.cons.injEq, true_and] at h
      have := natStr_inj h
      congr 1
      omega

theorem intStr_char {n : Int} {c : Char} (hc : c = ':' ∨ c = ' ') : c ∉ intStr n := by
  have h1 : c.toNat < 48 ∨ 57 < c.toNat := by rcases hc with rfl | rfl <;> decide
  cases n with
  | ofNat n => exact natStr_char h1
  | negSucc n =>
    intro hm
    rcases List.mem_cons.1 hm with hm | hm
    · subst hm; revert hc; decide
    · exact natStr_char h1 hm

theorem heading_inj {m m' : Msg} {t t' : Str} (h1 : ' ' ∉ m.at_.filename) (h2 : ' ' ∉ m'.at_.filename)
    (h : heading m t = heading m' t') : Spec.signature m = Spec.signature m' ∧ t = t' := by
  have e : (m.at_.filename ++ ':' :: intStr m.at_.lineno) ++ ' ' :: (m.kind.name ++ ':' :: ' ' :: t) =
      (m'.at_.filename ++ ':' :: intStr m'.at_.lineno) ++ ' ' :: (m'.kind.name ++ ':' :: ' ' :: t') := by
    simpa [heading] using h
  have hb : ∀ m : Msg, ' ' ∉ m.at_.filename → ' ' ∉ m.at_.filename ++ ':' :: intStr m.at_.lineno := by
    intro m hm hc
    rcases List.mem_append.1 hc with hc | hc
    · exact hm hc
    · rcases List.mem_cons.1 hc with hc | hc
      · exact absurd hc (by decide)
      · exact intStr_char (.inr rfl) hc
  obtain ⟨a, b⟩ := cut_first (hb m h1) (hb m' h2) e
  obtain ⟨a1, a2⟩ := cut_last (intStr_char (.inl rfl)) (intStr_char (.inl rfl)) a
  obtain ⟨b1, b2⟩ := cut_first (name_flat _).2.2 (name_flat _).2.2 b
  refine ⟨?_, by simpa using b2⟩
  unfold Spec.signature
  rw [a1, intStr_inj a2, Props.MK.name_inj _ _ b1]

/-- A line that starts with something else than a blank. -/
def isHead (l : Str) : Bool := l.head? != some ' '

theorem heading_head {m : Msg} {t : Str} (h : ' ' ∉ m.at_.filename) : isHead (heading m t) = true := by
  unfold isHead heading
  cases hf : m.at_.filename with
  | nil => rfl
  | cons c f =>
    have : c ≠ ' ' := by rintro rfl; exact h (by simp [hf])
    simpa using this

/-- The lines below a heading start with a blank. -/
theorem printedAs_head {sh : Shell} {m : Msg} {g : List Str} (h : PrintedAs sh m g) (hf : ' ' ∉ m.at_.filename) :
    ∃ t, g.filter isHead = [heading m t] := by
  cases h with
  | @mk ps _ _ hr h1 h2 =>
    refine ⟨ps.flatMap (Rendered.shown sh.rep), ?_⟩
    rw [List.filter_cons_of_pos (heading_head hf), List.filter_append]
    have e1 : ∀ {l}, LineBelow sh m l → l.filter isHead = [] := by
      intro l h; cases h <;> simp [isHead]
    have e2 : ∀ {l}, EarlierBelow sh m l → l.filter isHead = [] := by
      intro l h; cases h <;> simp [isHead]
    rw [e1 h1, e2 h2]
    rfl

theorem said_heads {sh : Shell} {ms : List Msg} {gs : List (Msg × List Str)} (h : Said sh ms gs)
    (hf : ∀ m ∈ ms, ' ' ∉ m.at_.filename) :
    ∃ ts : List Str, ts.length = gs.length ∧
      (printedLines gs).filter isHead = (gs.zip ts).map fun p => heading p.1.1 p.2 := by
  induction h with
  | nil => exact ⟨[], rfl, rfl⟩
  | left _ _ ih => exact ih fun m hm => hf m (by simp [hm])
  | said _ hp _ ih =>
    obtain ⟨ts, h1, h2⟩ := ih fun m hm => hf m (by simp [hm])
    obtain ⟨t, ht⟩ := printedAs_head hp (hf _ (by simp))
    refine ⟨t :: ts, by simp [h1], ?_⟩
    unfold printedLines at h2 ⊢
    rw [List.flatMap_cons, List.filter_append, h2, ht]
    rfl

theorem said_mem {sh : Shell} {ms : List Msg} {gs : List (Msg × List Str)} (h : Said sh ms gs) : ∀ g ∈ gs, g.1 ∈ ms := by
  induction h with
  | nil => simp
  | left _ _ ih => exact fun g hg => by simp [ih g hg]
  | said _ _ _ ih =>
    intro g hg
    rcases List.mem_cons.1 hg with rfl | hg
    · simp
    · simp [ih g hg]

theorem heads_inj {gs gs' : List (Msg × List Str)} {ts ts' : List Str} (hl : ts.length = gs.length) (hl' : ts'.length = gs'.length)
    (hf : ∀ g ∈ gs, ' ' ∉ g.1.at_.filename) (hf' : ∀ g ∈ gs', ' ' ∉ g.1.at_.filename)
    (h : ((gs.zip ts).map fun p => heading p.1.1 p.2) = (gs'.zip ts').map fun p => heading p.1.1 p.2) :
    gs.map (fun g => Spec.signature g.1) = gs'.map fun g => Spec.signature g.1 := by
  induction gs generalizing gs' ts ts' with
  | nil =>
    cases gs' with
    | nil => rfl
    | cons g gs' =>
      cases ts' with
      | nil => cases hl'
      | cons t ts' => simp at h
  | cons g gs ih =>
    cases ts with
    | nil => cases hl
    | cons t ts =>
      cases gs' with
      | nil => simp at h
      | cons g' gs' =>
        cases ts' with
        | nil => cases hl'
        | cons t' ts' =>
          simp only [List.zip_cons_cons, List.map_cons, List.cons.injEq] at h
          obtain ⟨h1, _⟩ := heading_inj (hf g (by simp)) (hf' g' (by simp)) h.1
          rw [List.map_cons, List.map_cons, h1, ih (by simpa using hl) (by simpa using hl')
            (fun g hg => hf g (by simp [hg])) (fun g hg => hf' g (by simp [hg])) h.2]

end ALint

namespace ALint.Props
open ALint ALint.Spec

/-- C107 for `dialplan-check`: whatever is in the files, no line of the report has a line feed in it,
so that splitting the report at its line feeds gives exactly the lines that were printed. -/
theorem C107_dialplan_check (sh : Shell) (hs : OneLineTexts sh) (fs : FS) (env : DEnv) (n : Nat) (arg : Option Str) (path : Str)
    (hp : '\n' ∉ path) (ha : ∀ a, arg = some a → '\n' ∉ a) :
    (∀ l ∈ (dialplanCheck sh fs env n arg path).err, '\n' ∉ l) ∧
    ∀ ls, (∀ l ∈ ls, '\n' ∉ l) → written ls = written (dialplanCheck sh fs env n arg path).err →
      ls = (dialplanCheck sh fs env n arg path).err := by
  have h := flat_program hs (lineless_check fs env n hp ha) (fun _ => []) fun mg _ => mg.exitStatus sh.ignore
  exact ⟨h, fun ls hls he => written_inj hls h he⟩

/-- C107 for `func_odbc-check`. -/
theorem C107_func_odbc_check (sh : Shell) (hs : OneLineTexts sh) (fs : FS) (env : DEnv) (n : Nat) (path : Str) (hp : '\n' ∉ path) :
    (∀ l ∈ (odbcCheck sh fs env n path).err, '\n' ∉ l) ∧
    ∀ ls, (∀ l ∈ ls, '\n' ∉ l) → written ls = written (odbcCheck sh fs env n path).err → ls = (odbcCheck sh fs env n path).err := by
  have h := flat_program hs (r := opening fs path fun content => finished (loadOdbc fs env.toFEnv n path content) fun r =>
      .pure (.ok r)) (lineless_opening fun c => lineless_finished (flat_loadOdbc _ _ _ hp _) fun _ => .pure _)
    (fun _ => []) fun mg _ => mg.exitStatus sh.ignore
  exact ⟨h, fun ls hls he => written_inj hls h he⟩

/-- C107: a heading tells file, line, name and text of the message, if file names have no blanks. -/
theorem C107_heading_tells (m m' : Msg) (t t' : Str) (h : ' ' ∉ m.at_.filename) (h' : ' ' ∉ m'.at_.filename)
    (he : heading m t = heading m' t') :
    m.at_.filename = m'.at_.filename ∧ m.at_.lineno = m'.at_.lineno ∧ m.kind = m'.kind ∧ t = t' := by
  obtain ⟨h1, h2⟩ := heading_inj h h' he
  simp only [Spec.signature, Prod.mk.injEq] at h1
  exact ⟨h1.1, h1.2.1, h1.2.2, h2⟩

/-- C107: the text of the report tells which messages were printed: two programs whose reports are the
same text, run with whatever settings on whatever files, printed messages of the same names about
the same lines of the same files, in the same order. -/
theorem C107_report_tells {sh sh' : Shell} {ms ms' : List Msg} {gs gs' : List (Msg × List Str)}
    (h : Said sh ms gs) (h' : Said sh' ms' gs')
    (hn : ∀ m ∈ ms, ' ' ∉ m.at_.filename) (hn' : ∀ m ∈ ms', ' ' ∉ m.at_.filename)
    (hl : ∀ l ∈ printedLines gs, '\n' ∉ l) (hl' : ∀ l ∈ printedLines gs', '\n' ∉ l)
    (he : written (printedLines gs) = written (printedLines gs')) :
    gs.map (fun g => Spec.signature g.1) = gs'.map fun g => Spec.signature g.1 := by
  have e := written_inj hl hl' he
  obtain ⟨ts, h1, h2⟩ := said_heads h hn
  obtain ⟨ts', h1', h2'⟩ := said_heads h' hn'
  rw [e, h2'] at h2
  exact heads_inj h1 h1' (fun g hg => hn _ (said_mem h g hg)) (fun g hg => hn' _ (said_mem h' g hg)) h2.symm

/-- C107 for `dialplan-check`: what is on the standard error output tells the names, files and lines
of all messages (but for those left out by `ALINT_IGNORE`, and one that could not be printed):
two runs with the same report had the same. -/
theorem C107_same_report (sh sh' : Shell) (hs : OneLineTexts sh) (hs' : OneLineTexts sh') (hm : sh.muted = false)
    (hm' : sh'.muted = false) (fs fs' : FS) (env env' : DEnv) (n n' : Nat) (arg arg' : Option Str) (path path' : Str)
    (hp : '\n' ∉ path) (hp' : '\n' ∉ path') (ha : ∀ a, arg = some a → '\n' ∉ a) (ha' : ∀ a, arg' = some a → '\n' ∉ a)
    (hb : ∀ m ∈ (dialplanCheckRun fs env n arg path).log, ' ' ∉ m.at_.filename)
    (hb' : ∀ m ∈ (dialplanCheckRun fs' env' n' arg' path').log, ' ' ∉ m.at_.filename)
    (he : written (dialplanCheck sh fs env n arg path).err = written (dialplanCheck sh' fs' env' n' arg' path').err) :
    ∃ ms ms' gs gs', Said sh ms gs ∧ Said sh' ms' gs' ∧
      (dialplanCheck sh fs env n arg path).err = printedLines gs ∧
      (dialplanCheck sh' fs' env' n' arg' path').err = printedLines gs' ∧
      ((dialplanCheckRun fs env n arg path).log = ms ∨ ∃ m, ¬ Prints m ∧ (dialplanCheckRun fs env n arg path).log = ms ++ [m]) ∧
      ((dialplanCheckRun fs' env' n' arg' path').log = ms' ∨
        ∃ m, ¬ Prints m ∧ (dialplanCheckRun fs' env' n' arg' path').log = ms' ++ [m]) ∧
      gs.map (fun g => Spec.signature g.1) = gs'.map fun g => Spec.signature g.1 := by
  obtain ⟨ms, gs, h1, h2, h3⟩ := (C85_dialplan_check sh hm fs env n arg path).said
  obtain ⟨ms', gs', h1', h2', h3'⟩ := (C85_dialplan_check sh' hm' fs' env' n' arg' path').said
  have f := (C107_dialplan_check sh hs fs env n arg path hp ha).1
  have f' := (C107_dialplan_check sh' hs' fs' env' n' arg' path' hp' ha').1
  refine ⟨ms, ms', gs, gs', h1, h1', h2, h2', ?_, ?_, ?_⟩
  · rcases h3 with h | ⟨m, e, h4, h5, _⟩
    · exact .inl h
    · exact .inr ⟨m, h5, h4⟩
  · rcases h3' with h | ⟨m, e, h4, h5, _⟩
    · exact .inl h
    · exact .inr ⟨m, h5, h4⟩
  · rw [h2] at f he
    rw [h2'] at f' he
    refine C107_report_tells h1 h1' ?_ ?_ f f' he
    · intro m hm
      refine hb m ?_
      rcases h3 with h | ⟨m', e, h4, _⟩
      · exact h ▸ hm
      · rw [h4]; simp [hm]
    · intro m hm
      refine hb' m ?_
      rcases h3' with h | ⟨m', e, h4, _⟩
      · exact h ▸ hm
      · rw [h4]; simp [hm]

/-! ### A case -/

/-- `repr` of a text, with line feeds escaped, as a shell for the example; lines are shown. -/
def lineShell : Shell where
  ignore := []
  muted := false
  showLine := true
  showPrevious := true
  rep := fun a => (quoted a).flatMap fun c => if c = '\n' then c! "\\n" else [c]
  obj := fun _ => c! "<Extension>"

example : OneLineTexts lineShell where
  rep := by
    intro a hm
    obtain ⟨c, _, hc⟩ := List.mem_flatMap.1 hm
    split at hc
    · revert hc; decide
    · rename_i h
      exact h (List.mem_singleton.1 hc).symm
  obj := fun _ => by show '\n' ∉ (c! "<Extension>" : Str); decide

/-- A dialplan with a carriage return in an argument, a range with a tab, a jump, and the last line
without a line feed. -/
def oddFiles : FS := fun p =>
  if p = c! "/x.conf" then some (asciiBytes (c! "[general]\n\n[globals]\n\n[a]\nexten => _[\t-\r],1,Goto(b,${EXTEN},z\r)"))
  else none

example : (dialplanCheck lineShell oddFiles demoEnv 99 (some []) (c! "/x.conf")).err.map (·.contains '\n') =
    List.replicate 4 false := by decide +kernel

/-- File names matter: with a line feed in the name the report cannot be split. -/
example : (dialplanCheck lineShell (fun _ => some (asciiBytes (c! "[a]\n"))) modEnv 99 (some []) (c! "/x\ny")).err.any (·.contains '\n') =
    true := by decide +kernel

end ALint.Props
