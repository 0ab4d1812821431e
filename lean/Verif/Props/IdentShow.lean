import Verif.Model.IdentShow
import Verif.Props.Ident
import Verif.Proofs.Modules
import Verif.Props.ModulesOdbc

/-!
# C86: the lists of ident-scan
-/

namespace ALint.Spec

/-- A list under a title: the names, each once and in the order of their small letters, one line for
each, and an empty line. -/
def ListsNames (lower : Str → Str) (title : Str) (named : Str → Prop) (line : Str → Str → Prop) (out : List Str) : Prop :=
  ∃ names lines : List Str, names.Nodup ∧ (∀ x, x ∈ names ↔ named x) ∧
    names.Pairwise (fun a b => strLt (lower b) (lower a) = false) ∧ Zips line names lines ∧
    out = title :: lines ++ [[]]

/-- `  name`. -/
def Indented (name line : Str) : Prop := line = c! "  " ++ name

/-- How often something occurs. -/
def occurs {α : Type} (p : α → Bool) : List α → Nat
  | [] => 0
  | a :: l => (if p a then 1 else 0) + occurs p l

/-- That variable is used. -/
def isUseOf (name : Str) : Ev → Bool
  | .var n _ => n == name
  | _ => false

/-- `  name  [n times in m files]`, the name in a column of 32. -/
def Counted (uses : List Ev) (name line : Str) : Prop :=
  ∃ files : List Str, files.Nodup ∧ (∀ f, f ∈ files ↔ ∃ w, Ev.var name w ∈ uses ∧ w.filename = f) ∧
    line = c! "  " ++ name ++ List.replicate (32 - name.length) ' ' ++ c! "  [" ++
      natStr (occurs (isUseOf name) uses) ++ c! " times in " ++ natStr files.length ++ c! " files]"

end ALint.Spec

namespace ALint.Props
open ALint ALint.Spec

theorem zips_of {α β : Type} {R : α → β → Prop} {f : α → β} : ∀ l : List α, (∀ a ∈ l, R a (f a)) → Zips R l (l.map f)
  | [], _ => .nil
  | a :: l, h => .cons (h a (by simp)) (zips_of l fun b hb => h b (by simp [hb]))

theorem lists_sorted (env : IEnv) (title : Str) (names : List Str) (hn : names.Nodup) (named : Str → Prop)
    (hm : ∀ x, x ∈ names ↔ named x) (line : Str → Str → Prop) (f : Str → Str) (hf : ∀ x, line x (f x)) :
    ListsNames env.lower title named line (title :: (sortBy (nameLt env) names).map f ++ [[]]) :=
  ⟨sortBy (nameLt env) names, _, nodup_sortBy.2 hn, fun x => by rw [mem_sortBy]; exact hm x,
    sortBy_ascending (nameLt_weak env) _, zips_of _ fun a _ => hf a, rfl⟩

theorem places_count (uses : List Ev) (name : Str) : (varPlaces uses name).length = occurs (isUseOf name) uses := by
  induction uses with
  | nil => rfl
  | cons e es ih =>
    unfold varPlaces at ih ⊢
    rw [List.filterMap_cons, occurs]
    cases e with
    | var n w =>
      by_cases h : n = name
      · subst h
        simp [varPlace?, isUseOf, ih]
        omega
      · simp [varPlace?, isUseOf, ih, h]
    | _ => simpa [varPlace?, isUseOf] using ih

theorem mem_places (uses : List Ev) (name : Str) (w : Where) : w ∈ varPlaces uses name ↔ Ev.var name w ∈ uses := by
  unfold varPlaces
  rw [List.mem_filterMap]
  constructor
  · rintro ⟨e, he, h⟩
    cases e with
    | var n w' =>
      simp only [varPlace?] at h
      split at h
      · rename_i hn
        subst hn
        simp only [Option.some.injEq] at h
        exact h ▸ he
      · simp at h
    | _ => simp [varPlace?] at h
  · intro h
    exact ⟨_, h, by simp [varPlace?]⟩

theorem mem_varNames (uses : List Ev) (name : Str) : name ∈ varNames uses ↔ ∃ w, Ev.var name w ∈ uses := by
  unfold varNames
  rw [List.mem_eraseDups, List.mem_filterMap]
  constructor
  · rintro ⟨e, he, h⟩
    cases e with
    | var n w =>
      simp only [varName?, Option.some.injEq] at h
      subst h
      exact ⟨w, he⟩
    | _ => simp [varName?] at h
  · rintro ⟨w, h⟩
    exact ⟨_, h, rfl⟩

theorem line_counted (uses : List Ev) (name : Str) : Counted uses name (variableLine name (varPlaces uses name)) := by
  refine ⟨((varPlaces uses name).map (·.filename)).eraseDups, nodup_eraseDups _ _ rfl, fun f => ?_, ?_⟩
  · rw [List.mem_eraseDups, List.mem_map]
    simp only [mem_places]
  · rw [← places_count]
    simp [variableLine, padRight]

/-- C86: with `--verbose` the output of `ident-scan` starts with the contexts, the labels and the
variables used, the last with the number of times and of files, and what follows is what is printed
without it. -/
theorem C86_lists (ienv : IEnv) (args : IdentArgs) (hv : args.verbose = true)
    (ho : ∀ l, (args.labelOrder l).Perm l) (env : DEnv) (sp : Option Str) (es : List Elem) (log : List Msg) (st : DState)
    (h : After env sp es log st) :
    ∃ contexts labels variables,
      ListsNames ienv.lower (c! "Contexts encountered:") (fun x => ∃ c ∈ st.dp.contexts, c.name = x) Indented contexts ∧
      ListsNames ienv.lower (c! "Labels encountered:")
        (fun x => x ≠ [] ∧ ∃ c ∈ st.dp.contexts, ∃ s ∈ c.steps, s.label = some x) Indented labels ∧
      ListsNames ienv.lower (c! "Variables encountered:") (fun x => ∃ w, Ev.var x w ∈ st.uses) (Counted st.uses) variables ∧
      identOut ienv args st = contexts ++ labels ++ variables ++ identOut ienv { args with verbose := false } st := by
  obtain ⟨hi, _, _⟩ := after_inv h
  refine ⟨identNames ienv (c! "Contexts encountered:") (st.dp.contexts.map (·.name)),
    identNames ienv (c! "Labels encountered:") (args.labelOrder st.dp.allLabels.eraseDups),
    identVariables ienv st.uses, ?_, ?_, ?_, ?_⟩
  · refine lists_sorted ienv _ _ hi.names _ (fun x => ?_) _ _ (fun _ => rfl)
    rw [List.mem_map]
  · refine lists_sorted ienv _ _ ((ho _).nodup_iff.2 (nodup_eraseDups _ _ rfl)) _ (fun x => ?_) _ _ (fun _ => rfl)
    rw [(ho _).mem_iff, List.mem_eraseDups, hi.labels]
    have hr : ∀ o : Option Str, realLabel o = some x ↔ x ≠ [] ∧ o = some x := by
      intro o
      cases o with
      | none => simp [realLabel]
      | some l => cases l with
        | nil =>
          simp only [realLabel, reduceCtorEq, Option.some.injEq, false_iff, not_and]
          intro h1 h2; exact h1 h2.symm
        | cons c cs =>
          simp only [realLabel, Option.some.injEq]
          constructor
          · rintro rfl; exact ⟨by simp, rfl⟩
          · exact fun h => h.2
    simp only [hr]
    constructor
    · rintro ⟨c, hc, s, hs, h1, h2⟩; exact ⟨h1, c, hc, s, hs, h2⟩
    · rintro ⟨h1, c, hc, s, hs, h2⟩; exact ⟨c, hc, s, hs, h1, h2⟩
  · exact lists_sorted ienv _ _ (nodup_eraseDups _ _ rfl) _ (mem_varNames st.uses) _ _ (line_counted st.uses)
  · simp [identOut, hv]

/-- The lines about similar identifiers: nothing if there are none, otherwise a title, a line for
each, and an empty line. -/
def SimilarText (found : List (Str × List Str)) (out : List Str) : Prop :=
  (found = [] ∧ out = []) ∨ (found ≠ [] ∧ ∃ lines,
    Zips (fun (p : Str × List Str) line => line = c! "  " ++ p.1 ++ List.replicate (32 - p.1.length) ' ' ++
      c! "  [similar to: " ++ Spec.commas p.2 ++ c! "]") found lines ∧
    out = c! "Identifiers with similar names include:" :: lines ++ [[]])

theorem similar_text (found : List (Str × List Str)) : SimilarText found (similarText found) := by
  cases found with
  | nil => exact .inl ⟨rfl, rfl⟩
  | cons l ls =>
    refine .inr ⟨by simp, _, zips_of (f := fun p : Str × List Str =>
      c! "  " ++ padRight 32 p.1 ++ c! "  [similar to: " ++ joinStr (c! ", ") p.2 ++ c! "]") (l :: ls) fun p _ => ?_, rfl⟩
    simp [padRight, commas_eq]

/-- C86: how `ident-scan` ends.  It prints no messages.  It fails only if reading the dialplan fails,
or if it cannot compare names and was not asked for the lists either.  The exit code is 1 exactly if
similar names were printed (these are described in C69). -/
theorem C86_program (sh : Shell) (ienv : IEnv) (args : IdentArgs) (fs : FS) (env : DEnv) (n : Nat) (path : Str) :
    (identScan sh ienv args fs env n path).err = [] ∧
    ((identScan sh ienv args fs env n path).fin = .stopped .importError ↔
      args.verbose = false ∧ args.installed = false ∧ ∃ st, (readDialplan fs env n path).val = .ok (.ok st)) ∧
    ∀ k, (identScan sh ienv args fs env n path).fin = .exit k →
      ∃ content es l st, fs path = some content ∧
        (pipeRun fs collect n ⟨[openFrame path content], [], [], []⟩).val = .ok (some es) ∧ After env none es l st ∧
        (identScan sh ienv args fs env n path).out = identOut ienv args st ∧
        (args.verbose = true ∨ args.installed = true) ∧
        SimilarText (if args.installed then similarLines ienv (args.idOrder (identifiers st)) else [])
          (identOut ienv { args with verbose := false } st) ∧
        k = if identOut ienv { args with verbose := false } st = [] then 0 else 1 := by
  have hval : ∀ o, (readDialplan fs env n path).val = o →
      (andThen (readDialplan fs env n path) fun st =>
        if args.installed || args.verbose then Res.pure (.ok st) else .pure (.error .importError)).val =
      match o with
      | .error e => .error e
      | .ok (.error s) => .ok (.error s)
      | .ok (.ok st) => if args.installed || args.verbose then .ok (.ok st) else .ok (.error .importError) := by
    rintro _ rfl
    unfold andThen Res.bind
    cases (readDialplan fs env n path).val with
    | error e => rfl
    | ok o => cases o with
      | error s => rfl
      | ok st => cases args.installed <;> cases args.verbose <;> rfl
  have hstop : ∀ s, (readDialplan fs env n path).val = .ok (.error s) → s ≠ .importError := by
    intro s hs
    unfold readDialplan opening at hs
    cases hc : fs path with
    | none => rw [hc] at hs; simp only [Res.pure, Except.ok.injEq, Except.error.injEq] at hs; subst hs; simp
    | some content =>
      rw [hc] at hs
      obtain ⟨o, _, h2, _⟩ := Res.bind_ok hs
      cases o with
      | none => simp only [Res.pure, Except.ok.injEq, Except.error.injEq] at h2; subst h2; simp
      | some st =>
        obtain ⟨_, _, h3, _⟩ := Res.bind_ok h2
        simp [Res.pure] at h3
  refine ⟨(program_silent sh sh _ _ _).1, ?_, ?_⟩
  · unfold identScan program
    cases hr : (readDialplan fs env n path).val with
    | error e => simp only [hval _ hr]; simp
    | ok o => cases o with
      | error s => simp only [hval _ hr]; simp [hstop s hr]
      | ok st => simp only [hval _ hr]; cases hi : args.installed <;> cases hv : args.verbose <;> simp
  · intro k hk
    have hfin : ∃ st, (readDialplan fs env n path).val = .ok (.ok st) ∧ (args.verbose = true ∨ args.installed = true) ∧
        (identScan sh ienv args fs env n path).out = identOut ienv args st ∧
        k = if args.installed then identExit (similarLines ienv (args.idOrder (identifiers st))) else 0 := by
      unfold identScan program at hk ⊢
      cases hr : (readDialplan fs env n path).val with
      | error e => simp only [hval _ hr] at hk; simp at hk
      | ok o => cases o with
        | error s => simp only [hval _ hr] at hk; simp at hk
        | ok st =>
          refine ⟨st, rfl, ?_⟩
          simp only [hval _ hr] at hk ⊢
          cases hi : args.installed <;> cases hv : args.verbose <;>
            simp [hi, hv] at hk ⊢ <;> exact hk.symm
    obtain ⟨st, hst, hor, hout, hk'⟩ := hfin
    obtain ⟨content, es, l, hc, hp, ha, _⟩ := readDialplan_after hst
    have ht : identOut ienv { args with verbose := false } st =
        similarText (if args.installed then similarLines ienv (args.idOrder (identifiers st)) else []) := by
      unfold identOut
      cases args.installed <;> simp [similarText]
    refine ⟨content, es, l, st, hc, hp, ha, hout, hor, ht ▸ similar_text _, ?_⟩
    rw [hk', ht]
    cases args.installed with
    | false => simp [similarText]
    | true => cases hl : similarLines ienv (args.idOrder (identifiers st)) <;> simp [similarText, identExit]

/-- A dialplan in two files. -/
def scanFiles : FS := fun p =>
  if p = c! "e.conf" then some (asciiBytes (c! "[general]\n\n[globals]\n\n[b]\n#include \"f.conf\"\nexten => s,1(go),NoOp(${chan}${FOO})\n[A]\nexten => s,1,NoOp(${chan})\n"))
  else if p = c! "f.conf" then some (asciiBytes (c! "exten => 1,1,NoOp(${cham}${FOO})\n"))
  else if p = c! "g.conf" then some (asciiBytes (c! "[general]\n\n[globals]\n\n[b]\n"))
  else none

/-- Everything in the order found. -/
def allArgs : IdentArgs := ⟨true, true, id, id⟩

example : identScan plainShell asciiIds allArgs scanFiles modEnv 99 (c! "e.conf") = ⟨[
    c! "Contexts encountered:", c! "  A", c! "  b", [],
    c! "Labels encountered:", c! "  go", [],
    c! "Variables encountered:",
    c! "  cham                              [1 times in 1 files]",
    c! "  chan                              [2 times in 1 files]",
    c! "  FOO                               [2 times in 2 files]", [],
    c! "Identifiers with similar names include:",
    c! "  cham                              [similar to: chan]",
    c! "  chan                              [similar to: cham]", []], [], .exit 1⟩ := by decide +kernel

example : identScan plainShell asciiIds { allArgs with verbose := false, installed := false } scanFiles modEnv 99 (c! "g.conf") =
    ⟨[], [], .stopped .importError⟩ := by decide +kernel

example : (identScan plainShell asciiIds { allArgs with installed := false } scanFiles modEnv 99 (c! "g.conf")).fin =
    .exit 0 := by decide +kernel

end ALint.Props
