import Verif.Props.Located
import Verif.Props.Shown

/-!
# C66, C98: places of the messages of whole programs
-/

namespace ALint
open Spec

variable {S : Where → Prop}

/-- A message about a place, with an earlier place if any. -/
def AtPlaces (S : Where → Prop) (m : Msg) : Prop := S m.at_ ∧ ∀ w, m.previous = some w → S w

/-- A function and its settings have places. -/
def OdbcIn (S : Where → Prop) (f : OdbcFn) : Prop := S f.at_ ∧ ∀ v ∈ f.sets, S v.at_

theorem atPlaces_mk {k : MK} {w : Where} {args : List (Str × Arg)} (h : S w) : AtPlaces S (mkMsg k w args) :=
  ⟨h, by simp [mkMsg]⟩

theorem atPlaces_order {sets : List VarE} {v : VarE} (hv : S v.at_) (hs : ∀ x ∈ sets, S x.at_) :
    LogAll (AtPlaces S) (checkOrder sets v) := by
  unfold checkOrder
  split
  · exact .bind (.emit (atPlaces_mk hv)) fun _ => .pure _
  split
  · rename_i old ho
    refine .bind (.emit ⟨hv, ?_⟩) fun _ => .pure _
    intro w hw
    cases hw
    exact hs _ (List.mem_of_find?_eq_some ho)
  split
  · exact .pure _
  split
  · exact .bind (.emit (atPlaces_mk hv)) fun _ => .pure _
  · exact .pure _

theorem atPlaces_add {f : OdbcFn} {v : VarE} (hv : S v.at_) (hf : OdbcIn S f) :
    LogAll (AtPlaces S) (f.add v) ∧ ∀ t, (f.add v).val = .ok t → OdbcIn S t := by
  refine ⟨?_, ?_⟩
  · unfold OdbcFn.add
    refine .bind (atPlaces_order hv hf.2) fun ok => .ite (.bind (.ite (.bind (.ite (.emit (atPlaces_mk hv)) (.pure _))
      fun _ => .ite (.emit (atPlaces_mk hv)) (.pure _)) (.pure _)) fun _ => .pure _) (.pure _)
  · intro t ht
    unfold OdbcFn.add at ht
    obtain ⟨ok, _, h2, _⟩ := Res.bind_ok ht
    split at h2
    · obtain ⟨_, _, h3, _⟩ := Res.bind_ok h2
      simp only [Res.pure, Except.ok.injEq] at h3
      subst h3
      refine ⟨hf.1, ?_⟩
      intro x hx
      rcases List.mem_append.1 hx with hx | hx
      · exact hf.2 x hx
      · rw [List.mem_singleton.1 hx]; exact hv
    · simp only [Res.pure, Except.ok.injEq] at h2
      subst h2; exact hf

theorem odbcStep_consumes : Consumes S (AtPlaces S) (fun fns : List OdbcFn => ∀ f ∈ fns, OdbcIn S f) odbcStep := by
  intro fns e hJ hS
  cases e with
  | empty c w => exact ⟨.pure _, by rintro t ⟨⟩; exact hJ⟩
  | ctx c =>
    refine ⟨.bind (.ite (.pure _) (.emit (atPlaces_mk hS))) fun _ => .bind (.ite (.pure _) (.emit (atPlaces_mk hS)))
      fun _ => .pure _, ?_⟩
    intro t ht
    unfold odbcStep odbcContext at ht
    obtain ⟨_, _, h2, _⟩ := Res.bind_ok ht
    obtain ⟨_, _, h3, _⟩ := Res.bind_ok h2
    simp only [Res.pure, Except.ok.injEq] at h3
    subst h3
    intro f hf
    rcases List.mem_cons.1 hf with rfl | hf
    · exact ⟨hS, by simp⟩
    · exact hJ f hf
  | var v =>
    cases fns with
    | nil =>
      refine ⟨.bind (.ite (.emit (atPlaces_mk hS)) (.pure _)) fun _ => .bind (.emit (atPlaces_mk hS)) fun _ => .pure _, ?_⟩
      intro t ht
      unfold odbcStep odbcVarset at ht
      obtain ⟨_, _, h2, _⟩ := Res.bind_ok ht
      obtain ⟨_, _, h3, _⟩ := Res.bind_ok h2
      simp only [Res.pure, Except.ok.injEq] at h3
      subst h3
      simp
    | cons f rest =>
      obtain ⟨a1, a2⟩ := atPlaces_add (v := v) hS (hJ f (by simp))
      refine ⟨.bind (.ite (.emit (atPlaces_mk hS)) (.pure _)) fun _ => .bind a1 fun _ => .pure _, ?_⟩
      intro t ht
      unfold odbcStep odbcVarset at ht
      obtain ⟨_, _, h2, _⟩ := Res.bind_ok ht
      obtain ⟨f', h3, h4, _⟩ := Res.bind_ok h2
      simp only [Res.pure, Except.ok.injEq] at h4
      subst h4
      intro g hg
      rcases List.mem_cons.1 hg with rfl | hg
      · exact a2 _ h3
      · exact hJ g (by simp [hg])

theorem atPlaces_finalize : ∀ {fns : List OdbcFn} {env : FEnv}, (∀ f ∈ fns, OdbcIn S f) →
    LogAll (AtPlaces S) (finalizeAll env fns)
  | [], _, _ => .pure _
  | f :: fs, env, h => by
    unfold finalizeAll
    refine .bind ?_ fun _ => atPlaces_finalize fun g hg => h g (by simp [hg])
    unfold OdbcFn.finalize
    exact .ite (.ite (.raise _) (.pure _)) (.bind (.emit (atPlaces_mk (h f (by simp)).1)) fun _ => .pure _)

theorem atPlaces_loadOdbc {fs : FS} {env : FEnv} {n : Nat} {path : Str} {content : Bytes}
    (hfs : ∀ q c, fs q = some c → FrameIn S (openFrame q c)) (hp : FrameIn S (openFrame path content)) :
    LogAll (AtPlaces S) (loadOdbc fs env n path content) := by
  obtain ⟨h1, h2⟩ := pipeRun_consumes (fs := fs) hfs (P := AtPlaces S)
    (fun m h => ⟨h.at_, by rw [h.prev]; simp⟩) odbcStep_consumes n
    (st := ⟨[openFrame path content], [], [], []⟩) ⟨by simpa using hp, by simp [FfIn], by simp [VswIn]⟩ (by simp)
  unfold loadOdbc
  refine LogAll.bind_ok h1 fun o ho => ?_
  cases o with
  | none => exact .pure _
  | some fns =>
    refine .bind (atPlaces_finalize fun f hf => h2 fns ho f (List.mem_reverse.1 hf)) fun _ => .pure _

end ALint

namespace ALint.Props
open ALint ALint.Spec

/-- C66 for `func_odbc.conf`: every message is about a line of the file or of a file it can
include, and so is the place it refers back to. -/
theorem C66_located_odbc (fs : FS) (env : FEnv) (n : Nat) (path : Str) (content : Bytes) (m : Msg)
    (h : m ∈ (loadOdbc fs env n path content).log) :
    LineOf fs path content m.at_ ∧ ∀ w, m.previous = some w → LineOf fs path content w :=
  atPlaces_loadOdbc (S := LineOf fs path content) (fun _ _ h => lineOf_frame (.inr h)) (lineOf_frame (.inl ⟨rfl, rfl⟩)) m h

/-- A line of a file that can be opened, by number and text. -/
def LineIn (fs : FS) (w : Where) : Prop :=
  ∃ bytes, fs w.filename = some bytes ∧ ∃ n : Nat, w.lineno = n + 1 ∧ (physLines bytes)[n]? = some w.line

theorem lineIn_of {fs : FS} {path : Str} {content : Bytes} {w : Where} (hf : fs path = some content)
    (h : LineOf fs path content w) : LineIn fs w := by
  obtain ⟨bytes, h1, h2⟩ := h
  rcases h1 with ⟨h1, rfl⟩ | h1
  · exact ⟨_, by rw [h1]; exact hf, h2⟩
  · exact ⟨bytes, h1, h2⟩

/-- Messages about lines of files, or that `[general]` or `[globals]` is missing in a file. -/
def OfLines (fs : FS) (m : Msg) : Prop :=
  (LineIn fs m.at_ ∧ ∀ w, m.previous = some w → LineIn fs w) ∨
  ((m.kind = .H_DP_GENERAL_MISPLACED ∨ m.kind = .H_DP_GLOBALS_MISPLACED) ∧ m.previous = none ∧
    m.at_.lineno = 0 ∧ m.at_.line = [] ∧ ∃ w, LineIn fs w ∧ w.filename = m.at_.filename)

theorem ofLines_opening {β : Type} {fs : FS} {path : Str} {f : Bytes → Res (Except Stopped β)}
    (h : ∀ b, fs path = some b → LogAll (OfLines fs) (f b)) : LogAll (OfLines fs) (opening fs path f) := by
  unfold opening; split
  · exact .pure _
  · rename_i b hb; exact h b hb

theorem ofLines_finished {α β : Type} {fs : FS} {r : Res (Option α)} {f : α → Res (Except Stopped β)} (hr : LogAll (OfLines fs) r)
    (h : ∀ a, LogAll (OfLines fs) (f a)) : LogAll (OfLines fs) (finished r f) := by
  unfold finished
  refine .bind hr fun o => ?_
  cases o with
  | none => exact .pure _
  | some a => exact h a

theorem ofLines_andThen {α β : Type} {fs : FS} {r : Res (Except Stopped α)} {f : α → Res (Except Stopped β)}
    (hr : LogAll (OfLines fs) r) (h : ∀ a, LogAll (OfLines fs) (f a)) : LogAll (OfLines fs) (andThen r f) := by
  unfold andThen
  refine .bind hr fun o => ?_
  cases o with
  | error s => exact .pure _
  | ok a => exact h a

/-- C66 for the whole of `dialplan-check`, with the definitions of functions: every message is about
a line of a file that was there, by number and text, and so is the place it refers back to; the only
others are those about a missing `[general]` or `[globals]`. -/
theorem C66_located_program (fs : FS) (env : DEnv) (n : Nat) (arg : Option Str) (path : Str) (m : Msg)
    (h : m ∈ (dialplanCheckRun fs env n arg path).log) : OfLines fs m := by
  have : LogAll (OfLines fs) (dialplanCheckRun fs env n arg path) := by
    unfold dialplanCheckRun
    refine ofLines_andThen ?_ fun env => ofLines_opening fun c hc => ofLines_finished ?_ fun _ => .pure _
    · unfold readOdbc
      split
      · exact .pure _
      · refine ofLines_opening fun c hc => ofLines_finished ?_ fun _ => .pure _
        intro m hm
        obtain ⟨h1, h2⟩ := C66_located_odbc _ _ _ _ _ m hm
        exact .inl ⟨lineIn_of hc h1, fun w hw => lineIn_of hc (h2 w hw)⟩
    · intro m hm
      rcases C66_located _ _ _ _ _ _ m hm with ⟨h1, h2⟩ | ⟨h1, h2, h3, h4, w, h5, h6⟩
      · exact .inl ⟨lineIn_of hc h1, fun w hw => lineIn_of hc (h2 w hw)⟩
      · exact .inr ⟨h1, h2, h3, h4, w, lineIn_of hc h5, h6⟩
  exact this m h

theorem physLines_bytes {bs : Bytes} (h : IsBytes bs) {l : Bytes} (hl : l ∈ physLines bs) : IsBytes l := by
  intro b hb
  refine h b ?_
  have : (physLines bs).flatten = bs := by simp [physLines_flatten]
  rw [← this]
  exact List.mem_flatten.2 ⟨l, hl, hb⟩

theorem ofLines_bytes {fs : FS} (hfs : ∀ p c, fs p = some c → IsBytes c) {m : Msg} (h : OfLines fs m) : IsBytes m.at_.line := by
  rcases h with ⟨⟨bytes, h1, n, _, h2⟩, _⟩ | ⟨_, _, _, h, _⟩
  · exact physLines_bytes (hfs _ _ h1) (List.mem_of_getElem? h2)
  · rw [h]; simp [IsBytes]

/-- C98: `dialplan-check` told to show lines shows, for each message that is printed, right below
its heading the line at its place, of which number and text are those of a line of the file;
nothing else is printed but the earlier place.  (A message that `[general]` or `[globals]` is
missing has no line: the empty text is shown.) -/
theorem C98_dialplan_check (sh : Shell) (hm : sh.muted = false) (hl : sh.showLine = true) (fs : FS)
    (hfs : ∀ p c, fs p = some c → IsBytes c) (env : DEnv) (n : Nat) (arg : Option Str) (path : Str) :
    ∃ groups : List (Msg × List Str), (dialplanCheck sh fs env n arg path).err = groups.flatMap (·.2) ∧
      ∀ g ∈ groups, OfLines fs g.1 ∧ ∃ text t more, g.2 = heading g.1 text :: (c! "  => " ++ t) :: more ∧
        ShownLine g.1.at_.line t ∧ EarlierBelow sh g.1 more := by
  obtain ⟨msgs, groups, h1, h2, h3⟩ := (C85_dialplan_check sh hm fs env n arg path).said
  refine ⟨groups, h2, ?_⟩
  have hin : ∀ m ∈ msgs, OfLines fs m := by
    intro m hmm
    refine C66_located_program fs env n arg path m ?_
    rcases h3 with h | ⟨m', e, h, _⟩ <;> rw [h] <;> simp [hmm]
  clear h2 h3
  induction h1 with
  | nil => simp
  | left _ _ ih => exact ih fun m hm => hin m (by simp [hm])
  | said _ hp _ ih =>
    intro g hg
    rcases List.mem_cons.1 hg with rfl | hg
    · have ho := hin _ List.mem_cons_self
      refine ⟨ho, ?_⟩
      cases hp with
      | mk _ g2 g3 =>
        cases g2 with
        | off h => rw [hl] at h; cases h
        | on _ h => exact ⟨_, _, _, rfl, h (ofLines_bytes hfs ho), g3⟩
    · exact ih (fun m hm => hin m (by simp [hm])) g hg

/-- A message with its line, and with the place of the first section of that name. -/
example : (dialplanCheck { plainShell with showLine := true, showPrevious := true }
      (fun p => if p = c! "x.conf" then some (asciiBytes (c! "[general]\n\n[globals]\n\n[a]\n[globals]\nx\t=>y\n")) else none) modEnv 99 none
      (c! "x.conf")).err =
    [c! "x.conf:6 E_DP_GLOBALS_DUPE: second globals context, will not be used",
      c! "  => '[globals]\\n'",
      c! "    previous occurrence at x.conf:3",
      c! "x.conf:7 W_WSH_OBJSET: expected \" => \" horizontal whitespace around arrow operator",
      c! "  => 'x\\t=>y\\n'"] := by
  decide +kernel

/-- A setting of a function defined twice: both places. -/
example : (loadOdbc noFiles modEnv.toFEnv 9 (c! "f.conf") (asciiBytes (c! "[A]\nread=x\nread=y\n"))).log.map
      (fun m => (m.kind, m.at_.lineno, m.previous.map (·.lineno))) =
    [(.W_ODBC_LEGACY, 2, none), (.E_CONF_KEY_DUPE, 3, some 2)] := by
  decide +kernel

end ALint.Props
