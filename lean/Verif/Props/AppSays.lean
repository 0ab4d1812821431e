import Verif.Proofs.AppSays

/-!
# C93: exactly what is wrong with an application is said about it
-/

namespace ALint.Props
open ALint ALint.Spec

/-! ## Depth -/

/-- The same, unless the stack was exhausted. -/
private def Upto {α : Type} (x y : Tr α) : Prop := x = y ∨ x.val = .error .recursionError

private theorem upto_bind {α β : Type} {x y : Tr α} {f g : α → Tr β} (h : Upto x y) (hf : ∀ a, Upto (f a) (g a)) :
    Upto (Tr.bind x f) (Tr.bind y g) := by
  rcases h with rfl | h
  · cases hx : x.val with
    | error e => left; simp [Tr.bind, hx]
    | ok a =>
      rcases hf a with h | h
      · left; simp [Tr.bind, hx, h]
      · right; simp [Tr.bind, hx, h]
  · right
    simp [Tr.bind, h]

private theorem upto_execAll {f g : Option Str → Arg → Tr (Option Str)} (h : ∀ sp a, Upto (f sp a) (g sp a)) (sp : Option Str)
    (as : List Arg) : Upto (execAll f sp as) (execAll g sp as) := by
  induction as generalizing sp with
  | nil => exact .inl rfl
  | cons a as ih => exact upto_bind (h sp a) fun sp => ih sp

private theorem upto_callApp {env : FEnv} {f g : Option Str → Arg → Tr (Option Str)} (h : ∀ sp a, Upto (f sp a) (g sp a))
    (sp : Option Str) (w : Where) (a : AppInfo) (v : V) : Upto (callApp env f sp w a v) (callApp env g sp w a v) := by
  unfold callApp
  cases a.beh with
  | execIf => exact upto_bind (.inl rfl) fun p => upto_bind (upto_execAll h _ _) fun _ => .inl rfl
  | _ => exact .inl rfl

private theorem upto_runApp {env : AEnv} (d k : Nat) (sp : Option Str) (w : Where) (raw : Arg) :
    Upto (runApp env d sp w raw) (runApp env (d + k) sp w raw) := by
  induction d generalizing sp raw with
  | zero => right; rfl
  | succ d ih =>
    rw [show d + 1 + k = (d + k) + 1 by omega, runApp, runApp]
    refine upto_bind (.inl rfl) fun r => ?_
    cases r with
    | none => exact .inl rfl
    | some r =>
      exact upto_bind (.inl rfl) fun a => upto_bind (.inl rfl) fun v =>
        upto_callApp (fun sp raw => upto_bind (ih sp raw) fun _ => .inl rfl) _ _ _ _

/-! ## C93 -/

/-- C93: about an application as it is written, exactly what there is to say is said, in that
order, and it jumps to exactly those destinations; whatever depth of nested applications the
stack of the program allows, unless it is exhausted. -/
theorem C93_said_partial (env : AEnv) (depth : Nat) (sp sp' : Option Str) (w : Where) (raw : V) (evs : List Ev) (js : List Jump)
    (h : LineSays env w sp raw evs sp' js) :
    runApp env depth sp w (.one raw) = ⟨evs, .ok (sp', js)⟩ ∨
      (runApp env depth sp w (.one raw)).val = .error .recursionError := by
  have := upto_runApp (env := env) depth (raw.marks + 1) sp w (.one raw)
  rw [line_runs h (depth + (raw.marks + 1)) (by omega)] at this
  exact this

/-- C93: the stack is not exhausted if it allows for more nested applications than there are question
marks. -/
theorem C93_enough_partial (env : AEnv) (sp sp' : Option Str) (w : Where) (raw : V) (evs : List Ev) (js : List Jump)
    (h : LineSays env w sp raw evs sp' js) (depth : Nat) (hd : raw.marks < depth) :
    runApp env depth sp w (.one raw) = ⟨evs, .ok (sp', js)⟩ :=
  line_runs h depth hd

/-- C93: with such a stack exactly what there is to say is said about a line; and the program does not
come to an end with it if and only if there is nothing to say. -/
theorem C93_depth_partial (env : AEnv) (hd : ArgsDescribed env) (sp : Option Str) (w : Where) (line : Str) (depth : Nat)
    (hm : line.count '?' < depth) :
    (∀ evs sp' js, runApp env depth sp w (strV line) = ⟨evs, .ok (sp', js)⟩ ↔ LineSays env w sp (.str line) evs sp' js) ∧
    ((∃ e, (runApp env depth sp w (strV line)).val = .error e) ↔ ¬ ∃ evs sp' js, LineSays env w sp (.str line) evs sp' js) := by
  have hm' : (V.str line).marks < depth := by rw [V.marks]; exact hm
  have h1 : ∀ evs sp' js, runApp env depth sp w (strV line) = ⟨evs, .ok (sp', js)⟩ ↔
      LineSays env w sp (.str line) evs sp' js := fun evs sp' js =>
    ⟨fun h => line_complete hd (normal_str line) h, fun h => line_runs h depth hm'⟩
  refine ⟨h1, ?_, ?_⟩
  · rintro ⟨e, he⟩ ⟨evs, sp', js, h⟩
    rw [(h1 evs sp' js).2 h] at he
    cases he
  · intro h
    cases hr : runApp env depth sp w (strV line) with
    | mk evs r =>
      cases r with
      | error e => exact ⟨e, rfl⟩
      | ok r => exact absurd ⟨evs, r.1, r.2, (h1 evs r.1 r.2).1 hr⟩ h

/-- C93: whenever the program comes to an end with an application, exactly what there is to say
was said; and if there is anything to say the program comes to an end with it, if the stack
allows for it. -/
theorem C93_exact_partial (env : AEnv) (hd : ArgsDescribed env) (sp sp' : Option Str) (w : Where) (raw : V) (hr : Normal raw)
    (evs : List Ev) (js : List Jump) :
    (∃ depth, runApp env depth sp w (.one raw) = ⟨evs, .ok (sp', js)⟩) ↔ LineSays env w sp raw evs sp' js :=
  line_iff hd hr

/-- C93: the same for the line as it is in the file. -/
theorem C93_exact_text_partial (env : AEnv) (hd : ArgsDescribed env) (sp sp' : Option Str) (w : Where) (line : Str)
    (evs : List Ev) (js : List Jump) :
    (∃ depth, runApp env depth sp w (strV line) = ⟨evs, .ok (sp', js)⟩) ↔ LineSays env w sp (.str line) evs sp' js :=
  line_iff hd (normal_str line)

/-- C93: there is only one thing to say. -/
theorem C93_unique (env : AEnv) (sp sp1 sp2 : Option Str) (w : Where) (raw : V) (e1 e2 : List Ev) (j1 j2 : List Jump)
    (h1 : LineSays env w sp raw e1 sp1 j1) (h2 : LineSays env w sp raw e2 sp2 j2) : e1 = e2 ∧ sp1 = sp2 ∧ j1 = j2 := by
  have := (line_runs h1 _ (Nat.lt_succ_self _)).symm.trans (line_runs h2 _ (Nat.lt_succ_self _))
  simpa using this

/-- C93: every application that comes with the program and has its arguments described has at
least one, and can be given as few as it wants. -/
theorem C93_described : ∀ a ∈ appModFiles.flatMap ModFile.regs, ∀ least behs, a.beh = .args least behs →
    behs ≠ [] ∧ least.getD 0 ≤ behs.length := by
  have h : ∀ a ∈ appModFiles.flatMap ModFile.regs, (match a.beh with
      | .args least behs => !behs.isEmpty && decide (least.getD 0 ≤ behs.length)
      | _ => true) = true := by decide +kernel
  intro a ha least behs hb
  have := h a ha
  rw [hb] at this
  simpa using this

/-- C93: so the program with the applications that come with it is as the theorems want. -/
theorem C93_described_all (env : AEnv) (h : ∀ low a, env.apps low = some a → a ∈ appModFiles.flatMap ModFile.regs) :
    ArgsDescribed env := fun low a least behs h1 h2 => (C93_described a (h low a h1) least behs h2).1

/-! ## Examples -/

private def env2 : AEnv where
  lower := fun s => s.map Char.toLower
  funcs := fun _ => none
  apps := fun s => if s = c! "noop" then some ⟨c! "NoOp", c! "<builtin>", .plain⟩
    else if s = c! "background" then some ⟨c! "Background", c! "<builtin>", .background⟩
    else if s = c! "gosub" then some ⟨c! "Gosub", c! "app_stack", .gosub⟩
    else if s = c! "gotoif" then some ⟨c! "GotoIf", c! "<builtin>", .gotoIf⟩
    else if s = c! "execif" then some ⟨c! "ExecIf", c! "app_exec", .execIf⟩
    else if s = c! "dial" then some ⟨c! "Dial", c! "app_dial", .args (some 1) [.any, .any, .options (c! "gr")]⟩
    else if s = c! "unknown" then some ⟨c! "Unknown", c! "<unknown>", .plain⟩ else none

private theorem pieces_of {d : Char} (hd : d ∉ sepSpecial) {v : V} {parts : List (List V)}
    (h : (separateArgs d false (.one v)).map V.tokens = parts) : Pieces d v.tokens parts := h ▸ pieces_sep d hd v

private theorem argsOf_of {v : V} {args : List V} (h : separateArgs ',' false (.one v) = args) : ArgsOf ',' v args :=
  ⟨_, pieces_sep ',' (by decide) v, by rw [← separate_join]; exact h.symm⟩

/-- ` dial(a,,xgrg)`: white space, case, an option nobody knows, one given twice. -/
example (w : Where) : ∃ evs, LineSays env2 w none (.str (c! " dial(a,,xgrg)")) evs none [] ∧ evs =
    [.msg (mkMsg .W_APP_WSH w [(c! "app", strV (c! " dial"))]), .app (c! "dial"),
      .msg (mkMsg .W_APP_BAD_CASE w [(c! "app", strV (c! "dial")), (c! "proper", strV (c! "Dial"))]),
      .msg (mkMsg .E_APP_ARG_BADOPT w [(c! "argno", natV 3), (c! "app", strV (c! "Dial")), (c! "opts", strV (c! "x"))]),
      .msg (mkMsg .E_APP_ARG_DUPEOPT w [(c! "argno", natV 3), (c! "app", strV (c! "Dial")), (c! "opts", strV (c! "xgrg"))])] := by
  refine ⟨_, .app (blank := c! " ") (name := c! "dial") (data := c! "a,,xgrg") (v := .str (c! "a,,xgrg"))
    (a := ⟨c! "Dial", c! "app_dial", .args (some 1) [.any, .any, .options (c! "gr")]⟩)
    (.closed (rest := (c! "a,,xgrg)").map tk) rfl (by decide) (by decide) (by decide)) (by decide) (by decide)
    (fun c r h => by cases h; decide) (noTrail_of (by decide)) (.inl ⟨by decide, rfl⟩)
    (.miscased (.inl rfl) (by decide) (by decide))
    (data_text (t := .text (c! "a,,xgrg") .nil) (.text (by decide) (by simp) .nil))
    (.args (args := [.str (c! "a"), .str [], .str (c! "xgrg")]) rfl (by decide) (argsOf_of (by decide))
      (.mk (.inr ⟨by decide, rfl⟩) (.inr ⟨by decide, rfl⟩))
      (.next .any (.next .any (.next (.options (.inl ⟨by decide, rfl⟩) (.inl ⟨by decide, rfl⟩)) .noneLeft)))
      (.inr ⟨by rintro ⟨a, h, _⟩; simp at h, rfl⟩)), by rfl⟩

/-- `Gosub(sub,s,1(a))`: nothing is wrong, and the arguments do not belong to the priority. -/
example (w : Where) : ∃ evs js, LineSays env2 w none (.str (c! "Gosub(sub,s,1(a))")) evs none js ∧ evs = [.app (c! "gosub")] ∧
    js = [⟨.str (c! "sub"), .str (c! "s"), .one (.str (c! "1"))⟩] := by
  refine ⟨_, _, .app (blank := []) (name := c! "Gosub") (data := c! "sub,s,1(a)") (v := .str (c! "sub,s,1(a)"))
    (a := ⟨c! "Gosub", c! "app_stack", .gosub⟩)
    (.closed (rest := (c! "sub,s,1(a))").map tk) rfl (by decide) (by decide) (by decide)) (by decide) (by decide)
    (fun c r h => by cases h; decide) (noTrail_of (by decide)) (.inr ⟨by decide, rfl⟩)
    (.known (.inl rfl) (by decide))
    (data_text (t := .text (c! "sub,s,1(a)") .nil) (.text (by decide) (by simp) .nil))
    (.gosub (args := [.str (c! "sub"), .str (c! "s"), .str (c! "1(a)")]) rfl (argsOf_of (by decide))
      (.mk (.inr ⟨by decide, rfl⟩) (.inr ⟨by decide, rfl⟩)) (.inr ⟨by rintro ⟨a, h, _⟩; simp at h, rfl⟩)
      (.upTo3 (by simp) (c := .str (c! "sub")) (e := .str (c! "s")) (p := .str (c! "1(a)")) rfl
        (.args (front := (c! "1").map tk) (rest := (c! "a)").map tk) (by decide) (by decide) (by decide) .text (.inr ⟨by decide, rfl⟩)))),
    by rfl, by rfl⟩

/-- `Foo(${a}${b`: an application nobody knows, and its data cannot be read. -/
example (w : Where) : ∃ evs, LineSays env2 w none (.str (c! "Foo(${a}${b)")) evs none [] ∧ evs =
    [.app (c! "foo"), .msg (mkMsg .E_APP_MISSING w [(c! "app", strV (c! "Foo"))]), .var (c! "a") w,
      .msg (mkMsg .E_APP_PARSE_ERROR w [(c! "app", strV (c! "Foo")), (c! "args", strV (c! "${a}${b"))]),
      .msg (mkMsg .W_APP_BALANCE w [(c! "data", strV (c! "${a}${b"))])] := by
  refine ⟨_, .app (blank := []) (name := c! "Foo") (data := c! "${a}${b") (v := .str (c! "${a}${b"))
    (a := ⟨c! "Unknown", c! "<unknown>", .plain⟩)
    (.closed (rest := (c! "${a}${b)").map tk) rfl (by decide) (by decide) (by decide)) (by decide) (by decide)
    (fun c r h => by cases h; decide) (noTrail_of (by decide)) (.inr ⟨by decide, rfl⟩)
    (.unknown (.inr ⟨rfl, rfl⟩) (by decide) (by decide))
    (.unread (.behindCurly (pre := []) (inner := c! "a") (tail := c! "${b") (no_subst (by decide))
      (Spec.Level.encloses (l := '{') (r := '}') (a := c! "a") (.none (by decide) (by decide)) (c! "${b")) (.plain (no_subst (by decide)))
      (.var (by decide) (by decide) (.name (.mk (.inr ⟨by decide, rfl⟩))))
      (.curly (pre := []) (no_subst (by decide)) fun i t h => by
        have := congrArg (fun l => '}' ∈ l) h.1
        simp at this)))
    (.plain (.inl rfl) (.wrong (s := c! "${a}${b") (by rw [← Props.C38_balance]; decide) rfl)), by rfl⟩

private def execTxt : Txt := .var (c! "x") (.text (c! "?noop(") (.var (c! "y-") (.text (c! ")") .nil)))

private def actV : V := .lst [.str (c! "noop("), .atom .var (.str (c! "y-")) .none .none, .str (c! ")")]

private theorem not_blank {v : V} {k : Kind} {n s l : V} (hv : v = .atom k n s l) : ¬ BlankToks [v] := by
  intro h
  obtain ⟨c, h, _⟩ := h _ (List.mem_singleton.2 rfl)
  rw [hv] at h
  cases h

private theorem not_constant {v : V} {k : Kind} {n s l : V} (hv : v = .atom k n s l) : ¬ Constant [v] := by
  rintro ⟨pre, c, post, h, _⟩
  have : V.str [c] ∈ [v] := by rw [h]; simp
  simp [hv] at this

/-- `ExecIf(${x}?noop(${y-}))`: what is said about the application inside is said as well; the
bad name is reported for both. -/
example (w : Where) : LineSays env2 w none (.str (c! "ExecIf(${x}?noop(${y-}))"))
    [.app (c! "execif"), .var (c! "x") w, .msg (mkMsg .E_VAR_BAD_TOKENS w [(c! "data", strV (c! "y-"))]), .var (c! "y-") w,
      .app (c! "noop"), .msg (mkMsg .W_APP_BAD_CASE w [(c! "app", strV (c! "noop")), (c! "proper", strV (c! "NoOp"))]),
      .msg (mkMsg .E_VAR_BAD_TOKENS w [(c! "data", strV (c! "y-"))]), .var (c! "y-") w] none [] := by
  have inner : LineSays env2 w none actV _ none [] :=
    .app (blank := []) (name := c! "noop") (data := c! "${y-}") (v := .atom .var (.str (c! "y-")) .none .none)
      (a := ⟨c! "NoOp", c! "<builtin>", .plain⟩)
      (.closed (rest := [.atom .var (.str (c! "y-")) .none .none, tk ')']) (by decide) (by decide) (by decide) (by decide))
      (by decide) (by decide) (fun c r h => by cases h; decide) (noTrail_of (by decide)) (.inr ⟨by decide, rfl⟩)
      (.miscased (.inl rfl) (by decide) (by decide))
      (data_text (t := .var (c! "y-") .nil) (.var (by unfold PlainName; decide) (.mk (.inl ⟨by decide, rfl⟩)) .nil))
      (.plain (.inl rfl) (.fine (by rw [← Props.C38_balance]; decide)))
  exact .app (blank := []) (name := c! "ExecIf") (data := c! "${x}?noop(${y-})") (v := join execTxt.meaning)
    (a := ⟨c! "ExecIf", c! "app_exec", .execIf⟩)
    (.closed (rest := (c! "${x}?noop(${y-}))").map tk) rfl (by decide) (by decide) (by decide)) (by decide) (by decide)
    (fun c r h => by cases h; decide) (noTrail_of (by decide)) (.inr ⟨by decide, rfl⟩)
    (.known (.inl rfl) (by decide))
    (data_text (t := execTxt) (.var (by unfold PlainName; decide) (.mk (.inr ⟨by decide, rfl⟩)) (.text (by decide) (by simp)
      (.var (by unfold PlainName; decide) (.mk (.inl ⟨by decide, rfl⟩)) (.text (by decide) (by simp) .nil)))))
    (.execIf (acts := [actV]) rfl
      (.mk (cond := [.atom .var (.str (c! "x")) .none .none]) (r := .atom .var (.str (c! "x")) .none .none)
        (.two (c := [.atom .var (.str (c! "x")) .none .none]) (s := actV.tokens) (as := [actV.tokens])
          (pieces_of (by decide) (by decide)) (pieces_of (v := actV) (by decide) (by decide)))
        (.variable (by decide)) ⟨.inr ⟨not_blank rfl, rfl⟩, fun h => absurd h (not_blank rfl)⟩
        ⟨.inr ⟨fun h => not_constant rfl h.2.2, rfl⟩, fun h => absurd h.2.2 (not_constant rfl)⟩
        (fun h => absurd h.2.2 (not_constant rfl)))
      (.cons inner .nil))

/-- `GotoIf(${x},a,1)`: the old style is reported, and the commas are gone from the destination. -/
example (w : Where) : ∃ evs js, LineSays env2 w none (.str (c! "GotoIf(${x},a,1)")) evs none js ∧ evs =
    [.app (c! "gotoif"), .var (c! "x") w,
      .msg (mkMsg .E_APP_ARG_IFSTYLE w [(c! "app", strV (c! "GotoIf")),
        (c! "data", .one (.lst [.atom .var (.str (c! "x")) .none .none, .str (c! ",a,1")])),
        (c! "cond", .one (.atom .var (.str (c! "x")) .none .none)), (c! "args", .many [.str (c! "a"), .str (c! "1")])])] ∧
    js = [⟨.none, .none, .one (.str (c! "a1"))⟩] := by
  refine ⟨_, _, .app (blank := []) (name := c! "GotoIf") (data := c! "${x},a,1")
    (v := .lst [.atom .var (.str (c! "x")) .none .none, .str (c! ",a,1")]) (a := ⟨c! "GotoIf", c! "<builtin>", .gotoIf⟩)
    (.closed (rest := (c! "${x},a,1)").map tk) rfl (by decide) (by decide) (by decide)) (by decide) (by decide)
    (fun c r h => by cases h; decide) (noTrail_of (by decide)) (.inr ⟨by decide, rfl⟩)
    (.known (.inl rfl) (by decide))
    (data_text (t := .var (c! "x") (.text (c! ",a,1") .nil)) (.var (by unfold PlainName; decide) (.mk (.inr ⟨by decide, rfl⟩))
      (.text (by decide) (by simp) .nil)))
    (.gotoIf rfl
      (.mk (cond := [.atom .var (.str (c! "x")) .none .none]) (r := .atom .var (.str (c! "x")) .none .none)
        (.old (c := [.atom .var (.str (c! "x")) .none .none]) (a := (c! "a").map tk) (more := [(c! "1").map tk])
          (s := c! "${x},a,1") (t := c! "${x}") (pieces_of (by decide) (by decide)) (pieces_of (by decide) (by decide)) (by decide) (by decide))
        (.variable (by decide)) ⟨.inr ⟨not_blank rfl, rfl⟩, fun h => absurd h (not_blank rfl)⟩
        ⟨.inr ⟨fun h => not_constant rfl h.2.2, rfl⟩, fun h => absurd h.2.2 (not_constant rfl)⟩
        (fun h => absurd h.2.2 (not_constant rfl)))
      (.cons ⟨_, .old, by simp, .none, .none, .str (c! "a1"), rfl, rfl⟩ .nil)), by rfl, by rfl⟩

/-- `${NoOp(a)}` for an action: the application in the name of the variable is looked at. -/
example (w : Where) : ∃ evs, LineSays env2 w none (.atom .var (.str (c! "NoOp(a)")) .none .none) evs none [] ∧
    evs = [.app (c! "noop")] := by
  refine ⟨_, .app (blank := []) (name := c! "NoOp") (data := c! "a") (v := .str (c! "a"))
    (a := ⟨c! "NoOp", c! "<builtin>", .plain⟩)
    (.inside (by decide) (.closed (rest := (c! "a)").map tk) rfl (by decide) (by decide) (by decide))) (by decide) (by decide)
    (fun c r h => by cases h; decide) (noTrail_of (by decide)) (.inr ⟨by decide, rfl⟩)
    (.known (.inl rfl) (by decide))
    (data_text (t := .text (c! "a") .nil) (.text (by decide) (by simp) .nil))
    (.plain (.inl rfl) (.fine (by rw [← Props.C38_balance]; decide))), by rfl⟩

example : ArgsDescribed env2 := by
  intro low a least behs h hb
  simp only [env2] at h
  repeat' split at h
  all_goals cases h <;> cases hb <;> simp

/-! ## What is not as it should be -/

/-- C93 fails: a bad name of a variable in an application inside `ExecIf` is one mistake, and is
reported twice (and counts as two uses). -/
theorem C93_violated_twice (w : Where) :
    (runApp env2 2 none w (strV (c! "ExecIf(${x}?NoOp(${y-}))"))).ev =
      [.app (c! "execif"), .var (c! "x") w, .msg (mkMsg .E_VAR_BAD_TOKENS w [(c! "data", strV (c! "y-"))]), .var (c! "y-") w,
        .app (c! "noop"), .msg (mkMsg .E_VAR_BAD_TOKENS w [(c! "data", strV (c! "y-"))]), .var (c! "y-") w] := by
  rfl

/-- C93 fails: an action in the old style, with commas, does not lead to the destination written;
the commas are lost. -/
theorem C93_violated_old (w : Where) :
    (runApp env2 1 none w (strV (c! "GotoIf(${x},a,s,1)"))).val.map (·.2) = .ok [⟨.none, .none, .one (.str (c! "as1"))⟩] := by
  rfl

end ALint.Props
