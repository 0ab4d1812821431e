import Verif.Proofs.Cond
import Verif.Props.Located

/-!
# C75: conditions
-/

namespace ALint.Props
open ALint ALint.Spec

/-- ` ${x} y?1:"2"`. -/
def demoData : V := .lst [.str (c! " "), .atom .var (.str (c! "x")) .none .none, .str (c! " y?1:\"2\"")]

theorem demo_sound : Sound demoData := by
  refine ⟨by decide, ?_⟩
  intro k n s l h
  have ht : demoData.tokens = [.str [' '], .atom .var (.str (c! "x")) .none .none] ++ (c! " y?1:\"2\"").map fun c => .str [c] := by decide
  rw [ht] at h
  rcases List.mem_append.1 h with h | h
  · simp only [List.mem_cons, List.not_mem_nil, or_false, reduceCtorEq, false_or] at h
    cases h
    exact ⟨by decide, c! "${x}", by decide⟩
  · obtain ⟨c, _, hc⟩ := List.mem_map.1 h
    cases hc

theorem demo_parts : PartsReport demoData.tokens [.str [' '], .atom .var (.str (c! "x")) .none .none, .str [' '], .str ['y']] [] :=
  .two (c := [.str [' '], .atom .var (.str (c! "x")) .none .none, .str [' '], .str ['y']])
    (s := (c! "1:\"2\"").map fun c => .str [c]) (pieces_sep '?' (by decide) demoData)

/-- C75: how the data of an application is taken apart is determined. -/
theorem C75_determined (data : V) (h : Sound data) :
    ∃ cond ks, PartsReport data.tokens cond ks ∧
      ∀ cond' ks', PartsReport data.tokens cond' ks' → cond' = cond ∧ ks' = ks := by
  obtain ⟨cond, ks, acts, h1, -⟩ := ifParts_spec ⟨[], 0, []⟩ [] h
  exact ⟨cond.tokens, ks, h1, fun _ _ h' => partsReport_unique h' h1⟩

theorem mapM_lift_ev {α β : Type} (f : α → Except Exc β) (as : List α) : (Tr.mapM (fun a => Tr.lift (f a)) as).ev = [] := by
  induction as with
  | nil => rfl
  | cons a as ih =>
    rw [Tr.mapM]
    unfold Tr.bind
    cases f a with
    | error e => rfl
    | ok b =>
      simp only [Tr.lift, List.nil_append]
      simp only [Tr.lift] at ih
      cases h : (Tr.mapM (fun a => (⟨[], f a⟩ : Tr β)) as).val with
      | error e => simp [ih]
      | ok bs => simp [ih, Tr.pure]

/-- C75, in part: `GotoIf` reports exactly what is wrong with the parts and the condition.
Missing: data with variables without a name. -/
theorem C75_gotoif_partial (env : FEnv) (inner : Option Str → Arg → Tr (Option Str)) (sp : Option Str) (w : Where)
    (name module : Str) (data : V) (h : Sound data) (cond : List V) (ks : List MK) (hr : PartsReport data.tokens cond ks) :
    (msgs (callApp env inner sp w ⟨name, module, .gotoIf⟩ data).ev).map (·.kind) = ks ++ condReport true cond := by
  obtain ⟨r, acts, h1, h2, -⟩ := condSplit_spec w name h hr
  simp only [callApp]
  rw [(Tr.bind_val_ok h1).2, msgs_app, List.map_append, h2]
  have he := mapM_lift_ev (fun a => padJump (separateArgs ',' true a)) (actions acts)
  simp only [Tr.bind]
  cases hv : (Tr.mapM (fun a => Tr.lift (padJump (separateArgs ',' true a))) (actions acts)).val with
  | error e => simp [he, msgs]
  | ok js => simp [he, msgs, Tr.pure]

/-- C75, in part: `GotoIfTime` and `ExecIfTime` report exactly what is wrong with the parts, and an
empty condition; constants are allowed.  They never fail. -/
theorem C75_iftime_partial (env : FEnv) (inner : Option Str → Arg → Tr (Option Str)) (sp : Option Str) (w : Where)
    (name module : Str) (data : V) (h : Sound data) (cond : List V) (ks : List MK) (hr : PartsReport data.tokens cond ks) :
    (msgs (callApp env inner sp w ⟨name, module, .ifTime⟩ data).ev).map (·.kind) = ks ++ condReport false cond ∧
    (callApp env inner sp w ⟨name, module, .ifTime⟩ data).val = .ok (sp, []) := by
  obtain ⟨r, acts, h1, h2, -⟩ := ifSplit_spec w name h hr
  simp only [callApp]
  rw [(Tr.bind_val_ok h1).2, (Tr.bind_val_ok h1).1, msgs_app, List.map_append, h2]
  exact ⟨by simp [Tr.pure, msgs], rfl⟩

/-- A property of the messages of a list of calls. -/
theorem mapM_msgs {α β : Type} (P : Msg → Prop) (f : α → Tr β) (hf : ∀ a, ∀ m ∈ msgs (f a).ev, P m) (as : List α) :
    ∀ m ∈ msgs (Tr.mapM f as).ev, P m := by
  have pure_nil : ∀ {γ : Type} (x : γ), msgs (Tr.pure x).ev = [] := fun _ => rfl
  induction as with
  | nil => intro m hm; simp [Tr.mapM, pure_nil] at hm
  | cons a as ih =>
    intro m hm
    rw [Tr.mapM] at hm
    unfold Tr.bind at hm
    cases hv : (f a).val with
    | error e => simp only [hv] at hm; exact hf a m hm
    | ok b =>
      simp only [hv] at hm
      rw [msgs_app] at hm
      rcases List.mem_append.1 hm with hm | hm
      · exact hf a m hm
      · cases hv' : (Tr.mapM f as).val with
        | error e => simp only [hv'] at hm; exact ih m hm
        | ok bs =>
          simp only [hv', msgs_app, pure_nil, List.append_nil] at hm
          exact ih m hm

theorem gosubPrio_kinds (w : Where) (p : V) : ∀ m ∈ msgs (gosubPrio w p).ev, m.kind = .W_APP_BALANCE := by
  intro m hm
  unfold gosubPrio at hm
  split at hm
  · by_cases he : endsParen p = true
    · simp [he, Tr.bind, Tr.pure, msgs] at hm
    · simp only [he, Bool.false_eq_true, if_false] at hm
      unfold Tr.bind at hm
      cases hv : (Tr.emit (mkMsg .W_APP_BALANCE w [(c! "data", .one p)])).val with
      | error e =>
        simp only [hv] at hm
        simp [Tr.emit, msgs] at hm
        subst hm; rfl
      | ok u =>
        simp only [hv] at hm
        simp [Tr.emit, Tr.pure, msgs] at hm
        subst hm; rfl
  · simp [Tr.pure, msgs] at hm

theorem gosubDest_kinds (w : Where) (name : Str) (warn : Bool) (args : List V) :
    ∀ m ∈ msgs (gosubDest w name warn args).ev, m.kind = .E_APP_ARG_MANY ∨ m.kind = .W_APP_BALANCE := by
  have key : ∀ p (f : Arg → Jump), ∀ m ∈ msgs (Tr.bind (gosubPrio w p) fun q => Tr.pure (f q)).ev, m.kind = .W_APP_BALANCE := by
    intro p f m hm
    obtain ⟨a, ha, -⟩ := gosubPrio_val w p
    rw [(Tr.bind_val_ok ha).2, msgs_app] at hm
    rcases List.mem_append.1 hm with hm | hm
    · exact gosubPrio_kinds w p m hm
    · simp [Tr.pure, msgs] at hm
  intro m hm
  unfold gosubDest at hm
  split at hm
  · simp [Tr.raise, msgs] at hm
  · exact .inr (key _ _ m hm)
  · exact .inr (key _ _ m hm)
  · exact .inr (key _ _ m hm)
  · have hi : (if warn then Tr.emit (mkMsg .E_APP_ARG_MANY w [(c! "app", strV name), (c! "max_args", natV 3)])
        else Tr.pure ()).val = .ok () := by
      cases warn <;> rfl
    rw [(Tr.bind_val_ok hi).2, msgs_app] at hm
    rcases List.mem_append.1 hm with hm | hm
    · cases warn with
      | true => simp [Tr.emit, msgs] at hm; subst hm; exact .inl rfl
      | false => simp [Tr.pure, msgs] at hm
    · exact .inr (key _ _ m hm)

/-- C75, in part: `GosubIf` reports exactly what is wrong with the parts and the condition; what
follows is about destinations. -/
theorem C75_gosubif_partial (env : FEnv) (inner : Option Str → Arg → Tr (Option Str)) (sp : Option Str) (w : Where)
    (name module : Str) (data : V) (h : Sound data) (cond : List V) (ks : List MK) (hr : PartsReport data.tokens cond ks) :
    ∃ more, (msgs (callApp env inner sp w ⟨name, module, .gosubIf⟩ data).ev).map (·.kind) = ks ++ condReport true cond ++ more ∧
      ∀ k ∈ more, k = .E_APP_ARG_MANY ∨ k = .W_APP_BALANCE := by
  obtain ⟨r, acts, h1, h2, -⟩ := condSplit_spec w name h hr
  simp only [callApp]
  rw [(Tr.bind_val_ok h1).2, msgs_app, List.map_append, h2]
  refine ⟨_, rfl, ?_⟩
  have hk := mapM_msgs (fun m => m.kind = .E_APP_ARG_MANY ∨ m.kind = .W_APP_BALANCE)
    (fun a => gosubDest w name true (separateArgs ',' true a)) (fun a => gosubDest_kinds w name true _) (actions acts)
  intro k hk'
  obtain ⟨m, hm, rfl⟩ := List.mem_map.1 hk'
  simp only [Tr.bind] at hm
  cases hv : (Tr.mapM (fun a => gosubDest w name true (separateArgs ',' true a)) (actions acts)).val with
  | error e => simp only [hv] at hm; exact hk m hm
  | ok js =>
    simp only [hv, Tr.pure, List.append_nil] at hm
    exact hk m hm

/-- C75, in part: `ExecIf` with a question mark reports exactly what is wrong with the parts and the
condition; then the first two of the actions between colons run, unless empty. -/
theorem C75_execif_partial (env : FEnv) (inner : Option Str → Arg → Tr (Option Str)) (sp : Option Str) (w : Where)
    (name module : Str) (data : V) (h : Sound data) (cond : List V) (ks : List MK) (hr : PartsReport data.tokens cond ks)
    (c s : List V) (more as : List (List V)) (hq : Pieces '?' data.tokens (c :: s :: more))
    (ha : Pieces ':' (unquoteToks false s) as) :
    ∃ vs : List V, vs.map V.tokens = (as.take 2).filter (!·.isEmpty) ∧
      (msgs (callApp env inner sp w ⟨name, module, .execIf⟩ data).ev).map (·.kind) =
        ks ++ condReport true cond ++ (msgs (execAll inner sp (vs.map .one)).ev).map (·.kind) := by
  obtain ⟨r, acts, h1, h2, h3, -⟩ := condSplit_spec w name h hr
  obtain ⟨vs, h4, h5⟩ := h3 c s more as hq ha
  refine ⟨vs, h5, ?_⟩
  simp only [callApp]
  rw [(Tr.bind_val_ok h1).2, msgs_app, List.map_append, h2, h4]
  congr 2
  simp only [Tr.bind]
  cases hv : (execAll inner sp (vs.map .one)).val with
  | error e => rfl
  | ok s => simp [Tr.pure]

/-- Where an action leads: up to three parts between commas, right-aligned. -/
inductive Goes (toks : List V) : Jump → Prop
  | prio {p : List V} {v : V} : Pieces ',' toks [p] → v.tokens = unquoteToks false p → Goes toks ⟨.none, .none, .one v⟩
  | exten {e p : List V} {u v : V} : Pieces ',' toks [e, p] → u.tokens = unquoteToks false e →
      v.tokens = unquoteToks false p → Goes toks ⟨.none, u, .one v⟩
  | context {c e p : List V} {t u v : V} : Pieces ',' toks [c, e, p] → t.tokens = unquoteToks false c →
      u.tokens = unquoteToks false e → v.tokens = unquoteToks false p → Goes toks ⟨t, u, .one v⟩

theorem padJump_goes (v : V) (j : Jump) (h : padJump (separateArgs ',' true (.one v)) = .ok j) : Goes v.tokens j := by
  have hq := pieces_sep ',' (by decide) v
  have ht := separate_true ',' (by decide) v
  generalize separateArgs ',' true (.one v) = l at h ht
  generalize (separateArgs ',' false (.one v)).map V.tokens = ps at hq ht
  match l, h with
  | [], h =>
    simp at ht
    exact absurd ht hq.1
  | [a], h =>
    obtain ⟨p, r, rfl, e1, e2⟩ := List.map_eq_cons_iff.1 ht.symm
    obtain rfl := List.map_eq_nil_iff.1 e2
    simp only [padJump, Except.ok.injEq] at h
    subst h
    exact .prio hq e1.symm
  | [a, b], h =>
    obtain ⟨p, r, rfl, e1, e2⟩ := List.map_eq_cons_iff.1 ht.symm
    obtain ⟨q, r, rfl, e3, e4⟩ := List.map_eq_cons_iff.1 e2
    obtain rfl := List.map_eq_nil_iff.1 e4
    simp only [padJump, Except.ok.injEq] at h
    subst h
    exact .exten hq e1.symm e3.symm
  | [a, b, c], h =>
    obtain ⟨p, r, rfl, e1, e2⟩ := List.map_eq_cons_iff.1 ht.symm
    obtain ⟨q, r, rfl, e3, e4⟩ := List.map_eq_cons_iff.1 e2
    obtain ⟨q', r, rfl, e5, e6⟩ := List.map_eq_cons_iff.1 e4
    obtain rfl := List.map_eq_nil_iff.1 e6
    simp only [padJump, Except.ok.injEq] at h
    subst h
    exact .context hq e1.symm e3.symm e5.symm
  | _ :: _ :: _ :: _ :: _, h => simp [padJump] at h

/-- C75, in part: the destinations of `GotoIf` are those between question mark and colon and behind
the colon, if present, in this order. -/
theorem C75_destinations_partial (env : FEnv) (inner : Option Str → Arg → Tr (Option Str)) (sp : Option Str) (w : Where)
    (name module : Str) (data : V) (h : Sound data) (c s : List V) (more as : List (List V))
    (hq : Pieces '?' data.tokens (c :: s :: more)) (ha : Pieces ':' (unquoteToks false s) as)
    (sp' : Option Str) (js : List Jump) (hok : (callApp env inner sp w ⟨name, module, .gotoIf⟩ data).val = .ok (sp', js)) :
    sp' = sp ∧ Zips Goes ((as.take 2).filter (!·.isEmpty)) js := by
  obtain ⟨cond, ks, hr, -⟩ := C75_determined data h
  obtain ⟨r, acts, h1, h2, h3, -⟩ := condSplit_spec w name h hr
  obtain ⟨vs, h4, h5⟩ := h3 c s more as hq ha
  simp only [callApp] at hok
  rw [(Tr.bind_val_ok h1).1] at hok
  obtain ⟨js', g1, g2, -⟩ := Tr.bind_ok hok
  simp only [Tr.pure, Except.ok.injEq, Prod.mk.injEq] at g2
  obtain ⟨rfl, rfl⟩ := g2
  refine ⟨rfl, ?_⟩
  rw [← h5]
  rw [h4] at g1
  clear h4 h5 hok
  induction vs generalizing js' with
  | nil =>
    simp only [List.map_nil, Tr.mapM, Tr.pure, Except.ok.injEq] at g1
    subst g1
    exact .nil
  | cons v vs ih =>
    rw [List.map_cons, Tr.mapM] at g1
    obtain ⟨j, k1, k2, -⟩ := Tr.bind_ok g1
    obtain ⟨js'', k3, k4, -⟩ := Tr.bind_ok k2
    simp only [Tr.pure, Except.ok.injEq] at k4
    subst k4
    exact .cons (padJump_goes v j k1) (ih js'' k3)

/-- C47, in part: `GotoIf` has a destination for each of the two actions that is present, in this
order, if no action has more than three parts. -/
theorem C47_actions_partial (env : FEnv) (inner : Option Str → Arg → Tr (Option Str)) (sp : Option Str) (w : Where)
    (name module : Str) (data : V) (h : Sound data) (c s : List V) (more as : List (List V))
    (hq : Pieces '?' data.tokens (c :: s :: more)) (ha : Pieces ':' (unquoteToks false s) as)
    (h3 : ∀ a ∈ as.take 2, ∀ ps, Pieces ',' a ps → ps.length ≤ 3) :
    ∃ js, (callApp env inner sp w ⟨name, module, .gotoIf⟩ data).val = .ok (sp, js) ∧
      Zips Goes ((as.take 2).filter (!·.isEmpty)) js := by
  obtain ⟨cond, ks, hr, -⟩ := C75_determined data h
  obtain ⟨r, acts, h1, h2, h4, -⟩ := condSplit_spec w name h hr
  obtain ⟨vs, h5, h6⟩ := h4 c s more as hq ha
  have hl : ∀ a ∈ actions acts, (separateArgs ',' true a).length ≤ 3 := by
    intro a ha'
    rw [h5] at ha'
    obtain ⟨v, hv, rfl⟩ := List.mem_map.1 ha'
    have hm : v.tokens ∈ as.take 2 :=
      (List.mem_filter.1 (show v.tokens ∈ (as.take 2).filter (!·.isEmpty) by rw [← h6]; exact List.mem_map_of_mem hv)).1
    have := h3 _ hm _ (pieces_sep ',' (by decide) v)
    have hlen := congrArg List.length (separate_true ',' (by decide) v)
    simp only [List.length_map] at hlen this
    omega
  obtain ⟨js, j1, -⟩ := C47_gotoif_partial env inner sp w name module data (r, acts) h1 hl
  exact ⟨js, j1, (C75_destinations_partial env inner sp w name module data h c s more as hq ha sp js j1).2⟩

example : (callApp demoEnv.toFEnv (fun _ _ => .pure none) none (demoW 1) ⟨c! "GotoIf", c! "x", .gotoIf⟩ demoData).val =
    .ok (none, [⟨.none, .none, .one (.str (c! "1"))⟩, ⟨.none, .none, .one (.str (c! "2"))⟩]) := by decide +kernel

example : Constant [.str [' '], .atom .var (.str (c! "x")) .none .none, .str [' '], .str ['y']] :=
  ⟨[_, _, _], 'y', [], rfl, .inl (by decide)⟩

/-- The applications that take conditions, too. -/
def condEnv : DEnv := { demoEnv with
  apps := fun s =>
    if s = c! "gotoif" then some ⟨c! "GotoIf", c! "<builtin>", .gotoIf⟩
    else if s = c! "gosubif" then some ⟨c! "GosubIf", c! "app_stack", .gosubIf⟩
    else if s = c! "execif" then some ⟨c! "ExecIf", c! "app_exec", .execIf⟩
    else if s = c! "gotoiftime" then some ⟨c! "GotoIfTime", c! "<builtin>", .ifTime⟩
    else demoEnv.apps s }

/-- A whole check of a text, with these. -/
def checkCond (s : Str) : Res (Option DState) := checkDialplan noFiles condEnv none 99 (c! "e.conf") (asciiBytes s)

example : ((checkCond (c! "[a]\nexten => s,1,GotoIf( ${x} y?1)\n same => n,GotoIf( ?1)\n same => n,GotoIf( ${x} ?1)\n same => n,GotoIf(${x},1)\n same => n,GotoIfTime(12?1?)\n")).log.map
    (·.kind)).take 4 = [.E_APP_ARG_IFCONST, .E_APP_ARG_IFEMPTY, .E_APP_ARG_IFSTYLE, .E_APP_ARG_MANY] := by decide +kernel

/-- C75 is violated: `ExecIf` in the old style is reported, and then fails. -/
theorem C75_violated_execif (env : AEnv) (depth : Nat) (sp : Option Str) (w : Where)
    (name module : Str) (data : V) (h : Sound data) (c a : List V) (more : List (List V))
    (hq : Pieces '?' data.tokens [data.tokens]) (hc : Pieces ',' data.tokens (c :: a :: more)) :
    .E_APP_ARG_IFSTYLE ∈ (msgs (callApp env.toFEnv (fun sp raw => .bind (runApp env (depth + 1) sp w raw) fun r => .pure r.1)
      sp w ⟨name, module, .execIf⟩ data).ev).map (·.kind) ∧
    (callApp env.toFEnv (fun sp raw => .bind (runApp env (depth + 1) sp w raw) fun r => .pure r.1)
      sp w ⟨name, module, .execIf⟩ data).val = .error .attributeError := by
  obtain ⟨r, acts, h1, h2, -, h3⟩ := condSplit_spec w name h (.old hq hc)
  obtain ⟨vs, h4, -⟩ := h3 c a more hq hc
  simp only [callApp]
  rw [(Tr.bind_val_ok h1).1, (Tr.bind_val_ok h1).2, msgs_app, List.map_append, h2, h4]
  exact ⟨by simp, rfl⟩

/-- A file for which this happens. -/
theorem C75_violated_execif_file :
    (checkCond (c! "[a]\nexten => s,1,ExecIf(${x},NoOp,y)\n")).log.map (·.kind) = [.E_APP_ARG_IFSTYLE] ∧
    (checkCond (c! "[a]\nexten => s,1,ExecIf(${x},NoOp,y)\n")).val.map (fun _ => ()) = .error (.programmingError .attributeError) := by
  decide +kernel

/-- C75 is violated: a condition that is a variable or expression without a name ends the check. -/
theorem C75_violated_nameless :
    (checkCond (c! "[a]\nexten => s,1,GotoIf(${}?1)\n")).val.map (fun _ => ()) = .error (.programmingError .attributeError) ∧
    (checkCond (c! "[a]\nexten => s,1,GotoIf($[]?1)\n")).val.map (fun _ => ()) = .error (.programmingError .attributeError) ∧
    (checkCond (c! "[a]\nexten => s,1,GotoIf($[]?1)\n")).log = [] := by
  decide +kernel

end ALint.Props
