import Verif.Proofs.Slice
import Verif.Spec.Message

namespace ALint
open ALint.Spec

theorem usedNames_append (a b : List Ev) : usedNames (a ++ b) = usedNames a ++ usedNames b := by
  simp [usedNames, List.filterMap_append]

theorem reportedNames_append (a b : List Ev) :
    reportedNames (a ++ b) = reportedNames a ++ reportedNames b := by
  simp [reportedNames, List.filterMap_append]

/-! ### an invariant of traces -/

/-- A property of event lists that is closed under concatenation. -/
structure EvInv where
  P : List Ev → Prop
  nil : P []
  append : ∀ a b, P a → P b → P (a ++ b)

def Keeps (I : EvInv) {α : Type} (x : Tr α) : Prop := I.P x.ev

theorem Keeps.bind {I : EvInv} {α β : Type} {x : Tr α} {f : α → Tr β} (hx : Keeps I x)
    (hf : ∀ a, Keeps I (f a)) : Keeps I (Tr.bind x f) := by
  unfold Keeps Tr.bind
  split
  · exact hx
  · exact I.append _ _ hx (hf _)

theorem Keeps.pure {I : EvInv} {α : Type} (a : α) : Keeps I (Tr.pure a) := I.nil
theorem Keeps.raise {I : EvInv} {α : Type} (e : Exc) : Keeps I (Tr.raise e : Tr α) := I.nil
theorem Keeps.lift {I : EvInv} {α : Type} (x : Except Exc α) : Keeps I (Tr.lift x) := I.nil
theorem Keeps.ite {I : EvInv} {α : Type} {c : Prop} [Decidable c] {x y : Tr α} (hx : Keeps I x)
    (hy : Keeps I y) : Keeps I (if c then x else y) := by split <;> assumption

/-- The kinds of messages about the text of an application. -/
def appKind : MK → Bool
  | .E_APP_WSH | .E_APP_PARSE_ERROR | .W_APP_NEED_PARENS | .W_APP_WSH | .E_ASSIGN_EMPTY
  | .E_ASSIGN_NO_EQUALS | .E_FUNC_BAD_CASE | .E_FUNC_MISSING | .E_FUNC_PARENS | .E_FUNC_TAIL
  | .E_VAR_BAD_TOKENS | .E_VAR_SUBSTR_ARGS | .E_VAR_SUBSTR_START | .E_VAR_SUBSTR_LENGTH
  | .W_ASSIGN_SPACES | .W_FUNC_DYNAMIC | .E_APP_ARG_FEW | .E_APP_ARG_MANY | .E_APP_ARG_BADOPT
  | .E_APP_ARG_DUPEOPT | .E_APP_ARG_IFCONST | .E_APP_ARG_IFEMPTY | .E_APP_ARG_IFSTYLE
  | .E_APP_ARG_PIPEDELIM | .E_APP_ARG_SYNTAX | .E_APP_MISSING | .W_APP_BAD_CASE | .W_APP_BALANCE
  | .E_FUNC_BAD_ARGS | .W_FUNC_BALANCE => true
  | _ => false

/-- The keys cover the names in the text. -/
def covers (k : MK) (keys : List Str) : Bool := (placeholders k.template).all keys.contains

theorem supplies_of_covers {m : Msg} (h : covers m.kind (m.args.map (·.1)) = true) : Supplies m := by
  intro name hn
  unfold covers at h
  rw [List.all_eq_true] at h
  have := h name hn
  simp only [List.contains_eq_mem, List.mem_map, decide_eq_true_eq] at this
  obtain ⟨⟨k, a⟩, h1, h2⟩ := this
  simp only at h2
  subst h2
  exact ⟨a, h1⟩

/-- The classes in which a variable or a list can be shown by its `repr`. -/
def objectKinds : List MK := [.E_APP_ARG_BADOPT, .E_APP_ARG_DUPEOPT, .E_APP_ARG_IFSTYLE, .E_APP_ARG_PIPEDELIM, .W_APP_BALANCE,
  .W_FUNC_BALANCE, .E_DP_GOTO_NOCONTEXT, .W_DP_GOTO_CONTEXT_NOEXTEN]

/-- A text, a number or `None`. -/
def Arg.isPlain : Arg → Bool
  | .one (.str _) | .one (.int _) | .one .none => true
  | _ => false

/-- No list. -/
def Arg.isOne : Arg → Bool
  | .one _ => true
  | .many _ => false

/-- A value under that name is shown without `repr` of a variable. -/
def addresslessArg (k : MK) (p : Str × Arg) : Bool :=
  k.template.all fun f => match f with
    | .lit _ => true
    | .field n r => n != p.1 || (if r then p.2.isPlain else p.2.isOne)

/-- Nothing is shown by `repr` of a variable, or the class is one of those. -/
def Addressless (m : Msg) : Prop := (objectKinds.contains m.kind || m.args.all (addresslessArg m.kind)) = true

/-- The events the code can make at a place, apart from uses of variables. -/
structure Allows (I : EvInv) (w : Where) (env : FEnv) : Prop where
  msg : ∀ m : Msg, m.at_ = w → appKind m.kind = true →
    m.kind ≠ .E_VAR_BAD_TOKENS ∧ m.kind ≠ .E_FUNC_MISSING ∧ m.kind ≠ .E_FUNC_BAD_CASE →
    (m.kind = .W_FUNC_DYNAMIC ∨ Supplies m) ∧ m.previous = none ∧ Addressless m → I.P [.msg m]
  get : ∀ f, Keeps I (getFunc env w f)
  app : ∀ a, I.P [.app a]

variable {I : EvInv}

theorem keeps_emit {w : Where} {env : FEnv} (h : Allows I w env) (k : MK) (args : List (Str × Arg))
    (hk : (appKind k = true ∧ (k ≠ .E_VAR_BAD_TOKENS ∧ k ≠ .E_FUNC_MISSING ∧ k ≠ .E_FUNC_BAD_CASE)) ∧
      ((k == .W_FUNC_DYNAMIC || covers k (args.map (·.1))) = true ∧ (objectKinds.contains k || args.all (addresslessArg k)) = true)) : Keeps I (Tr.emit (mkMsg k w args)) := by
  refine h.msg _ rfl hk.1.1 hk.1.2 ⟨?_, rfl, hk.2.2⟩
  have := hk.2.1
  simp only [Bool.or_eq_true, beq_iff_eq] at this
  exact this.imp_right fun h => supplies_of_covers (m := mkMsg k w args) h

/-- The kind is one of applications, and all names have values. -/
macro "emit_ok" : tactic => `(tactic| exact ⟨by decide, rfl, rfl⟩)

theorem keeps_getFunc {w : Where} {env : FEnv} (h : Allows I w env) (f : Str) : Keeps I (getFunc env w f) :=
  h.get f

/-- When nothing but the recording and the kind of the message matters. -/
theorem keeps_get {w : Where} (env : FEnv) (hf : ∀ f, I.P [.func f])
    (hm : ∀ m : Msg, m.at_ = w → m.kind = .E_FUNC_MISSING ∨ m.kind = .E_FUNC_BAD_CASE →
      Supplies m ∧ m.previous = none ∧ Addressless m → I.P [.msg m]) (f : Str) : Keeps I (getFunc env w f) := by
  unfold getFunc
  dsimp only
  split
  · exact .raise _
  · refine .bind (hf _) fun _ => ?_
    split
    · split
      · exact .bind (hm _ rfl (.inl rfl) ⟨supplies_of_covers rfl, rfl, rfl⟩) fun _ => .pure _
      · exact .bind (hm _ rfl (.inr rfl) ⟨supplies_of_covers rfl, rfl, rfl⟩) fun _ => .pure _
    · exact .pure _

theorem keeps_funcBalance {w : Where} {env : FEnv} (h : Allows I w env) (a : Arg) : Keeps I (funcBalance w a) := by
  unfold funcBalance
  split
  · exact .pure _
  · exact .bind (.lift _) fun _ => keeps_emit h _ _ (by emit_ok)

theorem keeps_writeFunction {w : Where} {env : FEnv} (h : Allows I w env) (call : FuncInfo → Arg → Tr Unit)
    (hc : ∀ s f a, (env.funcs s = some f) → Keeps I (call f a)) (dest : V) :
    Keeps I (writeFunction env w call dest) := by
  unfold writeFunction
  split
  · refine .bind (.lift _) fun parts => ?_
    split
    · split
      · exact .raise _
      · split
        · split
          · rename_i f
            show I.P _
            unfold Tr.bind
            split
            · exact keeps_getFunc h f
            · rename_i a ha
              refine I.append _ _ (keeps_getFunc h f) ?_
              have : (env.funcs (env.lower f) = some a) ∨ env.funcs (c! "unknown") = some a := by
                unfold getFunc at ha
                dsimp only at ha
                split at ha
                · simp [Tr.raise] at ha
                · rename_i fi hfi
                  obtain ⟨_, _, ha, _⟩ := Tr.bind_ok ha
                  have : fi = a := by
                    split at ha
                    · split at ha
                      · obtain ⟨_, _, ha, _⟩ := Tr.bind_ok ha; simpa [Tr.pure] using ha
                      · obtain ⟨_, _, ha, _⟩ := Tr.bind_ok ha; simpa [Tr.pure] using ha
                    · simpa [Tr.pure] using ha
                  subst this
                  cases h1 : env.funcs (env.lower f) with
                  | none => rw [h1] at hfi; exact .inr (by simpa using hfi)
                  | some x => rw [h1] at hfi; exact .inl (by simpa using hfi)
              rcases this with h1 | h1
              · exact hc _ _ _ h1
              · exact hc _ _ _ h1
          · exact .raise _
        · exact .raise _
    · exact .raise _
  · exact .raise _

theorem keeps_parseAssignment {w : Where} {env : FEnv} (h : Allows I w env) (call : FuncInfo → Arg → Tr Unit)
    (hc : ∀ s f a, (env.funcs s = some f) → Keeps I (call f a)) (data : Arg) :
    Keeps I (parseAssignment env w call data) := by
  unfold parseAssignment
  split
  · exact keeps_emit h _ _ (by emit_ok)
  · split
    · exact .raise _
    · refine .bind (.lift _) fun parts => ?_
      split
      · refine .bind (.ite (keeps_emit h _ _ (by emit_ok)) (.pure _)) fun _ => ?_
        exact .ite (keeps_writeFunction h call hc _) (.pure _)
      · exact keeps_emit h _ _ (by emit_ok)

/-- Calls keep the invariant; counting functions need it for uses. -/
theorem keeps_callFunc {w : Where} {env : FEnv} (h : Allows I w env)
    (hcount : (∃ s f, env.funcs s = some f ∧ f.beh = .count) → ∀ n, Keeps I (countVar w n))
    (n : Nat) (s : Str) (f : FuncInfo) (hf : env.funcs s = some f) (data : Arg) :
    Keeps I (callFunc env w n f data) := by
  induction n generalizing s f data with
  | zero => exact .raise _
  | succ n ih =>
    simp only [callFunc]
    split
    · exact keeps_funcBalance h _
    · exact .bind (keeps_parseAssignment h _ (fun s f a hfa => ih s f hfa a) _)
        fun _ => keeps_funcBalance h _
    · refine .bind ?_ fun _ => keeps_funcBalance h _
      split
      · rename_i hb
        unfold badAudiohook at hb
        split at hb
        · exact keeps_emit h _ _ (by emit_ok)
        · cases hb
      · exact .pure _
    · rename_i hb
      refine .bind (keeps_funcBalance h _) fun _ => ?_
      unfold countArg
      split
      · exact hcount ⟨s, f, hf, hb⟩ _
      · exact .raise _

theorem keeps_splitSlice {w : Where} {env : FEnv} (h : Allows I w env) (data : V) : Keeps I (splitSlice w data) := by
  unfold splitSlice
  refine .bind (.lift _) fun ps => ?_
  dsimp only
  refine .bind (.ite (.pure _) (keeps_emit h _ _ (by emit_ok))) fun _ => .bind ?_ fun _ => .bind ?_ fun _ =>
    .bind ?_ fun _ => .pure _
  · unfold sliceStart
    split
    · exact .ite (.bind (.lift _) fun _ => .pure _) (.bind (keeps_emit h _ _ (by emit_ok)) fun _ => .pure _)
    · exact .pure _
  · unfold sliceLength
    split
    · refine .ite (.bind (.lift _) fun _ => .bind (.lift _) fun _ => ?_)
        (.bind (keeps_emit h _ _ (by emit_ok)) fun _ => .pure _)
      exact .ite (.bind (keeps_emit h _ _ (by emit_ok)) fun _ => .pure _) (.pure _)
    · exact .pure _
  · unfold sliceZero
    exact .ite (.bind (keeps_emit h _ _ (by emit_ok)) fun _ => .pure _) (.pure _)

theorem getFunc_registered {env : FEnv} {w : Where} {f : Str} {fi : FuncInfo}
    (ha : (getFunc env w f).val = .ok fi) : ∃ s, env.funcs s = some fi := by
  unfold getFunc at ha
  dsimp only at ha
  split at ha
  · simp [Tr.raise] at ha
  · rename_i fi' hfi
    obtain ⟨_, _, ha, _⟩ := Tr.bind_ok ha
    have : fi' = fi := by
      split at ha
      · split at ha
        · obtain ⟨_, _, ha, _⟩ := Tr.bind_ok ha; simpa [Tr.pure] using ha
        · obtain ⟨_, _, ha, _⟩ := Tr.bind_ok ha; simpa [Tr.pure] using ha
      · simpa [Tr.pure] using ha
    subst this
    cases h1 : env.funcs (env.lower f) with
    | none => rw [h1] at hfi; exact ⟨_, by simpa using hfi⟩
    | some x => rw [h1] at hfi; exact ⟨_, by rw [h1]; simpa using hfi⟩

theorem Keeps.bind' {α β : Type} {x : Tr α} {f : α → Tr β} (hx : Keeps I x)
    (hf : ∀ a, x.val = .ok a → Keeps I (f a)) : Keeps I (Tr.bind x f) := by
  unfold Keeps Tr.bind
  split
  · exact hx
  · rename_i a ha; exact I.append _ _ hx (hf _ ha)

theorem keeps_readFunction {w : Where} {env : FEnv} (h : Allows I w env)
    (hcount : (∃ s f, env.funcs s = some f ∧ f.beh = .count) → ∀ n, Keeps I (countVar w n))
    (data : V) : Keeps I (readFunction env w data) := by
  unfold readFunction
  dsimp only
  split
  · exact .raise _
  · refine .bind ?_ fun _ => .bind ?_ fun _ => ?_
    · unfold funcArgs
      dsimp only
      split
      · exact .pure _
      · exact .bind (keeps_emit h _ _ (by emit_ok)) fun _ => .pure _
    · unfold funcTail
      refine .ite (.bind (keeps_splitSlice h _) fun _ => ?_) (.pure _)
      exact .ite (.bind (keeps_emit h _ _ (by emit_ok)) fun _ => .pure _) (.pure _)
    · split
      · exact .raise _
      · refine .bind' (keeps_getFunc h _) fun fi hfi => .bind ?_ fun _ => .lift _
        obtain ⟨s, hs⟩ := getFunc_registered hfi
        exact keeps_callFunc h hcount _ s fi hs _
      · exact .bind (keeps_emit h _ _ (by emit_ok)) fun _ => .lift _

/-! ### reports -/

/-- Bad names are reported as often as they are used. -/
def pairedInv : EvInv where
  P := fun evs => reportedNames evs = ((usedNames evs).filter fun n => !legalName n).map fun n => .one (.str n)
  nil := rfl
  append := by
    intro a b ha hb
    rw [reportedNames_append, usedNames_append, List.filter_append, List.map_append, ha, hb]

theorem paired_allows (w : Where) (env : FEnv) : Allows pairedInv w env where
  msg := by
    intro m _ _ hm
    simp [pairedInv, reportedNames, usedNames, hm.1]
  get := keeps_get env (fun _ => rfl) (by
    intro m _ hm _
    rcases hm with hm | hm <;> simp [pairedInv, reportedNames, usedNames, hm])
  app := by intro f; rfl

theorem legal_iff (n : Str) : n.all legalVarChar = legalName n := by
  unfold legalName
  congr 1
  funext c
  simp only [legalVarChar, Char.isAlphanum, Char.isAlpha, Char.isUpper, Char.isLower, Char.isDigit,
    Bool.decide_and]
  rfl

theorem countVar_eq (w : Where) (n : Str) : countVar w n =
    ⟨(if legalName n then [] else [.msg (mkMsg .E_VAR_BAD_TOKENS w [(c! "data", .one (.str n))])]) ++
      [.var n w], .ok ()⟩ := by
  unfold countVar
  rw [legal_iff]
  by_cases hl : legalName n = true
  · simp [hl, Tr.bind, Tr.pure, Tr.note]
  · simp [hl, Tr.bind, Tr.note, Tr.emit, mkMsg, Msg.render, renderAll, renderPiece, MK.template, V.toStr,
      Except.map]

theorem paired_countVar (w : Where) (n : Str) : Keeps pairedInv (countVar w n) := by
  rw [countVar_eq]
  by_cases hl : legalName n = true
  · simp [Keeps, pairedInv, hl, reportedNames, usedNames]
  · simp [Keeps, pairedInv, hl, reportedNames, usedNames, mkMsg]

theorem keeps_countUnlessVar (w : Where) (hc : ∀ n, Keeps I (countVar w n)) (v : V) :
    Keeps I (countUnlessVar w v) := by
  unfold countUnlessVar
  refine .ite (.pure _) ?_
  unfold countArg
  split
  · exact hc _
  · exact .raise _

theorem keeps_processSubst {w : Where} {env : FEnv} (h : Allows I w env) (hc : ∀ n, Keeps I (countVar w n))
    (curly : Bool) (data : V) : Keeps I (processSubst env w curly data) := by
  unfold processSubst
  refine .ite ?_ (.pure _)
  unfold processVariable
  refine .ite (keeps_readFunction h (fun _ => hc) _) (.ite ?_ ?_)
  · unfold processSlice
    refine .bind (keeps_splitSlice h _) fun _ => .bind (keeps_countUnlessVar _ hc _) fun _ => ?_
    exact .ite (.pure _) (.ite (.pure _) (.bind (.lift _) fun _ => .pure _))
  · exact .bind (keeps_countUnlessVar _ hc _) fun _ => .pure _

theorem keeps_items {w : Where} {env : FEnv} (h : Allows I w env) (hc : ∀ n, Keeps I (countVar w n)) (s : Str) :
    Keeps I (items env w s) := by
  induction s using parse_induction with
  | plain s hf => rw [items_none hf]; exact .pure _
  | opened s pre rest curly hf hb => rw [items_open hf hb]; exact .raise _
  | subst s pre rest curly inner more tail hf hb ih1 ih2 =>
    rw [items_subst hf hb]
    refine .bind ?_ fun _ => .bind (keeps_processSubst h hc _ _) fun _ => .bind ih2 fun _ => .pure _
    unfold innerVal
    exact .ite (.bind ih1 fun _ => .pure _) (.pure _)

theorem paired_items (env : FEnv) (w : Where) (s : Str) : Keeps pairedInv (items env w s) :=
  keeps_items (paired_allows w env) (paired_countVar w) s

/-- All uses are at the given place. -/
def placeInv (w : Where) : EvInv where
  P := fun evs => ∀ n w', Ev.var n w' ∈ evs → w' = w
  nil := by simp
  append := by
    intro a b ha hb n w' he
    rcases List.mem_append.1 he with he | he
    · exact ha n w' he
    · exact hb n w' he

theorem place_of_use {env : FEnv} {w w' : Where} {s n : Str}
    (h : Ev.var n w' ∈ (parseVariables env w s).ev) : w' = w := by
  have ha : Allows (placeInv w) w env :=
    ⟨by intro m _ _ _ _ n w' h; simp at h,
      keeps_get env (by intro f n w' h; simp at h) (by intro m _ _ _ n w' h; simp at h),
      by intro f n w' h; simp at h⟩
  have hc : ∀ n, Keeps (placeInv w) (countVar w n) := by
    intro n
    rw [countVar_eq]
    by_cases hl : legalName n = true
    · intro n' w' h; simp [hl] at h; exact h.2
    · intro n' w' h; simp [hl] at h; exact h.2
  have := Keeps.bind (keeps_items ha hc s) (f := fun l => Tr.pure (join l)) (fun _ => Keeps.pure _)
  exact this n w' h

/-! ### uses -/

/-- Nothing is recorded. -/
def silentInv : EvInv where
  P := fun evs => usedNames evs = []
  nil := rfl
  append := by intro a b ha hb; rw [usedNames_append, ha, hb]; rfl

theorem silent_allows (w : Where) (env : FEnv) : Allows silentInv w env where
  msg := by intro m _ _ _ _; rfl
  get := keeps_get env (fun _ => rfl) (by intro m _ _ _; rfl)
  app := by intro f; rfl

/-- A token as a character, or `none` for a variable. -/
def skel : V → Option Char
  | .str (c :: _) => some c
  | _ => none

theorem skel_chars (s : Str) : (chars s).map skel = s.map some := by
  simp [chars, skel, Function.comp_def]

/-- What the parser makes of a text. -/
theorem skel_iff {t : V} (ht : isTok t = true) (c : Char) : skel t = some c ↔ t = .str [c] := by
  cases t with
  | str s =>
    match s, ht with
    | [d], _ => simp [skel]
    | [], h => simp [isTok] at h
    | _ :: _ :: _, h => simp [isTok] at h
  | _ => simp [skel]

theorem hasTok_skel (v : V) (c : Char) : v.hasTok c = true ↔ some c ∈ v.tokens.map skel := by
  unfold V.hasTok
  simp only [List.any_eq_true, List.mem_map]
  constructor
  · rintro ⟨t, ht, h⟩
    exact ⟨t, ht, (skel_iff (tokens_isTok v t ht) c).2 (by simpa using h)⟩
  · rintro ⟨t, ht, h⟩
    exact ⟨t, ht, by simpa using (skel_iff (tokens_isTok v t ht) c).1 h⟩

/-- A string, a variable, or a list of strings and variables, with at least one variable. -/
def isParsed : V → Bool
  | .str _ => true
  | .atom .. => true
  | .lst l => l.all isPiece && l.any V.isVar
  | _ => false

theorem isParsed_text {v : V} (h : isParsed v = true) : isText v = true := by
  cases v with
  | lst l =>
    simp only [isParsed, Bool.and_eq_true] at h
    simp only [isText, isTexts_iff]
    intro u hu
    exact isPiece_text (List.all_eq_true.1 h.1 u hu)
  | _ => simp_all [isParsed, isText]

theorem compact_strs (l : List V) (hp : ∀ v ∈ l, isPiece v = true) (hc : Compact l)
    (h2 : 2 ≤ l.length) : l.any V.isVar = true := by
  match l, h2 with
  | a :: b :: r, _ =>
    obtain ⟨_, h, _⟩ := hc
    have ha := hp a (by simp)
    have hb := hp b (by simp)
    cases a <;> simp [isPiece] at ha
    · have := h rfl
      cases b <;> simp [isPiece] at hb <;> simp [V.isStr] at this
      simp [V.isVar]
    · simp [V.isVar]

theorem join_parsed (vs : List V) (h : ∀ v ∈ vs, isPiece v = true) : isParsed (join vs) = true := by
  have hp := joinItems_piece vs h
  have hc := joinItems_compact vs
  unfold join
  split
  · rfl
  · rename_i v hv
    have := hp v (by simp [hv])
    cases v <;> simp [isPiece] at this <;> rfl
  · rename_i h1 h2
    simp only [isParsed, Bool.and_eq_true]
    refine ⟨List.all_eq_true.2 hp, compact_strs _ hp hc ?_⟩
    cases h : joinItems vs with
    | nil => exact absurd h h1
    | cons a l =>
      cases l with
      | nil => exact absurd h (h2 a)
      | cons b l => simp

/-- Variables have no characters as tokens only. -/
theorem all_some_iff {v : V} (h : isParsed v = true) :
    (v.tokens.map skel).all Option.isSome = true ↔ v.isVar = false := by
  cases v with
  | str s => simp [V.tokens, skel, V.isVar]
  | atom k n s l => simp [V.tokens, skel, V.isVar]
  | lst l =>
    simp only [isParsed, Bool.and_eq_true] at h
    simp only [V.isVar, Bool.true_eq_false, iff_false, V.tokens]
    obtain ⟨x, hx, hv⟩ := List.any_eq_true.1 h.2
    intro hall
    have hxp := List.all_eq_true.1 h.1 x hx
    cases x <;> simp [isPiece] at hxp <;> simp [V.isVar] at hv
    rename_i k n s e
    have : V.atom k n s e ∈ V.tokensAll l := by
      clear h hall
      induction l with
      | nil => simp at hx
      | cons y l ih =>
        simp only [V.tokensAll, List.mem_append]
        rcases List.mem_cons.1 hx with rfl | hx
        · left; simp [V.tokens]
        · exact .inr (ih hx)
    have := List.all_eq_true.1 hall (skel (V.atom k n s e)) (List.mem_map_of_mem this)
    simp [skel] at this
  | _ => simp [isParsed] at h

/-- The first piece of a split. -/
theorem splitT_head {α : Type} [DecidableEq α] (c : α) (s : List α) :
    (splitT c none s).head? = some (s.takeWhile (· ≠ c)) := by
  induction s with
  | nil => simp [splitT_nil]
  | cons x xs ih =>
    rw [splitT_cons _ _ _ _ (by simp)]
    by_cases h : x = c
    · simp [h]
    · rw [if_neg h]
      cases hs : splitT c none xs with
      | nil => exact absurd hs (splitT_ne _ _ _)
      | cons p ps =>
        rw [hs] at ih
        simp at ih
        simp [h, ih]

theorem joinGroup_parsed (g : List V) (h : ∀ v ∈ g, isPiece v = true) : isParsed (joinGroup g) = true := by
  unfold joinGroup
  split
  · rfl
  · rename_i v
    have := h v (by simp)
    cases v <;> simp [isPiece] at this <;> rfl
  · exact join_parsed _ h

theorem split_parsed (c : Char) (n : Option Nat) (v : V) (h : isMixed v = true) (ps : List V)
    (hs : v.split c n = .ok ps) : ∀ p ∈ ps, isParsed p = true := by
  cases v with
  | str s =>
    simp only [V.split, Except.ok.injEq] at hs
    subst hs
    intro p hp
    obtain ⟨t, _, rfl⟩ := List.mem_map.1 hp
    rfl
  | lst l =>
    simp only [V.split, Except.ok.injEq] at hs
    subst hs
    intro p hp
    obtain ⟨g, hg, rfl⟩ := List.mem_map.1 hp
    exact joinGroup_parsed g (splitGroups_piece c n l (List.all_eq_true.1 h) g hg)
  | _ => simp [isMixed] at h

theorem parsed_mixed {v : V} (h : isParsed v = true) (c : Char) (hc : v.hasTok c = true) :
    isMixed v = true := by
  cases v with
  | str s => rfl
  | lst l =>
    simp only [isParsed, Bool.and_eq_true] at h
    exact h.1
  | atom k n s l => simp [V.hasTok, V.tokens] at hc
  | _ => simp [isParsed] at h

theorem isParsed_str {v : V} (h : isParsed v = true) (hv : v.isVar = false) : ∃ s, v = .str s := by
  cases v <;> simp_all [isParsed, V.isVar]

theorem filterMap_skel_str (s : Str) : ((V.str s).tokens.map skel).filterMap id = s := by
  rw [tokens_str, skel_chars]
  induction s with
  | nil => rfl
  | cons c cs ih => simp

theorem takeWhile_skel (v : V) (c : Char) :
    (v.tokens.takeWhile (· ≠ V.str [c])).map skel = (v.tokens.map skel).takeWhile (· ≠ some c) := by
  have : ∀ l : List V, (∀ t ∈ l, isTok t = true) →
      (l.takeWhile (· ≠ V.str [c])).map skel = (l.map skel).takeWhile (· ≠ some c) := by
    intro l
    induction l with
    | nil => intro _; rfl
    | cons t l ih =>
      intro h
      have := skel_iff (h t (by simp)) c
      by_cases ht : t = .str [c]
      · simp [ht, skel]
      · have hs : skel t ≠ some c := fun e => ht (this.1 e)
        rw [List.map_cons, List.takeWhile_cons_of_pos (by simpa using ht), List.takeWhile_cons_of_pos (by simpa using hs),
          List.map_cons, ih (fun t ht => h t (by simp [ht]))]
  exact this _ (tokens_isTok v)

/-- The use recorded for a name. -/
theorem countUnlessVar_uses (w : Where) (v : V) (h : isParsed v = true) :
    usedNames (countUnlessVar w v).ev =
      if (v.tokens.map skel).all Option.isSome then [(v.tokens.map skel).filterMap id] else [] := by
  unfold countUnlessVar
  cases hv : v.isVar with
  | true =>
    have : ¬ ((v.tokens.map skel).all Option.isSome = true) := by
      rw [all_some_iff h, hv]; simp
    rw [if_neg this]; rfl
  | false =>
    rw [if_pos ((all_some_iff h).2 hv)]
    obtain ⟨s, rfl⟩ := isParsed_str h hv
    rw [filterMap_skel_str]
    simp only [Bool.false_eq_true, if_false, countArg, countVar_eq, usedNames_append]
    split <;> rfl

theorem filterMap_takeWhile_self (k : List (Option Char)) (c : Char) (h : some c ∉ k) :
    k.takeWhile (· ≠ some c) = k := by
  induction k with
  | nil => rfl
  | cons x k ih =>
    simp at h
    rw [List.takeWhile_cons_of_pos (by simp; exact fun e => h.1 e.symm), ih h.2]

/-- The uses recorded for a substitution. -/
theorem processSubst_uses (env : FEnv) (w : Where) (curly : Bool) (data v : V) (h : isParsed data = true)
    (hc : curly = true → data.hasTok '(' = true → ∀ s f, env.funcs s = some f → f.beh ≠ .count)
    (hok : (processSubst env w curly data).val = .ok v) :
    usedNames (processSubst env w curly data).ev =
      if curly then counted (data.tokens.map skel) else [] := by
  cases curly with
  | false => rfl
  | true =>
    simp only [processSubst, if_true] at hok ⊢
    unfold processVariable at hok ⊢
    unfold counted
    by_cases hp : data.hasTok '(' = true
    · rw [if_pos hp, if_pos ((hasTok_skel _ _).1 hp)]
      exact keeps_readFunction (silent_allows w env) (fun ⟨s, f, h1, h2⟩ => absurd h2 (hc rfl hp s f h1)) data
    · rw [if_neg hp] at hok
      rw [if_neg hp, if_neg (fun hh => hp ((hasTok_skel _ _).2 hh))]
      dsimp only
      by_cases hs : data.hasTok ':' = true
      · rw [if_pos hs] at hok
        rw [if_pos hs]
        have hm := parsed_mixed h _ hs
        obtain ⟨ps, hps, htok, htext⟩ := split_tokens ':' none data hm
        have hne : ps ≠ [] := by
          rintro rfl
          exact splitT_ne _ _ _ htok.symm
        unfold processSlice at hok ⊢
        obtain ⟨⟨n, st, ln⟩, hr, hok, hev⟩ := Tr.bind_ok hok
        rw [hev, usedNames_append, show usedNames (splitSlice w data).ev = [] from
          keeps_splitSlice (silent_allows w env) data, List.nil_append]
        obtain ⟨_, _, hok, hev⟩ := Tr.bind_ok hok
        rw [hev, usedNames_append]
        have hhead := (splitSlice_cases w data ps hps hne htext n st ln hr).1
        have hnp : isParsed n = true := by
          cases ps with
          | nil => simp at hhead
          | cons p ps =>
            simp at hhead; subst hhead
            exact split_parsed ':' none data hm _ hps p (by simp)
        have htoks : n.tokens = data.tokens.takeWhile (· ≠ V.str [':']) := by
          have := splitT_head (V.str [':']) data.tokens
          rw [← htok, List.head?_map, hhead] at this
          simpa using this
        have e2 : usedNames (if st = V.none then Tr.pure (V.atom .var n .none .none)
            else if (st.isVar || ln.isVar) = true then Tr.pure (V.atom .dynSlice n st ln)
            else Tr.bind (Tr.lift (sliceInit st ln)) fun _ => Tr.pure (V.atom .slice n st ln)).ev = [] := by
          have : Keeps silentInv (if st = V.none then Tr.pure (V.atom .var n .none .none)
            else if (st.isVar || ln.isVar) = true then Tr.pure (V.atom .dynSlice n st ln)
            else Tr.bind (Tr.lift (sliceInit st ln)) fun _ => Tr.pure (V.atom .slice n st ln)) :=
            .ite (.pure _) (.ite (.pure _) (.bind (.lift _) fun _ => .pure _))
          exact this
        rw [e2, List.append_nil, countUnlessVar_uses w n hnp, htoks, takeWhile_skel]
      · rw [if_neg hs] at hok
        rw [if_neg hs]
        obtain ⟨_, _, hok, hev⟩ := Tr.bind_ok hok
        rw [hev, usedNames_append, countUnlessVar_uses w data h,
          filterMap_takeWhile_self _ _ (fun hh => hs ((hasTok_skel _ _).2 hh))]
        simp [Tr.pure, usedNames]

theorem mkReadFunc_atom {f a s l v : V} (h : mkReadFunc f a s l = .ok v) : isPiece v = true ∧ v.isVar = true := by
  unfold mkReadFunc at h
  split at h
  · simp at h; subst h; exact ⟨rfl, rfl⟩
  · cases hs : sliceInit s l with
    | error e => rw [hs] at h; simp [Except.map] at h
    | ok u => rw [hs] at h; simp [Except.map] at h; subst h; exact ⟨rfl, rfl⟩

theorem processSubst_atom {env : FEnv} {w : Where} {curly : Bool} {data v : V}
    (h : (processSubst env w curly data).val = .ok v) : isPiece v = true ∧ v.isVar = true := by
  unfold processSubst at h
  split at h
  · unfold processVariable at h
    split at h
    · unfold readFunction at h
      dsimp only at h
      split at h
      · simp [Tr.raise] at h
      · obtain ⟨_, _, h, _⟩ := Tr.bind_ok h
        obtain ⟨_, _, h, _⟩ := Tr.bind_ok h
        split at h
        · simp [Tr.raise] at h
        · obtain ⟨_, _, h, _⟩ := Tr.bind_ok h
          obtain ⟨_, _, h, _⟩ := Tr.bind_ok h
          exact mkReadFunc_atom h
        · obtain ⟨_, _, h, _⟩ := Tr.bind_ok h
          exact mkReadFunc_atom h
    · split at h
      · unfold processSlice at h
        obtain ⟨_, _, h, _⟩ := Tr.bind_ok h
        obtain ⟨_, _, h, _⟩ := Tr.bind_ok h
        split at h
        · simp [Tr.pure] at h; subst h; exact ⟨rfl, rfl⟩
        · split at h
          · simp [Tr.pure] at h; subst h; exact ⟨rfl, rfl⟩
          · obtain ⟨_, _, h, _⟩ := Tr.bind_ok h
            simp [Tr.pure] at h; subst h; exact ⟨rfl, rfl⟩
      · obtain ⟨_, _, h, _⟩ := Tr.bind_ok h
        simp [Tr.pure] at h; subst h; exact ⟨rfl, rfl⟩
  · simp [Tr.pure, processExpression] at h; subst h; exact ⟨rfl, rfl⟩

theorem atom_tokens {v : V} (h : isPiece v = true ∧ v.isVar = true) : v.tokens = [v] ∧ skel v = none := by
  cases v <;> simp [isPiece] at h <;> simp [V.isVar] at h
  exact ⟨rfl, rfl⟩

/-- The parser records the uses. -/
theorem items_uses (env : FEnv) (w : Where) (s : Str) :
    ∀ l, (items env w s).val = .ok l →
      (∀ v ∈ l, isPiece v = true) ∧
      ∃ k n, Uses s k n ∧ (V.tokensAll l).map skel = k ∧ n.Sublist (usedNames (items env w s).ev) ∧
        ((∀ s f, env.funcs s = some f → f.beh ≠ .count) → usedNames (items env w s).ev = n) := by
  induction s using parse_induction with
  | plain s hf =>
    intro l hl
    rw [items_none hf] at hl ⊢
    simp [Tr.pure] at hl; subst hl
    refine ⟨by simp [isPiece], s.map some, [], .plain ((findSubst_none s).1 hf), ?_, List.nil_sublist _, fun _ => rfl⟩
    simp [V.tokensAll, tokens_str, skel_chars]
  | opened s pre rest curly hf hb => intro l hl; rw [items_open hf hb] at hl; simp [Tr.raise] at hl
  | subst s pre rest curly inner more tail hf hb ih1 ih2 =>
    intro l hl
    rw [items_subst hf hb] at hl ⊢
    obtain ⟨d, hd, hl, hev⟩ := Tr.bind_ok hl
    rw [hev]; clear hev
    obtain ⟨v, hv, hl, hev⟩ := Tr.bind_ok hl
    rw [hev]; clear hev
    obtain ⟨t, ht, hl, hev⟩ := Tr.bind_ok hl
    rw [hev]; clear hev
    simp only [Tr.pure, Except.ok.injEq] at hl
    subst hl
    have hat := processSubst_atom hv
    obtain ⟨hp2, k2, n2, hu2, hk2, hs2, hn2⟩ := ih2 t ht
    obtain ⟨hpre, rfl⟩ := (findSubst_some ..).1 hf
    have henc := (enclosesAt_zero ..).1 ((bracketsEnd_iff ..).1 ⟨more, hb⟩)
    have hm := bracketsEnd_more curly 0 _ _ _ _ hb
    have inn : isParsed d = true ∧ ∃ k n, Uses inner k n ∧ d.tokens.map skel = k ∧
        n.Sublist (usedNames (innerVal env w more inner).ev) ∧
        ((∀ s f, env.funcs s = some f → f.beh ≠ .count) →
          usedNames (innerVal env w more inner).ev = n) := by
      unfold innerVal at hd ⊢
      cases more with
      | false =>
        simp [Tr.pure] at hd; subst hd
        exact ⟨rfl, inner.map some, [], .plain (fun hh => by have := hm.2 hh; simp at this),
          by rw [tokens_str, skel_chars], List.nil_sublist _, fun _ => rfl⟩
      | true =>
        simp only [if_true] at hd ⊢
        obtain ⟨l', hl', hd, hev⟩ := Tr.bind_ok hd
        simp [Tr.pure] at hd; subst hd
        obtain ⟨hp1, k1, n1, hu1, hk1, hs1, hn1⟩ := ih1 l' hl'
        refine ⟨join_parsed _ hp1, k1, n1, hu1, ?_, ?_, ?_⟩
        · rw [join_tokens _ (fun v hv => isPiece_text (hp1 v hv))]; exact hk1
        · rw [hev]; simpa [Tr.pure] using hs1
        · rw [hev]; simpa [Tr.pure] using hn1
    obtain ⟨hdp, k1, n1, hu1, hk1, hs1, hn1⟩ := inn
    refine ⟨?_, pre.map some ++ none :: k2, n1 ++ (if curly then counted k1 else []) ++ n2, ?_, ?_, ?_, ?_⟩
    · intro x hx
      simp at hx
      rcases hx with rfl | rfl | hx
      · rfl
      · exact hat.1
      · exact hp2 x hx
    · cases curly
      · simpa [brOpen] using Uses.square hpre henc hu1 hu2
      · exact Uses.curly hpre henc hu1 hu2
    · simp only [V.tokensAll, List.map_append, tokens_str, skel_chars, hk2, (atom_tokens hat).1,
        List.map_cons, (atom_tokens hat).2, List.map_nil]
      simp
    · have : (if curly then counted k1 else []).Sublist (usedNames (processSubst env w curly d).ev) := by
        by_cases hx : curly = true ∧ d.hasTok '(' = true
        · have : counted k1 = [] := by
            unfold counted; rw [if_pos]; rw [← hk1]; exact (hasTok_skel _ _).1 hx.2
          rw [this]; simp
        · rw [processSubst_uses env w curly d v hdp (fun h1 h2 => absurd ⟨h1, h2⟩ hx) hv, hk1]
          exact List.Sublist.refl _
      simp only [usedNames_append, List.append_assoc]
      exact hs1.append (this.append (hs2.trans (List.sublist_append_left _ _)))
    · intro hc
      simp only [usedNames_append, hn1 hc, hn2 hc,
        processSubst_uses env w curly d v hdp (fun _ _ => hc) hv, hk1]
      simp [Tr.pure, usedNames]

theorem uses_unique {s : Str} {k1 k2 : List (Option Char)} {n1 n2 : List Str} (h1 : Uses s k1 n1)
    (h2 : Uses s k2 n2) : k1 = k2 ∧ n1 = n2 := by
  induction h1 generalizing k2 n2 with
  | @plain s hn =>
    cases h2 with
    | plain _ => exact ⟨rfl, rfl⟩
    | curly => exact absurd (.inl ⟨_, _, by simp; rfl⟩) hn
    | square => exact absurd (.inr ⟨_, _, by simp; rfl⟩) hn
  | @curly pre s inner tail k1 k1' m1 m1' hp he _ _ ih1 ih2 =>
    have hf : findSubst (pre ++ '$' :: '{' :: s) = _ := (findSubst_some _ pre s true).2 ⟨hp, rfl⟩
    generalize hx : pre ++ '$' :: '{' :: s = x at h2 hf
    cases h2 with
    | plain hn => rw [(findSubst_none _).2 hn] at hf; simp at hf
    | @curly pre' s' inner' tail' j1 j2 l1 l2 hp' he' u1 u2 =>
      have : findSubst (pre' ++ '$' :: '{' :: s') = _ := (findSubst_some _ pre' s' true).2 ⟨hp', rfl⟩
      rw [this] at hf
      simp at hf
      obtain ⟨rfl, rfl⟩ := hf
      obtain ⟨rfl, rfl⟩ := encloses_unique true (s := s') he he'
      obtain ⟨rfl, rfl⟩ := ih1 u1
      obtain ⟨rfl, rfl⟩ := ih2 u2
      exact ⟨rfl, rfl⟩
    | @square pre' s' inner' tail' j1 j2 l1 l2 hp' he' u1 u2 =>
      have : findSubst (pre' ++ '$' :: '[' :: s') = _ := (findSubst_some _ pre' s' false).2 ⟨hp', rfl⟩
      rw [this] at hf
      simp at hf
  | @square pre s inner tail k1 k1' m1 m1' hp he _ _ ih1 ih2 =>
    have hf : findSubst (pre ++ '$' :: '[' :: s) = _ := (findSubst_some _ pre s false).2 ⟨hp, rfl⟩
    generalize hx : pre ++ '$' :: '[' :: s = x at h2 hf
    cases h2 with
    | plain hn => rw [(findSubst_none _).2 hn] at hf; simp at hf
    | @curly pre' s' inner' tail' j1 j2 l1 l2 hp' he' u1 u2 =>
      have : findSubst (pre' ++ '$' :: '{' :: s') = _ := (findSubst_some _ pre' s' true).2 ⟨hp', rfl⟩
      rw [this] at hf
      simp at hf
    | @square pre' s' inner' tail' j1 j2 l1 l2 hp' he' u1 u2 =>
      have : findSubst (pre' ++ '$' :: '[' :: s') = _ := (findSubst_some _ pre' s' false).2 ⟨hp', rfl⟩
      rw [this] at hf
      simp at hf
      obtain ⟨rfl, rfl⟩ := hf
      obtain ⟨rfl, rfl⟩ := encloses_unique false (s := s') he he'
      obtain ⟨rfl, rfl⟩ := ih1 u1
      obtain ⟨rfl, rfl⟩ := ih2 u2
      exact ⟨rfl, rfl⟩

theorem uses_of_closed {s : Str} (h : Closed s) : ∃ k n, Uses s k n := by
  induction h with
  | plain h => exact ⟨_, _, .plain h⟩
  | curly h1 h2 _ _ ih1 ih2 =>
    obtain ⟨k1, n1, u1⟩ := ih1
    obtain ⟨k2, n2, u2⟩ := ih2
    exact ⟨_, _, .curly h1 h2 u1 u2⟩
  | square h1 h2 _ _ ih1 ih2 =>
    obtain ⟨k1, n1, u1⟩ := ih1
    obtain ⟨k2, n2, u2⟩ := ih2
    exact ⟨_, _, .square h1 h2 u1 u2⟩

end ALint
