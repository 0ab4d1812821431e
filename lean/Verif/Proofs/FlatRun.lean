import Verif.Proofs.Flat
import Verif.Proofs.Res

/-!
# Messages about application data have no line feeds in their texts
-/

namespace ALint

/-- The values whose own text is shown (not their `repr`). -/
def rawNames (k : MK) : List Str := k.template.filterMap fun p => match p with
  | .field n false => some n
  | _ => none

/-- The values with these names have no line feed. -/
def FlatArgs (ns : List Str) (args : List (Str × Arg)) : Prop := ∀ p ∈ args, p.1 ∈ ns → p.2.Flat

/-- The values shown in a message have no line feed. -/
def FlatMsg (m : Msg) : Prop := FlatArgs (rawNames m.kind) m.args

namespace FlatArgs
theorem nil {ns : List Str} : FlatArgs ns [] := by simp [FlatArgs]
theorem skip {ns : List Str} {n : Str} {a : Arg} {args : List (Str × Arg)} (hn : ns.contains n = false) (h : FlatArgs ns args) :
    FlatArgs ns ((n, a) :: args) := by
  intro p hp hm
  rcases List.mem_cons.1 hp with rfl | hp
  · rw [← List.contains_iff_mem, hn] at hm; cases hm
  · exact h p hp hm
theorem take {ns : List Str} {n : Str} {a : Arg} {args : List (Str × Arg)} (ha : a.Flat) (h : FlatArgs ns args) :
    FlatArgs ns ((n, a) :: args) := by
  intro p hp hm
  rcases List.mem_cons.1 hp with rfl | hp
  · exact ha
  · exact h p hp hm
theorem none {args : List (Str × Arg)} : FlatArgs [] args := by simp [FlatArgs]
end FlatArgs

/-- For a class that shows no text of a value. -/
theorem flatMsg_none {m : Msg} (h : rawNames m.kind = []) : FlatMsg m := by
  unfold FlatMsg; rw [h]; exact .none

/-- All messages are without line feeds, and the result has the property. -/
structure TrFlat {α : Type} (Q : α → Prop) (x : Tr α) : Prop where
  msgs : ∀ m, .msg m ∈ x.ev → FlatMsg m
  val : ∀ a, x.val = .ok a → Q a

namespace TrFlat
variable {α β : Type} {Q : α → Prop} {R : β → Prop}

theorem pure {a : α} (h : Q a) : TrFlat Q (Tr.pure a) := ⟨by simp [Tr.pure], by rintro b ⟨⟩; exact h⟩
theorem raise (e : Exc) : TrFlat Q (Tr.raise e : Tr α) := ⟨by simp [Tr.raise], by intro a h; cases h⟩
theorem lift {x : Except Exc α} (h : ∀ a, x = .ok a → Q a) : TrFlat Q (Tr.lift x) := ⟨by simp [Tr.lift], h⟩
theorem note {e : Ev} (h : ∀ m, e ≠ .msg m) : TrFlat (fun _ => True) (Tr.note e) :=
  ⟨fun m hm => absurd (List.mem_singleton.1 hm).symm (h m), fun _ _ => trivial⟩
theorem emit {m : Msg} (h : FlatMsg m) : TrFlat (fun _ => True) (Tr.emit m) := by
  refine ⟨fun m' hm => ?_, fun _ _ => trivial⟩
  have := List.mem_singleton.1 hm
  cases this
  exact h
theorem bind {x : Tr α} {f : α → Tr β} (hx : TrFlat Q x) (hf : ∀ a, Q a → TrFlat R (f a)) : TrFlat R (Tr.bind x f) := by
  unfold Tr.bind
  cases h : x.val with
  | error e => exact ⟨hx.msgs, by intro a h; cases h⟩
  | ok a =>
    have hfa := hf a (hx.val a h)
    refine ⟨fun m hm => ?_, hfa.val⟩
    rcases List.mem_append.1 hm with hm | hm
    · exact hx.msgs m hm
    · exact hfa.msgs m hm
theorem ite {c : Prop} [Decidable c] {x y : Tr α} (hx : TrFlat Q x) (hy : TrFlat Q y) : TrFlat Q (if c then x else y) := by
  split <;> assumption
theorem mono {Q' : α → Prop} {x : Tr α} (h : TrFlat Q x) (hq : ∀ a, Q a → Q' a) : TrFlat Q' x :=
  ⟨h.msgs, fun a ha => hq a (h.val a ha)⟩
theorem any {x : Tr α} (h : TrFlat Q x) : TrFlat (fun _ => True) x := h.mono fun _ _ => trivial
theorem mapM {f : α → Tr β} {l : List α} (h : ∀ a ∈ l, TrFlat R (f a)) : TrFlat (fun bs => ∀ b ∈ bs, R b) (Tr.mapM f l) := by
  induction l with
  | nil => exact pure (by simp)
  | cons a as ih =>
    refine bind (h a (by simp)) fun b hb => bind (ih fun a' h' => h a' (by simp [h'])) fun bs hbs => pure ?_
    intro x hx
    rcases List.mem_cons.1 hx with rfl | hx
    · exact hb
    · exact hbs x hx
theorem catchParse {x h : Tr α} (hx : TrFlat Q x) (hh : TrFlat Q h) : TrFlat Q (x.catchParse h) := by
  unfold Tr.catchParse
  split
  · refine ⟨fun m hm => ?_, hh.val⟩
    rcases List.mem_append.1 hm with hm | hm
    · exact hx.msgs m hm
    · exact hh.msgs m hm
  · exact hx
end TrFlat

/-- Nothing is asked of the result. -/
abbrev Any {α : Type} : α → Prop := fun _ => True

/-- A message that shows no text of a value. -/
macro "plainMsgs" : tactic => `(tactic| exact TrFlat.emit (flatMsg_none rfl))

variable {w : Where}

/-! ## Functions and variables -/

theorem flat_getFunc (env : FEnv) (w : Where) (f : Str) : TrFlat Any (getFunc env w f) := by
  unfold getFunc
  dsimp only
  split
  · exact .raise _
  · exact .bind (.note (by simp)) fun _ _ => .ite (.ite (.bind (by plainMsgs) fun _ _ => .pure trivial)
      (.bind (by plainMsgs) fun _ _ => .pure trivial)) (.pure trivial)

theorem flat_countVar {name : Str} (h : Flat name) : TrFlat Any (countVar w name) := by
  unfold countVar
  refine .bind (.ite (.pure trivial) (.emit (.take (.str h) .nil))) fun _ _ => .note (by simp)

theorem flat_countArg {a : Arg} (h : a.Flat) : TrFlat Any (countArg w a) := by
  unfold countArg
  split
  · exact flat_countVar (V.Flat.of_str h)
  · exact .raise _

theorem flat_funcBalance (a : Arg) : TrFlat Any (funcBalance w a) := by
  unfold funcBalance
  exact .ite (.pure trivial) (.bind (.lift (Q := Any) fun _ _ => trivial) fun _ _ => by plainMsgs)

/-- Calling a function. -/
def CallFlat (call : FuncInfo → Arg → Tr Unit) : Prop := ∀ f a, a.Flat → TrFlat Any (call f a)

theorem flat_writeFunction {env : FEnv} {call : FuncInfo → Arg → Tr Unit} (hc : CallFlat call) {dest : V} (h : dest.Flat) :
    TrFlat Any (writeFunction env w call dest) := by
  unfold writeFunction
  refine .ite (.bind (.lift fun ps hs => flat_split h hs) fun ps hp => ?_) (.raise _)
  split
  · rename_i func args
    split
    · exact .raise _
    · refine .ite ?_ (.raise _)
      dsimp only
      split
      · exact .bind (flat_getFunc _ _ _) fun fi _ => hc _ _ (flat_getSlice hp.tail.head _ _)
      · exact .raise _
  · exact .raise _

theorem flat_parseAssignment {env : FEnv} {call : FuncInfo → Arg → Tr Unit} (hc : CallFlat call) {data : Arg} (h : data.Flat) :
    TrFlat Any (parseAssignment env w call data) := by
  unfold parseAssignment
  refine .ite (by plainMsgs) ?_
  split
  · exact .raise _
  · rename_i v
    refine .bind (.lift fun ps hs => flat_split (v := v) h hs) fun ps hp => ?_
    split
    · refine .bind (.ite (.emit (.take hp.head .nil)) (.pure trivial)) fun _ _ =>
        .ite (flat_writeFunction hc hp.head) (.pure trivial)
    · exact .emit (.take h .nil)

theorem flat_callFunc (env : FEnv) (w : Where) (n : Nat) : CallFlat (callFunc env w n) := by
  induction n with
  | zero => intro f a _; exact .raise _
  | succ n ih =>
    intro f a h
    rw [callFunc]
    split
    · exact flat_funcBalance _
    · exact .bind (flat_parseAssignment ih h) fun _ _ => flat_funcBalance _
    · refine .bind (.ite (.emit ?_) (.pure trivial)) fun _ _ => flat_funcBalance _
      exact .skip rfl (.take h .nil)
    · exact .bind (flat_funcBalance _) fun _ _ => flat_countArg h

theorem flat_callFuncTop (env : FEnv) (w : Where) : CallFlat (callFuncTop env w) :=
  fun f a h => flat_callFunc env w _ f a h

/-- Two values. -/
def TwoFlat (p : V × V) : Prop := p.1.Flat ∧ p.2.Flat

theorem flat_sliceParts {ps : List V} (h : AllFlat ps) :
    (sliceParts ps).1.Flat ∧ (sliceParts ps).2.1.Flat ∧ (sliceParts ps).2.2.1.Flat := by
  unfold sliceParts
  split
  · exact ⟨h.head, h.tail.head, .none⟩
  · exact ⟨h.head, h.tail.head, h.tail.tail.head⟩
  · exact ⟨h.head, .none, .none⟩
  · exact ⟨.str .nil, .none, .none⟩

theorem flat_sliceStart {s l : V} (hs : s.Flat) (hl : l.Flat) : TrFlat TwoFlat (sliceStart w s l) := by
  unfold sliceStart
  split
  · exact .ite (.bind (.lift (Q := Any) fun _ _ => trivial) fun _ _ => .pure ⟨.int, hl⟩)
      (.bind (.emit (.take V.Flat.none .nil)) fun _ _ => .pure ⟨.none, .none⟩)
  · exact .pure ⟨hs, hl⟩

theorem flat_sliceLength {s l : V} (hs : s.Flat) (hl : l.Flat) : TrFlat TwoFlat (sliceLength w s l) := by
  unfold sliceLength
  split
  · refine .ite (.bind (.lift (Q := Any) fun _ _ => trivial) fun _ _ => .bind (.lift (Q := Any) fun _ _ => trivial) fun _ _ =>
      .ite (.bind (.emit (.take V.Flat.none .nil)) fun _ _ => .pure ⟨hs, .none⟩) (.pure ⟨hs, .int⟩))
      (.bind (.emit (.take hl .nil)) fun _ _ => .pure ⟨.none, .none⟩)
  · exact .pure ⟨hs, hl⟩

theorem flat_sliceZero {s l : V} (hs : s.Flat) (hl : l.Flat) : TrFlat TwoFlat (sliceZero w s l) := by
  unfold sliceZero
  exact .ite (.bind (.emit (.take V.Flat.none .nil)) fun _ _ => .pure ⟨.none, hl⟩) (.pure ⟨hs, hl⟩)

theorem flat_splitSlice {data : V} (h : data.Flat) :
    TrFlat (fun r : V × V × V => r.1.Flat ∧ TwoFlat r.2) (splitSlice w data) := by
  unfold splitSlice
  refine .bind (.lift fun ps hs => flat_split h hs) fun ps hp => ?_
  obtain ⟨h1, h2, h3⟩ := flat_sliceParts hp
  exact .bind (.ite (.pure trivial) (.emit (.take h .nil))) fun _ _ => .bind (flat_sliceStart h2 h3) fun _ a =>
    .bind (flat_sliceLength a.1 a.2) fun _ b => .bind (flat_sliceZero b.1 b.2) fun _ c => .pure ⟨h1, c⟩

theorem flat_mkReadFunc {f a s l v : V} (hf : f.Flat) (ha : a.Flat) (hs : s.Flat) (hl : l.Flat)
    (h : mkReadFunc f a s l = .ok v) : v.Flat := by
  have hn : (funcName f a).Flat := by
    refine flat_join (.cons hf (.cons (.str ?_) (.cons ha (.cons (.str ?_) .nil)))) <;> (unfold Flat; decide)
  unfold mkReadFunc at h
  split at h
  · cases h; exact .atom hn .none .none
  · cases hi : sliceInit s l with
    | error e => simp [hi, Except.map] at h
    | ok u =>
      simp only [hi, Except.map, Except.ok.injEq] at h
      subst h
      exact .atom hn hs hl

theorem flat_funcTail {data tail : V} (h : data.Flat) (ht : tail.Flat) : TrFlat TwoFlat (funcTail w data tail) := by
  unfold funcTail
  refine .ite (.bind (flat_splitSlice ht) fun r hr => .ite (.bind (.emit (.take h .nil)) fun _ _ => .pure ⟨.none, .none⟩)
    (.pure hr.2)) (.pure ⟨.none, .none⟩)

theorem flat_funcArgs {data : V} (h : data.Flat) (i : Nat) : TrFlat TwoFlat (funcArgs w data i) := by
  unfold funcArgs
  dsimp only
  split
  · exact .pure ⟨flat_join (flat_getSlice h _ _).iter, flat_join (flat_getSlice h _ _).iter⟩
  · exact .bind (.emit (.take h .nil)) fun _ _ => .pure ⟨flat_join (flat_getSlice h _ _).iter, .str .nil⟩

theorem flat_readFunction {env : FEnv} {data : V} (h : data.Flat) : TrFlat V.Flat (readFunction env w data) := by
  unfold readFunction
  dsimp only
  refine .ite (.raise _) (.bind (flat_funcArgs h _) fun at_ ha => .bind (flat_funcTail h ha.2) fun sl hs => ?_)
  have hf := flat_getSlice h 0 (firstParen data.tokens)
  split
  · exact .raise _
  · rename_i f hq
    rw [hq] at hf
    exact .bind (flat_getFunc _ _ _) fun fi _ => .bind (flat_callFuncTop _ _ _ _ ha.1) fun _ _ =>
      .lift fun v hv => flat_mkReadFunc hf ha.1 hs.1 hs.2 hv
  · rename_i v hv hq
    rw [hq] at hf
    exact .bind (.emit (.skip rfl .nil)) fun _ _ => .lift fun v hv => flat_mkReadFunc hf ha.1 hs.1 hs.2 hv

theorem flat_countUnlessVar {v : V} (h : v.Flat) : TrFlat Any (countUnlessVar w v) := by
  unfold countUnlessVar
  exact .ite (.pure trivial) (flat_countArg h)

theorem flat_processSlice {data : V} (h : data.Flat) : TrFlat V.Flat (processSlice w data) := by
  unfold processSlice
  exact .bind (flat_splitSlice h) fun r hr => .bind (flat_countUnlessVar hr.1) fun _ _ =>
    .ite (.pure (.atom hr.1 .none .none)) (.ite (.pure (.atom hr.1 hr.2.1 hr.2.2))
      (.bind (.lift (Q := Any) fun _ _ => trivial) fun _ _ => .pure (.atom hr.1 hr.2.1 hr.2.2)))

theorem flat_processVariable {env : FEnv} {data : V} (h : data.Flat) : TrFlat V.Flat (processVariable env w data) := by
  unfold processVariable
  exact .ite (flat_readFunction h) (.ite (flat_processSlice h)
    (.bind (flat_countUnlessVar h) fun _ _ => .pure (.atom h .none .none)))

theorem flat_processSubst {env : FEnv} {curly : Bool} {data : V} (h : data.Flat) :
    TrFlat V.Flat (processSubst env w curly data) := by
  unfold processSubst
  exact .ite (flat_processVariable h) (.pure (.atom h .none .none))

theorem flat_parseItems {env : FEnv} {fuel : Nat} {data : Str} (h : Flat data) : TrFlat AllFlat (parseItems env w fuel data) := by
  induction fuel generalizing data with
  | zero => exact .raise _
  | succ n ih =>
    rw [parseItems]
    split
    · exact .pure (.cons (.str h) .nil)
    · rename_i pre curly rest hf
      obtain ⟨h1, h2⟩ := flat_findSubst h hf
      split
      · exact .raise _
      · rename_i inner more tail hb
        obtain ⟨h3, h4⟩ := flat_bracketsEnd h2 hb
        exact .bind (Q := V.Flat) (.ite (.bind (ih h3) fun l hl => .pure (flat_join hl)) (.pure (.str h3))) fun d hd =>
          .bind (flat_processSubst hd) fun v hv => .bind (ih h4) fun l hl => .pure (.cons (.str h1) (.cons hv hl))

theorem flat_parseVariables {env : FEnv} {data : Str} (h : Flat data) : TrFlat V.Flat (parseVariables env w data) := by
  unfold parseVariables
  exact .bind (flat_parseItems h) fun l hl => .pure (flat_join hl)

/-! ## Applications -/

theorem flat_minMax (name : Str) (mn mx : Option Nat) (args : List V) : TrFlat Any (minMaxCheck w name mn mx args) := by
  unfold minMaxCheck
  refine .ite (.emit (.skip rfl (.take V.Flat.int .nil))) (.ite (.emit (.skip rfl (.take V.Flat.int .nil))) (.pure trivial))

theorem flat_pipeCheck (name : Str) (data : V) (args : List V) : TrFlat Any (pipeCheck w name data args) := by
  unfold pipeCheck
  split
  · exact .ite (by plainMsgs) (.pure trivial)
  · exact .pure trivial

theorem flat_validateArg (name : Str) (n : Nat) (b : ArgBeh) (a : V) : TrFlat Any (validateArg w name n b a) := by
  unfold validateArg
  split
  · exact .pure trivial
  · exact .bind (.ite (.pure trivial) (.emit (.take V.Flat.int (.skip rfl (.skip rfl .nil))))) fun _ _ =>
      .ite (.emit (.take V.Flat.int (.skip rfl (.skip rfl .nil)))) (.pure trivial)
  · exact .ite (.pure trivial) (.emit (.take V.Flat.int (.skip rfl (.skip rfl .nil))))

theorem flat_validateArgs (name : Str) (n : Nat) (bs : List ArgBeh) (as : List V) : TrFlat Any (validateArgs w name n bs as) := by
  induction bs generalizing n as with
  | nil => rw [validateArgs.eq_def]; exact .pure trivial
  | cons b bs ih =>
    cases as with
    | nil => rw [validateArgs.eq_def]; exact .pure trivial
    | cons a as =>
      rw [validateArgs.eq_def]
      exact .bind (flat_validateArg _ _ _ _) fun _ _ => ih _ _

theorem flat_callArgs {name : Str} {mn : Option Nat} {bs : List ArgBeh} {data : V} : TrFlat Any (callArgs w name mn bs data) := by
  unfold callArgs
  exact .bind (flat_minMax _ _ _ _) fun _ _ => .bind (flat_validateArgs _ _ _ _) fun _ _ =>
    .bind (flat_pipeCheck _ _ _) fun _ _ => .pure trivial

theorem flat_jumpArgs {name : Str} {data : V} (h : data.Flat) : TrFlat AllFlat (jumpArgs w name data) := by
  unfold jumpArgs
  exact .bind (flat_minMax _ _ _ _) fun _ _ => .bind (flat_pipeCheck _ _ _) fun _ _ => .pure (flat_separateArgs h)

/-- Condition and actions. -/
def CondFlat (p : V × Arg × V) : Prop := p.1.Flat ∧ p.2.1.Flat ∧ p.2.2.Flat

theorem flat_ifActions {l : List V} (h : AllFlat l) : (ifActions l).1.Flat ∧ (ifActions l).2.Flat := by
  unfold ifActions
  split
  · exact ⟨V.Flat.none, .none⟩
  · exact ⟨h.head, .none⟩
  · exact ⟨h.head, h.tail.head⟩

theorem flat_ifParts {name : Str} {data : V} (h : data.Flat) : TrFlat CondFlat (ifParts w name data) := by
  unfold ifParts
  have hq := flat_separateArgs (d := '?') (remove := true) (data := .one data) h
  split
  · rename_i cond second more hs
    rw [hs] at hq
    refine .bind (.ite (.pure trivial) (.emit ?_)) fun _ _ =>
      .pure ⟨hq.head, flat_ifActions (flat_separateArgs hq.tail.head)⟩
    exact .skip rfl (.take h (.take V.Flat.int .nil))
  · have hc := flat_separateArgs (d := ',') (remove := false) (data := .one data) h
    split
    · exact .raise _
    · rename_i cond rest hs
      rw [hs] at hc
      refine .bind (.emit ?_) fun _ _ => .pure ⟨hc.head, hc.tail, .none⟩
      split
      · exact .skip rfl (.take h (.take V.Flat.int .nil))
      · exact .skip rfl (.take h (.take hc.head (.take hc.tail .nil)))

theorem flat_ifSplit {name : Str} {data : V} (h : data.Flat) : TrFlat CondFlat (ifSplit w name data) := by
  unfold ifSplit
  refine .bind (flat_ifParts h) fun p hp => .bind (.lift fun c hc => flat_strip hp.1 hc) fun cond hc =>
    .bind (.ite (.emit ?_) (.pure trivial)) fun _ _ => .pure ⟨hc, hp.2⟩
  exact .skip rfl (.take h .nil)

theorem flat_condSplit {name : Str} {data : V} (h : data.Flat) : TrFlat CondFlat (condSplit w name data) := by
  unfold condSplit
  refine .bind (flat_ifSplit h) fun p hp => .bind (.ite (.emit ?_) (.pure trivial)) fun _ _ => .pure hp
  exact .skip rfl (.take h (.take hp.1 .nil))

/-- A destination without line feeds. -/
structure Jump.Flat (j : Jump) : Prop where
  context : j.context.Flat
  exten : j.exten.Flat
  prio : j.prio.Flat

theorem flat_padJump {l : List V} {j : Jump} (h : AllFlat l) (hj : padJump l = .ok j) : j.Flat := by
  unfold padJump at hj
  split at hj <;> cases hj
  · exact ⟨.none, .none, V.Flat.none⟩
  · exact ⟨.none, .none, h.head⟩
  · exact ⟨.none, h.head, h.tail.head⟩
  · exact ⟨h.head, h.tail.head, h.tail.tail.head⟩

theorem flat_gosubPrio {p : V} (h : p.Flat) : TrFlat Arg.Flat (gosubPrio w p) := by
  unfold gosubPrio
  exact .ite (.bind (.ite (.pure trivial) (by plainMsgs)) fun _ _ => .pure (flat_getSlice h _ _)) (.pure h)

theorem flat_joinExcess {p : V} {more : List V} (hp : p.Flat) (h : AllFlat more) : (joinExcess p more).Flat := by
  refine flat_join (.cons hp ?_)
  intro v hv
  obtain ⟨i, hi, hv⟩ := List.mem_flatMap.1 hv
  simp only [List.mem_cons, List.not_mem_nil, or_false] at hv
  rcases hv with rfl | rfl
  · exact .str (by unfold Flat; decide)
  · exact h _ hi

theorem flat_gosubDest {name : Str} {warn : Bool} {args : List V} (h : AllFlat args) :
    TrFlat Jump.Flat (gosubDest w name warn args) := by
  unfold gosubDest
  split
  · exact .raise _
  · exact .bind (flat_gosubPrio h.head) fun p hp => .pure ⟨.none, .none, hp⟩
  · exact .bind (flat_gosubPrio h.tail.head) fun p hp => .pure ⟨.none, h.head, hp⟩
  · exact .bind (flat_gosubPrio h.tail.tail.head) fun p hp => .pure ⟨h.head, h.tail.head, hp⟩
  · refine .bind (.ite (.emit (.skip rfl (.take V.Flat.int .nil))) (.pure trivial)) fun _ _ =>
      .bind (flat_gosubPrio (flat_joinExcess h.tail.tail.head h.tail.tail.tail)) fun p hp => .pure ⟨h.head, h.tail.head, hp⟩

theorem flat_actions {p : V × Arg × V} (h : CondFlat p) : ∀ a ∈ actions p.2, a.Flat := by
  intro a ha
  unfold actions at ha
  have := (List.mem_filter.1 ha).1
  simp only [List.mem_cons, List.not_mem_nil, or_false] at this
  rcases this with rfl | rfl
  · exact h.2.1
  · exact h.2.2

theorem flat_appBalance (data : V) : TrFlat Any (appBalance w data) := by
  unfold appBalance
  exact .ite (.pure trivial) (.bind (.lift (Q := Any) fun _ _ => trivial) fun _ _ => by plainMsgs)

theorem flat_execAll {inner : Option Str → Arg → Tr (Option Str)} (hi : ∀ sp a, a.Flat → TrFlat Any (inner sp a))
    {l : List Arg} (h : ∀ a ∈ l, a.Flat) (sp : Option Str) : TrFlat Any (execAll inner sp l) := by
  induction l generalizing sp with
  | nil => exact .pure trivial
  | cons a as ih => exact .bind (hi sp a (h a (by simp))) fun sp _ => ih (fun b hb => h b (by simp [hb])) sp

/-- The destinations of an application. -/
def JumpsFlat (r : Option Str × List Jump) : Prop := ∀ j ∈ r.2, j.Flat

theorem flat_callApp {env : FEnv} {inner : Option Str → Arg → Tr (Option Str)}
    (hi : ∀ sp a, a.Flat → TrFlat Any (inner sp a)) {sp : Option Str} {app : AppInfo} {data : V} (h : data.Flat) :
    TrFlat JumpsFlat (callApp env inner sp w app data) := by
  have none_ : ∀ sp : Option Str, JumpsFlat (sp, []) := fun sp j hj => by cases hj
  have one_ : ∀ (sp : Option Str) {j : Jump}, j.Flat → JumpsFlat (sp, [j]) := by
    intro sp j hj x hx; rw [List.mem_singleton.1 hx]; exact hj
  unfold callApp
  split
  · exact .bind (flat_appBalance _) fun _ _ => .pure (none_ _)
  · exact .bind (flat_appBalance _) fun _ _ => .pure (none_ _)
  · exact .bind (flat_parseAssignment (flat_callFuncTop _ _) h) fun _ _ => .bind (flat_appBalance _) fun _ _ => .pure (none_ _)
  · exact .bind flat_callArgs fun _ _ => .pure (none_ _)
  · exact .bind (flat_jumpArgs h) fun args ha => .bind (.lift fun j hj => flat_padJump ha hj) fun j hj => .pure (one_ _ hj)
  · exact .bind (flat_condSplit h) fun p hp => .bind (.mapM fun a ha => .lift fun j hj =>
      flat_padJump (flat_separateArgs (flat_actions hp a ha)) hj) fun js hjs => .pure hjs
  · exact .bind (flat_ifSplit h) fun _ _ => .pure (none_ _)
  · exact .bind (flat_jumpArgs h) fun args ha => .bind (flat_gosubDest ha) fun j hj => .pure (one_ _ hj)
  · exact .bind (flat_condSplit h) fun p hp => .bind (.mapM fun a ha =>
      flat_gosubDest (flat_separateArgs (flat_actions hp a ha))) fun js hjs => .pure hjs
  · exact .bind (flat_condSplit h) fun p hp => .bind (flat_execAll hi (flat_actions hp) _) fun _ _ => .pure (none_ _)

/-- Application and data. -/
def AppDataFlat (r : Option (Str × Str)) : Prop := ∀ p, r = some p → Flat p.1 ∧ Flat p.2

theorem flat_stripParens {s : Str} (h : Flat s) : Flat (stripParens s) := by
  unfold stripParens
  split
  · exact (h.drop 1).dropLast
  · exact h

theorem flat_splitAppEnd {app : V} {data : Str} (ha : app.Flat) (hd : Flat data) :
    TrFlat AppDataFlat (splitAppEnd w app data) := by
  have none_ : AppDataFlat none := by intro p hp; cases hp
  unfold splitAppEnd
  split
  · refine .ite (.bind (by plainMsgs) fun _ _ => .pure none_) (.bind (.ite (by plainMsgs) (.pure trivial)) fun _ _ =>
      .ite (.bind (by plainMsgs) fun _ _ => .pure none_) (.pure ?_))
    rintro p ⟨⟩
    exact ⟨ha.of_str.lstrip _, flat_stripParens hd⟩
  · exact .raise _

theorem flat_splitAppData {env : FEnv} {raw : Arg} (h : raw.Flat) : TrFlat AppDataFlat (splitAppData env w raw) := by
  unfold splitAppData
  split
  · exact .raise _
  · refine .bind (.lift fun ps hs => flat_split (v := _) h hs) fun ps hp => ?_
    split
    · exact .bind (.lift fun s hs => hp.tail.head.toStr hs) fun s hs => flat_splitAppEnd hp.head (.cons (by decide) hs)
    · unfold splitAppBare
      split
      · exact .bind (.ite (by plainMsgs) (.pure trivial)) fun _ _ => flat_splitAppEnd h (by unfold Flat; decide)
      · exact .raise _

theorem flat_parseInner {env : FEnv} {app data : Str} (h : Flat data) : TrFlat V.Flat (parseInner env w app data) := by
  unfold parseInner
  exact .ite (.catchParse (flat_parseVariables h) (.bind (by plainMsgs) fun _ _ => .pure (.str h))) (.pure (.str h))

theorem flat_getApp {env : AEnv} {sp : Option Str} {app : Str} : TrFlat Any (getApp env sp w app) := by
  unfold getApp
  split
  · exact .raise _
  · refine .bind (.note (by simp)) fun _ _ => .bind (Q := Any) ?_ fun _ _ => .pure trivial
    unfold checkAvailability
    exact .ite (.pure trivial) (.ite (by plainMsgs) (by plainMsgs))

theorem flat_runApp {env : AEnv} (depth : Nat) {sp : Option Str} {raw : Arg} (h : raw.Flat) :
    TrFlat JumpsFlat (runApp env depth sp w raw) := by
  induction depth generalizing sp raw with
  | zero => exact .raise _
  | succ n ih =>
    rw [runApp]
    refine .bind (flat_splitAppData h) fun r hr => ?_
    split
    · exact .pure fun j hj => by cases hj
    · rename_i app data
      exact .bind flat_getApp fun a _ => .bind (flat_parseInner (hr _ rfl).2) fun d hd =>
        flat_callApp (fun sp a ha => .bind (ih ha) fun _ _ => .pure trivial) hd

end ALint
