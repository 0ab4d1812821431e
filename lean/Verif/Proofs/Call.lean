import Verif.Proofs.Parse

namespace ALint
open ALint.Spec

/-! ### sizes -/

theorem sizeAll_append (a b : List V) : V.sizeAll (a ++ b) = V.sizeAll a + V.sizeAll b := by
  induction a with
  | nil => simp [V.sizeAll]
  | cons v vs ih => simp [V.sizeAll, ih]; omega

theorem sizeAll_chars (s : Str) : V.sizeAll (s.map fun c => V.str [c]) = s.length := by
  induction s with
  | nil => rfl
  | cons c cs ih => simp [V.sizeAll, ih, V.size]; omega

mutual
theorem size_tokens : (v : V) → V.sizeAll v.tokens = v.size
  | .str s => by rw [V.tokens, sizeAll_chars, V.size]
  | .lst items => by rw [V.tokens, V.size, sizeAll_tokens items]
  | .atom k n s l => by simp [V.tokens, V.sizeAll]
  | .int _ => by simp [V.tokens, V.sizeAll, V.size]
  | .none => by simp [V.tokens, V.sizeAll, V.size]
theorem sizeAll_tokens : (vs : List V) → V.sizeAll (V.tokensAll vs) = V.sizeAll vs
  | [] => rfl
  | v :: vs => by rw [V.tokensAll, sizeAll_append, size_tokens v, sizeAll_tokens vs, V.sizeAll]
end

theorem strjoin_size (vs : List V) : V.sizeAll (strjoin vs) = V.sizeAll vs := by
  rw [← sizeAll_tokens, strjoin_tokens, sizeAll_tokens]

theorem getSlice_size (v : V) (i j : Nat) :
    (v.getSlice i j).size = V.sizeAll ((v.tokens.drop i).take (j - i)) := by
  have key : ∀ u : V, Arg.size (match strjoin ((u.tokens.drop i).take (j - i)) with
        | [x] => .one x
        | l => .many l) = V.sizeAll ((u.tokens.drop i).take (j - i)) := by
    intro u
    rw [← strjoin_size ((u.tokens.drop i).take (j - i))]
    split
    · rename_i x hx; simp [hx, Arg.size, V.sizeAll]
    · simp [Arg.size]
  cases v with
  | str s =>
    simp only [V.getSlice, Arg.size, V.size, V.tokens]
    rw [← List.map_drop, ← List.map_take, sizeAll_chars]
  | lst l => exact key _
  | atom k n s l => exact key _
  | int n => exact key _
  | none => exact key _

theorem joinItems_size (vs : List V) : V.sizeAll (joinItems vs) ≤ V.sizeAll vs := by
  induction vs with
  | nil => simp [joinItems]
  | cons v vs ih =>
    simp only [joinItems]
    split
    · have : V.sizeAll (joinCons v (joinItems vs)) = v.size + V.sizeAll (joinItems vs) := by
        unfold joinCons
        split
        · rename_i h _; rw [h]; simp [V.sizeAll, V.size]; omega
        · simp [V.sizeAll]
      rw [this]; simp [V.sizeAll]; omega
    · simp [V.sizeAll]; omega

theorem join_size (vs : List V) : (join vs).size ≤ V.sizeAll vs := by
  refine Nat.le_trans ?_ (joinItems_size vs)
  unfold join
  split
  · simp [V.size]
  · rename_i v hv; simp [hv, V.sizeAll]
  · simp [V.size]

theorem joinGroup_size (g : List V) : (joinGroup g).size ≤ V.sizeAll g := by
  unfold joinGroup
  split
  · simp [V.size]
  · simp [V.sizeAll]
  · exact join_size _

/-- The total size of groups. -/
def sizeG : List (List V) → Nat
  | [] => 0
  | g :: gs => V.sizeAll g + sizeG gs

theorem consHead_size (v : V) (gs : List (List V)) : sizeG (consHead v gs) = v.size + sizeG gs := by
  cases gs with
  | nil => simp [consHead, sizeG, V.sizeAll]
  | cons g gs => simp [consHead, sizeG, V.sizeAll]; omega

/-- The total length of texts. -/
def sizeS : List Str → Nat
  | [] => 0
  | g :: gs => g.length + sizeS gs

theorem spread_size (ps : List Str) (gs : List (List V)) : sizeG (spread ps gs) = sizeS ps + sizeG gs := by
  induction ps with
  | nil => simp [spread, sizeS]
  | cons p ps ih =>
    cases ps with
    | nil =>
      simp only [spread]
      split
      · rename_i h; simp at h; simp [h, sizeS]
      · rw [consHead_size]; simp [sizeS, V.size]
    | cons q qs =>
      simp only [spread, sizeG, ih]
      split
      · rename_i h; simp at h; simp [h, sizeS, V.sizeAll]
      · simp [sizeS, V.size, V.sizeAll]; omega

theorem splitN_size (c : Char) (n : Option Nat) (s : Str) : sizeS (splitN c n s) ≤ s.length := by
  induction s generalizing n with
  | nil =>
    have : splitN c n [] = [[]] := by unfold splitN; split <;> simp_all
    rw [this]; simp [sizeS]
  | cons x xs ih =>
    by_cases hn : n = some 0
    · subst hn; simp [splitN, sizeS]
    · have e : splitN c n (x :: xs) = if x = c then [] :: splitN c (n.map (· - 1)) xs
          else match splitN c n xs with
            | [] => [[x]]
            | p :: ps => (x :: p) :: ps := by
        rw [splitN]
        · rfl
        · exact hn
      rw [e]
      split
      · have := ih (n.map (· - 1)); simp [sizeS]; omega
      · have := ih n
        split
        · simp [sizeS]
        · rename_i h; rw [h] at this; simp [sizeS] at *; omega

theorem splitGroups_size (c : Char) (n : Option Nat) (vs : List V) :
    sizeG (splitGroups c n vs) ≤ V.sizeAll vs := by
  induction vs generalizing n with
  | nil => simp [splitGroups, sizeG, V.sizeAll]
  | cons v vs ih =>
    cases v with
    | str s =>
      simp only [splitGroups]
      split
      · rw [consHead_size]; have := ih n; simp [V.sizeAll]; omega
      · rw [spread_size]
        have h1 := splitN_size c n s
        have h2 := ih (n.map (· - ((splitN c n s).length - 1)))
        simp only [V.sizeAll, V.size]; omega
    | _ => simp only [splitGroups]; rw [consHead_size]; have := ih n; simp [V.sizeAll]; omega

theorem joinGroups_size (gs : List (List V)) : V.sizeAll (gs.map joinGroup) ≤ sizeG gs := by
  induction gs with
  | nil => simp [V.sizeAll]
  | cons g gs ih => have := joinGroup_size g; simp [V.sizeAll, sizeG]; omega

theorem split_size (c : Char) (n : Option Nat) (v : V) (ps : List V) (h : v.split c n = .ok ps) :
    V.sizeAll ps ≤ v.size := by
  cases v with
  | str s =>
    simp only [V.split, Except.ok.injEq] at h
    subst h
    have : ∀ l : List Str, V.sizeAll (l.map V.str) = sizeS l := by
      intro l; induction l with
      | nil => rfl
      | cons a l ih => simp [V.sizeAll, sizeS, ih, V.size]
    rw [this]; exact splitN_size c n s
  | lst l =>
    simp only [V.split, Except.ok.injEq] at h
    subst h
    exact Nat.le_trans (joinGroups_size _) (splitGroups_size c n l)
  | atom k name s l =>
    simp only [V.split] at h
    split at h
    · simp only [Except.ok.injEq] at h
      subst h
      refine Nat.le_trans (joinGroups_size _) (Nat.le_trans (splitGroups_size c n [name]) ?_)
      simp [V.sizeAll, V.size]
    · simp at h
  | int n => simp [V.split] at h
  | none => simp [V.split] at h

/-- What is between the parentheses is smaller. -/
theorem args_size (args t : V) (ht : args.tokens.getLast? = some t) (hp : t = .str (c! ")")) :
    (args.getSlice 0 (args.tokens.length - 1)).size < args.size := by
  rw [getSlice_size, List.drop_zero, Nat.sub_zero, ← List.dropLast_eq_take, ← size_tokens args]
  obtain ⟨l, hl⟩ := List.getLast?_eq_some_iff.1 ht
  rw [hl, List.dropLast_concat, sizeAll_append, hp]
  simp [V.sizeAll, V.size]

/-! ### the bound on nested calls -/

theorem writeFunction_congr (env : FEnv) (w : Where) (c1 c2 : FuncInfo → Arg → Tr Unit) (dest : V)
    (h : ∀ f a, a.size < dest.size → c1 f a = c2 f a) :
    writeFunction env w c1 dest = writeFunction env w c2 dest := by
  unfold writeFunction
  split
  · apply Tr.bind_congr
    intro parts hp
    have hs := split_size _ _ _ _ hp
    split
    · rename_i func args
      split
      · rfl
      · rename_i t ht
        split
        · rename_i htp
          have := args_size args t ht htp
          simp [V.sizeAll] at hs
          split
          · apply Tr.bind_congr
            intro fi _
            exact h fi _ (by omega)
          · rfl
        · rfl
    · rfl
  · rfl

theorem parseAssignment_congr (env : FEnv) (w : Where) (c1 c2 : FuncInfo → Arg → Tr Unit) (data : Arg)
    (h : ∀ f a, a.size < data.size → c1 f a = c2 f a) :
    parseAssignment env w c1 data = parseAssignment env w c2 data := by
  unfold parseAssignment
  split
  · rfl
  · split
    · rfl
    · rename_i v _
      apply Tr.bind_congr
      intro parts hp
      have hs := split_size _ _ _ _ hp
      split
      · rename_i dest val
        simp [V.sizeAll] at hs
        apply Tr.bind_congr
        intro _ _
        split
        · exact writeFunction_congr env w c1 c2 dest (fun f a ha => h f a (by rw [show (Arg.one v).size = v.size from rfl]; omega))
        · rfl
      · rfl

/-- The result of a call does not depend on the bound, once it exceeds the size of the
argument. -/
theorem callFunc_fuel (env : FEnv) (w : Where) (f g : Nat) (fi : FuncInfo) (a : Arg)
    (hf : a.size < f) (hg : a.size < g) : callFunc env w f fi a = callFunc env w g fi a := by
  induction f generalizing g fi a with
  | zero => omega
  | succ f ih =>
    cases g with
    | zero => omega
    | succ g =>
      simp only [callFunc]
      have : parseAssignment env w (callFunc env w f) a = parseAssignment env w (callFunc env w g) a :=
        parseAssignment_congr env w _ _ a (fun fi b hb => ih g fi b (by omega) (by omega))
      rw [this]

/-- With the bound unfolded: a call may use calls. -/
theorem callFuncTop_eq (env : FEnv) (w : Where) (f : FuncInfo) (data : Arg) :
    callFuncTop env w f data =
      match f.beh with
      | .plain => funcBalance w data
      | .set => .bind (parseAssignment env w (callFuncTop env w) data) fun _ => funcBalance w data
      | .audiohook =>
        .bind (if badAudiohook data then
            .emit (mkMsg .E_FUNC_BAD_ARGS w [(c! "func", .one (.str f.name)), (c! "data", data)])
          else .pure ()) fun _ => funcBalance w data
      | .count => .bind (funcBalance w data) fun _ => countArg w data := by
  conv => lhs; unfold callFuncTop
  simp only [callFunc]
  have : parseAssignment env w (callFunc env w data.size) data =
      parseAssignment env w (callFuncTop env w) data :=
    parseAssignment_congr env w _ _ data
      (fun fi b hb => callFunc_fuel env w _ _ fi b hb (by omega))
  rw [this]
  cases f.beh <;> rfl

/-! ### which exceptions -/

/-- All exceptions satisfy `E`. -/
def Raises (E : Exc → Prop) {α : Type} (x : Tr α) : Prop := ∀ e, x.val = .error e → E e

/-- The exceptions other than `VarParseError` and `RecursionError`. -/
def Usual (e : Exc) : Prop := e ≠ .varParseError ∧ e ≠ .recursionError

instance (e : Exc) : Decidable (Usual e) := by unfold Usual; infer_instance

theorem Raises.bind {E : Exc → Prop} {α β : Type} {x : Tr α} {f : α → Tr β} (hx : Raises E x)
    (hf : ∀ a, x.val = .ok a → Raises E (f a)) : Raises E (Tr.bind x f) := by
  intro e h
  rcases Tr.bind_err h with h | ⟨a, ha, h⟩
  · exact hx e h
  · exact hf a ha e h

theorem Raises.pure {E : Exc → Prop} {α : Type} (a : α) : Raises E (Tr.pure a) := by
  simp [Raises, Tr.pure]
theorem Raises.raise {E : Exc → Prop} {α : Type} {e : Exc} (h : E e) :
    Raises E (Tr.raise e : Tr α) := by
  intro e' h'; simp [Tr.raise] at h'; exact h' ▸ h
theorem Raises.note {E : Exc → Prop} (e : Ev) : Raises E (Tr.note e) := by simp [Raises, Tr.note]
theorem Raises.lift {E : Exc → Prop} {α : Type} {x : Except Exc α} (h : ∀ e, x = .error e → E e) :
    Raises E (Tr.lift x) := h

mutual
theorem toStr_error : (v : V) → ∀ e, v.toStr = .error e → e = .attributeError
  | .str s => by simp [V.toStr]
  | .int _ => by simp [V.toStr]
  | .none => by simp [V.toStr]
  | .lst items => by rw [V.toStr]; exact toStrAll_error items
  | .atom k n s l => by
    intro e h
    have hn := toStr_error n
    have hs := toStr_error s
    have hl := toStr_error l
    have one : ∀ (f : Str → Str), (if n.truthy then (V.toStr n).map f else .error .attributeError) =
        Except.error e → e = .attributeError := by
      intro f h
      split at h
      · cases hv : V.toStr n with
        | error e' => rw [hv] at h; simp [Except.map] at h; exact h ▸ hn e' hv
        | ok t => rw [hv] at h; simp [Except.map] at h
      · simpa using h.symm
    have three : (match V.toStr n, V.toStr s, V.toStr l with
      | .error e, _, _ => .error e
      | .ok _, .error e, _ => .error e
      | .ok tn, .ok ts, tl =>
        if l.truthy then tl.map (fun tl => c! "${" ++ tn ++ c! ":" ++ ts ++ c! ":" ++ tl ++ c! "}")
        else .ok (c! "${" ++ tn ++ c! ":" ++ ts ++ c! "}")) = Except.error e → e = .attributeError := by
      intro h
      split at h
      · rename_i e' h1; simp at h; exact h ▸ hn e' h1
      · rename_i e' h1 h2; simp at h; exact h ▸ hs e' h2
      · split at h
        · cases hv : V.toStr l with
          | error e' => rw [hv] at h; simp [Except.map] at h; exact h ▸ hl e' hv
          | ok t => rw [hv] at h; simp [Except.map] at h
        · simp at h
    cases k
    · exact one _ (by rw [V.toStr] at h; exact h)
    · exact three (by rw [V.toStr] at h; exact h)
    · exact three (by rw [V.toStr] at h; exact h)
    · exact one _ (by rw [V.toStr] at h; exact h)
    · exact one _ (by rw [V.toStr] at h; exact h)
    · exact three (by rw [V.toStr] at h; exact h)
theorem toStrAll_error : (vs : List V) → ∀ e, V.toStrAll vs = .error e → e = .attributeError
  | [] => by simp [V.toStrAll]
  | v :: vs => by
    intro e h
    have h1 := toStr_error v
    have h2 := toStrAll_error vs
    rw [V.toStrAll] at h
    split at h
    · rename_i e' hv; simp at h; exact h ▸ h1 e' hv
    · rename_i e' hv hvs; simp at h; exact h ▸ h2 e' hvs
    · simp at h
end

theorem renderAll_error (args : List (Str × Arg)) (ps : List Piece) (e : Exc)
    (h : renderAll args ps = .error e) : e = .attributeError ∨ e = .keyError := by
  induction ps with
  | nil => simp [renderAll] at h
  | cons p ps ih =>
    simp only [renderAll] at h
    split at h
    · rename_i e' hp
      simp at h; subst h
      unfold renderPiece at hp
      split at hp
      · simp at hp
      · split at hp
        · simp at hp; exact .inr hp.symm
        · split at hp
          · simp at hp
          · split at hp
            · simp at hp
            · rename_i v _
              cases hv : V.toStr v with
              | error e' => rw [hv] at hp; simp [Except.map] at hp; exact .inl (hp ▸ toStr_error v e' hv)
              | ok t => rw [hv] at hp; simp [Except.map] at hp
    · cases hr : renderAll args ps with
      | error e' => rw [hr] at h; simp [Except.map] at h; subst h; exact ih hr
      | ok t => rw [hr] at h; simp [Except.map] at h

theorem Raises.emit {E : Exc → Prop} (ha : E .attributeError) (hk : E .keyError) (m : Msg) :
    Raises E (Tr.emit m) := by
  intro e h
  simp only [Tr.emit, Msg.render] at h
  cases hr : renderAll m.args m.kind.template with
  | error e' =>
    rw [hr] at h; simp [Except.map] at h; subst h
    rcases renderAll_error _ _ _ hr with rfl | rfl
    · exact ha
    · exact hk
  | ok t => rw [hr] at h; simp [Except.map] at h

theorem split_error (c : Char) (n : Option Nat) (v : V) (e : Exc) (h : v.split c n = .error e) :
    e = .attributeError := by
  cases v with
  | atom k name s l =>
    simp only [V.split] at h
    split at h <;> simp at h
    exact h.symm
  | _ => simp [V.split] at h <;> exact h.symm

theorem pyInt_error (s : Str) (e : Exc) (h : pyInt s = .error e) : e = .valueError := by
  unfold pyInt at h
  split at h
  · split at h <;> simp at h; exact h.symm
  · split at h <;> simp at h; exact h.symm

theorem usual_emit (m : Msg) : Raises Usual (Tr.emit m) := Raises.emit (by decide) (by decide) m

theorem usual_getFunc (env : FEnv) (w : Where) (f : Str) : Raises Usual (getFunc env w f) := by
  unfold getFunc
  dsimp only
  split
  · exact .raise (by decide)
  · refine .bind (.note _) fun _ _ => ?_
    split
    · split
      · exact .bind (usual_emit _) fun _ _ => .pure _
      · exact .bind (usual_emit _) fun _ _ => .pure _
    · exact .pure _

theorem usual_countVar (w : Where) (s : Str) : Raises Usual (countVar w s) := by
  unfold countVar
  refine .bind ?_ fun _ _ => .note _
  split
  · exact .pure _
  · exact usual_emit _

theorem usual_countArg (w : Where) (a : Arg) : Raises Usual (countArg w a) := by
  unfold countArg
  split
  · exact usual_countVar w _
  · exact .raise (by decide)

theorem usual_funcBalance (w : Where) (a : Arg) : Raises Usual (funcBalance w a) := by
  unfold funcBalance
  split
  · exact .pure _
  · refine .bind (.lift ?_) fun _ _ => usual_emit _
    intro e h
    unfold strArg at h
    split at h
    · rename_i v _
      cases hv : V.toStr v with
      | error e' => rw [hv] at h; simp [Except.map] at h; rw [← h, toStr_error v e' hv]; decide
      | ok t => rw [hv] at h; simp [Except.map] at h
    · simp at h

theorem usual_writeFunction (env : FEnv) (w : Where) (call : FuncInfo → Arg → Tr Unit) (dest : V)
    (h : ∀ f a, a.size < dest.size → Raises Usual (call f a)) :
    Raises Usual (writeFunction env w call dest) := by
  unfold writeFunction
  split
  · refine .bind (.lift fun e he => ?_) ?_
    · rw [split_error _ _ _ _ he]; decide
    · intro parts hp
      have hs := split_size _ _ _ _ hp
      split
      · rename_i func args
        split
        · exact .raise (by decide)
        · rename_i t ht
          split
          · rename_i htp
            have := args_size args t ht htp
            simp [V.sizeAll] at hs
            split
            · exact .bind (usual_getFunc _ _ _) fun fi _ => h fi _ (by omega)
            · exact .raise (by decide)
          · exact .raise (by decide)
      · exact .raise (by decide)
  · exact .raise (by decide)

theorem usual_parseAssignment (env : FEnv) (w : Where) (call : FuncInfo → Arg → Tr Unit) (data : Arg)
    (h : ∀ f a, a.size < data.size → Raises Usual (call f a)) :
    Raises Usual (parseAssignment env w call data) := by
  unfold parseAssignment
  split
  · exact usual_emit _
  · split
    · exact .raise (by decide)
    · rename_i v _
      refine .bind (.lift fun e he => ?_) ?_
      · rw [split_error _ _ _ _ he]; decide
      · intro parts hp
        have hs := split_size _ _ _ _ hp
        split
        · rename_i dest val
          simp [V.sizeAll] at hs
          refine .bind ?_ fun _ _ => ?_
          · split
            · exact usual_emit _
            · exact .pure _
          · split
            · exact usual_writeFunction env w call dest (fun f a ha => h f a (by rw [show (Arg.one v).size = v.size from rfl]; omega))
            · exact .pure _
        · exact usual_emit _

theorem usual_callFunc (env : FEnv) (w : Where) (n : Nat) (f : FuncInfo) (data : Arg)
    (hn : data.size < n) : Raises Usual (callFunc env w n f data) := by
  induction n generalizing f data with
  | zero => omega
  | succ n ih =>
    simp only [callFunc]
    split
    · exact usual_funcBalance _ _
    · exact .bind (usual_parseAssignment _ _ _ _ (fun f a ha => ih f a (by omega)))
        fun _ _ => usual_funcBalance _ _
    · refine .bind ?_ fun _ _ => usual_funcBalance _ _
      split
      · exact usual_emit _
      · exact .pure _
    · exact .bind (usual_funcBalance _ _) fun _ _ => usual_countArg _ _

theorem usual_callFuncTop (env : FEnv) (w : Where) (f : FuncInfo) (data : Arg) :
    Raises Usual (callFuncTop env w f data) := usual_callFunc env w _ f data (by omega)

theorem usual_pyInt (s : Str) : Raises Usual (Tr.lift (pyInt s)) :=
  .lift fun e h => by rw [pyInt_error s e h]; decide

theorem usual_sliceStart (w : Where) (s l : V) : Raises Usual (sliceStart w s l) := by
  unfold sliceStart
  split
  · split
    · exact .bind (usual_pyInt _) fun _ _ => .pure _
    · exact .bind (usual_emit _) fun _ _ => .pure _
  · exact .pure _

theorem usual_sliceLength (w : Where) (s l : V) : Raises Usual (sliceLength w s l) := by
  unfold sliceLength
  split
  · split
    · refine .bind (usual_pyInt _) fun n _ => .bind (.lift fun e h => ?_) fun b _ => ?_
      · split at h
        · simp at h
        · unfold startCovers at h
          split at h <;> simp at h
          rw [← h]; decide
      · split
        · exact .bind (usual_emit _) fun _ _ => .pure _
        · exact .pure _
    · exact .bind (usual_emit _) fun _ _ => .pure _
  · exact .pure _

theorem usual_sliceZero (w : Where) (s l : V) : Raises Usual (sliceZero w s l) := by
  unfold sliceZero
  split
  · exact .bind (usual_emit _) fun _ _ => .pure _
  · exact .pure _

theorem usual_splitSlice (w : Where) (data : V) : Raises Usual (splitSlice w data) := by
  unfold splitSlice
  refine .bind (.lift fun e he => ?_) fun ps _ => ?_
  · rw [split_error _ _ _ _ he]; decide
  · dsimp only
    refine .bind ?_ fun _ _ => .bind (usual_sliceStart _ _ _) fun _ _ =>
      .bind (usual_sliceLength _ _ _) fun _ _ => .bind (usual_sliceZero _ _ _) fun _ _ => .pure _
    split
    · exact .pure _
    · exact usual_emit _

theorem sliceInit_error (s l : V) (e : Exc) (h : sliceInit s l = .error e) :
    e = .assertionError ∨ e = .typeError := by
  unfold sliceInit at h
  split at h
  · simp at h; exact .inl h.symm
  · split at h
    · simp at h; exact .inl h.symm
    · split at h
      · simp at h
      · split at h
        · split at h
          · split at h
            · simp at h
            · simp at h; exact .inl h.symm
          · simp at h
        · simp at h; exact .inr h.symm
  · simp at h

theorem usual_mkReadFunc (f a s l : V) : Raises Usual (Tr.lift (mkReadFunc f a s l)) := by
  refine .lift fun e h => ?_
  unfold mkReadFunc at h
  split at h
  · simp at h
  · cases hs : sliceInit s l with
    | error e' =>
      rw [hs] at h; simp [Except.map] at h; subst h
      rcases sliceInit_error _ _ _ hs with rfl | rfl <;> decide
    | ok u => rw [hs] at h; simp [Except.map] at h

theorem usual_funcArgs (w : Where) (data : V) (i : Nat) : Raises Usual (funcArgs w data i) := by
  unfold funcArgs
  dsimp only
  split
  · exact .pure _
  · exact .bind (usual_emit _) fun _ _ => .pure _

theorem usual_funcTail (w : Where) (data tail : V) : Raises Usual (funcTail w data tail) := by
  unfold funcTail
  split
  · refine .bind (usual_splitSlice _ _) fun _ _ => ?_
    split
    · exact .bind (usual_emit _) fun _ _ => .pure _
    · exact .pure _
  · exact .pure _

theorem usual_readFunction (env : FEnv) (w : Where) (data : V) : Raises Usual (readFunction env w data) := by
  unfold readFunction
  dsimp only
  split
  · exact .raise (by decide)
  · refine .bind (usual_funcArgs _ _ _) fun _ _ => .bind (usual_funcTail _ _ _) fun _ _ => ?_
    split
    · exact .raise (by decide)
    · exact .bind (usual_getFunc _ _ _) fun _ _ => .bind (usual_callFuncTop _ _ _ _) fun _ _ =>
        usual_mkReadFunc _ _ _ _
    · exact .bind (usual_emit _) fun _ _ => usual_mkReadFunc _ _ _ _

theorem usual_countUnlessVar (w : Where) (v : V) : Raises Usual (countUnlessVar w v) := by
  unfold countUnlessVar
  split
  · exact .pure _
  · exact usual_countArg _ _

theorem usual_processSlice (w : Where) (data : V) : Raises Usual (processSlice w data) := by
  unfold processSlice
  refine .bind (usual_splitSlice _ _) fun _ _ => .bind (usual_countUnlessVar _ _) fun _ _ => ?_
  split
  · exact .pure _
  · split
    · exact .pure _
    · refine .bind (.lift fun e h => ?_) fun _ _ => .pure _
      rcases sliceInit_error _ _ _ h with rfl | rfl <;> decide

theorem usual_processSubst (env : FEnv) (w : Where) (curly : Bool) (data : V) :
    Raises Usual (processSubst env w curly data) := by
  unfold processSubst
  split
  · unfold processVariable
    split
    · exact usual_readFunction _ _ _
    · split
      · exact usual_processSlice _ _
      · exact .bind (usual_countUnlessVar _ _) fun _ _ => .pure _
  · exact .pure _

/-- The parser's own exception appears for open brackets only. -/
theorem items_closed (env : FEnv) (w : Where) (s : Str) (h : Closed s) : Raises Usual (items env w s) := by
  induction s using parse_induction with
  | plain s hf => rw [items_none hf]; exact .pure _
  | opened s pre rest curly hf hb =>
    obtain ⟨i, t, he, _⟩ := closed_inv h hf
    obtain ⟨m, hm⟩ := (bracketsEnd_iff curly 0 rest i t).2 ((enclosesAt_zero ..).2 he)
    rw [hm] at hb; simp at hb
  | subst s pre rest curly inner more tail hf hb ih1 ih2 =>
    obtain ⟨i, t, he, hi, ht⟩ := closed_inv h hf
    obtain ⟨rfl, rfl⟩ := encloses_unique curly
      ((enclosesAt_zero ..).1 ((bracketsEnd_iff ..).1 ⟨more, hb⟩)) he
    rw [items_subst hf hb]
    refine .bind ?_ fun _ _ => .bind (usual_processSubst _ _ _ _) fun _ _ => .bind (ih2 ht) fun _ _ => .pure _
    unfold innerVal
    split
    · exact .bind (ih1 hi) fun _ _ => .pure _
    · exact .pure _

/-- Never a `RecursionError` of the model's bound. -/
theorem items_noRec (env : FEnv) (w : Where) (s : Str) : Raises (· ≠ .recursionError) (items env w s) := by
  induction s using parse_induction with
  | plain s hf => rw [items_none hf]; exact .pure _
  | opened s pre rest curly hf hb => rw [items_open hf hb]; exact .raise (by decide)
  | subst s pre rest curly inner more tail hf hb ih1 ih2 =>
    rw [items_subst hf hb]
    refine .bind ?_ fun _ _ => .bind (fun e h => (usual_processSubst _ _ _ _ e h).2) fun _ _ =>
      .bind ih2 fun _ _ => .pure _
    unfold innerVal
    split
    · exact .bind ih1 fun _ _ => .pure _
    · exact .pure _

end ALint
