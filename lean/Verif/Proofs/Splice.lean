import Verif.Spec.Splice
import Verif.Proofs.Bare
import Verif.Proofs.Append

/-!
# Lines put into a file (proofs)
-/

namespace ALint.Proofs
open ALint Spec

/-! ## A line in another place -/

def reG (φ : Where → Where) : Gives → Gives
  | .elem e => .elem (reE φ e)
  | .file p => .file p
  | .nothing => .nothing

def reTold (φ : Where → Where) (x : Told) : Told := ⟨φ x.line, x.msgs.map (reM φ), reG φ x.gives⟩

def reOut (φ : Where → Where) : LineOut → LineOut
  | .elem e => .elem (reE φ e)
  | .pp p => .pp p

theorem mkElem_at (c : Bool) (w w' : Where) (r : Reading) :
    mkElem c w' r = (reE (fun _ => w') (mkElem c w r).1, (mkElem c w r).2.map (reM fun _ => w')) := by
  cases r with
  | header bol name tmpl =>
    simp only [mkElem, List.map_append]
    refine Prod.ext rfl ?_
    dsimp only
    congr 1 <;> split <;> rfl
  | assign k s v =>
    simp only [mkElem, List.map_append]
    refine Prod.ext rfl ?_
    dsimp only
    congr 1
    · split
      · split <;> rfl
      · split
        · split <;> rfl
        · rfl
    · split <;> split <;> rfl
  | blank => rfl

/-- Names of files mean the same for both. -/
def SameDir (w w' : Where) : Prop := ∀ name, pathJoin (dirname w'.filename) name = pathJoin (dirname w.filename) name

theorem preprocessor_at {w w' : Where} (hd : SameDir w w') (data : Str) :
    preprocessor w' data = ((preprocessor w data).1.map (reM fun _ => w'), (preprocessor w data).2) := by
  unfold preprocessor
  dsimp only
  split
  · refine Prod.ext ?_ rfl; dsimp only; rw [List.map_append]; congr 1; split <;> rfl
  · split
    · refine Prod.ext ?_ rfl; dsimp only; rw [List.map_append]; congr 1; split <;> rfl
    · split
      · refine Prod.ext ?_ rfl; dsimp only; rw [List.map_append]; congr 1; split <;> rfl
      · split
        · refine Prod.ext ?_ rfl; dsimp only; rw [List.map_append]; congr 1; split <;> rfl
        · split
          · refine Prod.ext ?_ rfl
            dsimp only
            simp only [List.map_append]
            congr 1
            congr 1
            · congr 1 <;> split <;> rfl
            · split <;> rfl
          · refine Prod.ext ?_ (by dsimp only; rw [hd])
            dsimp only
            simp only [List.map_append]
            congr 1
            · congr 1 <;> split <;> rfl
            · split <;> rfl

theorem parserStage_at {w w' : Where} (hd : SameDir w w') (data c : Str) :
    parserStage w' data c = ((parserStage w data c).1.map (reM fun _ => w'), reOut (fun _ => w') (parserStage w data c).2) := by
  unfold parserStage
  cases readLine data with
  | some r => dsimp only; rw [mkElem_at _ w w']; rfl
  | none =>
    dsimp only
    split
    · rw [preprocessor_at hd]; rfl
    · rfl

theorem commentStage_at (w w' : Where) (data : Str) :
    commentStage w' data = ((commentStage w data).1.map (reM fun _ => w'), (commentStage w data).2) := by
  have key : ∀ (p : Prop) [Decidable p] (k : MK), (if p then [(⟨k, w', [], none⟩ : Msg)] else []) =
      (if p then [(⟨k, w, [], none⟩ : Msg)] else []).map (reM fun _ => w') := by
    intro p _ k
    split <;> rfl
  unfold commentStage
  refine Prod.ext ?_ rfl
  dsimp only
  rw [List.map_append]
  exact congr (congrArg _ (key _ _)) (key _ _)

theorem readModel_at (fs : FS) {w w' : Where} (hd : SameDir w w') (data c : Str) :
    readModel fs w' data c = (readModel fs w data c).map fun r => (r.1.map (reM fun _ => w'), reG (fun _ => w') r.2) := by
  unfold readModel
  rw [parserStage_at hd]
  cases (parserStage w data c).2 with
  | elem e => rfl
  | pp p =>
    cases p with
    | nothing => rfl
    | open_ path must name =>
      simp only [reOut]
      by_cases h0 : '\x00' ∈ path
      · simp [h0]
      · simp only [h0, if_false, Option.map_some, List.map_append]
        congr 3
        split <;> rfl

theorem ffData_at (w w' : Where) (text : Str) : (ffStage [] w' text).2.2 = (ffStage [] w text).2.2 := rfl

/-- What is said about a line in another place. -/
theorem lineModel_at (fs : FS) {w w' : Where} (hl : w'.line = w.line) (hd : SameDir w w') :
    lineModel fs w' = (lineModel fs w).map fun r => (r.1.map (reM fun _ => w'), reG (fun _ => w') r.2) := by
  have he : encodingStage w' = ((encodingStage w).1.map (reM fun _ => w'), (encodingStage w).2) := by
    unfold encodingStage
    rw [hl]
    cases utf8Decode w.line <;> rfl
  unfold lineModel
  rw [he]
  dsimp only
  cases (encodingStage w).2 with
  | error e => rfl
  | ok text =>
    dsimp only
    rw [ffData_at w w', commentStage_at w w', readModel_at fs hd]
    dsimp only
    rw [Option.map_map, Option.map_map]
    congr 1
    funext r
    simp only [Function.comp, List.map_append]
    congr 4
    unfold ctrlStage
    split <;> rfl

theorem opens_at {w w' : Where} (hl : w'.line = w.line) (hd : SameDir w w') : opens w' = opens w := by
  have he : (encodingStage w').2 = (encodingStage w).2 := by
    unfold encodingStage
    rw [hl]
    cases utf8Decode w.line <;> rfl
  unfold opens
  rw [he]
  cases (encodingStage w).2 with
  | error e => rfl
  | ok text =>
    dsimp only
    rw [ffData_at w w', commentStage_at w w', parserStage_at hd]
    dsimp only
    cases (parserStage w _ _).2 with
    | elem e => rfl
    | pp p => rfl

theorem reM_reM (φ ψ : Where → Where) (m : Msg) : reM φ (reM ψ m) = reM (φ ∘ ψ) m := by
  simp [reM]

theorem reG_reG (φ ψ : Where → Where) (g : Gives) : reG φ (reG ψ g) = reG (φ ∘ ψ) g := by
  cases g with
  | elem e => cases e <;> rfl
  | file p => rfl
  | nothing => rfl

/-- Corresponding lines. -/
theorem told_at {fs : FS} {φ : Where → Where} {x x' : Told} (h : lineModel fs x.line = some (x.msgs, x.gives))
    (h' : lineModel fs x'.line = some (x'.msgs, x'.gives)) (hl : x'.line.line = x.line.line) (hd : SameDir x.line x'.line)
    (hφ : φ x'.line = φ x.line) : reTold φ x' = reTold φ x := by
  have h1 := lineModel_at fs hl hd
  have h2 := lineModel_at fs (w := x.line) rfl (fun _ => rfl)
  rw [h, h'] at h1
  rw [h] at h2
  simp only [Option.map_some, Option.some.injEq, Prod.mk.injEq] at h1 h2
  have e1 : x'.msgs.map (reM φ) = x.msgs.map (reM φ) := by
    rw [h1.1]
    conv => rhs; rw [h2.1]
    simp only [List.map_map]
    congr 1
    funext m
    simp only [Function.comp, reM_reM]
    congr 1
    funext _
    exact hφ
  have e2 : reG φ x'.gives = reG φ x.gives := by
    rw [h1.2]
    conv => rhs; rw [h2.2]
    simp only [reG_reG]
    congr 1
    funext _
    exact hφ
  unfold reTold
  rw [e1, e2, hφ]

/-! ## What is said, line by line -/

/-- All that is said about the lines and about the dialplan, but for terminators and blank lines. -/
def tellAll (env : DEnv) : DState → List Told → Res DState
  | s, [] => .pure s
  | s, x :: xs => Res.bind ⟨x.msgs, .ok ()⟩ fun _ =>
      Res.bind (feed (dialplanStep env) s x.gives.elem?.toList) fun s' => tellAll env s' xs

theorem substance_append (a b : List Msg) : substance (a ++ b) = substance a ++ substance b := List.filter_append ..

theorem substance_nil {l : List Msg} (h : ∀ m ∈ l, spacingKind m.kind = true) : substance l = [] := by
  unfold substance
  rw [List.filter_eq_nil_iff]
  intro m hm
  simp [h m hm]

theorem spacing_longGroups {k : MK} (hk : spacingKind k = true) {n : Nat} {gs : List (Bool × List Where)} :
    ∀ m ∈ longGroups k n gs, spacingKind m.kind = true := fun m hm => by rw [longGroups_kind m hm]; exact hk

theorem spacing_flush {b : Bool} {bs : List (Bool × Where)} {w : Where} {k : MK} (hk : spacingKind k = true) {mn mx : Nat} :
    ∀ m ∈ flushMsgs b bs w k mn mx, spacingKind m.kind = true := by
  intro m hm
  unfold flushMsgs at hm
  split at hm
  · rw [List.mem_singleton.1 hm]; exact hk
  · split at hm
    · cases hm
    · split at hm
      · rcases List.mem_append.1 hm with hm | hm
        · split at hm
          · rw [List.mem_singleton.1 hm]; rfl
          · cases hm
        · exact spacing_longGroups hk m hm
      · exact spacing_longGroups hk m hm

theorem spacing_handle (s : Vsw) (e : Elem) : ∀ m ∈ (s.handle e).2.2, spacingKind m.kind = true := by
  cases e with
  | empty c w => intro m hm; cases hm
  | ctx c => exact spacing_flush (k := .H_WSV_CTX_BETWEEN) rfl
  | var v => exact spacing_flush (w := v.at_) (k := .H_WSV_VARSET_BETWEEN) (mn := 0) (mx := 1) rfl

theorem spacing_eof (s : Vsw) (r : Bool) : ∀ m ∈ (s.eof r).2, spacingKind m.kind = true := by
  intro m hm
  have key : ∀ gs, m ∈ longGroups .H_WSV_CTX_BETWEEN 2 gs → spacingKind m.kind = true := fun gs h => spacing_longGroups rfl m h
  unfold Vsw.eof at hm
  dsimp only at hm
  split at hm
  · cases hm
  · split at hm
    · exact key _ hm
    · split at hm
      · rcases List.mem_append.1 hm with hm | hm
        · exact key _ hm
        · split at hm
          · rw [List.mem_singleton.1 hm]; rfl
          · cases hm
      · exact key _ hm

theorem spacing_pop (n : Str) : ∀ st : List Vsw, ∀ m ∈ (vswPop n st).2.2, spacingKind m.kind = true
  | [], m, hm => by cases hm
  | s :: st, m, hm => by
    unfold vswPop at hm
    split at hm
    · cases hm
    · rcases List.mem_append.1 hm with hm | hm
      · exact spacing_eof s _ m hm
      · exact spacing_pop n st m hm

theorem spacing_vswStep (st : List Vsw) (e : Elem) : ∀ m ∈ (vswStep st e).2.2, spacingKind m.kind = true := by
  intro m hm
  unfold vswStep at hm
  split at hm
  · dsimp only at hm
    split at hm
    · exact spacing_pop _ _ m hm
    · rcases List.mem_append.1 hm with hm | hm
      · exact spacing_pop _ _ m hm
      · exact spacing_handle _ _ m hm
  · exact spacing_handle _ _ m hm

theorem spacing_vswEnd (st : List Vsw) (b : Bool) : ∀ m ∈ (vswEndFrom b st).2, spacingKind m.kind = true := by
  induction st generalizing b with
  | nil => intro m hm; cases hm
  | cons s ss ih =>
    intro m hm
    rcases List.mem_append.1 hm with hm | hm
    · exact spacing_eof s b m hm
    · exact ih false m hm

theorem spacing_about {m : Msg} (h : AboutEnd m) : spacingKind m.kind = true := by
  rcases h with h | h <;> rw [h] <;> rfl

theorem spacing_ffStage (st : List FInfo) (w : Where) (data : Str) : ∀ m ∈ (ffStage st w data).2.1, spacingKind m.kind = true := by
  intro m hm
  have one : ∀ {p : Prop} [Decidable p] {k : MK}, m ∈ (if p then [(⟨k, w, [], none⟩ : Msg)] else []) →
      m = ⟨k, w, [], none⟩ := by
    intro p _ k h
    by_cases hp : p
    · rw [if_pos hp] at h; exact List.mem_singleton.1 h
    · rw [if_neg hp] at h; cases h
  have two : ∀ (d : Bool) {l l' : List Msg}, m ∈ (if d = true then l else l') → m ∈ l ∨ m ∈ l' := by
    intro d l l' h
    cases d
    · exact .inr h
    · exact .inl h
  rcases List.mem_append.1 hm with hm | hm
  · exact spacing_about (ffEnter_about st w m hm)
  · rcases two _ hm with hm | hm
    · rw [one hm]; rfl
    · rw [one hm]; rfl

/-- What is said in a whole reading, but for terminators and blank lines. -/
theorem pipeRun_tells (fs : FS) {env : DEnv} : ∀ (n : Nat) (st : PState DState) (out : DState),
    (pipeRun fs (dialplanStep env) n st).val = .ok (some out) →
    ∃ told : List Told, told.map (·.line) = pipeLines fs (dialplanStep env) n st ∧
      (∀ x ∈ told, lineModel fs x.line = some (x.msgs, x.gives)) ∧
      substance (pipeRun fs (dialplanStep env) n st).log = substance (tellAll env st.agg told).log ∧
      (tellAll env st.agg told).val = .ok out := by
  intro n
  induction n with
  | zero => intro st out h; simp [pipeRun] at h
  | succ n ih =>
    intro st out h
    rw [pipeRun] at h ⊢
    rw [pipeLines]
    cases hn : nextLine st.frames with
    | none =>
      have hp : pipeStep fs (dialplanStep env) st = none := by unfold pipeStep; rw [hn]
      simp only [hp] at h ⊢
      obtain ⟨a, h1, h2, h3⟩ := Res.bind_ok h
      simp only [Res.pure_val, Except.ok.injEq, Option.some.injEq] at h2
      subst h2
      unfold pipeEnd at h1
      obtain ⟨u, h4, h5, h6⟩ := Res.bind_ok h1
      obtain ⟨u', h7, h8, h9⟩ := Res.bind_ok h5
      have hb : feed (dialplanStep env) st.agg (vswEnd st.vsw).1 = .pure st.agg := by
        rw [feed_filter, show (vswEnd st.vsw).1.filter notBlank = [] from vswEndFrom_blank true st.vsw]
        rfl
      rw [hb] at h8
      refine ⟨[], rfl, by simp, ?_, h8⟩
      have e : (Res.bind (pipeEnd (dialplanStep env) st) fun s => Res.pure (some s)).log = ffEnd st.ff ++ (vswEnd st.vsw).2 := by
        rw [h3, show (pipeEnd (dialplanStep env) st).log = _ from h6]
        simp only at h9 ⊢
        rw [h9, hb]
        simp [emitAll_told _ h4, emitAll_told _ h7]
      rw [e, substance_append, substance_nil (l := ffEnd st.ff) (fun m hm => spacing_about (popFileinfo_about none st.ff m hm)),
        substance_nil (l := (vswEnd st.vsw).2) (spacing_vswEnd st.vsw true)]
      rfl
    | some p =>
      obtain ⟨w, frames⟩ := p
      cases hp : pipeStep fs (dialplanStep env) st with
      | none => unfold pipeStep at hp; rw [hn] at hp; cases hp
      | some r =>
        simp only [hp] at h ⊢
        obtain ⟨st', h1, h2, h3⟩ := Res.bind_ok h
        simp only [h1]
        unfold pipeStep at hp
        simp only [hn, Option.some.injEq] at hp
        rw [← hp] at h1
        obtain ⟨_, he1, h4, h5⟩ := Res.bind_ok h1
        rw [hp] at h5
        cases hl : (lineStep fs st.ff frames w).2 with
        | error e => rw [hl] at h4; simp at h4
        | ok x =>
          obtain ⟨rs, oe⟩ := x
          obtain ⟨a, b, g, g1, g2, g3, g4, g5, g6⟩ := lineStep_parts hl
          have hf := substance_nil (spacing_ffStage st.ff w (textOf w))
          rw [hl] at h4 h5
          cases oe with
          | none =>
            simp only [Res.pure_val, Except.ok.injEq] at h4
            subst h4
            obtain ⟨told, t1, t2, t3, t4⟩ := ih ⟨rs.frames, rs.ff, st.vsw, st.agg⟩ out h2
            have e : tellAll env st.agg (⟨w, a ++ b, g⟩ :: told) =
                ⟨a ++ b ++ (tellAll env st.agg told).log, (tellAll env st.agg told).val⟩ := by
              simp only [tellAll, g2, Option.toList, feed, Res.pure_bind]
              rfl
            refine ⟨⟨w, a ++ b, g⟩ :: told, by simp [t1], ?_, ?_, ?_⟩
            · intro x hx
              rcases List.mem_cons.1 hx with rfl | hx
              · exact g1
              · exact t2 x hx
            · rw [e, h3, h5]
              simp only [Res.pure_log, List.append_nil]
              rw [emitAll_told _ he1, g4]
              simp only [substance_append, hf, t3, List.append_assoc, List.nil_append]
            · rw [e]; exact t4
          | some e =>
            simp only at h4 h5
            obtain ⟨_, he2, h6, h7⟩ := Res.bind_ok h4
            obtain ⟨ag, h8, h9, h10⟩ := Res.bind_ok h6
            simp only [Res.pure_val, Except.ok.injEq] at h9
            subst h9
            obtain ⟨told, t1, t2, t3, t4⟩ := ih ⟨rs.frames, rs.ff, (vswStep st.vsw e).1, ag⟩ out h2
            have hfe : feed (dialplanStep env) st.agg (vswStep st.vsw e).2.1 = feed (dialplanStep env) st.agg [e] := by
              rw [feed_filter, vswStep_blank, ← feed_filter]
            rw [hfe] at h8
            have ht : tellAll env st.agg (⟨w, a ++ b, g⟩ :: told) =
                ⟨a ++ b ++ (feed (dialplanStep env) st.agg [e]).log ++ (tellAll env ag told).log, (tellAll env ag told).val⟩ := by
              simp only [tellAll, g2, Option.toList]
              rw [Res.bind_of_ok h8]
              simp [Res.bind]
            refine ⟨⟨w, a ++ b, g⟩ :: told, by simp [t1], ?_, ?_, ?_⟩
            · intro x hx
              rcases List.mem_cons.1 hx with rfl | hx
              · exact g1
              · exact t2 x hx
            · rw [ht, h3, h5, h7, h10, hfe]
              simp only [Res.pure_log, List.append_nil]
              rw [emitAll_told _ he1, emitAll_told _ he2, g4]
              simp only [substance_append, hf, substance_nil (spacing_vswStep st.vsw e), t3, List.append_assoc,
                List.nil_append]
            · rw [ht]; exact t4

theorem tellAll_bare {φ : Where → Where} (env : DEnv) : ∀ (told : List Told) (s : DState),
    Bares φ (reSt φ) (tellAll env s told) (tellAll env (reSt φ s) (told.map (reTold φ)))
  | [], _ => .pure rfl
  | x :: xs, s => by
    have e : (reTold φ x).gives.elem?.toList = x.gives.elem?.toList.map (reE φ) := by
      unfold reTold
      cases x.gives <;> rfl
    refine .bind (g := id) rfl fun _ => ?_
    rw [e]
    exact .bind (feed_bare (dialplanStep_bare env) _ s) fun s' => tellAll_bare env xs s'

theorem tellAll_append {env : DEnv} (b : List Told) : ∀ (a : List Told) (s : DState),
    tellAll env s (a ++ b) = Res.bind (tellAll env s a) fun s' => tellAll env s' b
  | [], s => (Res.pure_bind ..).symm
  | x :: xs, s => by
    simp only [List.cons_append, tellAll, Res.bind_assoc]
    congr 1; funext _; congr 1; funext s'
    exact tellAll_append b xs s'

/-- A line of which nothing comes. -/
def Mute (x : Told) : Prop := x.msgs = [] ∧ ∀ e, x.gives.elem? = some e → notBlank e = false

theorem tellAll_mute {env : DEnv} : ∀ (a : List Told) (s : DState), (∀ x ∈ a, Mute x) → tellAll env s a = .pure s
  | [], _, _ => rfl
  | x :: xs, s, h => by
    obtain ⟨h1, h2⟩ := h x List.mem_cons_self
    have hf : feed (dialplanStep env) s x.gives.elem?.toList = .pure s := by
      rw [feed_filter]
      cases he : x.gives.elem? with
      | none => rfl
      | some e => simp [h2 e he]; rfl
    simp only [tellAll, h1, hf, Res.pure_bind]
    rw [tellAll_mute xs s fun y hy => h y (List.mem_cons_of_mem _ hy)]
    rfl

theorem tellAll_skip {env : DEnv} {a b c : List Told} {s : DState} (h : ∀ x ∈ b, Mute x) :
    tellAll env s (a ++ (b ++ c)) = tellAll env s (a ++ c) := by
  simp only [tellAll_append]
  congr 1; funext s'
  rw [tellAll_mute b s' h, Res.pure_bind]

/-! ## The lines -/

theorem expand_parts {fs : FS} {inc : Where → Option Str} {f : Str} (ls' : List Bytes) : ∀ (ls : List Bytes) {n : Nat} {t : Items},
    Expand fs inc f n (ls ++ ls') t → ∃ t1 t2, Expand fs inc f n ls t1 ∧ Expand fs inc f (n + ls.length) ls' t2 ∧
      t.flatten = t1.flatten ++ t2.flatten
  | [], n, t, h => ⟨.nil, t, .nil, h, rfl⟩
  | l :: ls, n, t, h => by
    cases h with
    | line hp h2 =>
      obtain ⟨t1, t2, h3, h4, h5⟩ := expand_parts ls' ls h2
      exact ⟨_, t2, .line hp h3, by rw [List.length_cons, show n + (ls.length + 1) = n + 1 + ls.length by omega]; exact h4,
        by simp [Items.flatten, h5]⟩
    | incl hp h1 h2 =>
      obtain ⟨t1, t2, h3, h4, h5⟩ := expand_parts ls' ls h2
      exact ⟨_, t2, .incl hp h1 h3, by rw [List.length_cons, show n + (ls.length + 1) = n + 1 + ls.length by omega]; exact h4,
        by simp [Items.flatten, h5]⟩

/-- The lines of a file that is not included are its own. -/
theorem expand_own {fs : FS} {inc : Where → Option Str} {path f : Str} {n : Nat} {ls : List Bytes} {t : Items}
    (h : Expand fs inc f n ls t) (hi : ∀ w ∈ t.flatten, inc w ≠ some path) :
    ∀ w ∈ t.flatten, w.filename = path → f = path ∧ (n : Int) < w.lineno ∧ w.lineno ≤ ((n + ls.length : Nat) : Int) := by
  induction h with
  | nil => intro w hw; cases hw
  | line hp _ ih =>
    intro w hw hf
    rcases List.mem_cons.1 hw with rfl | hw
    · refine ⟨hf, ?_, ?_⟩ <;> dsimp only [List.length_cons] <;> omega
    · obtain ⟨h1, h2, h3⟩ := ih (fun w hw => hi w (by simp [Items.flatten, hw])) w hw hf
      refine ⟨h1, by omega, ?_⟩
      rw [List.length_cons]; omega
  | @incl f n l ls p c sub t hp h1 h2 ih1 ih2 =>
    intro w hw hf
    simp only [Items.flatten, List.mem_cons, List.mem_append] at hw
    rcases hw with rfl | hw | hw
    · refine ⟨hf, ?_, ?_⟩ <;> dsimp only [List.length_cons] <;> omega
    · exfalso
      obtain ⟨e, -⟩ := ih1 (fun w hw => hi w (by simp [Items.flatten, hw])) w hw hf
      have := hi ⟨f, (n : Int) + 1, l⟩ (by simp [Items.flatten])
      apply this
      unfold pulls at hp
      cases hq : inc ⟨f, (n : Int) + 1, l⟩ with
      | none => rw [hq] at hp; cases hp
      | some q =>
        rw [hq] at hp
        simp only [Option.map_eq_some_iff, Prod.mk.injEq] at hp
        obtain ⟨_, _, h, _⟩ := hp
        rw [h, e]
    · obtain ⟨h1, h2, h3⟩ := ih2 (fun w hw => hi w (by simp [Items.flatten, hw])) w hw hf
      refine ⟨h1, by omega, ?_⟩
      rw [List.length_cons]; omega

theorem pulls_at {fs : FS} {w w' : Where} (hl : w'.line = w.line) (hd : SameDir w w') : pulls fs opens w' = pulls fs opens w := by
  unfold pulls; rw [opens_at hl hd]

/-- A line elsewhere. -/
def Elsewhere (w w' : Where) : Prop := w'.line = w.line ∧ SameDir w w'

theorem zips_self {α : Type} {R : α → α → Prop} (h : ∀ a, R a a) : ∀ l : List α, Zips R l l
  | [] => .nil
  | a :: l => .cons (h a) (zips_self h l)

theorem zips_join {α β : Type} {R : α → β → Prop} {a a' : List α} {b b' : List β} (h : Zips R a b) (h' : Zips R a' b') :
    Zips R (a ++ a') (b ++ b') := by
  induction h with
  | nil => exact h'
  | cons h _ ih => exact .cons h ih

/-- The lines of a file, read as lines of another one. -/
theorem expand_elsewhere {fs : FS} {f f' : Str} (hd : ∀ name, pathJoin (dirname f') name = pathJoin (dirname f) name) {n : Nat}
    (n' : Nat) {ls : List Bytes} {t : Items} (h : Expand fs opens f n ls t) :
    ∃ t', Expand fs opens f' n' ls t' ∧ Zips Elsewhere t.flatten t'.flatten := by
  induction h generalizing n' with
  | nil => exact ⟨.nil, .nil, .nil⟩
  | @line f n l ls t hp _ ih =>
    obtain ⟨t', h1, h2⟩ := ih hd (n' + 1)
    have he : Elsewhere ⟨f, (n : Int) + 1, l⟩ ⟨f', (n' : Int) + 1, l⟩ := ⟨rfl, hd⟩
    exact ⟨_, .line (by rw [pulls_at he.1 he.2]; exact hp) h1, .cons he h2⟩
  | @incl f n l ls p c sub t hp hs _ _ ih =>
    obtain ⟨t', h1, h2⟩ := ih hd (n' + 1)
    have he : Elsewhere ⟨f, (n : Int) + 1, l⟩ ⟨f', (n' : Int) + 1, l⟩ := ⟨rfl, hd⟩
    exact ⟨_, .incl (by rw [pulls_at he.1 he.2]; exact hp) hs h1,
      .cons he (zips_join (zips_self (fun _ => ⟨rfl, fun _ => rfl⟩) _) h2)⟩

/-- The lines of a file, some lines further down. -/
theorem expand_lowered {fs : FS} {path : Str} {k d : Nat} {n : Nat} (hn : k ≤ n) {ls : List Bytes} {t : Items}
    (h : Expand fs opens path n ls t) (hi : ∀ w ∈ t.flatten, opens w ≠ some path) :
    ∃ t', Expand fs opens path (n + d) ls t' ∧ t'.flatten = t.flatten.map (lowered path k d) := by
  have own : ∀ {n : Nat} {l : Bytes}, k ≤ n → lowered path k d ⟨path, (n : Int) + 1, l⟩ = ⟨path, ((n + d : Nat) : Int) + 1, l⟩ := by
    intro n l hn
    unfold lowered
    rw [if_pos ⟨rfl, by simp only; omega⟩]
    refine congrArg (fun n => (⟨path, n, l⟩ : Where)) ?_
    dsimp only
    omega
  have pl : ∀ {n : Nat} {l : Bytes}, pulls fs opens ⟨path, ((n + d : Nat) : Int) + 1, l⟩ = pulls fs opens ⟨path, (n : Int) + 1, l⟩ :=
    pulls_at rfl fun _ => rfl
  generalize hf : path = f at h
  induction h with
  | nil => exact ⟨.nil, .nil, rfl⟩
  | @line f n l ls t hp _ ih =>
    subst hf
    obtain ⟨t', h1, h2⟩ := ih (by omega) (fun w hw => hi w (by simp [Items.flatten, hw])) rfl
    rw [show n + 1 + d = n + d + 1 by omega] at h1
    exact ⟨_, .line (by rw [pl]; exact hp) h1, by simp [Items.flatten, h2, own hn]⟩
  | @incl f n l ls p c sub t hp hs _ _ ih =>
    subst hf
    obtain ⟨t', h1, h2⟩ := ih (by omega) (fun w hw => hi w (by simp [Items.flatten, hw])) rfl
    rw [show n + 1 + d = n + d + 1 by omega] at h1
    refine ⟨_, .incl (by rw [pl]; exact hp) hs h1, ?_⟩
    have hsub : sub.flatten.map (lowered path k d) = sub.flatten := by
      conv => rhs; rw [← List.map_id sub.flatten]
      refine List.map_congr_left fun w hw => ?_
      unfold lowered
      rw [if_neg]
      · rfl
      · rintro ⟨hf, -⟩
        obtain ⟨e, -⟩ := expand_own hs (fun w hw => hi w (by simp [Items.flatten, hw])) w hw hf
        refine hi ⟨path, (n : Int) + 1, l⟩ (by simp [Items.flatten]) ?_
        unfold pulls at hp
        cases hq : opens ⟨path, (n : Int) + 1, l⟩ with
        | none => rw [hq] at hp; cases hp
        | some q =>
          rw [hq] at hp
          simp only [Option.map_eq_some_iff, Prod.mk.injEq] at hp
          obtain ⟨_, _, h, _⟩ := hp
          rw [h, e]
    simp [Items.flatten, h2, own hn, hsub]

end ALint.Proofs
