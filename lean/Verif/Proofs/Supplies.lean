import Verif.Proofs.Res
import Verif.Proofs.AppKinds
import Verif.Proofs.Reader

/-!
# Every message has the values its text refers to
-/

namespace ALint
open ALint.Spec

/-- All messages have the property, exception or not. -/
def LogAll {α : Type} (P : Msg → Prop) (x : Res α) : Prop := ∀ m ∈ x.log, P m

namespace LogAll
variable {P : Msg → Prop} {α β : Type}

theorem bind {x : Res α} {f : α → Res β} (hx : LogAll P x) (hf : ∀ a, LogAll P (f a)) :
    LogAll P (Res.bind x f) := by
  unfold LogAll Res.bind
  cases h : x.val with
  | error e => exact hx
  | ok a =>
    intro m hm
    rcases List.mem_append.1 hm with hm | hm
    · exact hx m hm
    · exact hf a m hm

theorem pure (a : α) : LogAll P (Res.pure a) := by simp [LogAll]
theorem raise (e : Exc) : LogAll P (Res.raise e : Res α) := by simp [LogAll]
theorem lift (x : Except Exc α) : LogAll P (Res.lift x) := by simp [LogAll]
theorem emit {m : Msg} (h : P m) : LogAll P (Res.emit m) := by simpa [LogAll] using h
theorem ite {c : Prop} [Decidable c] {x y : Res α} (hx : LogAll P x) (hy : LogAll P y) :
    LogAll P (if c then x else y) := by split <;> assumption

theorem emitAll {ms : List Msg} (h : ∀ m ∈ ms, P m) : LogAll P (Res.emitAll ms) := by
  induction ms with
  | nil => exact pure _
  | cons m ms ih =>
    exact bind (emit (h m (by simp))) fun _ => ih fun m hm => h m (by simp [hm])

theorem wrap {r : Res α} (h : LogAll P r) : LogAll P (wrapExc r) := h

theorem feed {σ : Type} {agg : σ → Elem → Res σ} (h : ∀ s e, LogAll P (agg s e)) (s : σ) (es : List Elem) :
    LogAll P (ALint.feed agg s es) := by
  induction es generalizing s with
  | nil => exact pure _
  | cons e es ih => exact bind (wrap (h s e)) fun _ => ih _

end LogAll

/-! ## Reading files -/

section
variable (S : Where → Prop)

/-- The kinds of messages about files, lines and white space. -/
def fileKind : MK → Bool
  | .E_CONF_BAD_LINE | .W_PP_EXEC | .W_PP_INCLUDE_MISSING | .W_PP_QUOTE_BAD | .W_WSH_CTRL
  | .I_NOTIMPL_TEMPLATES | .W_WSH_OBJSET | .W_WSH_VARSET | .H_WSV_CTX_BETWEEN | .H_WSV_VARSET_BETWEEN
  | .E_FILE_UTF8_BAD | .W_FILE_CTRL_CHAR | .W_FILE_DOS_EOFCRLF | .W_FILE_DOS_BARELF | .W_FILE_UNIX_CRLF
  | .W_FILE_UNIX_NOLF | .W_WSH_BOL | .W_WSH_EOL | .W_WSH_COMMENT | .W_WSV_BOF | .W_WSV_EOF => true
  | _ => false

theorem fileKind_app {k : MK} (h : fileKind k = true) : appKind k = false := by
  cases k <;> first | rfl | cases h

/-- Prints, has its values, and is about a line of `S`. -/
structure Fine (m : Msg) : Prop where
  prints : Prints m
  supplies : Supplies m
  at_ : S m.at_
  prev : m.previous = none
  kind : fileKind m.kind = true
  addressless : Addressless m

variable {S}

def All (ms : List Msg) (P : Msg → Prop) : Prop := ∀ m ∈ ms, P m

namespace All
variable {P : Msg → Prop}
theorem nil : All [] P := by simp [All]
theorem one {m : Msg} (h : P m) : All [m] P := by simpa [All] using h
theorem append {a b : List Msg} (ha : All a P) (hb : All b P) : All (a ++ b) P := by
  intro m hm
  rcases List.mem_append.1 hm with hm | hm
  · exact ha m hm
  · exact hb m hm
theorem ite {c : Prop} [Decidable c] {a b : List Msg} (ha : All a P) (hb : All b P) :
    All (if c then a else b) P := by split <;> assumption
end All

/-- For messages about the line given by the hypothesis. -/
macro "fine" h:term : tactic => `(tactic| exact All.one ⟨⟨_, rfl⟩, supplies_of_covers rfl, $h, rfl, rfl, rfl⟩)

theorem fine_encoding {w : Where} (hw : S w) : All (encodingStage w).1 (Fine S) := by
  unfold encodingStage
  split
  · exact .nil
  · fine hw

theorem fine_ctrl {w : Where} (hw : S w) (d : Str) : All (ctrlStage w d) (Fine S) := by
  unfold ctrlStage
  exact .ite (by fine hw) .nil

theorem fine_popMsgs {i : FInfo} (h : S i.last) : All (ffPopMsgs i) (Fine S) := by
  unfold ffPopMsgs
  exact .ite (by fine h) (.ite (by fine h) .nil)

def FfIn (S : Where → Prop) (st : List FInfo) : Prop := ∀ i ∈ st, S i.last

theorem fine_pop (stop : Option Str) {is : List FInfo} (h : FfIn S is) :
    All (popFileinfo stop is).1 (Fine S) ∧ FfIn S (popFileinfo stop is).2 := by
  induction is with
  | nil => exact ⟨.nil, h⟩
  | cons i is ih =>
    unfold popFileinfo
    split
    · exact ⟨.nil, h⟩
    · obtain ⟨h1, h2⟩ := ih fun j hj => h j (by simp [hj])
      exact ⟨.append (fine_popMsgs (h i (by simp))) h1, h2⟩

theorem fine_enter {st : List FInfo} (h : FfIn S st) (w : Where) :
    All (ffEnter st w).1 (Fine S) ∧ FfIn S (ffEnter st w).2.2 := by
  unfold ffEnter
  cases st with
  | nil => exact ⟨.nil, h⟩
  | cons i is =>
    simp only
    split
    · exact ⟨.nil, fun j hj => h j (by simp [hj])⟩
    · split
      · have := fine_pop (some w.filename) h
        split
        · exact ⟨this.1, by simp [FfIn]⟩
        · rename_i j js hr
          refine ⟨this.1, fun k hk => this.2 k ?_⟩
          rw [hr]; simp [hk]
      · exact ⟨.nil, h⟩

theorem fine_ff {st : List FInfo} (h : FfIn S st) {w : Where} (hw : S w) (d : Str) :
    All (ffStage st w d).2.1 (Fine S) ∧ FfIn S (ffStage st w d).1 := by
  obtain ⟨h1, h2⟩ := fine_enter h w
  unfold ffStage
  dsimp only
  refine ⟨.append h1 (.ite (.ite (by fine hw) .nil) (.ite (by fine hw) .nil)), ?_⟩
  intro i hi
  rcases List.mem_cons.1 hi with rfl | hi
  · exact hw
  · exact h2 i hi

theorem fine_ffEnd {st : List FInfo} (h : FfIn S st) : All (ffEnd st) (Fine S) := (fine_pop none h).1

theorem fine_comment {w : Where} (hw : S w) (d : Str) : All (commentStage w d).1 (Fine S) := by
  unfold commentStage
  exact .append (.ite (by fine hw) .nil) (.ite (by fine hw) .nil)

theorem fine_mkElem {w : Where} (hw : S w) (c : Bool) (r : Reading) :
    All (mkElem c w r).2 (Fine S) ∧ (mkElem c w r).1.at_ = w := by
  cases r with
  | header bol name tmpl => exact ⟨.append (.ite .nil (by fine hw)) (.ite .nil (by fine hw)), rfl⟩
  | assign var sep value =>
    refine ⟨.append (.ite (.ite (by fine hw) .nil) (.ite (.ite (by fine hw) .nil) .nil)) ?_, rfl⟩
    exact .ite (by fine hw) .nil
  | blank => exact ⟨.nil, rfl⟩

theorem fine_preprocessor {w : Where} (hw : S w) (d : Str) : All (preprocessor w d).1 (Fine S) := by
  unfold preprocessor
  have h0 : All (if (lstripP isSpace d).length = d.length then [] else [⟨.W_WSH_BOL, w, [], none⟩]) (Fine S) :=
    .ite .nil (by fine hw)
  have hb : All [(⟨.E_CONF_BAD_LINE, w, [(c! "startswith", .one (.str ((lstripP isSpace d).take 16)))], none⟩ : Msg)]
      (Fine S) := by fine hw
  dsimp only
  split
  · exact .append h0 hb
  · split
    · exact .append h0 hb
    · split
      · exact .append h0 hb
      · split
        · exact .append h0 hb
        · split
          · exact .append (.append (.append h0 (.ite (by fine hw) .nil)) (.ite (by fine hw) .nil)) (by fine hw)
          · exact .append (.append h0 (.ite (by fine hw) .nil)) (.ite (by fine hw) .nil)

theorem fine_parser {w : Where} (hw : S w) (d c : Str) :
    All (parserStage w d c).1 (Fine S) ∧ ∀ e, (parserStage w d c).2 = .elem e → e.at_ = w := by
  unfold parserStage
  split
  · refine ⟨(fine_mkElem hw _ _).1, ?_⟩
    intro e he
    simp only [LineOut.elem.injEq] at he
    rw [← he]
    exact (fine_mkElem hw _ _).2
  · split
    · exact ⟨fine_preprocessor hw d, by simp⟩
    · exact ⟨by fine hw, by simp⟩

theorem fine_runPP {w : Where} (hw : S w) (fs : FS) (frames : List Frame) (p : PP) :
    All (runPP fs w frames p).1 (Fine S) := by
  cases p with
  | nothing => exact .nil
  | open_ path must name =>
    have h : All (if must then [(⟨.W_PP_INCLUDE_MISSING, w, [(c! "filename", .one (.str name))], none⟩ : Msg)] else [])
        (Fine S) := .ite (by fine hw) .nil
    simp only [runPP]
    split
    · exact .nil
    · split
      · exact .nil
      · exact h

theorem fine_lineStep {ff : List FInfo} (h : FfIn S ff) {w : Where} (hw : S w) (fs : FS) (frames : List Frame) :
    All (lineStep fs ff frames w).1 (Fine S) ∧
    ∀ r oe, (lineStep fs ff frames w).2 = .ok (r, oe) → FfIn S r.ff ∧ ∀ e, oe = some e → e.at_ = w := by
  unfold lineStep fileStage
  dsimp only
  cases he : (encodingStage w).2 with
  | error x => exact ⟨fine_encoding hw, by simp⟩
  | ok data =>
    dsimp only
    have hfile := All.append (All.append (All.append (fine_encoding hw) (fine_ctrl hw data)) (fine_ff h hw data).1)
      (fine_comment hw (ffStage ff w data).2.2)
    obtain ⟨hp1, hp2⟩ := fine_parser hw (commentStage w (ffStage ff w data).2.2).2.1
      (commentStage w (ffStage ff w data).2.2).2.2
    cases hp : (parserStage w (commentStage w (ffStage ff w data).2.2).2.1
        (commentStage w (ffStage ff w data).2.2).2.2).2 with
    | elem e =>
      refine ⟨.append hfile hp1, ?_⟩
      intro r oe hr
      simp only [Except.ok.injEq, Prod.mk.injEq] at hr
      obtain ⟨rfl, rfl⟩ := hr
      refine ⟨(fine_ff h hw data).2, fun e' he' => ?_⟩
      simp only [Option.some.injEq] at he'
      subst he'
      exact hp2 e hp
    | pp pp =>
      dsimp only
      cases hr : (runPP fs w frames pp).2 with
      | error x => exact ⟨.append (.append hfile hp1) (fine_runPP hw _ _ _), by simp⟩
      | ok frames' =>
        refine ⟨.append (.append hfile hp1) (fine_runPP hw _ _ _), ?_⟩
        intro r oe hr
        simp only [Except.ok.injEq, Prod.mk.injEq] at hr
        obtain ⟨rfl, rfl⟩ := hr
        exact ⟨(fine_ff h hw data).2, by simp⟩

/-! ### White space between lines -/

def VswIn (S : Where → Prop) (st : List Vsw) : Prop := ∀ s ∈ st, ∀ b ∈ s.blanks, S b.2

theorem groupBlanks_at {bs : List (Bool × Where)} (h : ∀ b ∈ bs, S b.2) :
    ∀ g ∈ groupBlanks bs, ∀ w ∈ g.2, S w := by
  induction bs with
  | nil => simp [groupBlanks]
  | cons b bs ih =>
    obtain ⟨c, w⟩ := b
    have hw : S w := h (c, w) (by simp)
    have ih' := ih fun b hb => h b (by simp [hb])
    unfold groupBlanks
    cases hg : groupBlanks bs with
    | nil => simp [hw]
    | cons g gs =>
      obtain ⟨c', ws⟩ := g
      rw [hg] at ih'
      dsimp only
      split
      · intro g hgm x hx
        rcases List.mem_cons.1 hgm with rfl | hgm
        · rcases List.mem_cons.1 hx with rfl | hx
          · exact hw
          · exact ih' (c', ws) (by simp) x hx
        · exact ih' g (by simp [hgm]) x hx
      · intro g hgm x hx
        rcases List.mem_cons.1 hgm with rfl | hgm
        · simp at hx; subst hx; exact hw
        · exact ih' g hgm x hx

theorem fine_long {kind : MK} (hk : kind = .H_WSV_CTX_BETWEEN ∨ kind = .H_WSV_VARSET_BETWEEN) (mx : Nat)
    {gs : List (Bool × List Where)} (h : ∀ g ∈ gs, ∀ w ∈ g.2, S w) : All (longGroups kind mx gs) (Fine S) := by
  intro m hm
  unfold longGroups at hm
  obtain ⟨g, hg, hm⟩ := List.mem_flatMap.1 hm
  split at hm
  · split at hm
    · rename_i w hw
      have hS := h g hg w (List.mem_of_getLast? hw)
      rw [List.mem_singleton] at hm
      subst hm
      rcases hk with rfl | rfl
      · exact ⟨⟨_, rfl⟩, supplies_of_covers rfl, hS, rfl, rfl, rfl⟩
      · exact ⟨⟨_, rfl⟩, supplies_of_covers rfl, hS, rfl, rfl, rfl⟩
    · simp at hm
  · simp at hm

theorem fine_flush {kind : MK} (hk : kind = .H_WSV_CTX_BETWEEN ∨ kind = .H_WSV_VARSET_BETWEEN) (bof : Bool)
    {bs : List (Bool × Where)} {w : Where} (mn mx : Nat) (h : ∀ b ∈ bs, S b.2) (hw : S w) :
    All (flushMsgs bof bs w kind mn mx) (Fine S) := by
  have hg := groupBlanks_at h
  unfold flushMsgs
  split
  · rcases hk with rfl | rfl
    · fine hw
    · fine hw
  · cases hgs : groupBlanks bs with
    | nil => exact .nil
    | cons g gs =>
      rw [hgs] at hg
      dsimp only
      split
      · refine .append ?_ (fine_long hk mx fun g' hg' => hg g' (by simp [hg']))
        split
        · rename_i x hx
          have hS : S x := hg g (by simp) x (List.mem_of_mem_head? (by rw [hx]; rfl))
          fine hS
        · exact .nil
      · exact fine_long hk mx hg

theorem fine_handle {s : Vsw} (h : ∀ b ∈ s.blanks, S b.2) {e : Elem} (he : S e.at_) :
    All (s.handle e).2.2 (Fine S) ∧ (∀ b ∈ (s.handle e).1.blanks, S b.2) ∧ ∀ x ∈ (s.handle e).2.1, S x.at_ := by
  have hbl : ∀ x ∈ s.blanks.map blankElem, S x.at_ := by
    intro x hx
    obtain ⟨b, hb, rfl⟩ := List.mem_map.1 hx
    exact h b hb
  cases e with
  | empty c w =>
    refine ⟨.nil, ?_, by simp [Vsw.handle]⟩
    intro b hb
    rcases List.mem_append.1 hb with hb | hb
    · exact h b hb
    · simp at hb; subst hb; exact he
  | ctx c =>
    refine ⟨fine_flush (w := c.at_) (.inl rfl) _ _ _ h he, by simp [Vsw.handle], ?_⟩
    intro x hx
    rcases List.mem_append.1 hx with hx | hx
    · exact hbl x hx
    · simp at hx; subst hx; exact he
  | var v =>
    refine ⟨by simp only [Vsw.handle]; exact fine_flush (w := v.at_) (.inr rfl) _ _ _ h he, by simp [Vsw.handle], ?_⟩
    intro x hx
    rcases List.mem_append.1 hx with hx | hx
    · exact hbl x hx
    · simp at hx; subst hx; exact he

theorem fine_eof {s : Vsw} (h : ∀ b ∈ s.blanks, S b.2) (r : Bool) :
    All (s.eof r).2 (Fine S) ∧ ∀ x ∈ (s.eof r).1, S x.at_ := by
  have hbl : ∀ x ∈ s.blanks.map blankElem, S x.at_ := by
    intro x hx
    obtain ⟨b, hb, rfl⟩ := List.mem_map.1 hx
    exact h b hb
  have hg := groupBlanks_at h
  unfold Vsw.eof
  dsimp only
  split
  · exact ⟨.nil, by simp⟩
  · split
    · exact ⟨fine_long (.inl rfl) _ hg, hbl⟩
    · have hf : All (longGroups .H_WSV_CTX_BETWEEN 2 (groupBlanks s.blanks).dropLast) (Fine S) :=
        fine_long (.inl rfl) _ fun g hg' => hg g (List.dropLast_subset _ hg')
      split
      · refine ⟨.append hf ?_, hbl⟩
        split
        · rename_i b hb
          have hS : S b.2 := h b (List.mem_of_getLast? hb)
          fine hS
        · exact .nil
      · refine ⟨hf, ?_⟩
        intro x hx
        obtain ⟨b, hb, rfl⟩ := List.mem_map.1 hx
        exact h b (List.mem_of_mem_take hb)

theorem fine_vswPop (name : Str) {st : List Vsw} (h : VswIn S st) :
    All (vswPop name st).2.2 (Fine S) ∧ VswIn S (vswPop name st).1 ∧ ∀ x ∈ (vswPop name st).2.1, S x.at_ := by
  induction st with
  | nil => exact ⟨.nil, h, by simp [vswPop]⟩
  | cons s ss ih =>
    unfold vswPop
    split
    · exact ⟨.nil, h, by simp⟩
    · obtain ⟨h1, h2, h3⟩ := ih fun t ht => h t (by simp [ht])
      obtain ⟨h4, h5⟩ := fine_eof (h s (by simp)) true
      refine ⟨.append h4 h1, h2, ?_⟩
      intro x hx
      rcases List.mem_append.1 hx with hx | hx
      · exact h5 x hx
      · exact h3 x hx

theorem fine_vswStep {st : List Vsw} (h : VswIn S st) {e : Elem} (he : S e.at_) :
    All (vswStep st e).2.2 (Fine S) ∧ VswIn S (vswStep st e).1 ∧ ∀ x ∈ (vswStep st e).2.1, S x.at_ := by
  unfold vswStep
  split
  · obtain ⟨h1, h2, h3⟩ := fine_vswPop e.at_.filename h
    dsimp only
    generalize vswPop e.at_.filename st = p at h1 h2 h3
    obtain ⟨p1, p2, p3⟩ := p
    cases p1 with
    | nil => exact ⟨h1, h2, h3⟩
    | cons s ss =>
      obtain ⟨g1, g2, g3⟩ := fine_handle (h2 s (by simp)) he
      refine ⟨.append h1 g1, ?_, ?_⟩
      · intro t ht
        rcases List.mem_cons.1 ht with rfl | ht
        · exact g2
        · exact h2 t (by simp [ht])
      · intro x hx
        rcases List.mem_append.1 hx with hx | hx
        · exact h3 x hx
        · exact g3 x hx
  · obtain ⟨g1, g2, g3⟩ := fine_handle (s := ⟨e.at_.filename, true, [], 0⟩) (S := S) (by simp) he
    refine ⟨g1, ?_, g3⟩
    intro t ht
    rcases List.mem_cons.1 ht with rfl | ht
    · exact g2
    · exact h t ht

theorem fine_vswEnd {st : List Vsw} (h : VswIn S st) :
    All (vswEnd st).2 (Fine S) ∧ ∀ x ∈ (vswEnd st).1, S x.at_ := by
  unfold vswEnd
  generalize true = b
  induction st generalizing b with
  | nil => exact ⟨.nil, by simp [vswEndFrom]⟩
  | cons s ss ih =>
    obtain ⟨h1, h2⟩ := fine_eof (h s (by simp)) b
    obtain ⟨h3, h4⟩ := ih (fun t ht => h t (by simp [ht])) false
    refine ⟨.append h1 h3, ?_⟩
    intro x hx
    rcases List.mem_append.1 hx with hx | hx
    · exact h2 x hx
    · exact h4 x hx

/-! ### The pipeline -/

theorem emitAll_fine {ms : List Msg} (h : All ms (Fine S)) : (Res.emitAll ms).val = .ok () := by
  induction ms with
  | nil => rfl
  | cons m ms ih =>
    obtain ⟨t, ht⟩ := (h m (by simp)).prints
    have : (Res.emit m).val = .ok () := by simp [Res.emit, ht, Except.map]
    show (Res.bind (Res.emit m) fun _ => Res.emitAll ms).val = _
    rw [Res.bind_of_ok this]
    exact ih fun m hm => h m (by simp [hm])

/-- The lines to come are in `S`. -/
def FrameIn (S : Where → Prop) (fr : Frame) : Prop :=
  ∀ (i : Nat) l, fr.rest[i]? = some l → S ⟨fr.name, (fr.idx : Int) + i + 1, l⟩

theorem nextLine_in {frames frames' : List Frame} {w : Where} (h : ∀ fr ∈ frames, FrameIn S fr)
    (hn : nextLine frames = some (w, frames')) : S w ∧ ∀ fr ∈ frames', FrameIn S fr := by
  induction frames with
  | nil => simp [nextLine] at hn
  | cons fr frames ih =>
    rw [nextLine] at hn
    split at hn
    · exact ih (fun f hf => h f (by simp [hf])) hn
    · rename_i l ls hl
      simp only [Option.some.injEq, Prod.mk.injEq] at hn
      obtain ⟨rfl, rfl⟩ := hn
      have hfr := h fr (by simp)
      refine ⟨by simpa using hfr 0 l (by simp [hl]), ?_⟩
      intro f hf
      rcases List.mem_cons.1 hf with rfl | hf
      · intro i x hx
        have := hfr (i + 1) x (by simpa [hl] using hx)
        rw [show ((fr.idx : Int) + ((i + 1 : Nat) : Int) + 1) = (((fr.idx + 1 : Nat) : Int) + (i : Int) + 1) by
          push_cast; omega] at this
        exact this
      · exact h f (by simp [hf])

/-- The lines still to be read, and those remembered, are in `S`. -/
structure PipeIn {σ : Type} (S : Where → Prop) (st : PState σ) : Prop where
  frames : ∀ fr ∈ st.frames, FrameIn S fr
  ff : FfIn S st.ff
  vsw : VswIn S st.vsw

theorem runPP_in {fs : FS} {w : Where} {frames frames' : List Frame} {p : PP}
    (hfs : ∀ q c, fs q = some c → FrameIn S (openFrame q c)) (h : ∀ fr ∈ frames, FrameIn S fr)
    (hr : (runPP fs w frames p).2 = .ok frames') : ∀ fr ∈ frames', FrameIn S fr := by
  cases p with
  | nothing => simp only [runPP, Except.ok.injEq] at hr; exact hr ▸ h
  | open_ path must name =>
    simp only [runPP] at hr
    split at hr
    · simp at hr
    · split at hr
      · rename_i c hc
        simp only [Except.ok.injEq] at hr
        subst hr
        intro fr hfr
        rcases List.mem_cons.1 hfr with rfl | hfr
        · exact hfs _ _ hc
        · exact h fr hfr
      · simp only [Except.ok.injEq] at hr; exact hr ▸ h

theorem lineStep_in {fs : FS} {ff : List FInfo} {w : Where} {frames : List Frame} {r : RState} {oe : Option Elem}
    (hfs : ∀ q c, fs q = some c → FrameIn S (openFrame q c)) (h : ∀ fr ∈ frames, FrameIn S fr)
    (hr : (lineStep fs ff frames w).2 = .ok (r, oe)) : ∀ fr ∈ r.frames, FrameIn S fr := by
  unfold lineStep at hr
  dsimp only at hr
  cases hf : (fileStage ff w).2 with
  | error x => simp [hf] at hr
  | ok q =>
    obtain ⟨ff', data, comment⟩ := q
    simp only [hf] at hr
    cases hp : (parserStage w data comment).2 with
    | elem e =>
      simp only [hp, Except.ok.injEq, Prod.mk.injEq] at hr
      rw [← hr.1]
      exact h
    | pp p =>
      simp only [hp] at hr
      cases hq : (runPP fs w frames p).2 with
      | error x => simp [hq] at hr
      | ok frames' =>
        simp only [hq, Except.ok.injEq, Prod.mk.injEq] at hr
        rw [← hr.1]
        exact runPP_in hfs h hq

/-- A consumer of elements keeps `J`, and what it reports has `P`. -/
def Consumes {σ : Type} (S : Where → Prop) (P : Msg → Prop) (J : σ → Prop) (agg : σ → Elem → Res σ) : Prop :=
  ∀ s e, J s → S e.at_ → LogAll P (agg s e) ∧ ∀ t, (agg s e).val = .ok t → J t

variable {σ : Type} {P : Msg → Prop} {J : σ → Prop} {agg : σ → Elem → Res σ}

theorem LogAll.bind_ok {α β : Type} {x : Res α} {f : α → Res β} (hx : LogAll P x)
    (hf : ∀ a, x.val = .ok a → LogAll P (f a)) : LogAll P (Res.bind x f) := by
  unfold LogAll Res.bind
  cases h : x.val with
  | error e => exact hx
  | ok a =>
    intro m hm
    rcases List.mem_append.1 hm with hm | hm
    · exact hx m hm
    · exact hf a h m hm

theorem feed_consumes (ha : Consumes S P J agg) {s : σ} {es : List Elem} (hs : J s) (he : ∀ e ∈ es, S e.at_) :
    LogAll P (feed agg s es) ∧ ∀ t, (feed agg s es).val = .ok t → J t := by
  induction es generalizing s with
  | nil =>
    refine ⟨.pure _, fun t ht => ?_⟩
    simp only [feed, Res.pure_val, Except.ok.injEq] at ht
    exact ht ▸ hs
  | cons e es ih =>
    obtain ⟨h1, h2⟩ := ha s e hs (he e (by simp))
    constructor
    · refine LogAll.bind_ok (LogAll.wrap h1) fun t ht => ?_
      exact (ih (h2 t (wrapExc_ok.1 ht)) fun e he' => he e (by simp [he'])).1
    · intro t ht
      obtain ⟨s', h3, h4, _⟩ := feed_cons_ok ht
      exact (ih (h2 s' h3) fun e he' => he e (by simp [he'])).2 t h4

theorem pipeStep_consumes {fs : FS} (hfs : ∀ q c, fs q = some c → FrameIn S (openFrame q c))
    (hP : ∀ m, Fine S m → P m) (ha : Consumes S P J agg) {st : PState σ} (hst : PipeIn S st) (hJ : J st.agg)
    {r : Res (PState σ)} (h : pipeStep fs agg st = some r) :
    LogAll P r ∧ ∀ st', r.val = .ok st' → PipeIn S st' ∧ J st'.agg := by
  unfold pipeStep at h
  cases hn : nextLine st.frames with
  | none => simp [hn] at h
  | some p =>
    obtain ⟨w, frames⟩ := p
    obtain ⟨hw, hfr⟩ := nextLine_in hst.frames hn
    obtain ⟨l1, l2⟩ := fine_lineStep hst.ff hw fs frames
    simp only [hn, Option.some.injEq] at h
    subst h
    have hlog := LogAll.emitAll fun m hm => hP m (l1 m hm)
    cases hl : (lineStep fs st.ff frames w).2 with
    | error e =>
      refine ⟨hlog.bind fun _ => .raise _, ?_⟩
      rw [Res.bind_of_ok (emitAll_fine l1)]
      simp
    | ok q =>
      obtain ⟨r, oe⟩ := q
      obtain ⟨l3, l4⟩ := l2 r oe hl
      have l5 := lineStep_in hfs hfr hl
      cases oe with
      | none =>
        refine ⟨hlog.bind fun _ => .pure _, ?_⟩
        rw [Res.bind_of_ok (emitAll_fine l1)]
        intro st' hst'
        simp only [Res.pure_val, Except.ok.injEq] at hst'
        subst hst'
        exact ⟨⟨l5, l3, hst.vsw⟩, hJ⟩
      | some e =>
        have he := l4 e rfl
        obtain ⟨v1, v2, v3⟩ := fine_vswStep hst.vsw (e := e) (by rw [he]; exact hw)
        obtain ⟨f1, f2⟩ := feed_consumes ha hJ v3
        refine ⟨hlog.bind fun _ => (LogAll.emitAll fun m hm => hP m (v1 m hm)).bind fun _ =>
          f1.bind fun _ => .pure _, ?_⟩
        rw [Res.bind_of_ok (emitAll_fine l1)]
        intro st' hst'
        dsimp only at hst'
        rw [Res.bind_of_ok (emitAll_fine v1)] at hst'
        dsimp only at hst'
        obtain ⟨s, h1, h2, _⟩ := Res.bind_ok hst'
        simp only [Res.pure_val, Except.ok.injEq] at h2
        subst h2
        exact ⟨⟨l5, l3, v2⟩, f2 s h1⟩

theorem pipeRun_consumes {fs : FS} (hfs : ∀ q c, fs q = some c → FrameIn S (openFrame q c))
    (hP : ∀ m, Fine S m → P m) (ha : Consumes S P J agg) (n : Nat) {st : PState σ} (hst : PipeIn S st) (hJ : J st.agg) :
    LogAll P (pipeRun fs agg n st) ∧ ∀ s, (pipeRun fs agg n st).val = .ok (some s) → J s := by
  induction n generalizing st with
  | zero => exact ⟨.pure _, by simp [pipeRun]⟩
  | succ n ih =>
    rw [pipeRun]
    cases hp : pipeStep fs agg st with
    | none =>
      dsimp only
      obtain ⟨v1, v2⟩ := fine_vswEnd hst.vsw
      have v0 := fine_ffEnd hst.ff
      obtain ⟨f1, f2⟩ := feed_consumes ha hJ v2
      refine ⟨LogAll.bind ((LogAll.emitAll fun m hm => hP m (v0 m hm)).bind fun _ =>
        (LogAll.emitAll fun m hm => hP m (v1 m hm)).bind fun _ => f1) fun _ => .pure _, ?_⟩
      intro s hs
      obtain ⟨a, h1, h2, _⟩ := Res.bind_ok hs
      simp only [Res.pure_val, Except.ok.injEq, Option.some.injEq] at h2
      subst h2
      unfold pipeEnd at h1
      rw [Res.bind_of_ok (emitAll_fine v0)] at h1
      dsimp only at h1
      rw [Res.bind_of_ok (emitAll_fine v1)] at h1
      exact f2 a h1
    | some r =>
      dsimp only
      obtain ⟨r1, r2⟩ := pipeStep_consumes hfs hP ha hst hJ hp
      constructor
      · exact LogAll.bind_ok r1 fun st' h' => (ih (r2 st' h').1 (r2 st' h').2).1
      · intro s hs
        obtain ⟨st', h1, h2, _⟩ := Res.bind_ok hs
        exact (ih (r2 st' h1).1 (r2 st' h1).2).2 s h2

end

end ALint
