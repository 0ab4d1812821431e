import Verif.Spec.Clean
import Verif.Proofs.Lookup
import Verif.Proofs.DialplanText
import Verif.Proofs.Canon
import Verif.Proofs.Config
import Verif.Proofs.Utf8
import Verif.Proofs.Comment

/-!
# Reading a clean dialplan
-/

namespace ALint
open Spec

/-! ## Lines -/

theorem physLines_append (l : Bytes) (h : 10 ∉ l) (rest : Bytes) :
    physLines (l ++ 10 :: rest) = (l ++ [10]) :: physLines rest := by
  induction l with
  | nil => simp [physLines]
  | cons b l ih =>
    simp only [List.mem_cons, not_or] at h
    have hb : b ≠ 10 := fun e => h.1 e.symm
    simp [physLines, hb, ih h.2]

theorem physLines_file (ls : List Str) (h : ∀ l ∈ ls, '\n' ∉ l) :
    physLines (fileBytes ls) = ls.map fun l => utf8 l ++ [10] := by
  induction ls with
  | nil => rfl
  | cons l ls ih =>
    have h10 : 10 ∉ utf8 l := fun hm => h l (by simp) (byte_mem_utf8 (c := '\n') (by decide) hm)
    have : fileBytes (l :: ls) = utf8 l ++ 10 :: fileBytes ls := by simp [fileBytes]
    rw [this, physLines_append _ h10, ih fun l hl => h l (by simp [hl])]
    rfl

theorem goodLine_lf {l : Str} (h : GoodLine l) : '\n' ∉ l := fun hm => by
  have := h.1 _ hm
  simp [lineChar] at this

theorem endsWith_snoc (l : Str) : endsWith (c! "\n") (l ++ ['\n']) = true := by
  simp [endsWith]

theorem endsWith_crlf {l : Str} (h : '\r' ∉ l) : endsWith (c! "\r\n") (l ++ ['\n']) = false := by
  simp only [endsWith, List.reverse_append, List.reverse_cons, List.reverse_nil, List.nil_append]
  cases hr : l.reverse with
  | nil => decide
  | cons x xs =>
    have : x ∈ l := by rw [← List.mem_reverse, hr]; simp
    have hx : x ≠ '\r' := fun e => h (e ▸ this)
    simp [List.isPrefixOf, Ne.symm hx]

/-- The state of `FileformatReader` within a Unix file. -/
def UnixFF (p : Str) (ff : List FInfo) : Prop := ff = [] ∨ ∃ w, ff = [⟨p, false, true, w⟩]

theorem fileStage_good {p : Str} {ff : List FInfo} (hff : UnixFF p ff) {w : Where} (hw : w.filename = p) {l : Str}
    (hl : GoodLine l) (hwl : w.line = utf8 l ++ [10]) :
    fileStage ff w = ([], .ok ([⟨p, false, true, w⟩], l, [])) := by
  have hdec : utf8Decode w.line = some (l ++ ['\n']) := by
    have : utf8 l ++ [10] = utf8 (l ++ ['\n']) := by rw [utf8_append]; rfl
    rw [hwl, this, utf8Decode_utf8]
  have hcr : '\r' ∉ l := fun hm => by have := hl.1 _ hm; simp [lineChar] at this
  have hsc : ';' ∉ l := fun hm => by have := hl.1 _ hm; simp [lineChar] at this
  have hctrl : ctrlStage w (l ++ ['\n']) = [] := by
    unfold ctrlStage
    rw [if_neg]
    simp only [List.any_append, Bool.or_eq_true, List.any_eq_true, not_or, not_exists, not_and]
    constructor
    · intro x hx; have := hl.1 _ hx; simp [lineChar] at this; simp [this]
    · intro x hx; simp only [List.mem_singleton] at hx; subst hx; decide
  have hff' : ffStage ff w (l ++ ['\n']) = ([⟨p, false, true, w⟩], [], l) := by
    rcases hff with rfl | ⟨w', rfl⟩
    · simp [ffStage, ffEnter, endsWith_snoc, endsWith_crlf hcr, hw]
    · simp [ffStage, ffEnter, endsWith_snoc, endsWith_crlf hcr, hw]
  have hcom : commentStage w l = ([], l, []) := by
    have hrs : rstripP isBlank l = l := rstripP_self _ _ hl.2
    have hsp : commentSplit l = (false, l, []) := by
      unfold commentSplit
      split
      · have : lookbackFuel (l.length + 1) l = (l, []) := by
          rw [lookbackFuel, splitOnce_none hsc]
        simp only [lookbackSplit, this, moveMiddle, hrs]
        cases l.getLast? <;> simp
      · simp [simpleSplit, splitOnce_none hsc]
    unfold commentStage
    cases hg : l.getLast? with
    | none => simp [hsp]
    | some c => simp [hsp, hl.2 c hg]
  simp [fileStage, encodingStage, hdec, hctrl, hff', hcom]

/-- What a line of a clean file is read as. -/
inductive CE where
  | hdr (name : Str)
  | set (key value : Str) (arrow : Bool)

def CE.elem (w : Where) : CE → Elem
  | .hdr name => .ctx ⟨name, [], false, w⟩
  | .set key value arrow => .var ⟨key, value, arrow, false, w⟩

theorem CE.elem_at (w : Where) (e : CE) : (e.elem w).at_ = w := by cases e <;> rfl

/-- The line is read as that, without messages. -/
def ReadsAs (l : Str) (e : CE) : Prop := ∀ w, parserStage w l [] = ([], .elem (e.elem w))

theorem readsAs_header (name : Str) (h : ']' ∉ name) : ReadsAs (headerLine name) (.hdr name) := by
  intro w
  have : readLine (headerLine name) = some (.header [] name []) :=
    (readLine_header _ _ _ _).2 (.inl ⟨⟨by simp [headerLine], by simp [Spaces], h⟩, rfl⟩)
  simp [parserStage, this, mkElem, CE.elem]

/-- A line beginning with something else than `[` is no header. -/
theorem not_header {pre : Str} {c : Char} {rest : Str} (hp : Spaces pre) (hc : isSpace c = false) (hb : c ≠ '[') :
    ¬ SomeHeader (pre ++ c :: rest) := by
  have key : ∀ i t, Spaces i → pre ++ c :: rest ≠ i ++ '[' :: t := by
    intro i t hi heq
    have h1 : (pre ++ c :: rest).dropWhile isSpace = c :: rest := by
      rw [List.dropWhile_append_of_pos hp, List.dropWhile_cons_of_neg (by simp [hc])]
    have h2 : (i ++ '[' :: t).dropWhile isSpace = '[' :: t := by
      rw [List.dropWhile_append_of_pos hi, List.dropWhile_cons_of_neg (by decide)]
    rw [heq, h2] at h1
    exact hb (List.cons.inj h1).1.symm
  rintro (⟨i, n, h⟩ | ⟨i, n, x, h⟩)
  · exact key i (n ++ [']']) h.indent (by simpa using h.shape)
  · obtain ⟨gap, _, hs⟩ := h.shape
    exact key i (n ++ ']' :: gap ++ ['(', x, ')']) h.indent (by simpa using hs)

theorem readsAs_set (kv : Str × Str) (h : GoodSetting kv) : ReadsAs (setLine kv) (.set kv.1 kv.2 false) := by
  intro w
  obtain ⟨k, v⟩ := kv
  obtain ⟨⟨h1, h2, h3, h4, h5⟩, h6, h7⟩ := h
  simp only at h1 h2 h3 h4 h5 h6 h7
  have hr : readLine (setLine (k, v)) = some (.assign k (c! "=") v) := by
    rw [readLine_assign]
    refine ⟨?_, .inr ⟨⟨[], [], by simp [Spaces], by simp [Spaces], rfl, by simp [setLine], fun _ _ => h7⟩, h4, h3, h6⟩⟩
    cases k with
    | nil => exact absurd rfl h1
    | cons c k => exact not_header (pre := []) (by simp [Spaces]) (h2 c k rfl) (by simpa using h5)
  have hb : startsBlank k = false := by
    cases k with
    | nil => rfl
    | cons c k =>
      have := h2 c k rfl
      cases hh : isBlank c with
      | false => simp [startsBlank, hh]
      | true =>
        simp only [isBlank, Bool.or_eq_true, beq_iff_eq] at hh
        rcases hh with rfl | rfl <;> exact absurd this (by decide)
  have hs : stripP isSpace (c! "=") = c! "=" := by decide
  simp [parserStage, hr, mkElem, CE.elem, hb, hs]

theorem readsAs_arrow (pre key value : Str) (hp : pre = [] ∨ (pre = [' '] ∧ key = c! "same"))
    (hk : ∃ c k, key = c :: k ∧ isSpace c = false ∧ c ≠ '[') (he : '=' ∉ key) (ht : NoTrail key) (hv : NoLead value) :
    ReadsAs (pre ++ key ++ c! " => " ++ value) (.set key value true) := by
  intro w
  obtain ⟨c, k, rfl, hc, hb⟩ := hk
  have hps : Spaces pre := by
    rcases hp with rfl | ⟨rfl, _⟩
    · simp [Spaces]
    · intro x hx; simp only [List.mem_singleton] at hx; subst hx; decide
  have hr : readLine (pre ++ c :: k ++ c! " => " ++ value) = some (.assign (pre ++ c :: k) (c! " => ") value) := by
    rw [readLine_assign]
    refine ⟨?_, .inl ⟨⟨[' '], [' '], by simp [Spaces]; decide, by simp [Spaces]; decide, rfl, rfl, by simp⟩, ?_, ?_, hv⟩⟩
    · have := not_header (rest := k ++ c! " => " ++ value) hps hc hb
      simpa using this
    · rcases hp with rfl | ⟨rfl, hq⟩
      · simpa using he
      · rw [hq]; decide
    · intro r x hx
      rcases hp with rfl | ⟨rfl, hq⟩
      · exact ht r x (by simpa using hx)
      · rw [hq] at hx
        have := congrArg List.getLast? hx
        simp at this
        subst this
        decide
  have hs : stripP isSpace (c! " => ") = c! "=>" := by decide
  have hblank : isBlank c = false := by
    cases hh : isBlank c with
    | false => rfl
    | true =>
      simp only [isBlank, Bool.or_eq_true, beq_iff_eq] at hh
      rcases hh with rfl | rfl <;> exact absurd hc (by decide)
  rcases hp with rfl | ⟨rfl, hq⟩
  · have hb' : startsBlank ([] ++ c :: k) = false := by simp [startsBlank, hblank]
    simp only [parserStage, hr, mkElem, CE.elem, hb', hs]
    simp
  · have hb' : startsBlank ([' '] ++ c :: k) = true := rfl
    have hl : lstripP isBlank ([' '] ++ c :: k) = c :: k := by rw [hq]; decide
    simp only [parserStage, hr, mkElem, CE.elem, hb', hs, hl]
    simp [hq]

/-! ## The pipeline -/

/-- A line with or without an empty line before it. -/
structure Chunk where
  blank : Bool
  text : Str
  ce : CE

def Chunk.lines (c : Chunk) : List Str := if c.blank then [[], c.text] else [c.text]

/-- The line is fine, and there is an empty line before a header. -/
structure Chunk.Ok (c : Chunk) : Prop where
  good : GoodLine c.text
  reads : ReadsAs c.text c.ce
  blank : ∀ name, c.ce = .hdr name → c.blank = true

def encLine (l : Str) : Bytes := utf8 l ++ [10]

/-- The elements are taken without messages, and the state afterwards is `Q`. -/
def Runs (env : DEnv) : DState → List CE → (DState → Prop) → Prop
  | s, [], Q => Q s
  | s, c :: cs, Q => ∀ w, ∃ s', dialplanStep env s (c.elem w) = ⟨[], .ok s'⟩ ∧ Runs env s' cs Q

theorem Runs.mono {env : DEnv} {P Q : DState → Prop} (h : ∀ s, P s → Q s) :
    ∀ {cs : List CE} {s : DState}, Runs env s cs P → Runs env s cs Q
  | [], _, hr => h _ hr
  | _ :: _, _, hr => fun w => by
    obtain ⟨s', h1, h2⟩ := hr w
    exact ⟨s', h1, Runs.mono h h2⟩

theorem Runs.append {env : DEnv} {Q : DState → Prop} :
    ∀ {a b : List CE} {s : DState}, Runs env s a (fun s' => Runs env s' b Q) → Runs env s (a ++ b) Q
  | [], _, _, hr => hr
  | _ :: _, _, _, hr => fun w => by
    obtain ⟨s', h1, h2⟩ := hr w
    exact ⟨s', h1, Runs.append h2⟩

theorem pipeStep_good {fs : FS} {σ : Type} {agg : σ → Elem → Res σ} {p : Str} {k : Nat} {l : Str} {rest : List Bytes}
    {ff : List FInfo} {vsw : List Vsw} {s : σ} (hff : UnixFF p ff) (hl : GoodLine l) (E : Elem)
    (hE : parserStage ⟨p, (k : Int) + 1, encLine l⟩ l [] = ([], .elem E)) :
    pipeStep fs agg ⟨[⟨p, k, encLine l :: rest⟩], ff, vsw, s⟩ =
      some (Res.bind (Res.emitAll (vswStep vsw E).2.2) fun _ =>
        Res.bind (feed agg s (vswStep vsw E).2.1) fun s' =>
          Res.pure ⟨[⟨p, k + 1, rest⟩], [⟨p, false, true, ⟨p, (k : Int) + 1, encLine l⟩⟩], (vswStep vsw E).1, s'⟩) := by
  have hls : lineStep fs ff [⟨p, k + 1, rest⟩] ⟨p, (k : Int) + 1, encLine l⟩ =
      ([], .ok (⟨[⟨p, k + 1, rest⟩], [⟨p, false, true, ⟨p, (k : Int) + 1, encLine l⟩⟩]⟩, some E)) := by
    unfold lineStep
    rw [fileStage_good hff rfl hl rfl]
    simp [hE]
  unfold pipeStep
  simp only [nextLine, hls]
  simp [Res.emitAll, Res.bind, Res.pure]

theorem pipeRun_step {fs : FS} {σ : Type} {agg : σ → Elem → Res σ} {st st' : PState σ} {n : Nat}
    (h : pipeStep fs agg st = some ⟨[], .ok st'⟩) : pipeRun fs agg (n + 1) st = pipeRun fs agg n st' := by
  rw [pipeRun, h]
  simp [Res.bind]

theorem goodLine_nil : GoodLine [] := by simp [GoodLine]

theorem readsAs_nil (w : Where) : parserStage w [] [] = ([], .elem (.empty false w)) := rfl

theorem feed_one {env : DEnv} {s s' : DState} {E : Elem} (h : dialplanStep env s E = ⟨[], .ok s'⟩) :
    feed (dialplanStep env) s [E] = ⟨[], .ok s'⟩ := by
  simp [feed, h, wrapExc, Res.bind, Res.pure]

theorem feed_two {env : DEnv} {s s' : DState} {E : Elem} {b : Bool × Where} (h : dialplanStep env s E = ⟨[], .ok s'⟩) :
    feed (dialplanStep env) s [blankElem b, E] = ⟨[], .ok s'⟩ := by
  have : feed (dialplanStep env) s [blankElem b, E] = feed (dialplanStep env) s [E] := by
    simp [feed, blankElem, dialplanStep, wrapExc, Res.bind, Res.pure]
  rw [this, feed_one h]

theorem pipe_chunks (fs : FS) (env : DEnv) (p : Str) (Q : DState → Prop) :
    ∀ (cs : List Chunk) (_ : ∀ c ∈ cs, c.Ok) (k n lv : Nat) (w0 : Where) (s : DState)
      (_ : Runs env s (cs.map (·.ce)) Q) (_ : (cs.flatMap Chunk.lines).length < n),
      ∃ s', pipeRun fs (dialplanStep env) n
          ⟨[⟨p, k, (cs.flatMap Chunk.lines).map encLine⟩], [⟨p, false, true, w0⟩], [⟨p, false, [], lv⟩], s⟩ =
        ⟨[], .ok (some s')⟩ ∧ Q s'
  | [], _, k, n, lv, w0, s, hr, hn => by
    obtain ⟨m, rfl⟩ : ∃ m, n = m + 1 := ⟨n - 1, by simp at hn; omega⟩
    refine ⟨s, ?_, hr⟩
    simp [pipeRun, pipeStep, nextLine, pipeEnd, ffEnd, popFileinfo, ffPopMsgs, vswEnd, vswEndFrom, Vsw.eof, groupBlanks,
      Res.emitAll, Res.bind, feed, Res.pure]
  | c :: cs, hok, k, n, lv, w0, s, hr, hn => by
    obtain ⟨hg, hrd, hbl⟩ := hok c (by simp)
    have hok' : ∀ c ∈ cs, c.Ok := fun c hc => hok c (by simp [hc])
    obtain ⟨m, rfl⟩ : ∃ m, n = m + 1 := ⟨n - 1, by omega⟩
    cases hb : c.blank with
    | false =>
      have hlines : ((c :: cs).flatMap Chunk.lines).map encLine = encLine c.text :: (cs.flatMap Chunk.lines).map encLine := by
        simp [Chunk.lines, hb]
      have hn' : (cs.flatMap Chunk.lines).length < m := by
        simp only [List.flatMap_cons, Chunk.lines, hb] at hn
        simp at hn ⊢
        omega
      obtain ⟨s1, h1, h2⟩ := hr ⟨p, (k : Int) + 1, encLine c.text⟩
      have hstep := pipeStep_good (fs := fs) (agg := dialplanStep env) (rest := (cs.flatMap Chunk.lines).map encLine)
        (vsw := [⟨p, false, [], lv⟩]) (s := s) (.inr ⟨w0, rfl⟩) hg _ (hrd ⟨p, (k : Int) + 1, encLine c.text⟩)
      obtain ⟨s', h3, h4⟩ := pipe_chunks fs env p Q cs hok' (k + 1) m (lv + 1) ⟨p, (k : Int) + 1, encLine c.text⟩ s1 h2 hn'
      refine ⟨s', ?_, h4⟩
      rw [hlines]
      cases hce : c.ce with
      | hdr name => rw [hbl name hce] at hb; cases hb
      | set key value arrow =>
        simp only [hce] at h1
        have hv : vswStep [⟨p, false, [], lv⟩] (CE.elem ⟨p, (k : Int) + 1, encLine c.text⟩ (.set key value arrow)) =
            ([⟨p, false, [], lv + 1⟩], [CE.elem ⟨p, (k : Int) + 1, encLine c.text⟩ (.set key value arrow)], []) := by
          simp [vswStep, CE.elem, Elem.at_, vswPop, Vsw.handle, flushMsgs, groupBlanks]
        rw [hce, hv] at hstep
        simp only [feed_one h1] at hstep
        rw [pipeRun_step hstep]
        exact h3
    | true =>
      have hlines : ((c :: cs).flatMap Chunk.lines).map encLine =
          encLine [] :: encLine c.text :: (cs.flatMap Chunk.lines).map encLine := by
        simp [Chunk.lines, hb]
      have hn1 : (cs.flatMap Chunk.lines).length + 1 < m := by
        simp only [List.flatMap_cons, Chunk.lines, hb] at hn
        simp at hn ⊢
        omega
      obtain ⟨m', rfl⟩ : ∃ m', m = m' + 1 := ⟨m - 1, by omega⟩
      have hn' : (cs.flatMap Chunk.lines).length < m' := by omega
      obtain ⟨s1, h1, h2⟩ := hr ⟨p, ((k + 1 : Nat) : Int) + 1, encLine c.text⟩
      have hstep0 := pipeStep_good (fs := fs) (agg := dialplanStep env)
        (rest := encLine c.text :: (cs.flatMap Chunk.lines).map encLine)
        (vsw := [⟨p, false, [], lv⟩]) (s := s) (.inr ⟨w0, rfl⟩) goodLine_nil _ (readsAs_nil ⟨p, (k : Int) + 1, encLine []⟩)
      have hstep := pipeStep_good (fs := fs) (agg := dialplanStep env) (rest := (cs.flatMap Chunk.lines).map encLine)
        (vsw := [⟨p, false, [(false, ⟨p, (k : Int) + 1, encLine []⟩)], lv⟩]) (s := s)
        (.inr ⟨⟨p, (k : Int) + 1, encLine []⟩, rfl⟩) hg _ (hrd ⟨p, ((k + 1 : Nat) : Int) + 1, encLine c.text⟩)
      obtain ⟨lv', hv⟩ : ∃ lv', vswStep [⟨p, false, [(false, ⟨p, (k : Int) + 1, encLine []⟩)], lv⟩]
            (CE.elem ⟨p, ((k + 1 : Nat) : Int) + 1, encLine c.text⟩ c.ce) =
          ([⟨p, false, [], lv'⟩], [blankElem (false, ⟨p, (k : Int) + 1, encLine []⟩),
            CE.elem ⟨p, ((k + 1 : Nat) : Int) + 1, encLine c.text⟩ c.ce], []) := by
        cases c.ce with
        | hdr name =>
          refine ⟨0, ?_⟩
          by_cases hlv : lv ≤ 2 <;>
          simp [vswStep, CE.elem, Elem.at_, vswPop, Vsw.handle, flushMsgs, groupBlanks, longGroups, hlv]
        | set key value arrow =>
          refine ⟨lv + 1, ?_⟩
          simp [vswStep, CE.elem, Elem.at_, vswPop, Vsw.handle, flushMsgs, groupBlanks, longGroups]
      obtain ⟨s', h3, h4⟩ := pipe_chunks fs env p Q cs hok' (k + 2) m' lv' ⟨p, ((k + 1 : Nat) : Int) + 1, encLine c.text⟩ s1 h2 hn'
      refine ⟨s', ?_, h4⟩
      have hv0 : vswStep [⟨p, false, [], lv⟩] (.empty false ⟨p, (k : Int) + 1, encLine []⟩) =
          ([⟨p, false, [(false, ⟨p, (k : Int) + 1, encLine []⟩)], lv⟩], [], []) := by
        simp [vswStep, Elem.at_, vswPop, Vsw.handle]
      rw [hv0] at hstep0
      rw [hv] at hstep
      simp only [feed_two h1] at hstep
      rw [hlines, pipeRun_step hstep0, pipeRun_step hstep]
      exact h3

/-- A whole file: a header, then chunks. -/
theorem pipe_file (fs : FS) (env : DEnv) (p : Str) (Q : DState → Prop) (l0 : Str) (e0 : CE) (cs : List Chunk)
    (hl0 : GoodLine l0) (he0 : ReadsAs l0 e0) (hok : ∀ c ∈ cs, c.Ok) (n : Nat) (s : DState)
    (hr : Runs env s (e0 :: cs.map (·.ce)) Q) (hn : (cs.flatMap Chunk.lines).length + 1 < n) :
    ∃ s', pipeRun fs (dialplanStep env) n ⟨[openFrame p (fileBytes (l0 :: cs.flatMap Chunk.lines))], [], [], s⟩ =
        ⟨[], .ok (some s')⟩ ∧ Q s' := by
  have hlf : ∀ l ∈ l0 :: cs.flatMap Chunk.lines, '\n' ∉ l := by
    intro l hl
    simp only [List.mem_cons, List.mem_flatMap] at hl
    rcases hl with rfl | ⟨c, hc, hl⟩
    · exact goodLine_lf hl0
    · unfold Chunk.lines at hl
      split at hl <;> simp at hl
      · rcases hl with rfl | rfl
        · simp
        · exact goodLine_lf (hok c hc).good
      · rw [hl]; exact goodLine_lf (hok c hc).good
  have hfr : openFrame p (fileBytes (l0 :: cs.flatMap Chunk.lines)) =
      ⟨p, 0, encLine l0 :: (cs.flatMap Chunk.lines).map encLine⟩ := by
    rw [openFrame, physLines_file _ hlf]; rfl
  obtain ⟨m, rfl⟩ : ∃ m, n = m + 1 := ⟨n - 1, by omega⟩
  obtain ⟨s1, h1, h2⟩ := hr ⟨p, ((0 : Nat) : Int) + 1, encLine l0⟩
  have hstep := pipeStep_good (fs := fs) (agg := dialplanStep env) (rest := (cs.flatMap Chunk.lines).map encLine)
    (k := 0) (vsw := []) (s := s) (ff := []) (.inl rfl) hl0 _ (he0 ⟨p, ((0 : Nat) : Int) + 1, encLine l0⟩)
  obtain ⟨lv', hv⟩ : ∃ lv', vswStep [] (CE.elem ⟨p, ((0 : Nat) : Int) + 1, encLine l0⟩ e0) =
      ([⟨p, false, [], lv'⟩], [CE.elem ⟨p, ((0 : Nat) : Int) + 1, encLine l0⟩ e0], []) := by
    cases e0 with
    | hdr name => exact ⟨0, by simp [vswStep, CE.elem, Elem.at_, Vsw.handle, flushMsgs, groupBlanks]⟩
    | set key value arrow => exact ⟨1, by simp [vswStep, CE.elem, Elem.at_, Vsw.handle, flushMsgs, groupBlanks]⟩
  obtain ⟨s', h3, h4⟩ := pipe_chunks fs env p Q cs hok 1 m lv' ⟨p, ((0 : Nat) : Int) + 1, encLine l0⟩ s1 h2 (by omega)
  refine ⟨s', ?_, h4⟩
  rw [hv] at hstep
  simp only [feed_one h1] at hstep
  rw [hfr, pipeRun_step hstep]
  exact h3

end ALint
