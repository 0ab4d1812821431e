import Verif.Proofs.Canon
import Verif.Proofs.Moved
import Verif.Props.Pattern
import Verif.Props.Mutator
import Verif.Props.Web

/-!
# C65: canonicalising patterns in place
-/

namespace ALint.Props
open ALint ALint.Spec ALint.Pattern

/-- The same message at another place. -/
def moveMsg (w : Where) (m : Msg) : Msg := { m with at_ := w }

theorem evMsgs_moved (w : Where) (ev : List Ev) : evMsgs (ev.map (Ev.moved w)) = (evMsgs ev).map (moveMsg w) := by
  induction ev with
  | nil => rfl
  | cons e ev ih =>
    cases e <;> simp only [evMsgs, List.map_cons, Ev.moved, List.filterMap_cons] at ih ⊢ <;> rw [ih] <;> rfl

theorem evUses_moved (w : Where) (ev : List Ev) : evUses (ev.map (Ev.moved w)) = (evUses ev).map (Ev.moved w) := by
  induction ev with
  | nil => rfl
  | cons e ev ih =>
    cases e <;> simp only [evUses, List.map_cons, Ev.moved, List.filter_cons] at ih ⊢ <;> simp [ih, Ev.moved]

theorem readPrio_moved (w w' : Where) (p : Str) :
    readPrio w' p = ⟨(readPrio w p).log.map (moveMsg w'), (readPrio w p).val⟩ := by
  unfold readPrio
  split
  · rfl
  · split
    · split <;> rfl
    · split <;> rfl

theorem readLabel_moved (w w' : Where) (l : Option Str) :
    readLabel w' l = ⟨(readLabel w l).log.map (moveMsg w'), (readLabel w l).val⟩ := by
  unfold readLabel
  split
  · rfl
  · split <;> rfl

theorem bind_moved {α β γ : Type} {w' : Where} {x y : Res α} {f : α → Res β} {g : α → Res γ} {h : β → γ}
    (hx : y = ⟨x.log.map (moveMsg w'), x.val⟩)
    (hf : ∀ a, x.val = .ok a → g a = ⟨(f a).log.map (moveMsg w'), (f a).val.map h⟩) :
    Res.bind y g = ⟨(Res.bind x f).log.map (moveMsg w'), (Res.bind x f).val.map h⟩ := by
  subst hx
  unfold Res.bind
  dsimp only
  cases hv : x.val with
  | error e => rfl
  | ok a => simp [hf a hv]

/-- A line of a step elsewhere, with another spelling of its pattern. -/
def moveStep (w : Where) (pat : Str × Values) : Option Str × List Ev × DVar → Option Str × List Ev × DVar
  | (sp, uses, .ext e) => (sp, uses.map (Ev.moved w), .ext { e with pat := some pat, at_ := w })
  | (sp, uses, d) => (sp, uses.map (Ev.moved w), d)

theorem readExten_moved {env : DEnv} {sp : Option Str} {v v' : VarE} {a b rest : Str} {va vb : Values}
    (h1 : splitExten v = .ok (some a, rest)) (h2 : splitExten v' = .ok (some b, rest)) (hc : v'.comment = v.comment)
    (ha : parse a = .ok va) (hb : parse b = .ok vb) :
    readExten env sp v' = ⟨(readExten env sp v).log.map (moveMsg v'.at_),
      (readExten env sp v).val.map (moveStep v'.at_ (b, vb))⟩ := by
  unfold readExten
  rw [h1, h2]
  have key : ∀ (x : Option Str × Str) (f : Option Str × Str → Res (Option Str × List Ev × DVar)),
      Res.bind (Res.lift (.ok x)) f = f x := by
    intro x f; rfl
  rw [key, key]
  dsimp only
  refine bind_moved (readPrio_moved _ _ _) fun prio _ => ?_
  cases prio with
  | none => rfl
  | some prio =>
    refine bind_moved (readLabel_moved _ _ _) fun label _ => ?_
    cases label with
    | none => rfl
    | some label =>
      dsimp only
      have hra : readPattern (some a) = .ok (some (a, va)) := by rw [readPattern, ha]
      have hrb : readPattern (some b) = .ok (some (b, vb)) := by rw [readPattern, hb]
      rw [hra, hrb]
      have key' : ∀ (x : Option (Str × Values)) (f : Option (Str × Values) → Res (Option Str × List Ev × DVar)),
          Res.bind (Res.lift (.ok x)) f = f x := by
        intro x f; rfl
      rw [key', key', moved_runApp v.at_ v'.at_ env.toAEnv env.depth sp (strV (splitApp rest).2)]
      generalize runApp env.toAEnv env.depth sp v.at_ (strV (splitApp rest).2) = x
      unfold Tr.toRes Tr.moved Res.bind
      dsimp only
      cases x.val with
      | error e => simp [Except.map, evMsgs_moved]
      | ok r => simp [Except.map, evMsgs_moved, evUses_moved, Res.pure, moveStep, hc]

/-! ## Lines -/

/-- A text that can stand in the place of a pattern. -/
structure CanStand (q : Str) : Prop where
  some_ : q ≠ []
  noComma : ',' ∉ q
  noSemicolon : ';' ∉ q
  noLf : '\n' ∉ q
  start : ∀ c, q.head? = some c → isSpace c = false ∧ c ≠ '>'

instance (q : Str) : Decidable (CanStand q) :=
  decidable_of_iff (q ≠ [] ∧ ',' ∉ q ∧ ';' ∉ q ∧ '\n' ∉ q ∧
      (match q with | [] => true | c :: _ => !isSpace c && c != '>') = true)
    ⟨fun ⟨a, b, c, d, e⟩ => ⟨a, b, c, d, fun x hx => by cases q <;> simp_all⟩,
     fun ⟨a, b, c, d, e⟩ => ⟨a, b, c, d, by cases q <;> simp_all⟩⟩

theorem noDash_filter (s : Str) (h1 : '[' ∉ s) (h2 : ']' ∉ s) : noDash s = s.filter (· ≠ '-') := by
  induction s with
  | nil => rfl
  | cons c s ih =>
    simp only [List.mem_cons, not_or] at h1 h2
    have ih := ih h1.2 h2.2
    by_cases hc : c = '-'
    · subst hc
      rw [List.filter_cons_of_neg (by decide), ← ih]
      rfl
    · rw [noDash_plain s (Ne.symm h1.1) (Ne.symm h2.1) hc, ih, List.filter_cons_of_pos (by simpa using hc)]

/-- Plain extensions are not reported. -/
theorem reported_pattern {pat : Str} {vals : Values} (hp : parse pat = .ok vals) (he : Expressible pat) (hb : Bracketless pat)
    (hn : isCanonical pat vals = false) : ∃ p, pat = '_' :: p := by
  cases pat with
  | nil => simp [parse] at hp
  | cons c p =>
    by_cases hc : c = '_'
    · exact ⟨p, by rw [hc]⟩
    · exfalso
      obtain ⟨hascii, _⟩ : (∀ x ∈ c :: p, x.toNat < 128) ∧
          ∃ d ds, (c :: p).filter (· ≠ '-') = d :: ds ∧ d ≠ '_' := by
        unfold Expressible at he
        split at he
        · rename_i h'; simp at h'; exact absurd h'.1 hc
        · exact he
      obtain ⟨hn1, hn2⟩ : '[' ∉ c :: p ∧ ']' ∉ c :: p := by
        unfold Bracketless at hb
        split at hb
        · rename_i h'; simp at h'; exact absurd h'.1 hc
        · exact hb
      rw [parse_literal hc] at hp
      cases hp
      rw [isCanonical, noDash_filter _ hn1 hn2, utf8_filter_dash _ hascii,
        canonical_literal _ (fun b hb => by have := utf8_le _ b hb; omega),
        latin1Decode_utf8 _ (fun x hx => hascii x (List.mem_filter.1 hx).1)] at hn
      simp at hn

/-- C65: let a line of valid UTF-8 be read as an `exten` line whose pattern is reported as not
canonical.  Then the rewriter writes one line for it, the same but for the pattern in front of the
first comma, and without a line feed in it that was not there.  That line is read as the same assignment
with the canonical spelling in the place of the pattern, which stands for the same extensions
and is not reported; and what the dialplan makes of it is the same step with the same messages
(at the new line).  Provisos: the canonical spelling can express the pattern and is considered
canonical (C28, C29), the pattern has no escaped semicolon, and the canonical spelling can stand
in that place. -/
theorem C65_line_partial (env : DEnv) (sp : Option Str) (fs : FS) (ff : List FInfo) (frames : List Frame)
    (w : Where) (text : Str) (rs : RState) (v : VarE) (pat rest : Str) (vals : Values)
    (hutf : w.line = utf8 text)
    (hread : (lineStep fs ff frames w).2 = .ok (rs, some (.var v)))
    (hkey : v.key = c! "exten") (hvalue : v.value = pat ++ ',' :: rest) (hcomma : ',' ∉ pat)
    (hparse : parse pat = .ok vals) (hreported : isCanonical pat vals = false)
    (hexpr : Expressible pat) (hbr : Bracketless pat) (hsemi : ';' ∉ pat) (hstand : CanStand (canonical vals)) :
    ∃ line rs' vals' a b,
      w.line = a ++ utf8 pat ++ 0x2c :: b ∧ line = a ++ utf8 (canonical vals) ++ 0x2c :: b ∧
      0x2c ∉ a ∧ 0x0a ∉ utf8 (canonical vals) ∧
      canonOut (utf8 pat) (utf8 (canonical vals)) w.line = ([line], none) ∧
      (lineStep fs ff frames { w with line := line }).2 = .ok (rs', some (.var
        { v with value := canonical vals ++ ',' :: rest, at_ := { w with line := line } })) ∧
      rs'.frames = frames ∧
      parse (canonical vals) = .ok vals' ∧ matchesSame vals vals' = true ∧
      (∀ e, Describes (canonical vals) e ↔ Describes pat e) ∧
      (∀ e : ExtLine, canonCheck { e with pat := some (canonical vals, vals') } = .pure ()) ∧
      fromVarset env sp { v with value := canonical vals ++ ',' :: rest, at_ := { w with line := line } } =
        ⟨(fromVarset env sp v).log.map (moveMsg { w with line := line }),
          (fromVarset env sp v).val.map (moveStep { w with line := line } (canonical vals, vals'))⟩ := by
  obtain ⟨p, rfl⟩ := reported_pattern hparse hexpr hbr hreported
  have hd : utf8Decode w.line = some text := by rw [hutf, utf8Decode_utf8]
  obtain ⟨vals', h1, h2, h3, h4⟩ := canonical_roundtrip hparse hexpr
  obtain ⟨line, ff', a, b, h7, h8, h9, h5, h6⟩ := swap_line (rest := rest) (q := canonical vals) hd hread hkey hvalue
    (fun h => hsemi (by simp [h])) hstand.noSemicolon (fun c r h => (hstand.start c (by rw [h]; rfl)).1) hstand.some_
    (fun h => (hstand.start _ h).2 rfl)
  refine ⟨line, ⟨frames, ff'⟩, vals', a, b, h7, h8, h9, fun h => hstand.noLf (byte_mem_utf8 (c := '\n') (by decide) h), h5, h6, rfl, h1, h2, h4, ?_, ?_⟩
  · intro e
    simp [canonCheck, isCanonical, h3, noDash_canonical hparse hexpr hbr]
  · generalize hw : ({ w with line := line } : Where) = w'
    have hs : splitExten v = .ok (some ('_' :: p), rest) := by
      rw [splitExten, if_pos hkey, hvalue, splitOnce_append hcomma]; rfl
    have hs' : splitExten { v with value := canonical vals ++ ',' :: rest, at_ := w' } =
        .ok (some (canonical vals), rest) := by
      rw [splitExten, if_pos hkey, splitOnce_append hstand.noComma]
      dsimp only
      rw [if_neg]
      simpa using hstand.some_
    have hr := readExten_moved (env := env) (sp := sp) hs hs' rfl hparse h1
    unfold fromVarset
    rw [if_pos (.inl hkey), if_pos (.inl hkey)]
    refine bind_moved (w' := w') ?_ fun _ _ => hr
    unfold expectArrow
    dsimp only
    split <;> rfl

def lineAt (line : Str) : Where := ⟨c! "f", 7, utf8 line⟩

example : Expressible (c! "_[0-9]-5") ∧ Bracketless (c! "_[0-9]-5") := by
  have hr : Reads (utf8 (c! "[0-9]-5")) [.one (inSet [0x30, 0x2d, 0x39]), .one (fun c => c == 0x35)] :=
    .set (inner := [0x30, 0x2d, 0x39]) (by decide) (by decide) (.dash (.lit (b := 0x35) (by decide) .nil))
  refine ⟨⟨_, hr, ?_, ?_⟩, ⟨_, hr, ?_⟩⟩
  · intro t ht
    simp at ht
    rcases ht with rfl | rfl
    · refine ⟨?_, by decide, by decide⟩
      intro c hc
      simp [inSet, between] at hc
      omega
    · refine ⟨?_, by decide, by decide⟩
      intro c hc
      simp at hc
      omega
  · intro h
    have : card (inSet [0x30, 0x2d, 0x39]) = 1 := h _ (List.mem_cons_self ..)
    exact absurd this (by decide)
  · intro t ht
    simp at ht
    rcases ht with rfl | rfl
    · exact ⟨by decide, by decide⟩
    · exact ⟨by decide, by decide⟩

/-- A line that meets the conditions: `exten =>  _[0-9]-5,1(x),NoOp(_[0-9]-5) ; _[0-9]-5`. -/
example :
    let w := lineAt (c! "exten =>  _[0-9]-5,1(x),NoOp(_[0-9]-5) ; _[0-9]-5\r\n")
    let new := utf8 (c! "exten =>  _X5,1(x),NoOp(_[0-9]-5) ; _[0-9]-5\r\n")
    ∃ rs v vals, (lineStep (fun _ => none) [] [] w).2 = .ok (rs, some (.var v)) ∧ v.key = c! "exten" ∧
      v.value = c! "_[0-9]-5" ++ ',' :: c! "1(x),NoOp(_[0-9]-5)" ∧ parse (c! "_[0-9]-5") = .ok vals ∧
      isCanonical (c! "_[0-9]-5") vals = false ∧ CanStand (canonical vals) ∧
      canonOut (utf8 (c! "_[0-9]-5")) (utf8 (canonical vals)) w.line = ([new], none) := by
  refine ⟨_, _, _, rfl, by decide +kernel, by decide +kernel, rfl, by decide, by decide +kernel, by decide +kernel⟩

/-! ## Files -/

/-- The hint about a pattern in line `n` of a file. -/
def IsHint (f : Str) (m : Msg) (h : Nat × Str × Str) : Prop :=
  m.kind = .H_PAT_NON_CANONICAL ∧ m.at_.filename = f ∧ m.at_.lineno = h.1 ∧
    m.args = [(c! "pat", .one (.str h.2.1)), (c! "expected", .one (.str h.2.2))]

theorem hints_issues (f : Str) (log : List Msg) (hs : List (Nat × Str × Str))
    (h : Zips (IsHint f) (log.filter fun m => m.kind = .H_PAT_NON_CANONICAL ∧ m.at_.filename = f) hs) :
    canonIssues log f = hs.map fun h => ⟨(h.1 : Int) - 1, canonOut (utf8 h.2.1) (utf8 h.2.2)⟩ := by
  have hfilter : canonIssues log f =
      (log.filter fun m => m.kind = .H_PAT_NON_CANONICAL ∧ m.at_.filename = f).filterMap canonIssue := by
    unfold canonIssues
    induction log with
    | nil => rfl
    | cons m log _ =>
      clear h
      induction m :: log with
      | nil => rfl
      | cons m log ih =>
        by_cases h1 : m.at_.filename = f
        · by_cases h2 : m.kind = .H_PAT_NON_CANONICAL
          · simp only [List.filter_cons, h1, h2, decide_true, and_self, if_true, List.filterMap_cons, ih]
          · have : canonIssue m = none := by unfold canonIssue; rw [if_neg h2]
            simp only [List.filter_cons, h1, h2, decide_true, false_and, decide_false, Bool.false_eq_true, if_true,
              if_false, List.filterMap_cons, this, ih]
        · simp only [List.filter_cons, h1, and_false, decide_false, Bool.false_eq_true, if_false, ih]
  rw [hfilter]
  clear hfilter
  generalize (log.filter fun m => m.kind = .H_PAT_NON_CANONICAL ∧ m.at_.filename = f) = l at h
  induction h with
  | nil => rfl
  | cons h _ ih =>
    obtain ⟨h1, _, h3, h4⟩ := h
    rw [List.filterMap_cons, ih]
    unfold canonIssue
    rw [if_pos h1, h4, h3]
    rfl

/-- C65 for a file: when the hints about a file are on increasing lines and its rewrite ends
well, every line with a hint is replaced as above, and every other line is as it was.  (Proviso:
as in C61.) -/
theorem C65_file_partial {P : Type} [DecidableEq P] (ps : Paths P) (tmp : P) (u g : Nat) (f : Str) (log : List Msg)
    (hs : List (Nat × Str × Str))
    (h : Zips (IsHint f) (log.filter fun m => m.kind = .H_PAT_NON_CANONICAL ∧ m.at_.filename = f) hs)
    (hpos : ∀ x ∈ hs, 0 < x.1) (hord : hs.Pairwise fun x y => x.1 < y.1)
    (o : Oracle) (n : Nat) (d : Disk P) (c : Bytes) (ls : List Bytes) (u' g' m' : Nat)
    (hf : d.stat ps f = some (.file c u' g' m')) (hl : LinesOf c ls) (hd : Direct ps d f)
    (hok : (processFile ps tmp u g f (canonIssues log f) o n d).val = .ok ()) :
    ∃ ls' : List Bytes, (processFile ps tmp u g f (canonIssues log f) o n d).disk.stat ps f =
        some (.file ls'.flatten u' g' m') ∧ ls'.length = ls.length ∧
      (∀ x ∈ hs, ∀ line, ls[x.1 - 1]? = some line →
        ∃ line', canonOut (utf8 x.2.1) (utf8 x.2.2) line = ([line'], none) ∧ ls'[x.1 - 1]? = some line') ∧
      ∀ k line, ls[k]? = some line → (∀ x ∈ hs, x.1 ≠ k + 1) → ls'[k]? = some line := by
  have hiss := hints_issues f log hs h
  rw [hiss] at hok ⊢
  have hinc : Increasing (hs.map fun h : Nat × Str × Str =>
      (⟨(h.1 : Int) - 1, canonOut (utf8 h.2.1) (utf8 h.2.2)⟩ : Issue)) := by
    constructor
    · intro i hi
      obtain ⟨x, hx, rfl⟩ := List.mem_map.1 hi
      have := hpos x hx
      dsimp only
      omega
    · rw [List.pairwise_map]
      refine hord.imp ?_
      intro a b hab
      dsimp only
      omega
  obtain ⟨h1, h2, h3⟩ := C61_rewrite_partial ps tmp u g f _ o n d c ls u' g' m' hf hl hinc hd hok
  refine ⟨_, h1, by simp [replaced], ?_, ?_⟩
  · intro x hx line hline
    have hp := hpos x hx
    have hnr := h2 _ (List.mem_map.2 ⟨x, hx, rfl⟩) (x.1 - 1) line hline (by dsimp only; omega)
    dsimp only at hnr
    have hout : ∃ line', canonOut (utf8 x.2.1) (utf8 x.2.2) line = ([line'], none) := by
      revert hnr
      unfold canonOut
      cases hs : splitByte 0x3d line with
      | none => intro hnr; cases hnr
      | some p =>
        obtain ⟨a, b⟩ := p
        cases b with
        | nil => intro hnr; cases hnr
        | cons b bs => exact fun _ => ⟨_, rfl⟩
    obtain ⟨line', hl'⟩ := hout
    refine ⟨line', hl', ?_⟩
    have hfind : (hs.map fun h : Nat × Str × Str =>
        (⟨(h.1 : Int) - 1, canonOut (utf8 h.2.1) (utf8 h.2.2)⟩ : Issue)).find?
          (fun i => i.lineno == ((x.1 - 1 : Nat) : Int)) = some ⟨(x.1 : Int) - 1, canonOut (utf8 x.2.1) (utf8 x.2.2)⟩ := by
      clear hiss h1 h2 h3 hok h hinc
      induction hs with
      | nil => simp at hx
      | cons y hs ih =>
        rw [List.map_cons, List.find?_cons]
        rcases List.mem_cons.1 hx with rfl | hx
        · have : (((x.1 : Int) - 1) == ((x.1 - 1 : Nat) : Int)) = true := by
            rw [beq_iff_eq]; omega
          simp only [this]
        · have hlt := (List.pairwise_cons.1 hord).1 x hx
          have : (((y.1 : Int) - 1) == ((x.1 - 1 : Nat) : Int)) = false := by
            rw [beq_eq_false_iff_ne]
            have := hpos y (by simp)
            omega
          simp only [this]
          exact ih (fun z hz => hpos z (by simp [hz])) (List.pairwise_cons.1 hord).2 hx
    simp only [replaced, List.getElem?_mapIdx, hline, Option.map_some, hfind, hl']
    simp
  · intro k line hline hno
    have hfind : (hs.map fun h : Nat × Str × Str =>
        (⟨(h.1 : Int) - 1, canonOut (utf8 h.2.1) (utf8 h.2.2)⟩ : Issue)).find? (fun i => i.lineno == (k : Int)) = none := by
      rw [List.find?_eq_none]
      intro i hi
      obtain ⟨x, hx, rfl⟩ := List.mem_map.1 hi
      have := hno x hx
      rw [beq_iff_eq]
      dsimp only
      omega
    simp only [replaced, List.getElem?_mapIdx, hline, Option.map_some, hfind]

/-- A file with two hints, checked and rewritten. -/
def canonText : Str := c! "[a]\nexten => _[0-9],1,NoOp()\nexten => 5,1,NoOp()\nexten => _[1-9]X,1,NoOp()\n"

def canonDisk : Disk Str := fun p => if p = c! "f" then some (.file (utf8 canonText) 1 2 0o644) else none

def canonLog : List Msg := (checkDialplan noFiles demoEnv none 99 (c! "f") (utf8 canonText)).log

example : Zips (IsHint (c! "f")) (canonLog.filter fun m => m.kind = .H_PAT_NON_CANONICAL ∧ m.at_.filename = c! "f")
      [(2, c! "_[0-9]", c! "_X"), (4, c! "_[1-9]X", c! "_ZX")] ∧
    (processFile demoPaths (c! "tmp") 0 0 (c! "f") (canonIssues canonLog (c! "f")) lucky 0 canonDisk).val = .ok () ∧
    contentAt demoPaths (processFile demoPaths (c! "tmp") 0 0 (c! "f") (canonIssues canonLog (c! "f")) lucky 0
      canonDisk).disk (c! "f") =
      some (utf8 (c! "[a]\nexten => _X,1,NoOp()\nexten => 5,1,NoOp()\nexten => _ZX,1,NoOp()\n")) := by
  refine ⟨?_, by decide +kernel, by decide +kernel⟩
  have : canonLog.filter (fun m => m.kind = .H_PAT_NON_CANONICAL ∧ m.at_.filename = c! "f") =
      [⟨.H_PAT_NON_CANONICAL, ⟨c! "f", 2, utf8 (c! "exten => _[0-9],1,NoOp()\n")⟩,
        [(c! "pat", .one (.str (c! "_[0-9]"))), (c! "expected", .one (.str (c! "_X")))], none⟩,
       ⟨.H_PAT_NON_CANONICAL, ⟨c! "f", 4, utf8 (c! "exten => _[1-9]X,1,NoOp()\n")⟩,
        [(c! "pat", .one (.str (c! "_[1-9]X"))), (c! "expected", .one (.str (c! "_ZX")))], none⟩] := by
    decide +kernel
  rw [this]
  exact .cons ⟨rfl, rfl, rfl, rfl⟩ (.cons ⟨rfl, rfl, rfl, rfl⟩ .nil)

/-! ## Violations -/

/-- What the reader makes of a line: pattern and rest of an `exten` line. -/
def stepOf (line : Bytes) : Option (Option Str × Str) :=
  match (lineStep (fun _ => none) [] [] ⟨c! "f", 7, line⟩).2 with
  | .ok (_, some (.var v)) => (splitExten v).toOption
  | _ => none

/-- Expansion of a range brings a comma in front: `_[+--]` becomes `_[+`, with `-]` for a
priority. -/
theorem C65_violated_comma : ∃ vals, parse (c! "_[+--]") = .ok vals ∧ isCanonical (c! "_[+--]") vals = false ∧
    ∃ new, canonOut (utf8 (c! "_[+--]")) (utf8 (canonical vals)) (utf8 (c! "exten => _[+--],1,NoOp()\n")) = ([new], none) ∧
      stepOf (utf8 (c! "exten => _[+--],1,NoOp()\n")) = some (some (c! "_[+--]"), c! "1,NoOp()") ∧
      stepOf new = some (some (c! "_[+"), c! "-],1,NoOp()") := by
  exact ⟨_, rfl, by decide +kernel, utf8 (c! "exten => _[+,-],1,NoOp()\n"), by decide +kernel, by decide +kernel, by decide +kernel⟩

/-- Or a semicolon, so that the rest of the line becomes a comment. -/
theorem C65_violated_semicolon : ∃ vals, parse (c! "_[:-<]") = .ok vals ∧ isCanonical (c! "_[:-<]") vals = false ∧
    ∃ new, canonOut (utf8 (c! "_[:-<]")) (utf8 (canonical vals)) (utf8 (c! "exten => _[:-<],1,NoOp()\n")) = ([new], none) ∧
      stepOf (utf8 (c! "exten => _[:-<],1,NoOp()\n")) = some (some (c! "_[:-<]"), c! "1,NoOp()") ∧
      stepOf new = none := by
  exact ⟨_, rfl, by decide +kernel, utf8 (c! "exten => _[:;<],1,NoOp()\n"), by decide +kernel, by decide +kernel, by decide +kernel⟩

/-- Or a line feed, so that the line is broken in two, of which neither is a step. -/
theorem C65_violated_linefeed : ∃ vals, parse (c! "_[\t-\x0b]") = .ok vals ∧ isCanonical (c! "_[\t-\x0b]") vals = false ∧
    ∃ new l1 l2, canonOut (utf8 (c! "_[\t-\x0b]")) (utf8 (canonical vals)) (utf8 (c! "exten => _[\t-\x0b],1,NoOp()\n")) =
        ([new], none) ∧
      stepOf (utf8 (c! "exten => _[\t-\x0b],1,NoOp()\n")) = some (some (c! "_[\t-\x0b]"), c! "1,NoOp()") ∧
      physLines new = [l1, l2] ∧ stepOf l1 = none ∧ stepOf l2 = none := by
  exact ⟨_, rfl, by decide +kernel, utf8 (c! "exten => _[\t\n\x0b],1,NoOp()\n"), utf8 (c! "exten => _[\t\n"),
    utf8 (c! "\x0b],1,NoOp()\n"), by decide +kernel, by decide +kernel, by decide +kernel, by decide +kernel, by decide +kernel⟩

/-- An escaped semicolon in the pattern: nothing is changed, although reported. -/
theorem C65_violated_escape : ∃ vals, parse (c! "_x;") = .ok vals ∧ isCanonical (c! "_x;") vals = false ∧
    stepOf (utf8 (c! "exten => _x\\;,1,NoOp()\n")) = some (some (c! "_x;"), c! "1,NoOp()") ∧
    canonOut (utf8 (c! "_x;")) (utf8 (canonical vals)) (utf8 (c! "exten => _x\\;,1,NoOp()\n")) =
      ([utf8 (c! "exten => _x\\;,1,NoOp()\n")], none) := by
  exact ⟨_, rfl, by decide +kernel, by decide +kernel, by decide +kernel⟩

/-- A line in cp1252: nothing is changed, although reported. -/
theorem C65_violated_cp1252 :
    let line := asciiBytes (c! "exten => _x") ++ [0xe9] ++ asciiBytes (c! ",1,NoOp()\n")
    ∃ vals, parse (c! "_xé") = .ok vals ∧ isCanonical (c! "_xé") vals = false ∧
    stepOf line = some (some (c! "_xé"), c! "1,NoOp()") ∧
    canonOut (utf8 (c! "_xé")) (utf8 (canonical vals)) line = ([line], none) := by
  exact ⟨_, rfl, by decide +kernel, by decide +kernel, by decide +kernel⟩

/-- The meaning changes: `_[_]5` for the extension `_5` becomes `_5` for the extension `5`. -/
theorem C65_violated_meaning : ∃ vals vals', parse (c! "_[_]5") = .ok vals ∧ isCanonical (c! "_[_]5") vals = false ∧
    (∃ new, canonOut (utf8 (c! "_[_]5")) (utf8 (canonical vals)) (utf8 (c! "exten => _[_]5,1,NoOp()\n")) = ([new], none) ∧
      stepOf new = some (some (c! "_5"), c! "1,NoOp()")) ∧ parse (c! "_5") = .ok vals' ∧ matchesSame vals vals' = false := by
  exact ⟨_, _, rfl, by decide +kernel, ⟨utf8 (c! "exten => _5,1,NoOp()\n"), by decide +kernel, by decide +kernel⟩, rfl, by decide +kernel⟩

end ALint.Props
