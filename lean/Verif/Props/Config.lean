import Verif.Proofs.Config
import Verif.Proofs.Fileformat
import Verif.Proofs.Comment

/-!
# C11–C15: lines, assignments, headers, preprocessor
-/

namespace ALint.Props
open ALint ALint.Spec

/-! ## C11 -/

/-- C11: a line is read as a header iff it has header shape: `[name]`, or `[name](c)`
with a single character that is neither `)` nor `+`. -/
theorem C11_header (data i n t : Str) :
    readLine data = some (.header i n t) ↔
      (IsHeader data i n ∧ t = []) ∨ ∃ c, IsTemplate data i n c ∧ t = [c] :=
  readLine_header data i n t

/-- C11: it is read as an assignment iff it has no header shape and the shape
`key = value` or `key => value`, cut at the first `=`. -/
theorem C11_assign (data k sep v : Str) :
    readLine data = some (.assign k sep v) ↔
      ¬ SomeHeader data ∧ (IsAssign data k sep v true ∨ IsAssign data k sep v false) :=
  readLine_assign data k sep v

/-- C11: it is blank iff it consists of white space. -/
theorem C11_blank (data : Str) : readLine data = some .blank ↔ Spaces data := readLine_blank data

/-- C11: it goes to the preprocessor iff it has no header shape, no `=` and is not
blank. -/
theorem C11_other (data : Str) :
    readLine data = none ↔ ¬ SomeHeader data ∧ '=' ∉ data ∧ ¬ Spaces data := readLine_none data

/-- C11: the shapes exclude each other and fix the parts, since the reading is a
function of the line: here for assignments. -/
theorem C11_parts_unique (data k sep v k' sep' v' : Str) (a a' : Bool)
    (h : IsAssign data k sep v a) (h' : IsAssign data k' sep' v' a') :
    k = k' ∧ sep = sep' ∧ v = v' ∧ a = a' := by
  have key : ∀ {k sep v : Str} {k' sep' v' : Str}, IsAssign data k sep v true →
      ¬ IsAssign data k' sep' v' false := by
    intro k sep v k' sep' v' h h'
    have h1 := (reArrow_iff _ _ _ _).2 h
    have h2 := ((reEquals_iff _ _ _ _).2 h').1
    rw [h1] at h2; simp at h2
  cases a <;> cases a'
  · have h1 := ((reEquals_iff _ _ _ _).2 h).2
    have h2 := ((reEquals_iff _ _ _ _).2 h').2
    rw [h1] at h2
    simp at h2
    exact ⟨h2.1, h2.2.1, h2.2.2, rfl⟩
  · exact absurd h (key h')
  · exact absurd h' (key h)
  · have h1 := (reArrow_iff _ _ _ _).2 h
    have h2 := (reArrow_iff _ _ _ _).2 h'
    rw [h1] at h2
    simp at h2
    exact ⟨h2.1, h2.2.1, h2.2.2, rfl⟩

/-- C11: what the parser yields: a header gives a context of that name, an assignment
a variable, a blank line an empty line; other lines starting with `#` go to the
preprocessor, the rest are bad lines. -/
theorem C11_elements (w : Where) (data comment : Str) :
    (∀ i n, IsHeader data i n →
      (parserStage w data comment).2 = .elem (.ctx ⟨n, [], !comment.isEmpty, w⟩)) ∧
    (∀ i n c, IsTemplate data i n c →
      (parserStage w data comment).2 = .elem (.ctx ⟨n, [c], !comment.isEmpty, w⟩)) ∧
    (∀ k sep v a, ¬ SomeHeader data → IsAssign data k sep v a →
      (parserStage w data comment).2 =
        .elem (.var ⟨lstripP isBlank k, v, a, !comment.isEmpty, w⟩)) ∧
    (Spaces data → parserStage w data comment = ([], .elem (.empty (!comment.isEmpty) w))) ∧
    (¬ SomeHeader data → '=' ∉ data → ¬ Spaces data →
      ∃ p, (parserStage w data comment).2 = .pp p) := by
  refine ⟨?_, ?_, ?_, ?_, ?_⟩
  · intro i n h
    have hr := (readLine_header data i n []).2 (.inl ⟨h, rfl⟩)
    simp only [parserStage, hr, mkElem]
  · intro i n c h
    have hr := (readLine_header data i n [c]).2 (.inr ⟨c, h, rfl⟩)
    simp only [parserStage, hr, mkElem]
  · intro k sep v a hn h
    have hr := (readLine_assign data k sep v).2 ⟨hn, by cases a <;> simp [h]⟩
    simp only [parserStage, hr, mkElem]
    obtain ⟨⟨s1, s2, h1, h2, rfl, _, _⟩, _, _, _⟩ := h
    have clean : stripP isSpace (s1 ++ (if a then c! "=>" else c! "=") ++ s2) =
        if a then c! "=>" else c! "=" := by
      rw [stripP, rstripP_append isSpace _ s2 h2, lstripP_append isSpace s1 _ h1]
      · cases a <;> simp [eq_not_space]
      · intro c hc
        cases a
        · rw [show (s1 ++ if false = true then c! "=>" else c! "=") = s1 ++ ['='] by simp,
            List.getLast?_concat] at hc
          cases hc; exact eq_not_space
        · rw [show (s1 ++ if true = true then c! "=>" else c! "=") = (s1 ++ ['=']) ++ ['>'] by simp,
            List.getLast?_concat] at hc
          cases hc; exact gt_not_space
    rw [clean]
    have lead : (if startsBlank k = true then lstripP isBlank k else k) = lstripP isBlank k := by
      cases k with
      | nil => rfl
      | cons c k =>
        cases hc : isBlank c with
        | true => simp [startsBlank, hc]
        | false => simp [startsBlank, hc, lstripP]
    rw [lead]
    cases a <;> rfl
  · intro h
    simp only [parserStage, (readLine_blank data).2 h, mkElem]
  · intro h1 h2 h3
    simp only [parserStage, (readLine_none data).2 ⟨h1, h2, h3⟩]
    split
    · exact ⟨_, rfl⟩
    · exact ⟨_, rfl⟩

example : IsHeader (c! " [default]") (c! " ") (c! "default") := ⟨rfl, by decide, by decide⟩
example : IsTemplate (c! "[a] (!)") [] (c! "a") '!' := ⟨⟨c! " ", by decide, rfl⟩, by decide, by decide, by decide⟩
example : IsAssign (c! "exten => 1,1,Set(a=b)") (c! "exten") (c! " => ") (c! "1,1,Set(a=b)") true :=
  ⟨⟨c! " ", c! " ", by decide, by decide, rfl, rfl, by simp⟩, by decide,
    (noTrail_iff _).2 (by simp; decide), (noLead_iff _).2 (by simp; decide)⟩
example : readLine (c! "#include \"x\"") = none := by decide
example : readLine (c! "[a=b]") = some (.header [] (c! "a=b") []) := by decide

/-! ## C12 -/

/-- C12: `name => value` is read back, with no hint in the canonical spelling and one
W_WSH_OBJSET for any other white space around the arrow. -/
theorem C12_arrow (w : Where) (comment name s1 s2 value : Str) (h1 : Spaces s1) (h2 : Spaces s2)
    (hn : '=' ∉ name) (hl : NoLead name) (ht : NoTrail name) (hv : NoLead value)
    (hh : ¬ SomeHeader (name ++ s1 ++ c! "=>" ++ s2 ++ value)) :
    parserStage w (name ++ s1 ++ c! "=>" ++ s2 ++ value) comment =
      (if s1 = c! " " ∧ s2 = c! " " then [] else [⟨.W_WSH_OBJSET, w, [], none⟩],
        .elem (.var ⟨name, value, true, !comment.isEmpty, w⟩)) := by
  have ha : IsAssign (name ++ s1 ++ c! "=>" ++ s2 ++ value) name (s1 ++ c! "=>" ++ s2) value true :=
    ⟨⟨s1, s2, h1, h2, by simp, by simp, by simp⟩, hn, ht, hv⟩
  have hr := (readLine_assign _ _ _ _).2 ⟨hh, .inl ha⟩
  simp only [parserStage, hr, mkElem]
  have clean : stripP isSpace (s1 ++ c! "=>" ++ s2) = c! "=>" := by
    rw [stripP, rstripP_append isSpace _ s2 h2 (by simp; exact gt_not_space),
      lstripP_append isSpace s1 _ h1 (by simp; exact eq_not_space)]
  have sep : (s1 ++ c! "=>" ++ s2 ≠ c! " => ") ↔ ¬ (s1 = c! " " ∧ s2 = c! " ") := by
    constructor
    · rintro h ⟨rfl, rfl⟩; exact h rfl
    · intro h e
      apply h
      have hs := splitOnce_append (c := '=') (a := s1) (b := '>' :: s2) (eq_not_mem_spaces h1)
      have e2 : s1 ++ '=' :: '>' :: s2 = c! " => " := by rw [← e]; simp
      rw [e2] at hs
      have : splitOnce '=' (c! " => ") = some (c! " ", c! "> ") := by decide
      rw [this] at hs
      simp at hs
      exact ⟨hs.1.symm, hs.2.symm⟩
  have lead : startsBlank name = false := by
    cases name with
    | nil => rfl
    | cons c r =>
      have := hl c r rfl
      simp only [startsBlank]
      cases hb : isBlank c with
      | false => rfl
      | true =>
        simp [isBlank] at hb
        rcases hb with rfl | rfl <;> simp [isSpace] at this
  rw [clean]
  simp only [lead]
  by_cases hc : s1 = c! " " ∧ s2 = c! " "
  · simp [hc]
  · simp only [if_neg hc, if_pos (sep.2 hc)]
    simp

/-- C12: `name=value` likewise; the canonical spelling has no white space.  Without
white space after the `=` the value must not start with `>`. -/
theorem C12_equals (w : Where) (comment name s1 s2 value : Str) (h1 : Spaces s1) (h2 : Spaces s2)
    (hn : '=' ∉ name) (hl : NoLead name) (ht : NoTrail name) (hv : NoLead value)
    (hg : s2 = [] → value.head? ≠ some '>')
    (hh : ¬ SomeHeader (name ++ s1 ++ c! "=" ++ s2 ++ value)) :
    parserStage w (name ++ s1 ++ c! "=" ++ s2 ++ value) comment =
      (if s1 = [] ∧ s2 = [] then [] else [⟨.W_WSH_VARSET, w, [], none⟩],
        .elem (.var ⟨name, value, false, !comment.isEmpty, w⟩)) := by
  have ha : IsAssign (name ++ s1 ++ c! "=" ++ s2 ++ value) name (s1 ++ c! "=" ++ s2) value false :=
    ⟨⟨s1, s2, h1, h2, by simp, by simp, fun _ => hg⟩, hn, ht, hv⟩
  have hr := (readLine_assign _ _ _ _).2 ⟨hh, .inr ha⟩
  simp only [parserStage, hr, mkElem]
  have clean : stripP isSpace (s1 ++ c! "=" ++ s2) = c! "=" := by
    rw [stripP, rstripP_append isSpace _ s2 h2 (by simp; exact eq_not_space),
      lstripP_append isSpace s1 _ h1 (by simp; exact eq_not_space)]
  have sep : (s1 ++ c! "=" ++ s2 ≠ c! "=") ↔ ¬ (s1 = [] ∧ s2 = []) := by
    constructor
    · rintro h ⟨rfl, rfl⟩; exact h rfl
    · intro h e
      apply h
      have := congrArg List.length e
      simp at this
      exact ⟨List.length_eq_zero_iff.1 (by omega), List.length_eq_zero_iff.1 (by omega)⟩
  have lead : startsBlank name = false := by
    cases name with
    | nil => rfl
    | cons c r =>
      have := hl c r rfl
      simp only [startsBlank]
      cases hb : isBlank c with
      | false => rfl
      | true =>
        simp [isBlank] at hb
        rcases hb with rfl | rfl <;> simp [isSpace] at this
  rw [clean]
  simp only [lead]
  by_cases hc : s1 = [] ∧ s2 = []
  · obtain ⟨rfl, rfl⟩ := hc
    simp
  · simp only [if_neg hc, if_pos (sep.2 hc)]
    simp

/-- A name that does not start with a bracket keeps the line from being a header. -/
theorem C12_not_header (name rest : Str) (hl : NoLead name) (h0 : name ≠ []) (hb : name.head? ≠ some '[') :
    ¬ SomeHeader (name ++ rest) := by
  obtain ⟨c, r, rfl⟩ := List.exists_cons_of_ne_nil h0
  have hc := hl c r rfl
  have key : ∀ i x, Spaces i → (c :: r) ++ rest = i ++ '[' :: x → False := by
    intro i x hi e
    cases i with
    | nil => simp at e; simp [e.1] at hb
    | cons y ys =>
      simp at e
      have := hi y (by simp)
      rw [← e.1, hc] at this
      simp at this
  rintro (⟨i, n, h⟩ | ⟨i, n, d, ⟨gap, _, e⟩, hi, _⟩)
  · exact key i _ h.indent (by rw [h.shape]; simp; rfl)
  · exact key i _ hi (by rw [e]; simp; rfl)

example : parserStage ⟨[], 1, []⟩ (c! "exten => 1,1,Set(a=>b)") [] =
  ([], .elem (.var ⟨c! "exten", c! "1,1,Set(a=>b)", true, false, ⟨[], 1, []⟩⟩)) := by decide
example : parserStage ⟨[], 1, []⟩ (c! "a =b") (c! ";x") =
  ([⟨.W_WSH_VARSET, ⟨[], 1, []⟩, [], none⟩], .elem (.var ⟨c! "a", c! "b", false, true, ⟨[], 1, []⟩⟩)) := by
  decide

/-! ## C13 -/

/-- C13 fails for every options text of two or more characters: the line is reported
as a bad line and no context is opened (so what follows is added to the context
before it). -/
theorem C13_violated (w : Where) (comment name opts : Str) (hn : ']' ∉ name) (hlen : 2 ≤ opts.length)
    (he : '=' ∉ name ∧ '=' ∉ opts) :
    parserStage w ('[' :: name ++ ']' :: '(' :: opts ++ [')']) comment =
      ([⟨.E_CONF_BAD_LINE, w,
        [(c! "startswith", .one (.str (('[' :: name ++ ']' :: '(' :: opts ++ [')']).take 16)))], none⟩],
        .pp .nothing) := by
  have hnone : readLine ('[' :: name ++ ']' :: '(' :: opts ++ [')']) = none := by
    rw [readLine_none]
    refine ⟨?_, by simp [he.1, he.2], ?_⟩
    · have first : ∀ i x, Spaces i → '[' :: name ++ ']' :: '(' :: opts ++ [')'] = i ++ '[' :: x →
          name ++ ']' :: '(' :: opts ++ [')'] = x := by
        intro i x hi e
        cases i with
        | nil => simpa using e
        | cons y ys =>
          simp at e
          have := hi y (by simp)
          rw [← e.1] at this
          exact absurd this (by decide)
      have second : ∀ n x, ']' ∉ n → name ++ ']' :: '(' :: opts ++ [')'] = n ++ ']' :: x →
          '(' :: opts ++ [')'] = x := by
        intro n x hn' e
        have e1 := splitOnce_append (c := ']') (a := name) (b := '(' :: opts ++ [')']) hn
        have e2 := splitOnce_append (c := ']') (a := n) (b := x) hn'
        rw [← e] at e2
        rw [show name ++ ']' :: '(' :: opts ++ [')'] = name ++ ']' :: ('(' :: opts ++ [')']) by simp, e1] at e2
        simp at e2
        simpa using e2.2
      rintro (⟨i, n, h⟩ | ⟨i, n, d, ⟨gap, hg, e⟩, hi, hn', _⟩)
      · have e1 := first i (n ++ [']']) h.indent (by rw [h.shape]; simp)
        have := second n [] h.name (by rw [e1])
        simp at this
      · have e1 := first i (n ++ ']' :: gap ++ ['(', d, ')']) hi (by rw [e]; simp)
        have e2 := second n (gap ++ ['(', d, ')']) hn' (by rw [e1]; simp)
        cases gap with
        | nil =>
          have := congrArg List.length e2
          simp at this
          omega
        | cons y ys =>
          simp at e2
          have := hg y (by simp)
          rw [← e2.1] at this
          exact absurd this (by decide)
    · intro h
      exact absurd (h '[' (by simp)) (by decide)
  have hs : lstripP isSpace ('[' :: name ++ ']' :: '(' :: opts ++ [')']) =
      '[' :: name ++ ']' :: '(' :: opts ++ [')'] := by
    apply lstripP_self
    simp; decide
  simp only [parserStage, hnone, hs]
  simp

/-- C13 with a single option character other than `)` and `+`: the context carries
it (and I_NOTIMPL_TEMPLATES is issued). -/
theorem C13_single_partial (w : Where) (comment name gap : Str) (c : Char) (hn : ']' ∉ name)
    (hg : Spaces gap) (hc : c ≠ ')' ∧ c ≠ '+') :
    parserStage w ('[' :: name ++ ']' :: gap ++ ['(', c, ')']) comment =
      ([⟨.I_NOTIMPL_TEMPLATES, w, [], none⟩], .elem (.ctx ⟨name, [c], !comment.isEmpty, w⟩)) := by
  have hr := (readLine_header ('[' :: name ++ ']' :: gap ++ ['(', c, ')']) [] name [c]).2
    (.inr ⟨c, ⟨⟨gap, hg, by simp⟩, by simp [Spaces], hn, hc⟩, rfl⟩)
  simp only [parserStage, hr, mkElem]
  simp

example : parserStage ⟨[], 1, []⟩ (c! "[foo](!)") [] =
  ([⟨.I_NOTIMPL_TEMPLATES, ⟨[], 1, []⟩, [], none⟩], .elem (.ctx ⟨c! "foo", c! "!", false, ⟨[], 1, []⟩⟩)) := by
  decide
-- `[foo](bar)` satisfies the hypotheses of C13_violated
example : ']' ∉ c! "foo" ∧ 2 ≤ (c! "bar").length ∧ '=' ∉ c! "foo" ∧ '=' ∉ c! "bar" := by decide

/-! ## C14 -/

/-- A directive line is not a header, an assignment or blank. -/
theorem directive_reads (indent rest : Str) (hi : Spaces indent) (he : '=' ∉ rest) :
    readLine (indent ++ '#' :: rest) = none := by
  rw [readLine_none]
  have key : ∀ i x, Spaces i → indent ++ '#' :: rest = i ++ '[' :: x → False := by
    intro i x hi' e
    have h1 := lstripP_append isSpace indent ('#' :: rest) hi (by simp; decide)
    have h2 := strip_bracket i x hi'
    rw [e, h2] at h1
    simp at h1
  refine ⟨?_, ?_, ?_⟩
  · rintro (⟨i, n, h⟩ | ⟨i, n, d, ⟨gap, _, e⟩, hi', _⟩)
    · exact key i _ h.indent (by rw [h.shape]; simp; rfl)
    · exact key i _ hi' (by rw [e]; simp; rfl)
  · simp [he, eq_not_mem_spaces hi]
  · intro h; exact absurd (h '#' (by simp)) (by decide)

theorem ppUnquote_quoted {name q : Str} (h : Quoted name q) : ppUnquote q = (false, name) := by
  cases h with
  | double =>
    have : ('"' :: name ++ ['"']).getLast? = some '"' := by rw [List.getLast?_concat]
    simp only [ppUnquote, this]
    simp
  | angle =>
    have : ('<' :: name ++ ['>']).getLast? = some '>' := by rw [List.getLast?_concat]
    simp only [ppUnquote, this]
    simp
  | bare h0 h1 h2 =>
    simp only [ppUnquote]
    cases hh : name.head? with
    | none => rfl
    | some a =>
      cases hl : name.getLast? with
      | none => rfl
      | some z =>
        obtain ⟨a1, a2, _⟩ := h1 a hh
        obtain ⟨z1, z2⟩ := h2 z hl
        simp [a1, a2, z1, z2]

theorem quoted_head {name q : Str} (h : Quoted name q) : q ≠ [] ∧ ∀ c, q.head? = some c → isLowCtl c = false := by
  cases h with
  | double => exact ⟨by simp, by simp; decide⟩
  | angle => exact ⟨by simp, by simp; decide⟩
  | bare h0 h1 h2 =>
    refine ⟨h0, fun c hc => ?_⟩
    have := (h1 c hc).2.2
    simp [isLowCtl]; omega

/-- C14: `#include name` and `#tryinclude name`, the name bare, in double quotes or in
angle brackets and separated by characters up to the space, open that name in the
directory of the including file. -/
theorem C14_opens (w : Where) (comment indent sep name q : Str) (must : Bool)
    (hi : Spaces indent) (hs0 : sep ≠ []) (hs : ∀ c ∈ sep, c.toNat ≤ 32) (hq : Quoted name q)
    (he : '=' ∉ q) :
    ∃ ms, parserStage w (indent ++ (if must then c! "#include" else c! "#tryinclude") ++ sep ++ q) comment =
      (ms, .pp (.open_ (pathJoin (dirname w.filename) name) must name)) ∧
      (indent = [] → ((∀ c ∈ sep, c = ' ') ∨ ∀ c ∈ sep, c = '\t') → ms = []) := by
  have hsep : '=' ∉ sep := fun hm => absurd (hs _ hm) (by decide)
  have hlow : ∀ c ∈ sep, isLowCtl c = true := fun c hc => by simpa [isLowCtl] using hs c hc
  obtain ⟨q0, q1⟩ := quoted_head hq
  obtain ⟨s0, ss, rfl⟩ := List.exists_cons_of_ne_nil hs0
  have hnotall : (s0 :: ss ++ q).all isLowCtl = false := by
    rw [← Bool.not_eq_true, List.all_eq_true]
    intro h
    obtain ⟨x, xs, rfl⟩ := List.exists_cons_of_ne_nil q0
    have := q1 x rfl
    rw [h x (by simp)] at this
    simp at this
  have htw : (s0 :: ss ++ q).takeWhile isLowCtl = s0 :: ss := takeWhile_append_stop _ _ _ hlow q1
  have hdw : (s0 :: ss ++ q).dropWhile isLowCtl = q := lstripP_append _ _ _ hlow q1
  have key : ∀ (cmd : Str) (tl : Str), cmd = '#' :: tl → '=' ∉ tl →
      ppCommand (cmd ++ (s0 :: ss ++ q)) = some (cmd, s0 :: ss ++ q) → cmd ≠ c! "#exec" →
      decide (cmd = c! "#include") = must →
      ∃ ms, parserStage w (indent ++ cmd ++ (s0 :: ss) ++ q) comment =
        (ms, .pp (.open_ (pathJoin (dirname w.filename) name) must name)) ∧
        (indent = [] → ((∀ c ∈ s0 :: ss, c = ' ') ∨ ∀ c ∈ s0 :: ss, c = '\t') → ms = []) := by
    intro cmd tl hcmd htl hpp hex hinc
    have e : indent ++ cmd ++ (s0 :: ss) ++ q = indent ++ '#' :: (tl ++ (s0 :: ss) ++ q) := by
      rw [hcmd]; simp
    have e' : '#' :: (tl ++ (s0 :: ss) ++ q) = cmd ++ (s0 :: ss ++ q) := by rw [hcmd]; simp
    have hnone := directive_reads indent (tl ++ (s0 :: ss) ++ q) hi (by
      rw [List.mem_append, List.mem_append, not_or, not_or]
      exact ⟨⟨htl, hsep⟩, he⟩)
    have hstrip : lstripP isSpace (indent ++ '#' :: (tl ++ (s0 :: ss) ++ q)) = cmd ++ (s0 :: ss ++ q) := by
      rw [lstripP_append isSpace indent _ hi (by simp; decide), e']
    have hhead : (cmd ++ (s0 :: ss ++ q)).head? = some '#' := by rw [hcmd]; rfl
    rw [e]
    simp only [parserStage, hnone, preprocessor, hstrip, hhead, hpp, if_true]
    simp only [List.cons_append]
    simp only [hlow s0 (by simp), Bool.not_true, Bool.false_eq_true, if_false]
    simp only [← List.cons_append]
    simp only [hnotall, hdw, htw, ppUnquote_quoted hq, hinc]
    rw [if_neg (by simp), if_neg hex]
    refine ⟨_, rfl, ?_⟩
    rintro rfl hbl
    have hlen : ([] ++ ('#' :: tl ++ (s0 :: ss) ++ q)).length = (cmd ++ (s0 :: ss ++ q)).length := by
      rw [List.nil_append, hcmd]; simp
    simp only [if_pos hlen.symm]
    have hb : (!(s0 :: ss).all (· = ' ') && !(s0 :: ss).all (· = '\t')) = false := by
      rcases hbl with h | h
      · have : (s0 :: ss).all (· = ' ') = true := by simpa using h
        rw [this]; rfl
      · have : (s0 :: ss).all (· = '\t') = true := by simpa using h
        rw [this]; simp
    rw [hb]
    rfl
  cases must with
  | true =>
    refine key (c! "#include") (c! "include") rfl (by decide) ?_ (by decide) (by decide)
    simp [ppCommand, List.isPrefixOf]
  | false =>
    refine key (c! "#tryinclude") (c! "tryinclude") rfl (by decide) ?_ (by decide) (by decide)
    simp [ppCommand, List.isPrefixOf]

/-- C14: an absolute name is opened as it is. -/
theorem C14_absolute (file name : Str) : pathJoin (dirname file) ('/' :: name) = '/' :: name := rfl

/-- C14: a relative name is looked up in the directory part of the including file. -/
theorem C14_relative (dir base name : Str) (hb : '/' ∉ base) (hn : name.head? ≠ some '/')
    (h0 : dir ≠ []) (hd : dir.getLast? ≠ some '/') :
    pathJoin (dirname (dir ++ '/' :: base)) name = dir ++ '/' :: name := by
  have hdir : dirname (dir ++ '/' :: base) = dir := by
    have hdrop : ((dir ++ '/' :: base).reverse.dropWhile (· ≠ '/')).reverse = dir ++ ['/'] := by
      have e : (dir ++ '/' :: base).reverse = base.reverse ++ '/' :: dir.reverse := by simp
      rw [e]
      have := lstripP_append (fun c => decide (c ≠ '/')) base.reverse ('/' :: dir.reverse)
        (by intro c hc; simp at hc ⊢; rintro rfl; exact hb hc) (by simp)
      rw [lstripP] at this
      rw [this]
      simp
    simp only [dirname, hdrop]
    rw [if_neg]
    · exact rstripP_append _ dir ['/'] (by simp) (by
        intro c hc
        simp
        rintro rfl
        exact hd hc)
    · simp only [List.all_append, Bool.and_eq_true, List.all_eq_true, decide_eq_true_eq, not_and]
      intro h
      obtain ⟨c, hc⟩ : ∃ c, dir.getLast? = some c := by
        cases hl : dir.getLast? with
        | none => simp at hl; exact absurd hl h0
        | some c => exact ⟨c, rfl⟩
      have := h c (List.mem_of_getLast? hc)
      subst this
      exact absurd hc hd
  rw [hdir]
  simp only [pathJoin]
  split
  · simp at hn
  · split
    · rename_i hl; simp at hl; exact absurd hl h0
    · rename_i hl; exact absurd hl hd
    · rfl

/-- C14: if the including file has no directory part, the name is opened as it is. -/
theorem C14_no_directory (file name : Str) (hf : '/' ∉ file) : pathJoin (dirname file) name = name := by
  have hd : dirname file = [] := by
    have hdrop : (file.reverse.dropWhile (· ≠ '/')) = [] := by
      have : ∀ (l : Str), (∀ c ∈ l, decide (c ≠ '/') = true) → l.dropWhile (fun c => decide (c ≠ '/')) = [] := by
        intro l
        induction l with
        | nil => intro _; rfl
        | cons x xs ih =>
          intro h
          rw [List.dropWhile_cons_of_pos (p := fun c => decide (c ≠ '/')) (h x (by simp))]
          exact ih (fun c hc => h c (by simp [hc]))
      apply this
      intro c hc
      simp at hc ⊢
      rintro rfl; exact hf hc
    simp only [dirname, hdrop]
    rfl
  rw [hd]
  simp only [pathJoin]
  split <;> rfl

/-- The directory of a file in the root directory is `/`. -/
theorem C14_root_directory (base name : Str) (hb : '/' ∉ base) (hn : name.head? ≠ some '/') :
    pathJoin (dirname ('/' :: base)) name = '/' :: name := by
  have hd : dirname ('/' :: base) = c! "/" := by
    have hdrop : ((('/' :: base).reverse).dropWhile (· ≠ '/')).reverse = c! "/" := by
      have e : ('/' :: base).reverse = base.reverse ++ ['/'] := by simp
      rw [e]
      have := lstripP_append (fun c => decide (c ≠ '/')) base.reverse ['/']
        (by intro c hc; simp at hc ⊢; rintro rfl; exact hb hc) (by simp)
      rw [lstripP] at this
      rw [this]
      rfl
    simp only [dirname, hdrop]
    rfl
  rw [hd]
  simp only [pathJoin]
  split
  · simp at hn
  · rfl

/-- C14: a directive not followed by a separator, or with nothing after it, is a bad
line and opens nothing. -/
theorem C14_bad (w : Where) (comment rest : Str) (cmd : Str)
    (hc : cmd = c! "#include" ∨ cmd = c! "#tryinclude" ∨ cmd = c! "#exec")
    (hr : (∃ c r, rest = c :: r ∧ 32 < c.toNat) ∨ (∀ c ∈ rest, c.toNat ≤ 32)) (he : '=' ∉ rest) :
    parserStage w (cmd ++ rest) comment =
      ([⟨.E_CONF_BAD_LINE, w, [(c! "startswith", .one (.str ((cmd ++ rest).take 16)))], none⟩],
        .pp .nothing) := by
  have hcmd : ∃ tl, cmd = '#' :: tl ∧ '=' ∉ tl := by
    rcases hc with rfl | rfl | rfl
    · exact ⟨c! "include", rfl, by decide⟩
    · exact ⟨c! "tryinclude", rfl, by decide⟩
    · exact ⟨c! "exec", rfl, by decide⟩
  obtain ⟨tl, htl, htl2⟩ := hcmd
  have hnone : readLine (cmd ++ rest) = none := by
    have := directive_reads [] (tl ++ rest) (by simp [Spaces]) (by simp [htl2, he])
    rw [htl]; exact this
  have hpp : ppCommand (cmd ++ rest) = some (cmd, rest) := by
    rcases hc with rfl | rfl | rfl <;> simp [ppCommand, List.isPrefixOf]
  have hstrip : lstripP isSpace (cmd ++ rest) = cmd ++ rest := by
    apply lstripP_self
    rw [htl]; simp; decide
  have hhead : (cmd ++ rest).head? = some '#' := by rw [htl]; rfl
  simp only [parserStage, hnone, hstrip, hhead, if_true, preprocessor, hpp]
  cases rest with
  | nil => simp
  | cons r0 r =>
    simp only
    rcases hr with ⟨c, r', h1, h2⟩ | h
    · simp at h1
      obtain ⟨rfl, rfl⟩ := h1
      have : isLowCtl r0 = false := by simp [isLowCtl]; omega
      simp [this]
    · have h0 : isLowCtl r0 = true := by simpa [isLowCtl] using h r0 (by simp)
      have hall : (r0 :: r).all isLowCtl = true := by
        rw [List.all_eq_true]
        intro c hc; simpa [isLowCtl] using h c hc
      simp [h0, hall]

/-- C14: only include directives open a file: if a line opens one, it starts (after
white space) with `#include` or `#tryinclude`.  In particular `#exec` never does. -/
theorem C14_only_includes (w : Where) (data comment path name : Str) (must : Bool)
    (h : (parserStage w data comment).2 = .pp (.open_ path must name)) :
    ∃ rest, lstripP isSpace data = (if must then c! "#include" else c! "#tryinclude") ++ rest := by
  simp only [parserStage] at h
  split at h
  · simp at h
  · split at h
    · simp only [LineOut.pp.injEq, preprocessor] at h
      cases hp : ppCommand (lstripP isSpace data) with
      | none => simp [hp] at h
      | some cr =>
        obtain ⟨cmd, rest⟩ := cr
        rw [hp] at h
        simp only at h
        split at h
        · simp at h
        · split at h
          · simp at h
          · split at h
            · simp at h
            · split at h
              · simp at h
              · rename_i hne
                simp at h
                obtain ⟨_, hm, _⟩ := h
                simp only [ppCommand] at hp
                split at hp
                · rename_i hpre
                  simp at hp
                  rw [List.isPrefixOf_iff_prefix] at hpre
                  obtain ⟨r, hr⟩ := hpre
                  have : cmd = c! "#include" := by rw [← hp.1, ← hr]; simp
                  refine ⟨r, ?_⟩
                  simp [this] at hm
                  simp [hm, ← hr]
                · split at hp
                  · rename_i hpre
                    simp at hp
                    rw [List.isPrefixOf_iff_prefix] at hpre
                    obtain ⟨r, hr⟩ := hpre
                    have : cmd = c! "#tryinclude" := by rw [← hp.1, ← hr]; simp
                    refine ⟨r, ?_⟩
                    simp [this] at hm
                    simp [hm, ← hr]
                  · split at hp
                    · rename_i hpre
                      simp at hp
                      rw [List.isPrefixOf_iff_prefix] at hpre
                      obtain ⟨r, hr⟩ := hpre
                      have : cmd = c! "#exec" := by rw [← hp.1, ← hr]; simp
                      exact absurd this hne
                    · simp at hp
    · simp at h

example : parserStage ⟨c! "/etc/asterisk/extensions.conf", 1, []⟩ (c! "#tryinclude <more/a b.conf>") [] =
  ([], .pp (.open_ (c! "/etc/asterisk/more/a b.conf") false (c! "more/a b.conf"))) := by decide
example : Quoted (c! "x.conf") (c! "x.conf") := .bare (by decide) (by simp) (by simp)
example : (parserStage ⟨c! "e", 1, []⟩ (c! "#exec /bin/true") []).2 = .pp .nothing := by decide

/-! ## C15 -/

/-- The number of W_PP_INCLUDE_MISSING among some messages. -/
def missing (ms : List Msg) : Nat := (ms.filter (fun m => decide (m.kind = .W_PP_INCLUDE_MISSING))).length

theorem missing_append (a b : List Msg) : missing (a ++ b) = missing a + missing b := by
  simp [missing]

theorem missing_popFileinfo (s : Option Str) (st : List FInfo) : missing (popFileinfo s st).1 = 0 := by
  induction st with
  | nil => rfl
  | cons i is ih =>
    simp only [popFileinfo]
    split
    · rfl
    · rw [missing_append, ih]
      simp only [ffPopMsgs]
      split <;> (try split) <;> rfl

theorem missing_ffStage (st : List FInfo) (w : Where) (data : Str) : missing (ffStage st w data).2.1 = 0 := by
  simp only [ffStage, missing_append]
  have h1 : missing (ffEnter st w).1 = 0 := by
    simp only [ffEnter]
    split
    · rfl
    · split
      · rfl
      · split
        · split <;> exact missing_popFileinfo _ _
        · rfl
  rw [h1, Nat.zero_add]
  cases (ffEnter st w).2.1 <;> simp only <;> split <;> split <;> rfl

theorem missing_fileStage (st : List FInfo) (w : Where) : missing (fileStage st w).1 = 0 := by
  have h1 : missing (encodingStage w).1 = 0 := by
    simp only [encodingStage]; split <;> rfl
  have h2 : ∀ d, missing (ctrlStage w d) = 0 := by
    intro d; simp only [ctrlStage]; split <;> rfl
  have h3 : ∀ d, missing (commentStage w d).1 = 0 := by
    intro d
    obtain ⟨bl, ht⟩ := trimmed_rstrip d
    rw [commentStage_eq w d _ bl ht, missing_append]
    split <;> split <;> rfl
  simp only [fileStage]
  split
  · exact h1
  · simp only [missing_append, h1, h2, h3, missing_ffStage]

theorem missing_parserStage (w : Where) (d c : Str) : missing (parserStage w d c).1 = 0 := by
  simp only [parserStage]
  split
  · rename_i r _
    cases r with
    | header b n t =>
      simp only [mkElem, missing_append]
      split <;> split <;> rfl
    | assign k s v =>
      simp only [mkElem, missing_append]
      have a1 : missing (if stripP isSpace s = c! "=>" then
          if s ≠ c! " => " then [⟨.W_WSH_OBJSET, w, [], none⟩] else []
        else if stripP isSpace s = c! "=" then
          if s ≠ c! "=" then [⟨.W_WSH_VARSET, w, [], none⟩] else []
        else []) = 0 := by
        split
        · split <;> rfl
        · split
          · split <;> rfl
          · rfl
      rw [a1, Nat.zero_add]
      generalize (startsBlank k && _) = b
      cases b <;> rfl
    | blank => rfl
  · split
    · have m0 : missing (if (lstripP isSpace d).length = d.length then [] else [⟨.W_WSH_BOL, w, [], none⟩]) = 0 := by
        split <;> rfl
      simp only [preprocessor]
      split
      · rw [missing_append, m0]; rfl
      · split
        · rw [missing_append, m0]; rfl
        · split
          · rw [missing_append, m0]; rfl
          · split
            · rw [missing_append, m0]; rfl
            · split
              · simp only [missing_append, m0]
                split <;> split <;> rfl
              · simp only [missing_append, m0]
                split <;> split <;> rfl
    · rfl

theorem open_missing (fs : FS) (ff : List FInfo) (frames : List Frame) (w : Where)
    (ff' : List FInfo) (data comment path name : Str) (must : Bool)
    (hf : (fileStage ff w).2 = .ok (ff', data, comment))
    (hp : (parserStage w data comment).2 = .pp (.open_ path must name))
    (hnul : ∀ c ∈ path, c.toNat ≠ 0) (hmiss : fs path = none) :
    (lineStep fs ff frames w).2 = .ok (⟨frames, ff'⟩, none) ∧
      missing (lineStep fs ff frames w).1 = (if must then 1 else 0) ∧
      (must = true → (lineStep fs ff frames w).1.getLast? =
        some ⟨.W_PP_INCLUDE_MISSING, w, [(c! "filename", .one (.str name))], none⟩) := by
  have hn : path.any (fun c => c.toNat = 0) = false := by
    rw [← Bool.not_eq_true]
    simp only [List.any_eq_true, decide_eq_true_eq, not_exists, not_and]
    exact hnul
  have hn' : path.any (fun c => decide (c.toNat = 0)) = false := hn
  have e : lineStep fs ff frames w =
      ((fileStage ff w).1 ++ (parserStage w data comment).1 ++
        (if must then [⟨.W_PP_INCLUDE_MISSING, w, [(c! "filename", .one (.str name))], none⟩] else []),
        .ok (⟨frames, ff'⟩, none)) := by
    simp only [lineStep, hf, hp, runPP, hn', hmiss]
    simp
  rw [e]
  refine ⟨rfl, ?_, ?_⟩
  · simp only [missing_append, missing_fileStage, missing_parserStage]
    cases must <;> rfl
  · rintro rfl
    simp

theorem open_present (fs : FS) (ff : List FInfo) (frames : List Frame) (w : Where)
    (ff' : List FInfo) (data comment path name : Str) (must : Bool) (content : Bytes)
    (hf : (fileStage ff w).2 = .ok (ff', data, comment))
    (hp : (parserStage w data comment).2 = .pp (.open_ path must name))
    (hnul : ∀ c ∈ path, c.toNat ≠ 0) (hfs : fs path = some content) :
    (lineStep fs ff frames w).2 = .ok (⟨openFrame path content :: frames, ff'⟩, none) ∧
      missing (lineStep fs ff frames w).1 = 0 := by
  have hn : path.any (fun c => decide (c.toNat = 0)) = false := by
    rw [← Bool.not_eq_true]
    simp only [List.any_eq_true, decide_eq_true_eq, not_exists, not_and]
    exact hnul
  have e : lineStep fs ff frames w =
      ((fileStage ff w).1 ++ (parserStage w data comment).1 ++ [],
        .ok (⟨openFrame path content :: frames, ff'⟩, none)) := by
    simp only [lineStep, hf, hp, runPP, hn, hfs]
    simp
  rw [e]
  refine ⟨rfl, ?_⟩
  simp only [missing_append, missing_fileStage, missing_parserStage]
  rfl

/-- C15, for names without NUL: if a directive line names a file that cannot be
opened, `#include` gives exactly one W_PP_INCLUDE_MISSING (the last message of the
line) and `#tryinclude` none; nothing is yielded, and reading goes on with the
files that were open before.  The line may be indented, the name bare or quoted. -/
theorem C15_missing_partial (fs : FS) (ff : List FInfo) (frames : List Frame) (w : Where)
    (ff' : List FInfo) (comment indent sep name q : Str) (must : Bool)
    (hf : (fileStage ff w).2 =
      .ok (ff', indent ++ (if must then c! "#include" else c! "#tryinclude") ++ sep ++ q, comment))
    (hi : Spaces indent) (hs0 : sep ≠ []) (hs : ∀ c ∈ sep, c.toNat ≤ 32) (hq : Quoted name q) (he : '=' ∉ q)
    (hnul : ∀ c ∈ pathJoin (dirname w.filename) name, c.toNat ≠ 0)
    (hmiss : fs (pathJoin (dirname w.filename) name) = none) :
    (lineStep fs ff frames w).2 = .ok (⟨frames, ff'⟩, none) ∧
      missing (lineStep fs ff frames w).1 = (if must then 1 else 0) ∧
      (must = true → (lineStep fs ff frames w).1.getLast? =
        some ⟨.W_PP_INCLUDE_MISSING, w, [(c! "filename", .one (.str name))], none⟩) := by
  obtain ⟨ms, h, _⟩ := C14_opens w comment indent sep name q must hi hs0 hs hq he
  exact open_missing fs ff frames w ff' _ comment _ name must hf (by rw [h]) hnul hmiss

/-- C15: an included file that can be opened is read next, with no such warning. -/
theorem C15_present (fs : FS) (ff : List FInfo) (frames : List Frame) (w : Where)
    (ff' : List FInfo) (comment indent sep name q : Str) (must : Bool) (content : Bytes)
    (hf : (fileStage ff w).2 =
      .ok (ff', indent ++ (if must then c! "#include" else c! "#tryinclude") ++ sep ++ q, comment))
    (hi : Spaces indent) (hs0 : sep ≠ []) (hs : ∀ c ∈ sep, c.toNat ≤ 32) (hq : Quoted name q) (he : '=' ∉ q)
    (hnul : ∀ c ∈ pathJoin (dirname w.filename) name, c.toNat ≠ 0)
    (hfs : fs (pathJoin (dirname w.filename) name) = some content) :
    (lineStep fs ff frames w).2 =
        .ok (⟨openFrame (pathJoin (dirname w.filename) name) content :: frames, ff'⟩, none) ∧
      missing (lineStep fs ff frames w).1 = 0 := by
  obtain ⟨ms, h, _⟩ := C14_opens w comment indent sep name q must hi hs0 hs hq he
  exact open_present fs ff frames w ff' _ comment _ name must content hf (by rw [h]) hnul hfs

/-- C15 fails for a name with a NUL character: no file has such a name, and the run
aborts with ValueError instead of warning. -/
theorem C15_violated (fs : FS) : ∃ w : Where,
    (lineStep fs [] [] w).2 = .error .valueError ∧ missing (lineStep fs [] [] w).1 = 0 := by
  refine ⟨⟨c! "f", 1, utf8 (c! "#tryinclude a\x00b\n")⟩, ?_, ?_⟩
  · rfl
  · rfl

example : (lineStep (fun _ => none) [] [] ⟨c! "d/f", 3, utf8 (c! "#include \"x\"\n")⟩).1 =
    [⟨.W_PP_INCLUDE_MISSING, ⟨c! "d/f", 3, utf8 (c! "#include \"x\"\n")⟩,
      [(c! "filename", .one (.str (c! "x")))], none⟩] := by decide

end ALint.Props
