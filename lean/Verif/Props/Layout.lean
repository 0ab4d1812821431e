import Verif.Props.Config
import Verif.Spec.LineLog

/-!
# C71: what is said about the layout of a line
-/

namespace ALint.Props
open ALint ALint.Spec

/-- At most one message, if the condition holds. -/
def Said (p : Prop) (m : Msg) (ms : List Msg) : Prop := (p ∧ ms = [m]) ∨ (¬ p ∧ ms = [])

theorem said_ite (p : Prop) [Decidable p] (m : Msg) : Said p m (if p then [m] else []) := by
  by_cases h : p
  · exact .inl ⟨h, if_pos h⟩
  · exact .inr ⟨h, if_neg h⟩

theorem said_congr {p q : Prop} {m : Msg} {ms : List Msg} (h : Said p m ms) (e : p ↔ q) : Said q m ms := by
  rcases h with ⟨h1, h2⟩ | ⟨h1, h2⟩
  · exact .inl ⟨e.1 h1, h2⟩
  · exact .inr ⟨fun h => h1 (e.2 h), h2⟩

theorem clean_sep {s1 s2 : Str} (h1 : Spaces s1) (h2 : Spaces s2) (arrow : Bool) :
    stripP isSpace (s1 ++ (if arrow then c! "=>" else c! "=") ++ s2) = if arrow then c! "=>" else c! "=" := by
  rw [stripP, rstripP_append isSpace _ s2 h2 (by cases arrow <;> (simp; first | exact gt_not_space | exact eq_not_space)),
    lstripP_append isSpace s1 _ h1 (by cases arrow <;> (simp; exact eq_not_space))]

/-- C71, assignments: W_WSH_OBJSET exactly if there is an arrow without exactly one space on
either side, W_WSH_VARSET exactly if there is an equals sign with white space around it, and
W_WSH_BOL exactly if the line is indented with blanks or tabs, unless its key is `same`.  The
indentation is not part of the key. -/
theorem C71_assignment (w : Where) (data comment indent key sep value : Str) (arrow : Bool)
    (h : IsAssign data (indent ++ key) sep value arrow) (hh : ¬ SomeHeader data) (hi : Blanks indent)
    (hk : ∀ c, key.head? = some c → c ≠ ' ' ∧ c ≠ '\t') :
    ∃ m1 m2, parserStage w data comment = (m1 ++ m2, .elem (.var ⟨key, value, arrow, !comment.isEmpty, w⟩)) ∧
      Said (sep ≠ if arrow then c! " => " else c! "=") (plainMsg (if arrow then .W_WSH_OBJSET else .W_WSH_VARSET) w) m1 ∧
      Said (indent ≠ [] ∧ key ≠ c! "same") (plainMsg .W_WSH_BOL w) m2 := by
  have hr : readLine data = some (.assign (indent ++ key) sep value) :=
    (readLine_assign _ _ _ _).2 ⟨hh, by cases arrow; exact .inr h; exact .inl h⟩
  obtain ⟨s1, s2, hs1, hs2, hsep, _, _⟩ := h.shape
  have hc := clean_sep hs1 hs2 arrow
  rw [← hsep] at hc
  have hib : ∀ c ∈ indent, isBlank c = true := fun c hc => by simpa [isBlank] using hi c hc
  have hkb : ∀ c, key.head? = some c → isBlank c = false := fun c hc => by
    have := hk c hc
    simp [isBlank, this]
  have hlead : startsBlank (indent ++ key) = !indent.isEmpty := by
    cases indent with
    | nil =>
      cases key with
      | nil => rfl
      | cons x k => simpa [startsBlank] using hkb x rfl
    | cons x i => simpa [startsBlank] using hib x (by simp)
  have hvar : (if startsBlank (indent ++ key) then lstripP isBlank (indent ++ key) else indent ++ key) = key := by
    rw [hlead]
    cases hx : indent.isEmpty with
    | true => simp at hx; simp [hx]
    | false => simpa using lstripP_append isBlank indent key hib hkb
  refine ⟨if sep ≠ (if arrow then c! " => " else c! "=") then [plainMsg (if arrow then .W_WSH_OBJSET else .W_WSH_VARSET) w] else [],
    if indent ≠ [] ∧ key ≠ c! "same" then [plainMsg .W_WSH_BOL w] else [], ?_, said_ite _ _, said_ite _ _⟩
  simp only [parserStage, hr, mkElem]
  rw [hvar, hlead, hc]
  have e2 : (if (!indent.isEmpty && key != c! "same") = true then [(⟨.W_WSH_BOL, w, [], none⟩ : Msg)] else []) =
      if indent ≠ [] ∧ key ≠ c! "same" then [plainMsg .W_WSH_BOL w] else [] := by
    have : (!indent.isEmpty && key != c! "same") = true ↔ indent ≠ [] ∧ key ≠ c! "same" := by
      simp
    by_cases hp : indent ≠ [] ∧ key ≠ c! "same"
    · rw [if_pos hp, if_pos (this.2 hp)]; rfl
    · rw [if_neg hp, if_neg (fun h => hp (this.1 h))]
  rw [e2]
  cases arrow <;> simp [plainMsg]

/-- C71, headers: W_WSH_BOL exactly if indented, I_NOTIMPL_TEMPLATES exactly if there is a
template; blank lines: nothing. -/
theorem C71_header (w : Where) (data comment indent name : Str) :
    (IsHeader data indent name → ∃ m, parserStage w data comment = (m, .elem (.ctx ⟨name, [], !comment.isEmpty, w⟩)) ∧
      Said (indent ≠ []) (plainMsg .W_WSH_BOL w) m) ∧
    (∀ c, IsTemplate data indent name c → ∃ m, parserStage w data comment =
      (m ++ [plainMsg .I_NOTIMPL_TEMPLATES w], .elem (.ctx ⟨name, [c], !comment.isEmpty, w⟩)) ∧
      Said (indent ≠ []) (plainMsg .W_WSH_BOL w) m) ∧
    (Spaces data → (parserStage w data comment).1 = []) := by
  have key : (if indent.isEmpty then ([] : List Msg) else [⟨.W_WSH_BOL, w, [], none⟩]) =
      if indent ≠ [] then [plainMsg .W_WSH_BOL w] else [] := by
    cases indent <;> rfl
  refine ⟨fun h => ?_, fun c h => ?_, fun h => ?_⟩
  · have hr := (readLine_header data indent name []).2 (.inl ⟨h, rfl⟩)
    refine ⟨_, ?_, said_ite (indent ≠ []) (plainMsg .W_WSH_BOL w)⟩
    simp only [parserStage, hr, mkElem, key]
    simp
  · have hr := (readLine_header data indent name [c]).2 (.inr ⟨c, h, rfl⟩)
    refine ⟨_, ?_, said_ite (indent ≠ []) (plainMsg .W_WSH_BOL w)⟩
    simp only [parserStage, hr, mkElem, key]
    simp [plainMsg]
  · simp only [parserStage, (readLine_blank data).2 h, mkElem]

/-! ## Directives -/

/-- What the argument names. -/
def Names (arg name : Str) : Prop := Quoted name arg ∨ (BadQuotes arg ∧ name = arg)

theorem ends_shape {a z : Char} {s : Str} (h1 : s.head? = some a) (h2 : s.getLast? = some z) (hs : s ≠ [a]) :
    s = a :: (s.drop 1).dropLast ++ [z] := by
  cases s with
  | nil => simp at h1
  | cons x t =>
    simp only [List.head?_cons, Option.some.injEq] at h1
    subst h1
    cases t with
    | nil => exact absurd rfl hs
    | cons y t =>
      rw [List.getLast?_cons_cons] at h2
      simp only [List.drop_succ_cons, List.drop_zero, List.cons_append]
      obtain ⟨l, hl⟩ := List.getLast?_eq_some_iff.1 h2
      rw [hl]
      simp

theorem unquote_cases {arg : Str} (h0 : ∃ c, arg.head? = some c ∧ 32 < c.toNat) (hq : arg ≠ ['"']) :
    ((ppUnquote arg).1 = true ↔ BadQuotes arg) ∧ Names arg (ppUnquote arg).2 := by
  obtain ⟨a, ha, hlow⟩ := h0
  have hne : arg ≠ [] := by rintro rfl; simp at ha
  obtain ⟨z, hz⟩ : ∃ z, arg.getLast? = some z := ⟨_, List.getLast?_eq_some_getLast hne⟩
  have hlast : ∀ x n y, arg = x :: n ++ [y] → a = x ∧ z = y := by
    intro x n y e
    rw [e, List.getLast?_concat] at hz
    rw [e] at ha
    simp at ha hz
    exact ⟨ha.symm, hz.symm⟩
  have hdq : (∃ n, arg = '"' :: n ++ ['"']) ↔ a = '"' ∧ z = '"' := by
    constructor
    · rintro ⟨n, e⟩; exact hlast _ _ _ e
    · rintro ⟨rfl, rfl⟩; exact ⟨_, ends_shape ha hz hq⟩
  have hab : (∃ n, arg = '<' :: n ++ ['>']) ↔ a = '<' ∧ z = '>' := by
    constructor
    · rintro ⟨n, e⟩; exact hlast _ _ _ e
    · rintro ⟨rfl, rfl⟩
      refine ⟨_, ends_shape ha hz ?_⟩
      rintro rfl
      simp at hz
  have hb : BadQuotes arg ↔ (a = '"' ∨ a = '<' ∨ z = '"' ∨ z = '>') ∧ ¬ (a = '"' ∧ z = '"') ∧ ¬ (a = '<' ∧ z = '>') := by
    unfold BadQuotes
    rw [hdq, hab, ha, hz]
    simp
  unfold Names
  rw [hb]
  by_cases h1 : a = '"' ∧ z = '"'
  · have e : ppUnquote arg = (false, (arg.drop 1).dropLast) := by simp [ppUnquote, ha, hz, h1]
    rw [e]
    refine ⟨by simp [h1], .inl ?_⟩
    obtain ⟨n, hn⟩ := hdq.2 h1
    rw [hn]
    simpa using Quoted.double
  · by_cases h2 : a = '<' ∧ z = '>'
    · have e : ppUnquote arg = (false, (arg.drop 1).dropLast) := by simp [ppUnquote, ha, hz, h2]
      rw [e]
      refine ⟨by simp [h2], .inl ?_⟩
      obtain ⟨n, hn⟩ := hab.2 h2
      rw [hn]
      simpa using Quoted.angle
    · by_cases h3 : a = '<' ∨ a = '"' ∨ z = '"' ∨ z = '>'
      · have e : ppUnquote arg = (true, arg) := by
          simp only [ppUnquote, ha, hz, h1, h2, h3, if_true, if_false]
        have h3' : a = '"' ∨ a = '<' ∨ z = '"' ∨ z = '>' := by
          rcases h3 with h | h | h | h
          · exact .inr (.inl h)
          · exact .inl h
          · exact .inr (.inr (.inl h))
          · exact .inr (.inr (.inr h))
        rw [e]
        exact ⟨by simp only [true_iff]; exact ⟨h3', h1, h2⟩, .inr ⟨⟨h3', h1, h2⟩, rfl⟩⟩
      · have e : ppUnquote arg = (false, arg) := by
          simp only [ppUnquote, ha, hz, h1, h2, h3, if_false]
        rw [e]
        simp only [not_or] at h3
        refine ⟨by simp [h3], .inl (.bare hne ?_ ?_)⟩
        · intro c hc
          rw [ha] at hc
          cases hc
          exact ⟨h3.2.1, h3.1, hlow⟩
        · intro c hc
          rw [hz] at hc
          cases hc
          exact ⟨h3.2.2.1, h3.2.2.2⟩

theorem ppCommand_directive {cmd rest : Str} (h : Directive cmd) : ppCommand (cmd ++ rest) = some (cmd, rest) := by
  rcases h with rfl | rfl | rfl <;> simp [ppCommand, List.isPrefixOf]

theorem directive_hash {cmd : Str} (h : Directive cmd) : ∃ tl, cmd = '#' :: tl ∧ '=' ∉ tl := by
  rcases h with rfl | rfl | rfl
  · exact ⟨c! "include", rfl, by decide⟩
  · exact ⟨c! "tryinclude", rfl, by decide⟩
  · exact ⟨c! "exec", rfl, by decide⟩

/-- C71, directives: W_WSH_BOL exactly if indented, W_WSH_CTRL exactly if the separator is neither
spaces only nor tabs only, W_PP_QUOTE_BAD exactly if the quotes do not match, W_PP_EXEC exactly
for `#exec`; in this order and nothing else.  Except for an argument that is a single double
quote (`C71_violated_quote`). -/
theorem C71_directive_partial (w : Where) (comment indent text cmd sep arg : Str) (hi : Spaces indent)
    (h : DirectiveText text cmd sep arg) (he : '=' ∉ arg) (hq : arg ≠ ['"']) :
    ∃ m1 m2 m3 m4 name, (parserStage w (indent ++ text) comment).1 = m1 ++ m2 ++ m3 ++ m4 ∧ Names arg name ∧
      Said (indent ≠ []) (plainMsg .W_WSH_BOL w) m1 ∧
      Said (¬ (∀ c ∈ sep, c = ' ') ∧ ¬ ∀ c ∈ sep, c = '\t') (plainMsg .W_WSH_CTRL w) m2 ∧
      Said (BadQuotes arg) (plainMsg .W_PP_QUOTE_BAD w) m3 ∧
      Said (cmd = c! "#exec") ⟨.W_PP_EXEC, w, [(c! "cmd", .one (.str name))], none⟩ m4 := by
  obtain ⟨hshape, hcmd, hs0, hs, ha⟩ := h
  obtain ⟨hu1, hu2⟩ := unquote_cases ha hq
  obtain ⟨tl, htl, htl2⟩ := directive_hash hcmd
  have hsep : '=' ∉ sep := fun hm => absurd (hs _ hm) (by decide)
  have hlow : ∀ c ∈ sep, isLowCtl c = true := fun c hc => by simpa [isLowCtl] using hs c hc
  obtain ⟨a, ha1, ha2⟩ := ha
  have hhigh : ∀ c, arg.head? = some c → isLowCtl c = false := fun c hc => by
    rw [ha1] at hc; cases hc
    simp [isLowCtl]; omega
  obtain ⟨s0, ss, rfl⟩ := List.exists_cons_of_ne_nil hs0
  have hnotall : (s0 :: ss ++ arg).all isLowCtl = false := by
    rw [← Bool.not_eq_true, List.all_eq_true]
    intro h
    have := hhigh a ha1
    rw [h a (List.mem_append.2 (.inr (List.mem_of_mem_head? (by rw [ha1]; rfl))))] at this
    simp at this
  have htw : (s0 :: ss ++ arg).takeWhile isLowCtl = s0 :: ss := takeWhile_append_stop _ _ _ hlow hhigh
  have hdw : (s0 :: ss ++ arg).dropWhile isLowCtl = arg := lstripP_append _ _ _ hlow hhigh
  have e : text = '#' :: (tl ++ (s0 :: ss) ++ arg) := by rw [hshape, htl]; simp
  have e' : text = cmd ++ (s0 :: ss ++ arg) := by rw [hshape]; simp
  have hnone := directive_reads indent (tl ++ (s0 :: ss) ++ arg) hi (by
    rw [List.mem_append, List.mem_append, not_or, not_or]
    exact ⟨⟨htl2, hsep⟩, he⟩)
  rw [← e] at hnone
  have hstrip : lstripP isSpace (indent ++ text) = cmd ++ (s0 :: ss ++ arg) := by
    rw [lstripP_append isSpace indent _ hi (by rw [e]; simp; decide), e']
  have hhead : (cmd ++ (s0 :: ss ++ arg)).head? = some '#' := by rw [htl]; rfl
  have hlen : (cmd ++ (s0 :: ss ++ arg)).length = (indent ++ text).length ↔ indent = [] := by
    rw [← e', List.length_append]
    constructor
    · intro h; exact List.length_eq_zero_iff.1 (by omega)
    · rintro rfl; simp
  refine ⟨if indent ≠ [] then [plainMsg .W_WSH_BOL w] else [],
    if ¬ (∀ c ∈ s0 :: ss, c = ' ') ∧ ¬ ∀ c ∈ s0 :: ss, c = '\t' then [plainMsg .W_WSH_CTRL w] else [],
    if (ppUnquote arg).1 = true then [plainMsg .W_PP_QUOTE_BAD w] else [],
    if cmd = c! "#exec" then [⟨.W_PP_EXEC, w, [(c! "cmd", .one (.str (ppUnquote arg).2))], none⟩] else [],
    (ppUnquote arg).2, ?_, hu2, said_ite _ _, said_ite _ _, said_congr (said_ite _ _) hu1, said_ite _ _⟩
  simp only [parserStage, hnone, hstrip, hhead, if_true, preprocessor, ppCommand_directive hcmd]
  simp only [List.cons_append]
  simp only [hlow s0 (by simp), Bool.not_true, Bool.false_eq_true, if_false]
  simp only [← List.cons_append]
  simp only [hnotall, hdw, htw]
  rw [if_neg (by simp)]
  have e0 : (if (cmd ++ (s0 :: ss ++ arg)).length = (indent ++ text).length then ([] : List Msg)
      else [⟨.W_WSH_BOL, w, [], none⟩]) = if indent ≠ [] then [plainMsg .W_WSH_BOL w] else [] := by
    by_cases hx : indent = []
    · rw [if_pos (hlen.2 hx), if_neg (by simpa using hx)]
    · rw [if_neg (fun h => hx (hlen.1 h)), if_pos hx]; rfl
  have e1 : (if (!(s0 :: ss).all (· = ' ') && !(s0 :: ss).all (· = '\t')) = true
      then [(⟨.W_WSH_CTRL, w, [], none⟩ : Msg)] else []) =
      if ¬ (∀ c ∈ s0 :: ss, c = ' ') ∧ ¬ ∀ c ∈ s0 :: ss, c = '\t' then [plainMsg .W_WSH_CTRL w] else [] := by
    have : (!(s0 :: ss).all (· = ' ') && !(s0 :: ss).all (· = '\t')) = true ↔
        ¬ (∀ c ∈ s0 :: ss, c = ' ') ∧ ¬ ∀ c ∈ s0 :: ss, c = '\t' := by
      rw [Bool.and_eq_true, Bool.not_eq_true', Bool.not_eq_true', ← Bool.not_eq_true, ← Bool.not_eq_true,
        List.all_eq_true, List.all_eq_true]
      simp only [decide_eq_true_eq]
    by_cases hp : ¬ (∀ c ∈ s0 :: ss, c = ' ') ∧ ¬ ∀ c ∈ s0 :: ss, c = '\t'
    · rw [if_pos hp, if_pos (this.2 hp)]; rfl
    · rw [if_neg hp, if_neg (fun h => hp (this.1 h))]
  rw [e0, e1]
  by_cases hx : cmd = c! "#exec"
  · simp only [if_pos hx]; rfl
  · simp only [if_neg hx, List.append_nil]; rfl

/-- C71: the argument `"` is taken for an empty name in quotes. -/
theorem C71_violated_quote (w : Where) : BadQuotes ['"'] ∧
    (parserStage w (c! "#exec \"") []).1 = [⟨.W_PP_EXEC, w, [(c! "cmd", .one (.str []))], none⟩] := by
  refine ⟨⟨.inl rfl, ?_, ?_⟩, rfl⟩ <;> rintro ⟨n, h⟩ <;> simp at h

/-- C71, other lines: exactly one E_CONF_BAD_LINE with the beginning of the line; if it starts
with `#`, without the indentation, which is reported. -/
theorem C71_other (w : Where) (comment indent text : Str) (hi : Spaces indent) (ht : text ≠ []) (hn : NoLead text)
    (hh : ¬ SomeHeader (indent ++ text)) (he : '=' ∉ text) (hd : ∀ cmd sep arg, ¬ DirectiveText text cmd sep arg) :
    ∃ m, (parserStage w (indent ++ text) comment) = (m ++ [⟨.E_CONF_BAD_LINE, w, [(c! "startswith",
        .one (.str ((if text.head? = some '#' then text else indent ++ text).take 16)))], none⟩], .pp .nothing) ∧
      Said (text.head? = some '#' ∧ indent ≠ []) (plainMsg .W_WSH_BOL w) m := by
  have hhead : ∀ c, text.head? = some c → isSpace c = false := by
    intro c hc
    cases text with
    | nil => simp at hc
    | cons x t => simp at hc; exact hn c t (by rw [hc])
  have hnone : readLine (indent ++ text) = none := by
    rw [readLine_none]
    refine ⟨hh, ?_, ?_⟩
    · simp [he, eq_not_mem_spaces hi]
    · intro h
      cases text with
      | nil => exact ht rfl
      | cons x t =>
        have := h x (by simp)
        rw [hhead x rfl] at this
        cases this
  have hstrip : lstripP isSpace (indent ++ text) = text := lstripP_append isSpace indent _ hi hhead
  have hlen : text.length = (indent ++ text).length ↔ indent = [] := by
    rw [List.length_append]
    constructor
    · intro h; exact List.length_eq_zero_iff.1 (by omega)
    · rintro rfl; simp
  refine ⟨if text.head? = some '#' ∧ indent ≠ [] then [plainMsg .W_WSH_BOL w] else [], ?_, said_ite _ _⟩
  simp only [parserStage, hnone, hstrip]
  by_cases hx : text.head? = some '#'
  · have e0 : (if text.length = (indent ++ text).length then ([] : List Msg)
        else [⟨.W_WSH_BOL, w, [], none⟩]) = if text.head? = some '#' ∧ indent ≠ [] then [plainMsg .W_WSH_BOL w] else [] := by
      by_cases hy : indent = []
      · rw [if_pos (hlen.2 hy), if_neg (by simp [hy])]
      · rw [if_neg (fun h => hy (hlen.1 h)), if_pos ⟨hx, hy⟩]; rfl
    simp only [if_pos hx, preprocessor, hstrip, e0]
    cases hp : ppCommand text with
    | none => rfl
    | some cr =>
      obtain ⟨cmd, rest⟩ := cr
      have hsh : text = cmd ++ rest ∧ Directive cmd := by
        have key : ∀ k : Str, k.isPrefixOf text = true → text.take k.length = k := fun k hk => by
          obtain ⟨r, rfl⟩ := List.isPrefixOf_iff_prefix.1 hk
          simp
        unfold ppCommand at hp
        split at hp
        · rename_i hk
          simp only [Option.some.injEq, Prod.mk.injEq] at hp
          rw [← hp.1, ← hp.2]
          exact ⟨(List.take_append_drop ..).symm, .inl (key _ hk)⟩
        · split at hp
          · rename_i hk
            simp only [Option.some.injEq, Prod.mk.injEq] at hp
            rw [← hp.1, ← hp.2]
            exact ⟨(List.take_append_drop ..).symm, .inr (.inl (key _ hk))⟩
          · split at hp
            · rename_i hk
              simp only [Option.some.injEq, Prod.mk.injEq] at hp
              rw [← hp.1, ← hp.2]
              exact ⟨(List.take_append_drop ..).symm, .inr (.inr (key _ hk))⟩
            · cases hp
      cases rest with
      | nil => rfl
      | cons r0 r =>
        simp only
        cases hl : isLowCtl r0 with
        | false => simp
        | true =>
          cases hall : (r0 :: r).all isLowCtl with
          | true => simp
          | false =>
            exfalso
            refine hd cmd ((r0 :: r).takeWhile isLowCtl) ((r0 :: r).dropWhile isLowCtl) ⟨?_, hsh.2, ?_, ?_, ?_⟩
            · rw [List.append_assoc, List.takeWhile_append_dropWhile]; exact hsh.1
            · rw [List.takeWhile_cons_of_pos hl]; simp
            · intro c hc
              have : isLowCtl c = true := by
                have h := List.all_takeWhile (p := isLowCtl) (l := r0 :: r)
                exact List.all_eq_true.1 h c hc
              simpa [isLowCtl] using this
            · cases hdw : (r0 :: r).dropWhile isLowCtl with
              | nil =>
                have : (r0 :: r).all isLowCtl = true := by
                  have h := List.takeWhile_append_dropWhile (p := isLowCtl) (l := r0 :: r)
                  rw [hdw, List.append_nil] at h
                  rw [← h]
                  exact List.all_takeWhile
                rw [hall] at this
                cases this
              | cons x xs =>
                have := List.head_dropWhile_not (l := r0 :: r) isLowCtl (by rw [hdw]; simp)
                simp only [hdw, List.head_cons] at this
                refine ⟨x, rfl, ?_⟩
                simp [isLowCtl] at this
                omega
  · have : ¬ (text.head? = some '#' ∧ indent ≠ []) := fun h => hx h.1
    simp only [if_neg hx, if_neg this]
    rfl

/-! ## Examples -/

private def w1 : Where := ⟨c! "extensions.conf", 1, []⟩

example : parserStage w1 (c! "  same => n,Answer()") [] = ([], .elem (.var ⟨c! "same", c! "n,Answer()", true, false, w1⟩)) := by
  decide
example : parserStage w1 (c! "  exten =>1,1,Answer()") [] = ([plainMsg .W_WSH_OBJSET w1, plainMsg .W_WSH_BOL w1],
    .elem (.var ⟨c! "exten", c! "1,1,Answer()", true, false, w1⟩)) := by decide
example : IsAssign (c! "  exten =>1,1,Answer()") (c! "  " ++ c! "exten") (c! " =>") (c! "1,1,Answer()") true :=
  ⟨⟨c! " ", [], by decide, by decide, by decide, by decide, by decide⟩, by decide,
    (noTrail_iff _).2 (by simp; decide), (noLead_iff _).2 (by simp; decide)⟩
example : DirectiveText (c! "#exec \tcat <x>") (c! "#exec") (c! " \t") (c! "cat <x>") :=
  ⟨by decide, .inr (.inr rfl), by decide, by decide, 'c', rfl, by decide⟩
example : (parserStage w1 (c! "  #exec \tcat <x>") []).1 = [plainMsg .W_WSH_BOL w1, plainMsg .W_WSH_CTRL w1,
    plainMsg .W_PP_QUOTE_BAD w1, ⟨.W_PP_EXEC, w1, [(c! "cmd", .one (.str (c! "cat <x>")))], none⟩] := by decide
example : (parserStage w1 (c! "  #includes \"more extensions.conf\"") []).1 = [plainMsg .W_WSH_BOL w1,
    ⟨.E_CONF_BAD_LINE, w1, [(c! "startswith", .one (.str (c! "#includes \"more ")))], none⟩] := by decide

end ALint.Props
