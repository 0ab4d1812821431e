import Verif.Spec.Quoted
import Verif.Proofs.Quote
import Verif.Props.SameReport

/-!
# C109: the text of a message tells the values in it
-/

namespace ALint
open Spec

/-- Behind every field there is nothing, or text that does not start with a digit. -/
def fieldsApart : List Piece → Bool
  | [] => true
  | .lit _ :: ps => fieldsApart ps
  | [.field _ _] => true
  | .field _ _ :: .lit (c :: _) :: ps => (c.toNat < 48 || 57 < c.toNat) && fieldsApart ps
  | _ => false

theorem template_apart (k : MK) : fieldsApart k.template = true := by
  have key : ∀ k ∈ MK.all, fieldsApart k.template = true := by decide +kernel
  exact key k (by cases k <;> decide)

theorem apart_rest {n : Str} {r : Bool} {ps : List Piece} (h : fieldsApart (.field n r :: ps) = true) :
    fieldsApart ps = true ∧ (ps = [] ∨ ∃ c s qs, ps = .lit (c :: s) :: qs ∧ (c.toNat < 48 ∨ 57 < c.toNat)) := by
  match ps, h with
  | [], _ => exact ⟨rfl, .inl rfl⟩
  | .lit (c :: s) :: qs, h =>
    simp only [fieldsApart, Bool.and_eq_true, Bool.or_eq_true, decide_eq_true_eq] at h
    exact ⟨h.2, .inr ⟨c, s, qs, rfl, h.1⟩⟩
  | .lit [] :: qs, h => simp [fieldsApart] at h
  | .field _ _ :: qs, h => simp [fieldsApart] at h

variable {p p' : Char → Bool} {addr addr' : V → Str}

theorem renderAll_cons {args : List (Str × Arg)} {q : Piece} {ps : List Piece} {rs : List Rendered}
    (h : renderAll args (q :: ps) = .ok rs) : ∃ r rs', renderPiece args q = .ok r ∧ renderAll args ps = .ok rs' ∧ rs = r :: rs' := by
  rw [renderAll] at h
  cases hq : renderPiece args q with
  | error e => simp [hq] at h
  | ok r =>
    simp only [hq] at h
    cases hr : renderAll args ps with
    | error e => simp [hr, Except.map] at h
    | ok rs' =>
      simp only [hr, Except.map, Except.ok.injEq] at h
      exact ⟨r, rs', rfl, rfl, h.symm⟩

theorem noDigit_rest {args : List (Str × Arg)} {ps : List Piece} {rs : List Rendered} {rep : Arg → Str}
    (h : ps = [] ∨ ∃ c s qs, ps = .lit (c :: s) :: qs ∧ (c.toNat < 48 ∨ 57 < c.toNat)) (hr : renderAll args ps = .ok rs) :
    NoDigit (rs.flatMap (Rendered.shown rep)) := by
  rcases h with rfl | ⟨c, s, qs, rfl, hc⟩
  · cases hr; intro c hc; cases hc
  · obtain ⟨r, rs', h1, _, rfl⟩ := renderAll_cons hr
    cases h1
    intro d hd
    simp only [List.flatMap_cons, Rendered.shown, List.cons_append, List.head?_cons, Option.some.injEq] at hd
    exact hd ▸ hc

/-- The text of one field. -/
theorem shown_field {args : List (Str × Arg)} {n : Str} {r0 : Bool} {v : V} {r : Rendered} (hl : args.lookup n = some (.one v))
    (hv : ShownAsItself r0 v) (h : renderPiece args (.field n r0) = .ok r) :
    PlainV v ∧ Rendered.shown (pyRepr p addr) r = v.pyRepr p addr := by
  simp only [renderPiece, hl] at h
  cases hv with
  | text =>
    simp only [if_true, Except.ok.injEq] at h
    subst h
    exact ⟨.inl ⟨_, rfl⟩, rfl⟩
  | nothing =>
    simp only [if_true, Except.ok.injEq] at h
    subst h
    exact ⟨.inr (.inr rfl), rfl⟩
  | number =>
    refine ⟨.inr (.inl ⟨_, rfl⟩), ?_⟩
    cases r0 with
    | true =>
      simp only [if_true, Except.ok.injEq] at h
      subst h
      rfl
    | false =>
      simp only [Bool.false_eq_true, if_false, V.toStr, Except.map, Except.ok.injEq] at h
      subst h
      rfl

theorem texts_inj {args args' : List (Str × Arg)} {ps : List Piece} {rs rs' : List Rendered}
    (ha : fieldsApart ps = true)
    (h : renderAll args ps = .ok rs) (h' : renderAll args' ps = .ok rs')
    (hv : ∀ name r, Piece.field name r ∈ ps → ∃ v, args.lookup name = some (.one v) ∧ ShownAsItself r v)
    (hv' : ∀ name r, Piece.field name r ∈ ps → ∃ v, args'.lookup name = some (.one v) ∧ ShownAsItself r v)
    (e : rs.flatMap (Rendered.shown (pyRepr p addr)) = rs'.flatMap (Rendered.shown (pyRepr p' addr'))) :
    ∀ name r, Piece.field name r ∈ ps → args.lookup name = args'.lookup name := by
  induction ps generalizing rs rs' with
  | nil => intro n r hm; cases hm
  | cons q ps ih =>
    obtain ⟨a, as, h1, h2, rfl⟩ := renderAll_cons h
    obtain ⟨b, bs, h1', h2', rfl⟩ := renderAll_cons h'
    rw [List.flatMap_cons, List.flatMap_cons] at e
    have later := fun ha e => ih (rs := as) (rs' := bs) ha h2 h2' (fun n r hm => hv n r (by simp [hm])) (fun n r hm => hv' n r (by simp [hm])) e
    cases q with
    | lit s =>
      cases h1; cases h1'
      intro n r hm
      rcases List.mem_cons.1 hm with hm | hm
      · cases hm
      · exact later ha (List.append_cancel_left e) n r hm
    | field n0 r0 =>
      obtain ⟨hr, hn⟩ := apart_rest ha
      obtain ⟨v, hl, hs⟩ := hv n0 r0 (by simp)
      obtain ⟨v', hl', hs'⟩ := hv' n0 r0 (by simp)
      obtain ⟨f1, f2⟩ := shown_field (p := p) (addr := addr) hl hs h1
      obtain ⟨f1', f2'⟩ := shown_field (p := p') (addr := addr') hl' hs' h1'
      rw [f2, f2'] at e
      obtain ⟨g1, g2⟩ := plain_cut f1 f1' (noDigit_rest hn h2) (noDigit_rest hn h2') e
      intro n r hm
      rcases List.mem_cons.1 hm with hm | hm
      · cases hm
        rw [hl, hl', g1]
      · exact later hr g2 n r hm

theorem charRepr_visible (p : Char → Bool) (q c : Char) (hq : q = '\'' ∨ q = '"') :
    ∀ d ∈ charRepr p q c, 32 ≤ d.toNat ∧ d.toNat ≠ 127 := by
  have hex : ∀ k n, ∀ d ∈ hexDigits k n, 32 ≤ d.toNat ∧ d.toNat ≠ 127 := by
    intro k
    induction k with
    | zero => intro n d hd; cases hd
    | succ k ih =>
      intro n d hd
      rcases List.mem_append.1 hd with hd | hd
      · exact ih _ d hd
      · rw [List.mem_singleton.1 hd]
        have key : ∀ i : Fin 16, 32 ≤ (hexDigit i.val).toNat ∧ (hexDigit i.val).toNat ≠ 127 := by decide
        exact key ⟨n % 16, by omega⟩
  have esc : ∀ (e : Char) (k : Nat), 32 ≤ e.toNat → e.toNat ≠ 127 → ∀ d ∈ '\\' :: e :: hexDigits k c.toNat, 32 ≤ d.toNat ∧ d.toNat ≠ 127 := by
    intro e k he he' d hd
    rcases List.mem_cons.1 hd with rfl | hd
    · decide
    rcases List.mem_cons.1 hd with rfl | hd
    · exact ⟨he, he'⟩
    · exact hex _ _ d hd
  have two : ∀ e : Char, 32 ≤ e.toNat → e.toNat ≠ 127 → ∀ d ∈ ['\\', e], 32 ≤ d.toNat ∧ d.toNat ≠ 127 := by
    intro e he he' d hd
    rcases List.mem_cons.1 hd with rfl | hd
    · decide
    · rw [List.mem_singleton.1 hd]; exact ⟨he, he'⟩
  unfold charRepr
  split
  · rename_i h
    refine two c ?_ ?_ <;> rcases h with rfl | rfl <;> first | decide | (rcases hq with rfl | rfl <;> decide)
  split
  · exact two _ (by decide) (by decide)
  split
  · exact two _ (by decide) (by decide)
  split
  · exact two _ (by decide) (by decide)
  split
  · exact esc _ _ (by decide) (by decide)
  rename_i hc
  split
  · intro d hd
    rw [List.mem_singleton.1 hd]
    omega
  split
  · exact esc _ _ (by decide) (by decide)
  split <;> exact esc _ _ (by decide) (by decide)

/-- The values of a text that can be made. -/
theorem rendered_lookup {args : List (Str × Arg)} {ps : List Piece} {rs : List Rendered} (h : renderAll args ps = .ok rs) :
    ∀ n r, Piece.field n r ∈ ps → ∃ a, args.lookup n = some a := by
  induction ps generalizing rs with
  | nil => intro n r hm; cases hm
  | cons q ps ih =>
    obtain ⟨a, as, h1, h2, rfl⟩ := renderAll_cons h
    intro n r hm
    rcases List.mem_cons.1 hm with rfl | hm
    · simp only [renderPiece] at h1
      cases hl : args.lookup n with
      | none => simp [hl] at h1
      | some a => exact ⟨a, rfl⟩
    · exact ih h2 n r hm

/-- Messages of classes with all values under `!r` show values as themselves. -/
theorem quoted_values {m : Msg} {rs : List Rendered} (ha : Addressless m) (hk : m.kind ∉ objectKinds) (hq : OnlyQuotes m.kind)
    (hr : m.render = .ok rs) : ShowsValues m := by
  intro n r hm
  have := hq n r hm
  subst this
  obtain ⟨a, hl⟩ := rendered_lookup hr n true hm
  rcases (Bool.or_eq_true _ _).mp ha with h | h
  · exact absurd (by simpa using h) hk
  · have h2 := List.all_eq_true.1 (List.all_eq_true.1 h _ (lookup_mem hl)) _ hm
    simp only [bne_self_eq_false, Bool.false_or, if_true] at h2
    unfold Arg.isPlain at h2
    split at h2
    · exact ⟨_, hl, .text⟩
    · exact ⟨_, hl, .number⟩
    · exact ⟨_, hl, .nothing⟩
    · cases h2

end ALint

namespace ALint.Props
open ALint ALint.Spec

/-- C109: a text can be read from what is shown for it, whatever stands behind. -/
theorem C109_quote_tells (p p' : Char → Bool) (s t r r' : Str) (h : strRepr p s ++ r = strRepr p' t ++ r') : s = t ∧ r = r' :=
  strRepr_inj h

/-- C109: what is shown for a text has no control characters in it. -/
theorem C109_quote_visible (p : Char → Bool) (s : Str) : ∀ c ∈ strRepr p s, 32 ≤ c.toNat ∧ c.toNat ≠ 127 := by
  have hq : 32 ≤ (quoteFor s).toNat ∧ (quoteFor s).toNat ≠ 127 := by rcases quoteFor_two s with h | h <;> rw [h] <;> decide
  intro c hc
  unfold strRepr at hc
  rw [List.cons_append] at hc
  rcases List.mem_cons.1 hc with rfl | hc
  · exact hq
  rcases List.mem_append.1 hc with hc | hc
  · obtain ⟨d, _, hd⟩ := List.mem_flatMap.1 hc
    exact charRepr_visible p _ d (quoteFor_two s) c hd
  · rw [List.mem_singleton.1 hc]; exact hq

/-- C109: two lines of reports that are the same are about messages of the same name, file and line with
the same values, if values are shown as themselves. -/
theorem C109_line_tells (p p' : Char → Bool) (addr addr' : V → Str) (m m' : Msg) (rs rs' : List Rendered)
    (hr : m.render = .ok rs) (hr' : m'.render = .ok rs') (hv : ShowsValues m) (hv' : ShowsValues m')
    (hf : ' ' ∉ m.at_.filename) (hf' : ' ' ∉ m'.at_.filename)
    (he : heading m (rs.flatMap (Rendered.shown (pyRepr p addr))) = heading m' (rs'.flatMap (Rendered.shown (pyRepr p' addr')))) :
    m.at_.filename = m'.at_.filename ∧ m.at_.lineno = m'.at_.lineno ∧ m.kind = m'.kind ∧ SameValues m m' := by
  obtain ⟨h1, h2, h3, h4⟩ := C107_heading_tells m m' _ _ hf hf' he
  refine ⟨h1, h2, h3, ?_⟩
  unfold Msg.render at hr hr'
  unfold ShowsValues at hv'
  rw [← h3] at hr' hv'
  exact texts_inj (template_apart _) hr hr' hv hv' h4

/-- The classes all values of which stand under `!r`, but for three in which a variable can (C108). -/
def quotedNames : List Str := [c! "E_APP_WSH", c! "E_APP_PARSE_ERROR", c! "W_APP_NEED_PARENS", c! "W_APP_WSH", c! "E_CONF_BAD_LINE",
  c! "E_CONF_KEY_DUPE", c! "E_CONF_KEY_INVALID", c! "W_CONF_KEY_LATE", c! "W_PP_EXEC", c! "W_PP_INCLUDE_MISSING",
  c! "E_DP_VAR_INVALID", c! "E_DP_PRIO_INVALID", c! "E_DP_PRIO_DUPE", c! "E_DP_LABEL_INVALID", c! "E_DP_LABEL_DUPE",
  c! "E_DP_PRIO_BAD", c! "W_ODBC_BADTOKENS", c! "H_PAT_NON_CANONICAL", c! "E_FUNC_BAD_CASE", c! "E_FUNC_MISSING",
  c! "E_APP_ARG_SYNTAX", c! "E_APP_MISSING", c! "W_APP_BAD_CASE"]

theorem quotedNames_kind (k : MK) (h : k.name ∈ quotedNames) : OnlyQuotes k ∧ k ∉ objectKinds := by
  have key : ∀ k ∈ MK.all, k.name ∈ quotedNames → (∀ q ∈ k.template, q ∈ k.template.filter fun q => match q with
      | .field _ false => false | _ => true) ∧ k ∉ objectKinds := by decide +kernel
  obtain ⟨h1, h2⟩ := key k (by cases k <;> decide) h
  refine ⟨?_, h2⟩
  intro n r hm
  have := (List.mem_filter.1 (h1 _ hm)).2
  cases r with
  | true => rfl
  | false => cases this

/-- C109 for `dialplan-check`, on any files: if the lines printed for two messages of these classes are the
same, file, line, name and values of the messages are the same. -/
theorem C109_dialplan_check (p p' : Char → Bool) (addr addr' : V → Str) (fs fs' : FS) (env env' : DEnv) (n n' : Nat)
    (arg arg' : Option Str) (path path' : Str) (m m' : Msg)
    (h : m ∈ (dialplanCheckRun fs env n arg path).log) (h' : m' ∈ (dialplanCheckRun fs' env' n' arg' path').log)
    (rs rs' : List Rendered) (hr : m.render = .ok rs) (hr' : m'.render = .ok rs')
    (hk : m.kind.name ∈ quotedNames) (hf : ' ' ∉ m.at_.filename) (hf' : ' ' ∉ m'.at_.filename)
    (he : heading m (rs.flatMap (Rendered.shown (pyRepr p addr))) = heading m' (rs'.flatMap (Rendered.shown (pyRepr p' addr')))) :
    m.at_.filename = m'.at_.filename ∧ m.at_.lineno = m'.at_.lineno ∧ m.kind = m'.kind ∧ SameValues m m' := by
  have e := (C107_heading_tells m m' _ _ hf hf' he).2.2.1
  obtain ⟨a, b⟩ := quotedNames_kind m.kind hk
  have hv := quoted_values (check_addressless fs env n arg path m h) b a hr
  rw [e] at a b
  have hv' := quoted_values (check_addressless fs' env' n' arg' path' m' h') b a hr'
  exact C109_line_tells p p' addr addr' m m' rs rs' hr hr' hv hv' hf hf' he

theorem noBreak_value {p : Char → Bool} {addr : V → Str} (h : ∀ v, '\n' ∉ addr v) (v : V) : '\n' ∉ v.pyRepr p addr := by
  cases v with
  | str s => exact fun hm => absurd (C109_quote_visible p s _ hm).1 (by decide)
  | int n => exact flat_intStr n
  | none => show '\n' ∉ (c! "None" : Str); decide
  | lst items => exact h _
  | atom k n s l => exact h _

/-- C107 with the texts Python has: they are texts of one line, if the one it has for variables is. -/
theorem C107_python_texts (p : Char → Bool) (addr : V → Str) (ignore : Str) (h : ∀ v, '\n' ∉ addr v) :
    OneLineTexts (pyShell p addr ignore) where
  obj := fun _ hm => nomatch hm
  rep := by
    intro a
    cases a with
    | one v => exact noBreak_value h v
    | many vs =>
      cases vs with
      | nil => show '\n' ∉ (c! "[]" : Str); decide
      | cons v vs =>
        show '\n' ∉ listRepr p addr (v :: vs)
        intro hm
        rw [listRepr] at hm
        rcases List.mem_append.1 hm with hm | hm
        · rcases List.mem_append.1 hm with hm | hm
          · rcases List.mem_append.1 hm with hm | hm
            · revert hm; decide
            · exact noBreak_value h v hm
          · obtain ⟨w, _, hw⟩ := List.mem_flatMap.1 hm
            rcases List.mem_append.1 hw with hw | hw
            · revert hw; decide
            · exact noBreak_value h w hw
        · revert hm; decide

/-! ### Cases -/

example : strRepr (fun _ => true) (c! "it's\n\x01\\ \"x\"") = c! "'it\\'s\\n\\x01\\\\ \"x\"'" := by decide
example : strRepr (fun _ => true) (c! "it's") = c! "\"it's\"" := by decide
example : strRepr (fun _ => false) (c! "é→😀") = c! "'\\xe9\\u2192\\U0001f600'" := by decide
example : strRepr (fun _ => true) (c! "é→") = c! "'é→'" := by decide

/-- The first message of the report of `plainFiles`, an application that does not exist. -/
def plainFirst : Msg := plainLog.headD (mkMsg .E_APP_WSH (demoW 1) [])

example : plainFirst ∈ (dialplanCheckRun plainFiles plainEnv 99 (some []) (c! "/e.conf")).log ∧
    plainFirst.kind.name ∈ quotedNames ∧ ' ' ∉ plainFirst.at_.filename ∧
    plainFirst.render = .ok [.text (c! "app "), .repr (strV (c! "Nothing")), .text (c! " does not exist, dialplan will halt here!")] := by
  decide +kernel

/-- Without quotes, values can run into each other: two messages of one class with the same text. -/
example : ∃ m m' : Msg, m.kind = m'.kind ∧ m.args ≠ m'.args ∧ ∃ rs rs', m.render = .ok rs ∧ m'.render = .ok rs' ∧
    rs.flatMap (Rendered.shown (pyRepr (fun _ => true) (varAt []))) = rs'.flatMap (Rendered.shown (pyRepr (fun _ => true) (varAt []))) :=
  ⟨mkMsg .E_DP_GOTO_NOCONTEXT (demoW 1) [(c! "context", strV (c! "a, b")), (c! "exten", strV (c! "c")), (c! "prio", strV (c! "1"))],
   mkMsg .E_DP_GOTO_NOCONTEXT (demoW 1) [(c! "context", strV (c! "a")), (c! "exten", strV (c! "b, c")), (c! "prio", strV (c! "1"))],
   rfl, by decide, _, _, rfl, rfl, by decide⟩

end ALint.Props
