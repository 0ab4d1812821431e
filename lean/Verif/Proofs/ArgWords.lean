import Verif.Spec.Args

/-!
# Command lines: the parser does what the specification says
-/

namespace ALint
open Spec

/-! ## Tables -/

theorem lookup_nodup {α β : Type} [BEq α] [LawfulBEq α] : ∀ {l : List (α × β)} {k : α} {v : β}, (l.map (·.1)).Nodup →
    (l.lookup k = some v ↔ (k, v) ∈ l)
  | [], k, v, _ => by simp
  | (k', v') :: l, k, v, h => by
    rw [List.map_cons, List.nodup_cons] at h
    rw [List.lookup_cons]
    by_cases hk : k = k'
    · subst hk
      simp only [beq_self_eq_true, Option.some.injEq, List.mem_cons, Prod.mk.injEq, true_and]
      constructor
      · rintro rfl; exact .inl rfl
      · rintro (rfl | hm)
        · rfl
        · exact absurd (List.mem_map.2 ⟨_, hm, rfl⟩) h.1
    · have : (k == k') = false := by simpa using hk
      simp only [this]
      rw [lookup_nodup h.2]
      simp [hk]

theorem lookup_isSome {α β : Type} [BEq α] [LawfulBEq α] : ∀ {l : List (α × β)} {k : α},
    ((l.lookup k).isSome = true ↔ k ∈ l.map (·.1))
  | [], k => by simp
  | (k', v') :: l, k => by
    rw [List.lookup_cons]
    by_cases hk : k = k'
    · simp [hk]
    · have : (k == k') = false := by simpa using hk
      simp only [this]
      rw [lookup_isSome]
      simp [hk]

theorem Spec.TidyParser.find_iff {p : ArgParser} (h : TidyParser p) {n : Str} {a : OptAct} :
    p.find n = some a ↔ (n, a) ∈ p.opts := lookup_nodup h.distinct

theorem Spec.TidyParser.find_none {p : ArgParser} (h : TidyParser p) {n : Str} :
    p.find n = none ↔ ∀ a, (n, a) ∉ p.opts := by
  cases hf : p.find n with
  | none =>
    refine ⟨fun _ a ha => ?_, fun _ => rfl⟩
    rw [h.find_iff.2 ha] at hf
    cases hf
  | some a =>
    refine ⟨(nomatch ·), fun h' => absurd (h.find_iff.1 hf) (h' a)⟩

/-- A name behind a single dash has one letter. -/
theorem Spec.TidyParser.short {p : ArgParser} (h : TidyParser p) {c : Char} {s : Str} {a : OptAct} (hc : c ≠ '-')
    (hm : ('-' :: c :: s, a) ∈ p.opts) : s = [] ∧ c ≠ '=' ∧ ∀ d, a ≠ .unique d := by
  rcases h.names _ hm with ⟨c', h1, h2, h3, h4⟩ | ⟨s', h1, -, -⟩
  · simp only [List.cons.injEq, true_and] at h1
    obtain ⟨rfl, rfl⟩ := h1
    exact ⟨rfl, h3, h4⟩
  · simp only [List.cons.injEq, true_and] at h1
    exact absurd h1.1 hc

theorem Spec.TidyParser.noEq {p : ArgParser} (h : TidyParser p) {n : Str} {a : OptAct} (hm : (n, a) ∈ p.opts) : '=' ∉ n := by
  rcases h.names _ hm with ⟨c', h1, h2, h3, h4⟩ | ⟨s', h1, -, h2⟩
  · dsimp only at h1
    subst h1
    simp [Ne.symm h3]
  · dsimp only at h1
    subst h1
    simpa using h2

theorem Spec.TidyParser.head {p : ArgParser} (h : TidyParser p) {n : Str} {a : OptAct} (hm : (n, a) ∈ p.opts) :
    ∃ c s, n = '-' :: c :: s := by
  rcases h.names _ hm with ⟨c', h1, h2, h3, h4⟩ | ⟨s', h1, -, h2⟩
  · exact ⟨_, _, h1⟩
  · exact ⟨_, _, h1⟩

theorem Spec.TidyParser.notDashes {p : ArgParser} (h : TidyParser p) (a : OptAct) : (c! "--", a) ∉ p.opts := by
  intro hm
  rcases h.names _ hm with ⟨c', h1, h2, h3, h4⟩ | ⟨s', h1, h2, -⟩
  · simp only [List.cons.injEq, true_and] at h1
    exact h2 h1.1.symm
  · simp only [List.cons.injEq, true_and] at h1
    exact h2 h1.symm

/-! ## Splitting at `=` -/

theorem splitEq_none : ∀ {s : Str}, '=' ∉ s → splitEq s = (s, none)
  | [], _ => rfl
  | c :: s, h => by
    rw [List.mem_cons, not_or] at h
    rw [splitEq, if_neg (Ne.symm h.1), splitEq_none h.2]

theorem splitEq_some : ∀ {s v : Str}, '=' ∉ s → splitEq (s ++ '=' :: v) = (s, some v)
  | [], v, _ => by simp [splitEq]
  | c :: s, v, h => by
    rw [List.mem_cons, not_or] at h
    rw [List.cons_append, splitEq, if_neg (Ne.symm h.1), splitEq_some h.2]

theorem splitEq_cases (s : Str) : '=' ∉ s ∨ ∃ a v, s = a ++ '=' :: v ∧ '=' ∉ a := by
  induction s with
  | nil => left; simp
  | cons c s ih =>
    by_cases hc : c = '='
    · right; exact ⟨[], s, by rw [hc]; rfl, by simp⟩
    · rcases ih with h | ⟨a, v, rfl, h⟩
      · left
        simp [Ne.symm hc, h]
      · right
        exact ⟨c :: a, v, rfl, by simp [Ne.symm hc, h]⟩

theorem longWord_exists (s : Str) : ∃ pre v, LongWord ('-' :: '-' :: s) pre v := by
  rcases splitEq_cases s with h | ⟨a, v, rfl, h⟩
  · exact ⟨_, _, .bare h⟩
  · exact ⟨_, _, .valued h⟩

theorem longWord_split {w pre : Str} {v : Option Str} (h : LongWord w pre v) : splitEq w = (pre, v) ∧
    (∃ s, pre = '-' :: '-' :: s) ∧ (∃ s, w = '-' :: '-' :: s) ∧ (v = none → w = pre) ∧ (v ≠ none → '=' ∈ w) := by
  cases h with
  | bare h => exact ⟨splitEq_none (by simpa using h), ⟨_, rfl⟩, ⟨_, rfl⟩, fun _ => rfl, fun h => absurd rfl h⟩
  | valued h => exact ⟨splitEq_some (s := '-' :: '-' :: _) (by simpa using h), ⟨_, rfl⟩, ⟨_, rfl⟩, (nomatch ·), fun _ => by simp⟩

/-! ## Words -/

/-- Matching an option with its value. -/
def optMatch (p : ArgParser) (t : OptTuple) (act : OptAct) (rest : List ArgItem) : OptMatch :=
  match t.val with
  | some v => matchExplicit p rest act (t.name[1]? ≠ some '-') (t.sep.getD []) v
  | none => matchFollowing act rest

theorem consumeOptional_some {p : ArgParser} {ns : ArgSpace} {s : Str} {t : OptTuple} {rest : List ArgItem} {act : OptAct}
    (h : t.act = some act) : consumeOptional p ns s t rest = match optMatch p t act rest with
      | .error e => .error e
      | .ok (acts, extras, rest) => match takeActions ns acts with
        | .error e => .error e
        | .ok ns => .ok (ns, extras, rest) := by
  unfold consumeOptional
  rw [h]
  rfl

/-- What a group of letters gives. -/
inductive LettersGive (acts : List OptAct) (rest : List ArgItem) : LettersEnd → OptMatch → Prop
  | fine : LettersGive acts rest .fine (.ok (acts.map (·, []), [], rest))
  | unknown (x : Str) : LettersGive acts rest .unknown (.ok (acts.map (·, []), [x], rest))
  | wrong : LettersGive acts rest .wrong (.error .refused)

theorem LettersGive.after {acts : List OptAct} {rest : List ArgItem} {e : LettersEnd} {m : OptMatch} {a : OptAct}
    (h : LettersGive acts rest e m) : LettersGive (a :: acts) rest e (m.after a) := by
  cases h with
  | fine => exact .fine
  | unknown x => exact .unknown x
  | wrong => exact .wrong

theorem matchFollowing_plain {a : OptAct} (h : ∀ d, a ≠ .unique d) (rest : List ArgItem) :
    matchFollowing a rest = .ok ([(a, [])], [], rest) := by
  cases a with
  | unique d => exact absurd rfl (h d)
  | _ => rfl

theorem explicit_eq {p : ArgParser} {rest : List ArgItem} {a : OptAct} (ha : ∀ d, a ≠ .unique d) (short : Bool) (v : Str) :
    matchExplicit p rest a short (c! "=") v = .error .refused := by
  cases v with
  | nil => cases a <;> first | rfl | exact absurd rfl (ha _)
  | cons c s =>
    cases a with
    | unique d => exact absurd rfl (ha d)
    | _ => rw [matchExplicit] <;> cases short <;> simp

theorem explicit_cons {p : ArgParser} {rest : List ArgItem} {a a' : OptAct} (ha : ∀ d, a ≠ .unique d) {c : Char}
    (hc : c ≠ '-') (hf : p.find ['-', c] = some a') (s : Str) :
    matchExplicit p rest a true [] (c :: s) = OptMatch.after a (match s with
      | [] => matchFollowing a' rest
      | '=' :: s => matchExplicit p rest a' true (c! "=") s
      | d :: s => matchExplicit p rest a' true [] (d :: s)) := by
  cases a with
  | unique d => exact absurd rfl (ha d)
  | _ =>
    rw [matchExplicit]
    · simp only [Bool.not_true, Bool.false_eq_true, if_false, List.isEmpty_nil, false_or, hc, hf]
      rfl
    · simp

theorem explicit_letters {p : ArgParser} (hp : TidyParser p) {rest : List ArgItem} : ∀ {s : Str} {acts : List OptAct} {e : LettersEnd},
    Letters p s acts e → ∀ a, (∀ d, a ≠ .unique d) → s ≠ [] → s.head? ≠ some '=' →
    LettersGive (a :: acts) rest e (matchExplicit p rest a true [] s) := by
  intro s acts e h
  induction h with
  | done => intro a _ h; exact absurd rfl h
  | @wrong c s hc =>
    intro a ha _ hh
    have : c = '-' := by
      rcases hc with rfl | rfl
      · exact absurd rfl hh
      · rfl
    subst this
    cases a with
    | unique d => exact absurd rfl (ha d)
    | _ => rw [matchExplicit] <;> first | exact .wrong | simp
  | @unknown c s h1 h2 h3 =>
    intro a ha _ _
    have : matchExplicit p rest a true [] (c :: s) = .ok ([(a, [])], ['-' :: c :: s], rest) := by
      cases a with
      | unique d => exact absurd rfl (ha d)
      | _ => rw [matchExplicit] <;> simp [h2, hp.find_none.2 h3]
    rw [this]
    exact .unknown _
  | @more c s a' acts e hm hl ih =>
    intro a ha _ hh
    have hc : c ≠ '-' := by
      rintro rfl
      exact hp.notDashes a' hm
    obtain ⟨-, -, ha'⟩ := hp.short hc hm
    rw [explicit_cons ha hc (hp.find_iff.2 hm)]
    cases s with
    | nil =>
      cases hl
      rw [matchFollowing_plain ha']
      exact .fine
    | cons d s =>
      by_cases hd : d = '='
      · subst hd
        cases hl with
        | wrong => 
          refine LettersGive.after ?_
          change LettersGive [a'] rest .wrong (matchExplicit p rest a' true (c! "=") s)
          rw [explicit_eq ha']
          exact .wrong
        | unknown h => exact absurd rfl h
        | more h1 h2 => exact absurd rfl (hp.short (by decide) h1).2.1
      · refine LettersGive.after ?_
        have := ih a' ha' (by simp) (by simpa using hd)
        split
        · rename_i h; cases h
        · rename_i h; injection h with h _; exact absurd h hd
        · rename_i h; injection h with h1 h2; subst h1; subst h2; exact this

/-- What is found in a word. -/
inductive ParsedAs (p : ArgParser) (w : Str) : Word → Except ArgStop (Option OptTuple) → Prop
  | plain : ParsedAs p w .plain (.ok none)
  | unknown : ParsedAs p w .unknown (.ok (some ⟨none, w, none, none⟩))
  | ambiguous : ParsedAs p w .ambiguous (.error .refused)
  | option {a : OptAct} {v : Option Str} {name : Str} : name[1]? = some '-' →
      ParsedAs p w (.option a v) (.ok (some ⟨some a, name, v.map fun _ => c! "=", v⟩))
  | letters {a : OptAct} {t : OptTuple} {acts : List OptAct} {e : LettersEnd} : t.act = some a →
      (∀ rest, LettersGive acts rest e (optMatch p t a rest)) → (∀ a ∈ acts, ∀ d, a ≠ .unique d) →
      ParsedAs p w (.letters acts e) (.ok (some t))

theorem parse_exact {p : ArgParser} {c : Char} {s : Str} {a : OptAct} (h : p.find ('-' :: c :: s) = some a) :
    parseOptional p ('-' :: c :: s) = .ok (some ⟨some a, '-' :: c :: s, none, none⟩) := by
  unfold parseOptional
  simp [h]

theorem parse_eq {p : ArgParser} {c : Char} {s n v : Str} {a : OptAct} (h : p.find ('-' :: c :: s) = none)
    (h1 : splitEq ('-' :: c :: s) = (n, some v)) (h2 : p.find n = some a) :
    parseOptional p ('-' :: c :: s) = .ok (some ⟨some a, n, some (c! "="), some v⟩) := by
  unfold parseOptional
  simp [h, h1, h2]

theorem parse_abbr {p : ArgParser} {c : Char} {s n : Str} {v : Option Str} (h : p.find ('-' :: c :: s) = none)
    (h1 : splitEq ('-' :: c :: s) = (n, v)) (h2 : p.find n = none) :
    parseOptional p ('-' :: c :: s) = parseOptional.abbreviated p ('-' :: c :: s) := by
  unfold parseOptional
  cases v <;> simp [h, h1, h2]

theorem filter_only {α β : Type} {l : List (α × β)} (hd : (l.map (·.1)).Nodup) {P : α × β → Bool} {x : α × β} (hx : x ∈ l)
    (hP : P x = true) (hall : ∀ y ∈ l, P y = true → y.1 = x.1) : l.filter P = [x] := by
  induction l with
  | nil => cases hx
  | cons y l ih =>
    rw [List.map_cons, List.nodup_cons] at hd
    rcases List.mem_cons.1 hx with rfl | hx
    · rw [List.filter_cons, if_pos hP, List.filter_eq_nil_iff.2]
      intro z hz hPz
      exact hd.1 (List.mem_map.2 ⟨z, hz, hall z (List.mem_cons_of_mem _ hz) hPz⟩)
    · rw [List.filter_cons, if_neg, ih hd.2 hx fun z hz => hall z (List.mem_cons_of_mem _ hz)]
      intro hPy
      exact hd.1 (List.mem_map.2 ⟨x, hx, (hall y (List.mem_cons_self ..) hPy).symm⟩)

theorem filterMap_only {α β γ : Type} {l : List (α × β)} (hd : (l.map (·.1)).Nodup) {f : α × β → Option γ} {x : α × β} {r : γ}
    (hx : x ∈ l) (hP : f x = some r) (hall : ∀ y ∈ l, f y ≠ none → y.1 = x.1) : l.filterMap f = [r] := by
  induction l with
  | nil => cases hx
  | cons y l ih =>
    rw [List.map_cons, List.nodup_cons] at hd
    rcases List.mem_cons.1 hx with rfl | hx
    · rw [List.filterMap_cons, hP]
      have : l.filterMap f = [] := by
        rw [List.filterMap_eq_nil_iff]
        intro z hz
        apply Classical.byContradiction
        intro hn
        exact hd.1 (List.mem_map.2 ⟨z, hz, hall z (List.mem_cons_of_mem _ hz) hn⟩)
      simp [this]
    · have hy : f y = none := by
        apply Classical.byContradiction
        intro hn
        exact hd.1 (List.mem_map.2 ⟨x, hx, (hall y (List.mem_cons_self ..) hn).symm⟩)
      rw [List.filterMap_cons, hy]
      exact ih hd.2 hx fun z hz => hall z (List.mem_cons_of_mem _ hz)

theorem two_members {α : Type} {l : List α} {a b : α} (ha : a ∈ l) (hb : b ∈ l) (h : a ≠ b) : ∃ x y z, l = x :: y :: z := by
  match l, ha, hb with
  | [x], ha, hb => simp at ha hb; exact absurd (ha.trans hb.symm) h
  | x :: y :: z, _, _ => exact ⟨x, y, z, rfl⟩

theorem abbreviated_nil {p : ArgParser} {w : Str} (h : optionTuples p w = []) :
    parseOptional.abbreviated p w = if p.negNum w ∨ ' ' ∈ w then .ok none else .ok (some ⟨none, w, none, none⟩) := by
  unfold parseOptional.abbreviated
  rw [h]

theorem long_tuples {p : ArgParser} {w pre : Str} {v : Option Str} (h : LongWord w pre v) :
    optionTuples p w = (p.opts.filter fun o => pre.isPrefixOf o.1).map
      fun o => ⟨some o.2, o.1, v.map fun _ => c! "=", v⟩ := by
  obtain ⟨h1, -, ⟨s, rfl⟩, -, -⟩ := longWord_split h
  unfold optionTuples
  rw [if_pos (show List.take 2 ('-' :: '-' :: s) = c! "--" from rfl), h1]

theorem short_tuples {p : ArgParser} {c : Char} {s : Str} (hc : c ≠ '-') :
    optionTuples p ('-' :: c :: s) = p.opts.filterMap fun o =>
      if o.1 = ['-', c] then some ⟨some o.2, o.1, some [], some s⟩
      else if ('-' :: c :: s).isPrefixOf o.1 then some ⟨some o.2, o.1, none, none⟩
      else none := by
  unfold optionTuples
  rw [if_neg]
  · rfl
  · simp [hc]

/-- Nothing is found where no option is meant. -/
theorem noOption_parse {p : ArgParser} (hp : TidyParser p) {w : Str} (hd : Dashed w) (h : NoOption p w) :
    parseOptional p w = if p.negNum w ∨ ' ' ∈ w then .ok none else .ok (some ⟨none, w, none, none⟩) := by
  obtain ⟨c0, s0, rfl⟩ := hd
  rcases h with ⟨c, s, e, hc, hn⟩ | ⟨pre, v, hl, hn⟩
  · cases e
    have hno : ∀ s a, ('-' :: c0 :: s, a) ∉ p.opts := by
      intro s a hm
      obtain ⟨rfl, -, -⟩ := hp.short hc hm
      exact hn a hm
    have hsp : p.find (splitEq ('-' :: c0 :: s0)).1 = none := by
      rw [hp.find_none]
      intro a hm
      obtain ⟨c1, s1, e1⟩ := hp.head hm
      have : ∃ r, '-' :: c0 :: s0 = (splitEq ('-' :: c0 :: s0)).1 ++ r := by
        rcases splitEq_cases ('-' :: c0 :: s0) with h | ⟨a, v, h1, h2⟩
        · exact ⟨[], by rw [splitEq_none h]; simp⟩
        · exact ⟨'=' :: v, by rw [h1, splitEq_some h2]⟩
      obtain ⟨r, hr⟩ := this
      rw [e1] at hr hm
      simp only [List.cons_append, List.cons.injEq, true_and] at hr
      rw [← hr.1] at hm
      exact hno _ _ hm
    rw [parse_abbr (hp.find_none.2 (hno s0)) rfl hsp, abbreviated_nil]
    rw [short_tuples hc, List.filterMap_eq_nil_iff]
    intro o ho
    obtain ⟨n, a⟩ := o
    have h1 : n ≠ ['-', c0] := by rintro rfl; exact hno _ _ ho
    have h2 : ('-' :: c0 :: s0).isPrefixOf n = false := by
      rw [Bool.eq_false_iff]
      intro h
      obtain ⟨r, rfl⟩ := List.isPrefixOf_iff_prefix.1 h
      exact hno _ _ ho
    simp [h1, h2]
  · obtain ⟨h1, -, -, h4, h5⟩ := longWord_split hl
    have hpre : ∀ a, (pre, a) ∉ p.opts := fun a hm => hn _ a hm (.inl rfl)
    have hw : ∀ a, ('-' :: c0 :: s0, a) ∉ p.opts := by
      intro a hm
      cases v with
      | none => rw [h4 rfl] at hm; exact hpre a hm
      | some v => exact hp.noEq hm (h5 (by simp))
    rw [parse_abbr (hp.find_none.2 hw) h1 (hp.find_none.2 hpre), abbreviated_nil]
    rw [long_tuples hl, List.map_eq_nil_iff, List.filter_eq_nil_iff]
    rintro ⟨n, a⟩ ho hpn
    exact hn n a ho (.inr ⟨hpre, List.isPrefixOf_iff_prefix.1 hpn⟩)

/-- Words are read as they should be. -/
theorem parse_word {p : ArgParser} (hp : TidyParser p) {w : Str} {k : Word} (h : WordIs p w k) :
    ParsedAs p w k (parseOptional p w) := by
  cases h with
  | plain hd =>
    have : parseOptional p w = .ok none := by
      unfold parseOptional
      match w, hd with
      | [], _ => rfl
      | [c], _ =>
        by_cases hc : c = '-'
        · subst hc
          have : p.find ['-'] = none := by
            rw [hp.find_none]
            intro a hm
            obtain ⟨_, _, e⟩ := hp.head hm
            simp at e
          simp [this]
        · simp [hc]
      | c :: d :: s, hd =>
        have hc : c ≠ '-' := by rintro rfl; exact hd ⟨_, _, rfl⟩
        simp [hc]
    rw [this]
    exact .plain
  | number hd hn hx =>
    rw [noOption_parse hp hd hn, if_pos hx]
    exact .plain
  | unknown hd hn h1 h2 =>
    rw [noOption_parse hp hd hn, if_neg (by simp [h1, h2])]
    exact .unknown
  | @letters c s a acts e hw hm hc hl =>
    subst hw
    obtain ⟨-, hceq, ha⟩ := hp.short hc hm
    have hact : ∀ x ∈ a :: acts, ∀ d, x ≠ .unique d := by
      intro x hx
      rcases List.mem_cons.1 hx with rfl | hx
      · exact ha
      · clear hm hceq ha
        induction hl with
        | done => cases hx
        | wrong => cases hx
        | unknown => cases hx
        | more h1 _ ih =>
          rcases List.mem_cons.1 hx with rfl | hx
          · exact (hp.short (by rintro rfl; exact hp.notDashes _ h1) h1).2.2
          · exact ih (by simp [hx]) hx
    cases s with
    | nil =>
      rw [parse_exact (hp.find_iff.2 hm)]
      cases hl
      refine .letters (a := a) rfl (fun rest => ?_) hact
      unfold optMatch
      dsimp only
      rw [matchFollowing_plain ha]
      exact .fine
    | cons d s =>
      have hw : ∀ s' a, ('-' :: c :: d :: s', a) ∉ p.opts := by
        intro s' a h
        have := (hp.short hc h).1
        cases this
      by_cases hd : d = '='
      · subst hd
        have he : e = .wrong := by
          cases hl with
          | wrong => rfl
          | unknown h => exact absurd rfl h
          | more h => exact absurd rfl (hp.short (by decide) h).2.1
        subst he
        rw [parse_eq (hp.find_none.2 (hw s)) (splitEq_some (s := ['-', c]) (by simp [Ne.symm hceq])) (hp.find_iff.2 hm)]
        refine .letters (a := a) rfl (fun rest => ?_) hact
        unfold optMatch
        dsimp only [Option.getD]
        rw [explicit_eq ha]
        exact .wrong
      · have hsp : p.find (splitEq ('-' :: c :: d :: s)).1 = none := by
          rw [hp.find_none]
          have : ∃ s', (splitEq ('-' :: c :: d :: s)).1 = '-' :: c :: d :: s' := by
            simp only [splitEq, if_neg (show ¬ '-' = '=' by decide), if_neg hceq, if_neg hd]
            exact ⟨_, rfl⟩
          obtain ⟨s', h⟩ := this
          rw [h]
          exact hw s'
        rw [parse_abbr (hp.find_none.2 (hw s)) rfl hsp]
        have ht : optionTuples p ('-' :: c :: d :: s) = [⟨some a, ['-', c], some [], some (d :: s)⟩] := by
          rw [short_tuples hc]
          refine filterMap_only hp.distinct hm (by simp) ?_
          rintro ⟨n, b⟩ ho hne
          by_cases hn : n = ['-', c]
          · exact hn
          · exfalso
            apply hne
            have : ('-' :: c :: d :: s).isPrefixOf n = false := by
              rw [Bool.eq_false_iff]
              intro h
              obtain ⟨r, rfl⟩ := List.isPrefixOf_iff_prefix.1 h
              exact hw _ _ ho
            simp [hn, this]
        unfold parseOptional.abbreviated
        rw [ht]
        refine .letters (a := a) rfl (fun rest => ?_) hact
        unfold optMatch
        have := explicit_letters hp (rest := rest) hl a ha (by simp) (by simpa using hd)
        simpa [hc] using this
  | @option pre name v a hl hm hf hu =>
    obtain ⟨h1, ⟨s1, h2⟩, ⟨s2, h3⟩, h4, h5⟩ := longWord_split hl
    by_cases hpre : ∃ a0, (pre, a0) ∈ p.opts
    · obtain ⟨a0, ha0⟩ := hpre
      have : pre = name := hu _ _ ha0 (.inl rfl)
      subst this
      cases v with
      | none =>
        have := h4 rfl
        subst this
        subst h2
        rw [parse_exact (hp.find_iff.2 hm)]
        exact .option (v := none) rfl
      | some v =>
        have hw : ∀ a, (w, a) ∉ p.opts := fun a h => hp.noEq h (h5 (by simp))
        subst h3
        rw [parse_eq (hp.find_none.2 hw) h1 (hp.find_iff.2 hm)]
        exact .option (v := some v) (by rw [h2]; rfl)
    · have hpre : ∀ a, (pre, a) ∉ p.opts := fun a h => hpre ⟨a, h⟩
      have hw : ∀ a, (w, a) ∉ p.opts := by
        intro a h
        cases v with
        | none => rw [h4 rfl] at h; exact hpre a h
        | some v => exact hp.noEq h (h5 (by simp))
      have hpr : pre <+: name := by
        rcases hf with rfl | hf
        · exact absurd hm (hpre a)
        · exact hf.2
      have ht := long_tuples (p := p) hl
      rw [filter_only hp.distinct (x := (name, a)) hm (List.isPrefixOf_iff_prefix.2 hpr)] at ht
      · subst h3
        rw [parse_abbr (hp.find_none.2 hw) h1 (hp.find_none.2 hpre)]
        unfold parseOptional.abbreviated
        rw [ht]
        refine .option ?_
        obtain ⟨r, rfl⟩ := hpr
        rw [h2]
        rfl
      · rintro ⟨n, b⟩ ho hpn
        exact hu n b ho (.inr ⟨hpre, List.isPrefixOf_iff_prefix.1 hpn⟩)
  | @ambiguous pre name name' v a a' hl hm hf hm' hf' hne =>
    obtain ⟨h1, ⟨s1, h2⟩, ⟨s2, h3⟩, h4, h5⟩ := longWord_split hl
    have hpre : ∀ a, (pre, a) ∉ p.opts := by
      intro b hb
      have e1 : name = pre := hf.resolve_right fun h => h.1 b hb
      have e2 : name' = pre := hf'.resolve_right fun h => h.1 b hb
      exact hne (e1.trans e2.symm)
    have hpr : pre <+: name := by
      rcases hf with rfl | hf
      · exact absurd hm (hpre a)
      · exact hf.2
    have hpr' : pre <+: name' := by
      rcases hf' with rfl | hf
      · exact absurd hm' (hpre a')
      · exact hf.2
    have hw : ∀ a, (w, a) ∉ p.opts := by
      intro a h
      cases v with
      | none => rw [h4 rfl] at h; exact hpre a h
      | some v => exact hp.noEq h (h5 (by simp))
    have ht := long_tuples (p := p) hl
    obtain ⟨x, y, z, hxyz⟩ := two_members (l := p.opts.filter fun o => pre.isPrefixOf o.1)
      (List.mem_filter.2 ⟨hm, List.isPrefixOf_iff_prefix.2 hpr⟩)
      (List.mem_filter.2 ⟨hm', List.isPrefixOf_iff_prefix.2 hpr'⟩) (by simp [hne])
    rw [hxyz] at ht
    subst h3
    rw [parse_abbr (hp.find_none.2 hw) h1 (hp.find_none.2 hpre)]
    unfold parseOptional.abbreviated
    rw [ht]
    exact .ambiguous

/-! ## Every word is something -/

theorem letters_exists (p : ArgParser) : ∀ s, ∃ acts e, Letters p s acts e
  | [] => ⟨_, _, .done⟩
  | c :: s => by
    by_cases h1 : c = '='
    · exact ⟨_, _, .wrong (.inl h1)⟩
    · by_cases h2 : c = '-'
      · exact ⟨_, _, .wrong (.inr h2)⟩
      · by_cases h : ∃ a, (['-', c], a) ∈ p.opts
        · obtain ⟨a, ha⟩ := h
          obtain ⟨acts, e, hl⟩ := letters_exists p s
          exact ⟨_, _, .more ha hl⟩
        · exact ⟨_, _, .unknown h1 h2 fun a ha => h ⟨a, ha⟩⟩

theorem word_exists (p : ArgParser) (w : Str) : ∃ k, WordIs p w k := by
  by_cases hd : Dashed w
  · obtain ⟨c, s, rfl⟩ := hd
    have hno : NoOption p ('-' :: c :: s) → ∃ k, WordIs p ('-' :: c :: s) k := by
      intro hn
      by_cases hx : p.negNum ('-' :: c :: s) = true ∨ ' ' ∈ '-' :: c :: s
      · exact ⟨_, .number ⟨_, _, rfl⟩ hn hx⟩
      · exact ⟨_, .unknown ⟨_, _, rfl⟩ hn (by simpa using fun h => hx (.inl h)) fun h => hx (.inr h)⟩
    by_cases hc : c = '-'
    · subst hc
      obtain ⟨pre, v, hl⟩ := longWord_exists s
      by_cases h : ∃ name a, (name, a) ∈ p.opts ∧ MeantBy p pre name
      · obtain ⟨name, a, hm, hf⟩ := h
        by_cases h2 : ∃ name' a', (name', a') ∈ p.opts ∧ MeantBy p pre name' ∧ name ≠ name'
        · obtain ⟨name', a', h3, h4, h5⟩ := h2
          exact ⟨_, .ambiguous hl hm hf h3 h4 h5⟩
        · refine ⟨_, .option hl hm hf fun name' a' h3 h4 => ?_⟩
          apply Classical.byContradiction
          intro h5
          exact h2 ⟨name', a', h3, h4, fun h => h5 h.symm⟩
      · exact hno (.inr ⟨pre, v, hl, fun name a hm hf => h ⟨name, a, hm, hf⟩⟩)
    · by_cases h : ∃ a, (['-', c], a) ∈ p.opts
      · obtain ⟨a, ha⟩ := h
        obtain ⟨acts, e, hl⟩ := letters_exists p s
        exact ⟨_, .letters rfl ha hc hl⟩
      · exact hno (.inl ⟨c, s, rfl, hc, fun a ha => h ⟨a, ha⟩⟩)
  · exact ⟨_, .plain hd⟩

end ALint
