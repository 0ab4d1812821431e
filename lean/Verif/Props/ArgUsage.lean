import Verif.Props.Args
import Verif.Props.Entry
import Verif.Spec.ArgUsage

/-!
# C103, C106: the options of the commands
-/

namespace ALint.Props
open ALint Spec

/-! ## Words -/

/-- A long option whose first letter no other has. -/
theorem long_word {p : ArgParser} {c : Char} {r : Str} {a : OptAct} (hm : ('-' :: '-' :: c :: r, a) ∈ p.opts) (hq : '=' ∉ c :: r)
    (hu : ∀ n a', (n, a') ∈ p.opts → ['-', '-', c] <+: n → n = '-' :: '-' :: c :: r) {w : Str}
    (h : ShortFor ('-' :: '-' :: c :: r) w) :
    w ≠ c! "--" ∧ Dashed w ∧ WordIs p w (.option a none) ∧ ∀ v, WordIs p (w ++ '=' :: v) (.option a (some v)) := by
  obtain ⟨hp, hl⟩ := h
  have hs : ∃ s, w = '-' :: '-' :: c :: s ∧ c :: s <+: c :: r := by
    match w, hl, hp with
    | x :: y :: z :: s, _, h =>
      obtain ⟨t, ht⟩ := h
      simp only [List.cons_append, List.cons.injEq] at ht
      obtain ⟨rfl, rfl, rfl, ht⟩ := ht
      exact ⟨s, rfl, t, by simp [ht]⟩
  obtain ⟨s, rfl, hs⟩ := hs
  have hq' : '=' ∉ c :: s := fun hx => hq (hs.mem hx)
  have hpre : ['-', '-', c] <+: '-' :: '-' :: c :: s := ⟨s, rfl⟩
  have hfits : MeantBy p ('-' :: '-' :: c :: s) ('-' :: '-' :: c :: r) := by
    by_cases he : '-' :: '-' :: c :: r = '-' :: '-' :: c :: s
    · exact .inl he
    · exact .inr ⟨fun a' ha => he (hu _ _ ha hpre).symm, hp⟩
  have hu' : ∀ name' a', (name', a') ∈ p.opts → MeantBy p ('-' :: '-' :: c :: s) name' → name' = '-' :: '-' :: c :: r := by
    intro name' a' hm' hf
    refine hu _ _ hm' ?_
    rcases hf with rfl | hf
    · exact hpre
    · exact hpre.trans hf.2
  exact ⟨by simp, ⟨_, _, rfl⟩, .option (.bare hq') hm hfits hu', fun v => .option (.valued hq') hm hfits hu'⟩

/-- One letter. -/
theorem letter_word {p : ArgParser} {c : Char} {a : OptAct} (hm : (['-', c], a) ∈ p.opts) (hc : c ≠ '-') :
    ['-', c] ≠ c! "--" ∧ WordIs p ['-', c] (.letters [a] .fine) :=
  ⟨by simpa using hc, .letters rfl hm hc .done⟩

theorem usage_plain {p : ArgParser} {f : Str} (hf : ¬ Dashed f) : f ≠ c! "--" ∧ WordIs p f .plain :=
  ⟨by rintro rfl; exact hf ⟨_, _, rfl⟩, .plain hf⟩

theorem usage_read {p : ArgParser} (hp : TidyParser p) {ws : List Str} {e : ArgEnd}
    (h1 : ∀ w ∈ ws, ∃ k, WordIs p w k ∧ k ≠ .ambiguous) (h2 : LineGoes p ⟨none, [], [], false⟩ ws e) :
    parseArgs p ws = e := by
  refine (C103_exact hp _ _).1 (.read (fun w hw ha => ?_) h2)
  obtain ⟨k, hk, hn⟩ := h1 w ((List.takeWhile_prefix _).mem hw)
  exact hn (word_unique hp hk ha)

/-! ## The file -/

/-- The file, or the file that is taken if none is given. -/
theorem C103_files (negNum : Str → Bool) {f : Str} (hf : ¬ Dashed f) :
    (parseArgs (showParser negNum) [] = .ok ⟨c! "./extensions.conf", [], []⟩ ∧ parseArgs (showParser negNum) [f] = .ok ⟨f, [], []⟩) ∧
    (parseArgs (identParser negNum) [] = .ok ⟨c! "./extensions.conf", [], []⟩ ∧ parseArgs (identParser negNum) [f] = .ok ⟨f, [], []⟩) ∧
    (parseArgs (odbcParser negNum) [] = .ok ⟨c! "./func_odbc.conf", [], []⟩ ∧ parseArgs (odbcParser negNum) [f] = .ok ⟨f, [], []⟩) := by
  obtain ⟨_, h2, h3, h4⟩ := C103_parsers negNum
  have key : ∀ {p : ArgParser}, TidyParser p → parseArgs p [f] = .ok ⟨f, [], []⟩ := by
    intro p hp
    obtain ⟨a, b⟩ := usage_plain (p := p) hf
    refine usage_read hp ?_ (.file a b rfl (by simp) .nil)
    simpa using ⟨_, b, by simp⟩
  exact ⟨⟨rfl, key h2⟩, ⟨rfl, key h3⟩, rfl, key h4⟩

/-! ## `--reverse` and `--verbose` -/

theorem usage_flag {p : ArgParser} (hp : TidyParser p) {w d f : Str} (hw : w ≠ c! "--")
    (h : WordIs p w (.option (.flag d) none) ∨ WordIs p w (.letters [.flag d] .fine)) (hf : ¬ Dashed f) :
    parseArgs p [w] = .ok ⟨p.default, [], [d]⟩ ∧ parseArgs p [w, f] = .ok ⟨f, [], [d]⟩ ∧ parseArgs p [f, w] = .ok ⟨f, [], [d]⟩ := by
  obtain ⟨a, b⟩ := usage_plain (p := p) hf
  have hk : ∃ k, WordIs p w k ∧ k ≠ .ambiguous := by
    rcases h with h | h
    · exact ⟨_, h, by simp⟩
    · exact ⟨_, h, by simp⟩
  have hb : ∃ k, WordIs p f k ∧ k ≠ .ambiguous := ⟨_, b, by simp⟩
  have step : ∀ {g : Given} {ws : List Str} {o : ArgEnd}, LineGoes p { g with flags := g.flags ++ [d] } ws o → LineGoes p g (w :: ws) o := by
    intro g ws o ho
    rcases h with h | h
    · exact .flag hw h ho
    · refine .letters hw h (by simp) (g' := { g with flags := g.flags ++ [d] }) rfl ?_
      simpa using ho
  refine ⟨usage_read hp (by simpa using hk) (step .nil), usage_read hp ?_ (step (.file a b rfl (by simp) .nil)),
    usage_read hp ?_ (.file a b rfl (by simpa using hw) (step .nil))⟩
  · simpa using ⟨hk, hb⟩
  · simpa using ⟨hb, hk⟩

/-- **C103.** `dialplan-show`: `--reverse`, abbreviated or not, before or behind the file. -/
theorem C103_show_usage (negNum : Str → Bool) {w f : Str} (h : ShortFor (c! "--reverse") w) (hf : ¬ Dashed f) :
    parseArgs (showParser negNum) [w] = .ok ⟨c! "./extensions.conf", [], [c! "reverse"]⟩ ∧
    parseArgs (showParser negNum) [w, f] = .ok ⟨f, [], [c! "reverse"]⟩ ∧
    parseArgs (showParser negNum) [f, w] = .ok ⟨f, [], [c! "reverse"]⟩ := by
  obtain ⟨h1, _, h2, _⟩ := long_word (p := showParser negNum) (a := .flag (c! "reverse")) (by simp [showParser, helpOpts]) (by decide)
    (by
      intro n a' hm hn
      simp [showParser, helpOpts] at hm
      rcases hm with ⟨rfl, -⟩ | ⟨rfl, -⟩ | ⟨rfl, -⟩
      · revert hn; decide
      · revert hn; decide
      · rfl) h
  exact usage_flag (C103_parsers negNum).2.1 h1 (.inl h2) hf

/-- **C103.** `ident-scan`: `-v` or `--verbose`. -/
theorem C103_ident_usage (negNum : Str → Bool) {w f : Str} (h : w = c! "-v" ∨ ShortFor (c! "--verbose") w) (hf : ¬ Dashed f) :
    parseArgs (identParser negNum) [w] = .ok ⟨c! "./extensions.conf", [], [c! "verbose"]⟩ ∧
    parseArgs (identParser negNum) [w, f] = .ok ⟨f, [], [c! "verbose"]⟩ ∧
    parseArgs (identParser negNum) [f, w] = .ok ⟨f, [], [c! "verbose"]⟩ := by
  rcases h with rfl | h
  · obtain ⟨h1, h2⟩ := letter_word (p := identParser negNum) (c := 'v') (a := .flag (c! "verbose")) (by simp [identParser, helpOpts])
      (by decide)
    exact usage_flag (C103_parsers negNum).2.2.1 h1 (.inr h2) hf
  · obtain ⟨h1, _, h2, _⟩ := long_word (p := identParser negNum) (a := .flag (c! "verbose")) (by simp [identParser, helpOpts]) (by decide)
      (by
        intro n a' hm hn
        simp [identParser, helpOpts] at hm
        rcases hm with ⟨rfl, -⟩ | ⟨rfl, -⟩ | ⟨rfl, -⟩ | ⟨rfl, -⟩
        · revert hn; decide
        · revert hn; decide
        · revert hn; decide
        · rfl) h
    exact usage_flag (C103_parsers negNum).2.2.1 h1 (.inl h2) hf

/-! ## Help -/

theorem usage_help {p : ArgParser} (hp : TidyParser p) (hh : ∃ l, p.opts = helpOpts ++ l ∧ ∀ o ∈ l, ¬ ['-', '-', 'h'] <+: o.1) {w f : Str}
    (h : w = c! "-h" ∨ ShortFor (c! "--help") w) (hf : ¬ Dashed f) :
    parseArgs p [w] = .error .help ∧ parseArgs p [w, f] = .error .help ∧ parseArgs p [f, w] = .error .help := by
  obtain ⟨l, hl, hn⟩ := hh
  obtain ⟨a, b⟩ := usage_plain (p := p) hf
  have hb : ∃ k, WordIs p f k ∧ k ≠ .ambiguous := ⟨_, b, by simp⟩
  have key : w ≠ c! "--" ∧ (∃ k, WordIs p w k ∧ k ≠ .ambiguous) ∧ ∀ g ws, LineGoes p g (w :: ws) (.error .help) := by
    rcases h with rfl | h
    · obtain ⟨h1, h2⟩ := letter_word (p := p) (c := 'h') (a := .help) (by simp [hl, helpOpts]) (by decide)
      exact ⟨h1, ⟨_, h2, by simp⟩, fun g ws => .lettersHelp h1 h2 (by simp) rfl⟩
    · obtain ⟨h1, _, h2, _⟩ := long_word (p := p) (a := .help) (by simp [hl, helpOpts]) (by decide) (by
        intro n a' hm hx
        rw [hl, List.mem_append] at hm
        rcases hm with hm | hm
        · simp [helpOpts] at hm
          rcases hm with ⟨rfl, -⟩ | ⟨rfl, -⟩
          · revert hx; decide
          · rfl
        · exact absurd hx (hn _ hm)) h
      exact ⟨h1, ⟨_, h2, by simp⟩, fun g ws => .help h1 h2⟩
  obtain ⟨hw, hk, hg⟩ := key
  refine ⟨usage_read hp (by simpa using hk) (hg _ _), usage_read hp ?_ (hg _ _),
    usage_read hp ?_ (.file a b rfl (by simpa using hw) (hg _ _))⟩
  · simpa using ⟨hk, hb⟩
  · simpa using ⟨hb, hk⟩

/-- **C103.** Every command has `-h` and `--help`. -/
theorem C103_help (negNum : Str → Bool) {w f : Str} (h : w = c! "-h" ∨ ShortFor (c! "--help") w) (hf : ¬ Dashed f) :
    ∀ p ∈ [checkParser negNum, showParser negNum, identParser negNum, odbcParser negNum],
      parseArgs p [w] = .error .help ∧ parseArgs p [w, f] = .error .help ∧ parseArgs p [f, w] = .error .help := by
  obtain ⟨h1, h2, h3, h4⟩ := C103_parsers negNum
  intro p hp
  simp only [List.mem_cons, List.not_mem_nil, or_false] at hp
  rcases hp with rfl | rfl | rfl | rfl
  · exact usage_help h1 ⟨_, rfl, by decide⟩ h hf
  · exact usage_help h2 ⟨_, rfl, by decide⟩ h hf
  · exact usage_help h3 ⟨_, rfl, by decide⟩ h hf
  · exact usage_help h4 ⟨[], rfl, by decide⟩ h hf

/-! ## No other options -/

theorem offered_of {p : ArgParser} {names : List Str} (hn : ∀ o ∈ p.opts, o.1 ∈ names) {w : Str} (hl : LikeOption p.negNum w)
    (h : FineWord p w) : Offered names w := by
  obtain ⟨hd, hb, hg⟩ := hl
  have opt : ∀ {a v}, WordIs p w (.option a v) → Offered names w := by
    intro a v h
    cases h with
    | @option pre name _ _ h1 h2 h3 h4 =>
      refine .inr ⟨_, _, _, h1, hn _ h2, ?_⟩
      rcases h3 with rfl | h3
      · exact List.prefix_refl _
      · exact h3.2
  have let_ : ∀ {acts e}, WordIs p w (.letters acts e) → Offered names w := by
    intro acts e h
    cases h with
    | letters h1 h2 h3 h4 => exact .inl ⟨_, _, h1, h3, hn _ h2⟩
  cases h with
  | plain h =>
    cases h with
    | plain h => exact absurd hd h
    | number _ _ h =>
      rcases h with h | h
      · rw [hg] at h; cases h
      · exact absurd h hb
  | letters h _ => exact let_ h
  | flag h => exact opt h
  | unique h => exact opt h

/-- **C103.** No command takes silently what looks like an option but is none of those it offers. -/
theorem C103_no_other (negNum : Str → Bool) {ws : List Str} {w : Str} (hw : w ∈ beforeDashes ws) (hl : LikeOption negNum w) {ns : ArgSpace} :
    (parseArgs (checkParser negNum) ws = .ok ns → Offered [c! "-h", c! "--help", c! "--func-odbc"] w) ∧
    (parseArgs (showParser negNum) ws = .ok ns → Offered [c! "-h", c! "--help", c! "--reverse"] w) ∧
    (parseArgs (identParser negNum) ws = .ok ns → Offered [c! "-h", c! "--help", c! "-v", c! "--verbose"] w) ∧
    (parseArgs (odbcParser negNum) ws = .ok ns → Offered [c! "-h", c! "--help"] w) := by
  obtain ⟨h1, h2, h3, h4⟩ := C103_parsers negNum
  have key : ∀ {p : ArgParser} {names : List Str}, TidyParser p → p.negNum = negNum → (∀ o ∈ p.opts, o.1 ∈ names) →
      parseArgs p ws = .ok ns → Offered names w :=
    fun hp he hn h => offered_of hn (he ▸ hl) (C103_words hp h w hw)
  exact ⟨key h1 rfl (by simp [checkParser, helpOpts]), key h2 rfl (by simp [showParser, helpOpts]),
    key h3 rfl (by simp [identParser, helpOpts]), key h4 rfl (by simp [odbcParser, helpOpts])⟩

/-! ## `asterisklint` itself -/

theorem entry_ambiguous {neg : Str → Bool} {w : Str} (hw : w ≠ c! "--") (h : WordIs (entryParser neg) w .ambiguous) :
    c! "--=" <+: w := by
  cases h with
  | @ambiguous pre name name' v a a' h1 h2 h3 h4 h5 h6 =>
    have hpre : ∀ {n}, MeantBy (entryParser neg) pre n → pre <+: n := by
      intro n hn
      rcases hn with rfl | hn
      · exact List.prefix_refl _
      · exact hn.2
    have k1 := hpre h3
    have k2 := hpre h5
    have hs : ∃ s, pre = '-' :: '-' :: s := by cases h1 <;> exact ⟨_, rfl⟩
    obtain ⟨s, rfl⟩ := hs
    have hs : s = [] := by
      cases s with
      | nil => rfl
      | cons c s =>
        exfalso
        have pc : ['-', '-', c] <+: '-' :: '-' :: c :: s := ⟨s, rfl⟩
        have k1 := pc.trans k1
        have k2 := pc.trans k2
        simp [entryParser, helpOpts] at h2 h4
        rcases h2 with ⟨rfl, -⟩ | ⟨rfl, -⟩ | ⟨rfl, -⟩ | ⟨rfl, -⟩ <;>
          rcases h4 with ⟨rfl, -⟩ | ⟨rfl, -⟩ | ⟨rfl, -⟩ | ⟨rfl, -⟩ <;>
          simp_all
    subst hs
    cases h1 with
    | bare => exact absurd rfl hw
    | valued => exact ⟨_, rfl⟩

/-- **C106.** Behind words that are no options, `-h` and `--help` show the help, `-V` and `--version` the version, abbreviated or
not, if no word is ambiguous (`--=` and more). -/
theorem C106_asked (tx : ArgTexts) (version : List Str) (neg : Str → Bool) {a b : List Str} {w : Str} (ha : ∀ x ∈ a, ¬ Dashed x)
    (hb : ∀ x ∈ b, ¬ c! "--=" <+: x) :
    ((w = c! "-h" ∨ ShortFor (c! "--help") w) → entryRun tx version (entryParser neg) (a ++ w :: b) = ⟨tx.help, [], .exit 0⟩) ∧
    ((w = c! "-V" ∨ ShortFor (c! "--version") w) → entryRun tx version (entryParser neg) (a ++ w :: b) = ⟨version, [], .exit 0⟩) := by
  have key : ∀ {act : OptAct} {o : EntryOut}, w ≠ c! "--" → AsksFor (entryParser neg) w act → ShownFor act o →
      entryParse (entryParser neg) (a ++ w :: b) = o := by
    intro act o hw h1 h2
    refine (C106_exact neg _ _).2 (.read ?_ (.shows rfl ?_ hw h1 h2))
    · intro x hx hamb
      have hne := before_ne hx
      have hx := (List.takeWhile_prefix _).mem hx
      rw [List.mem_append, List.mem_cons] at hx
      rcases hx with hx | rfl | hx
      · exact nomatch word_unique (entry_tidy neg) hamb (.plain (ha x hx))
      · rcases h1 with h1 | ⟨_, _, h1, _⟩
        · exact nomatch word_unique (entry_tidy neg) hamb h1
        · exact nomatch word_unique (entry_tidy neg) hamb h1
      · exact hb x hx (entry_ambiguous hne hamb)
    · exact fun x hx => ⟨(usage_plain (p := entryParser neg) (ha x hx)).1, .inl (.plain (ha x hx))⟩
  have long : ∀ {c : Char} {r : Str} {act : OptAct}, ('-' :: '-' :: c :: r, act) ∈ (entryParser neg).opts → '=' ∉ c :: r →
      (∀ n a', (n, a') ∈ (entryParser neg).opts → ['-', '-', c] <+: n → n = '-' :: '-' :: c :: r) →
      ShortFor ('-' :: '-' :: c :: r) w → w ≠ c! "--" ∧ AsksFor (entryParser neg) w act := by
    intro c r act h1 h2 h3 h4
    obtain ⟨k1, _, k2, _⟩ := long_word h1 h2 h3 h4
    exact ⟨k1, .inl k2⟩
  constructor
  · rintro (rfl | h)
    · obtain ⟨k1, k2⟩ := letter_word (p := entryParser neg) (c := 'h') (a := .help) (by simp [entryParser, helpOpts]) (by decide)
      unfold entryRun
      rw [key k1 (.inr ⟨_, _, k2, by simp⟩) .help]
    · obtain ⟨k1, k2⟩ := long (act := .help) (by simp [entryParser, helpOpts]) (by decide) (by
        intro n a' hm hn
        simp [entryParser, helpOpts] at hm
        rcases hm with ⟨rfl, -⟩ | ⟨rfl, -⟩ | ⟨rfl, -⟩ | ⟨rfl, -⟩
        · revert hn; decide
        · rfl
        · revert hn; decide
        · revert hn; decide) h
      unfold entryRun
      rw [key k1 k2 .help]
  · rintro (rfl | h)
    · obtain ⟨k1, k2⟩ := letter_word (p := entryParser neg) (c := 'V') (a := .flag (c! "version")) (by simp [entryParser, helpOpts])
        (by decide)
      unfold entryRun
      rw [key k1 (.inr ⟨_, _, k2, by simp⟩) .version]
    · obtain ⟨k1, k2⟩ := long (act := .flag (c! "version")) (by simp [entryParser, helpOpts]) (by decide) (by
        intro n a' hm hn
        simp [entryParser, helpOpts] at hm
        rcases hm with ⟨rfl, -⟩ | ⟨rfl, -⟩ | ⟨rfl, -⟩ | ⟨rfl, -⟩
        · revert hn; decide
        · revert hn; decide
        · revert hn; decide
        · rfl) h
      unfold entryRun
      rw [key k1 k2 .version]

/-! ## Examples -/

section
private def noNum' : Str → Bool := fun _ => false

example : parseArgs (showParser noNum') [c! "a.conf", c! "--rev"] = .ok ⟨c! "a.conf", [], [c! "reverse"]⟩ :=
  (C103_show_usage noNum' ⟨⟨c! "erse", rfl⟩, by decide⟩ (fun ⟨_, _, h⟩ => nomatch h)).2.2

/-- `--reversed` is none of the options, and refused. -/
example (ns : ArgSpace) : parseArgs (showParser noNum') [c! "--reversed"] ≠ .ok ns := by
  intro h
  rcases (C103_no_other noNum' (ws := [c! "--reversed"]) (w := c! "--reversed") (by decide) ⟨⟨_, _, rfl⟩, by decide, rfl⟩).2.1 h with
    ⟨c, s, h1, h2, _⟩ | ⟨pre, v, name, h1, h2, h3⟩
  · simp only [List.cons.injEq] at h1
    exact h2 h1.2.1.symm
  · generalize hw : c! "--reversed" = w at h1
    cases h1 with
    | bare =>
      rw [← hw] at h3
      simp only [List.mem_cons, List.not_mem_nil, or_false] at h2
      rcases h2 with rfl | rfl | rfl <;> revert h3 <;> decide
    | valued =>
      have := congrArg (fun l : List Char => l.contains '=') hw
      simp at this

example (tx : ArgTexts) (version : List Str) : entryRun tx version (entryParser noNum') [c! "-", c! "--ver", c! "-x"] = ⟨version, [], .exit 0⟩ :=
  (C106_asked tx version noNum' (a := [c! "-"]) (b := [c! "-x"]) (w := c! "--ver")
    (by intro x hx; rw [List.mem_singleton.1 hx]; rintro ⟨_, _, h⟩; cases h) (by decide)).2 (.inr ⟨⟨c! "sion", rfl⟩, by decide⟩)

end

end ALint.Props
