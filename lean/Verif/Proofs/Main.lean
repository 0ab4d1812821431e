import Verif.Spec.Main
import Verif.Proofs.Sort
import Verif.Proofs.Separate

/-!
# Lemmas on commands
-/

namespace ALint
open ALint.Spec

theorem char_le_range {c a b : Char} : (decide (a ≤ c) && decide (c ≤ b)) = true ↔ a.toNat ≤ c.toNat ∧ c.toNat ≤ b.toNat := by
  simp only [Bool.and_eq_true, decide_eq_true_eq]
  exact Iff.rfl

theorem char_toNat_inj {a b : Char} (h : a.toNat = b.toNat) : a = b := by
  have := congrArg Char.ofNat h
  simpa using this

theorem mem_of_range (l : Str) (lo hi : Nat) (h : ∀ n, n < hi + 1 - lo → ∃ a ∈ l, a.toNat = lo + n) {c : Char}
    (h1 : lo ≤ c.toNat) (h2 : c.toNat ≤ hi) : c ∈ l := by
  obtain ⟨a, ha, hn⟩ := h (c.toNat - lo) (by omega)
  have : a = c := char_toNat_inj (by omega)
  exact this ▸ ha

theorem cmdHead_iff (c : Char) : cmdHead c = true ↔ c ∈ c! "abcdefghijklmnopqrstuvwxyz0123456789" := by
  constructor
  · intro h
    unfold cmdHead at h
    rw [Bool.or_eq_true, char_le_range, char_le_range] at h
    rcases h with ⟨h1, h2⟩ | ⟨h1, h2⟩
    · exact mem_of_range _ 97 122 (by decide) h1 h2
    · exact mem_of_range _ 48 57 (by decide) h1 h2
  · intro h
    have : ∀ x ∈ c! "abcdefghijklmnopqrstuvwxyz0123456789", cmdHead x = true := by decide
    exact this c h

theorem cmdTail_iff (c : Char) : cmdTail c = true ↔ c ∈ c! "abcdefghijklmnopqrstuvwxyz0123456789_-" := by
  have : (c! "abcdefghijklmnopqrstuvwxyz0123456789_-") = (c! "abcdefghijklmnopqrstuvwxyz0123456789") ++ c! "_-" := by
    decide
  unfold cmdTail
  rw [Bool.or_eq_true, Bool.or_eq_true, cmdHead_iff, this, List.mem_append]
  simp only [beq_iff_eq, List.mem_cons, List.not_mem_nil, or_false, or_assoc]

theorem cmdTail_nl : cmdTail '\n' = false := by decide

theorem cmdRest_iff (s : Str) : cmdRest s = true ↔
    (∀ c ∈ s, cmdTail c = true) ∨ ∃ t, s = t ++ ['\n'] ∧ ∀ c ∈ t, cmdTail c = true := by
  induction s with
  | nil => simp [cmdRest]
  | cons c s ih =>
    rw [cmdRest, Bool.or_eq_true, Bool.and_eq_true, Bool.and_eq_true, ih]
    constructor
    · rintro (⟨hc, h | ⟨t, rfl, h⟩⟩ | ⟨hc, hs⟩)
      · exact .inl (by simpa [hc] using h)
      · exact .inr ⟨c :: t, rfl, by simpa [hc] using h⟩
      · rw [List.isEmpty_iff] at hs
        rw [beq_iff_eq] at hc
        subst hs hc
        exact .inr ⟨[], rfl, by simp⟩
    · rintro (h | ⟨t, he, h⟩)
      · exact .inl ⟨h c (by simp), .inl fun x hx => h x (by simp [hx])⟩
      · cases t with
        | nil =>
          simp only [List.nil_append, List.cons.injEq] at he
          exact .inr ⟨by simp [he.1], by simp [he.2]⟩
        | cons a t =>
          simp only [List.cons_append, List.cons.injEq] at he
          obtain ⟨rfl, rfl⟩ := he
          exact .inl ⟨h c (by simp), .inr ⟨t, rfl, fun x hx => h x (by simp [hx])⟩⟩

theorem cmdHead_tail {c : Char} (h : cmdHead c = true) : cmdTail c = true := by simp [cmdTail, h]

theorem commandName_cons {c : Char} {s : Str} : CommandName (c :: s) ↔ cmdHead c = true ∧ ∀ x ∈ s, cmdTail x = true := by
  unfold CommandName
  simp only [← cmdTail_iff, ← cmdHead_iff, List.head?_cons, Option.some.injEq, exists_eq_left']
  constructor
  · rintro ⟨h1, h2⟩
    exact ⟨h2, fun x hx => h1 x (by simp [hx])⟩
  · rintro ⟨h1, h2⟩
    exact ⟨fun x hx => (List.mem_cons.1 hx).elim (fun h => h ▸ cmdHead_tail h1) (h2 x), h1⟩

theorem commandRe_iff (s : Str) : commandRe s = true ↔ NameLike s := by
  cases s with
  | nil =>
    simp only [commandRe, Bool.false_eq_true, false_iff]
    rintro (⟨_, c, h, _⟩ | ⟨t, _, h⟩)
    · simp at h
    · simp at h
  | cons c s =>
    rw [commandRe, Bool.and_eq_true, cmdRest_iff]
    constructor
    · rintro ⟨hc, h | ⟨t, rfl, h⟩⟩
      · exact .inl (commandName_cons.2 ⟨hc, h⟩)
      · exact .inr ⟨c :: t, commandName_cons.2 ⟨hc, h⟩, rfl⟩
    · rintro (h | ⟨t, h, he⟩)
      · obtain ⟨h1, h2⟩ := commandName_cons.1 h
        exact ⟨h1, .inl h2⟩
      · cases t with
        | nil => obtain ⟨_, c, hc, _⟩ := h; simp at hc
        | cons a t =>
          simp only [List.cons_append, List.cons.injEq] at he
          obtain ⟨rfl, rfl⟩ := he
          obtain ⟨h1, h2⟩ := commandName_cons.1 h
          exact ⟨h1, .inr ⟨t, rfl, h2⟩⟩

theorem nameLike_head {s : Str} (h : NameLike s) : ∃ c t, s = c :: t ∧ cmdHead c = true := by
  cases s with
  | nil => rw [← commandRe_iff] at h; simp [commandRe] at h
  | cons c s =>
    rw [← commandRe_iff, commandRe, Bool.and_eq_true] at h
    exact ⟨c, s, rfl, h.1⟩

theorem pathJoin_plain {a b : Str} (hb : b.head? ≠ some '/') (ha : a ≠ []) (hl : a.getLast? ≠ some '/') :
    pathJoin a b = a ++ '/' :: b := by
  unfold pathJoin
  split
  · simp at hb
  · split
    · rename_i h; simp at h; exact absurd h ha
    · rename_i h; exact absurd h hl
    · rfl

theorem pathJoin_slash {a b : Str} (hb : b.head? ≠ some '/') (ha : a = [] ∨ a.getLast? = some '/') :
    pathJoin a b = a ++ b := by
  unfold pathJoin
  split
  · simp at hb
  · split
    · rename_i h; simp at h; simp [h]
    · rfl
    · rename_i h1 h2
      rcases ha with rfl | ha
      · simp at h2
      · rw [ha] at h2
        exact absurd (Option.some.inj h2).symm (by assumption)

theorem commandsOf_eq (p : Str) :
    pathJoin (pathJoin p (c! "asterisklint")) (c! "commands") = commandsOf p := by
  unfold commandsOf
  by_cases h : p = [] ∨ p.getLast? = some '/'
  · rw [if_pos h, pathJoin_slash (by decide) h, pathJoin_plain (by decide) (by simp)
      (by rw [List.getLast?_append]; exact (by decide : some 't' ≠ some '/'))]
    simp
  · rw [if_neg h]
    rw [not_or] at h
    rw [pathJoin_plain (by decide) h.1 h.2, pathJoin_plain (by decide) (by simp)
      (by rw [List.getLast?_append]; exact (by decide : some 't' ≠ some '/'))]
    simp

theorem commandDirs_eq (w : CmdWorld) (path : List Str) : commandDirs w path = (path.map commandsOf).filter w.isdir := by
  unfold commandDirs
  simp only [commandsOf_eq]

theorem commandsOf_last (p : Str) : ∃ q, commandsOf p = q ++ c! "commands" := by
  unfold commandsOf
  split
  · exact ⟨p ++ c! "asterisklint/", by simp⟩
  · exact ⟨p ++ c! "/asterisklint/", by simp⟩

theorem fileIn_eq {p name : Str} (h : NameLike name) : pathJoin (commandsOf p) (name ++ c! ".py") = fileIn (commandsOf p) name := by
  obtain ⟨q, hq⟩ := commandsOf_last p
  obtain ⟨c, t, rfl, hc⟩ := nameLike_head h
  rw [fileIn, pathJoin_plain]
  · intro he
    simp only [List.cons_append, List.head?_cons, Option.some.injEq] at he
    rw [he] at hc
    exact absurd hc (by decide)
  · rw [hq]; simp
  · rw [hq, List.getLast?_append]
    exact (by decide : some 's' ≠ some '/')

theorem mem_commandDirs {w : CmdWorld} {path : List Str} {d : Str} (h : d ∈ commandDirs w path) :
    w.isdir d = true ∧ ∃ p ∈ path, commandsOf p = d := by
  rw [commandDirs_eq, List.mem_filter, List.mem_map] at h
  obtain ⟨⟨p, hp, rfl⟩, h⟩ := h
  exact ⟨h, p, hp, rfl⟩

/-- The first in a filtered list. -/
theorem first_filter {α : Type} {p : α → Bool} {q : α → Prop} (l : List α) (a : α) :
    FirstWith q (l.filter p) a ↔ FirstWith (fun x => p x = true ∧ q x) l a := by
  induction l with
  | nil => simp [FirstWith]
  | cons x l ih =>
    have cons : ∀ {r : α → Prop} {x : α} {l : List α}, FirstWith r (x :: l) a ↔ (r x ∧ x = a) ∨ (¬ r x ∧ FirstWith r l a) := by
      intro r x l
      constructor
      · rintro ⟨before, after, he, ha, hb⟩
        cases before with
        | nil =>
          simp only [List.nil_append, List.cons.injEq] at he
          exact .inl ⟨he.1 ▸ ha, he.1⟩
        | cons b before =>
          simp only [List.cons_append, List.cons.injEq] at he
          exact .inr ⟨he.1 ▸ hb b (by simp), before, after, he.2, ha, fun b hb' => hb b (by simp [hb'])⟩
      · rintro (⟨h, rfl⟩ | ⟨h, before, after, he, ha, hb⟩)
        · exact ⟨[], l, rfl, h, by simp⟩
        · exact ⟨x :: before, after, by rw [he]; rfl, ha, by
            intro b hb'
            rcases List.mem_cons.1 hb' with rfl | hb'
            · exact h
            · exact hb b hb'⟩
    rw [List.filter_cons, cons (r := fun x => p x = true ∧ q x)]
    by_cases hp : p x = true
    · rw [if_pos hp, cons, ih]
      simp [hp]
    · rw [if_neg hp, ih]
      simp [hp]

theorem find_first {α : Type} {p : α → Bool} (l : List α) (a : α) : l.find? p = some a ↔ FirstWith (fun x => p x = true) l a := by
  rw [List.find?_eq_some_iff_append]
  constructor
  · rintro ⟨h, before, after, he, hb⟩
    exact ⟨before, after, he, h, fun b hb' => by simpa using hb b hb'⟩
  · rintro ⟨before, after, he, h, hb⟩
    exact ⟨h, before, after, he, fun b hb' => by simpa using hb b hb'⟩

theorem find_command {w : CmdWorld} {path : List Str} {name d : Str} (h : NameLike name) :
    (commandDirs w path).find? (fun d => w.isfile (pathJoin d (name ++ c! ".py"))) = some d ↔ HasCommand w path name d := by
  rw [find_first, commandDirs_eq, first_filter]
  unfold HasCommand FirstWith
  have key : ∀ x ∈ path.map commandsOf, (w.isfile (pathJoin x (name ++ c! ".py")) = true ↔ w.isfile (fileIn x name) = true) := by
    intro x hx
    obtain ⟨p, _, rfl⟩ := List.mem_map.1 hx
    rw [fileIn_eq h]
  constructor
  · rintro ⟨before, after, he, ⟨h1, h2⟩, hb⟩
    refine ⟨before, after, he, ⟨h1, (key d (by rw [he]; simp)).1 h2⟩, fun b hb' ⟨h3, h4⟩ => hb b hb' ⟨h3, (key b (by rw [he]; simp [hb'])).2 h4⟩⟩
  · rintro ⟨before, after, he, ⟨h1, h2⟩, hb⟩
    refine ⟨before, after, he, ⟨h1, (key d (by rw [he]; simp)).2 h2⟩, fun b hb' ⟨h3, h4⟩ => hb b hb' ⟨h3, (key b (by rw [he]; simp [hb'])).1 h4⟩⟩

theorem hasCommand_of {w : CmdWorld} {path : List Str} {name d : Str} (h : HasCommand w path name d) : ∃ p ∈ path, d = commandsOf p := by
  obtain ⟨before, after, he, _⟩ := h
  have : d ∈ path.map commandsOf := by rw [he]; simp
  obtain ⟨p, hp, rfl⟩ := List.mem_map.1 this
  exact ⟨p, hp, rfl⟩

theorem removeFirst_eq (before : List Str) (c : Str) (after : List Str) (h : c ∉ before) :
    removeFirst c (before ++ c :: after) = before ++ after := by
  induction before with
  | nil => simp [removeFirst]
  | cons b before ih =>
    rw [List.cons_append, removeFirst, if_neg (fun he => h (by simp [he])), ih (fun hm => h (by simp [hm]))]
    rfl

/-! ### the list -/

theorem pyName_eq {file name : Str} : pyName file = some name ↔ file = name ++ c! ".py" := by
  unfold pyName
  constructor
  · intro h
    split at h
    · rename_i he
      rw [← Option.some.inj h, ← he, List.take_append_drop]
    · exact absurd h (by simp)
  · rintro rfl
    have : (name ++ c! ".py").length - 3 = name.length := by simp
    rw [this]
    simp

theorem describe_iff {w : CmdWorld} {name file text : Str} (hn : NameLike name) :
    describe w name file = some text ↔ Described w name file text := by
  have repr : ∀ t, CommandName t → (t.flatMap fun c => if c = '\n' then c! "\\n" else [c]) = t := by
    intro t ht
    have : ∀ l : Str, (∀ c ∈ l, cmdTail c = true) → (l.flatMap fun c => if c = '\n' then c! "\\n" else [c]) = l := by
      intro l hl
      induction l with
      | nil => rfl
      | cons x l ih =>
        rw [List.flatMap_cons, ih (fun c hc => hl c (by simp [hc])), if_neg]
        · rfl
        · rintro rfl
          exact absurd (hl '\n' (by simp)) (by decide)
    exact this t fun c hc => (cmdTail_iff c).2 (ht.1 c hc)
  have notboth : ∀ t, ¬ CommandName (t ++ ['\n']) := by
    intro t ht
    exact absurd ((cmdTail_iff '\n').2 (ht.1 '\n' (by simp))) (by decide)
  unfold describe loadFile Described
  cases hl : w.load file with
  | none => simp
  | some m =>
    cases he : m.entry with
    | true =>
      cases hd : m.doc with
      | none =>
        constructor
        · intro h
          exact ⟨m, rfl, .inr (.inl ⟨he, hd, by simpa [he, hd, eq_comm (b := text)] using h⟩)⟩
        · rintro ⟨m', hm, h⟩
          obtain rfl := Option.some.inj hm
          rcases h with ⟨_, d, h, _⟩ | ⟨_, _, h⟩ | ⟨h, _⟩ | ⟨h, _⟩
          · rw [hd] at h; exact absurd h (by simp)
          · simp [he, hd, h]
          · rw [he] at h; exact absurd h (by simp)
          · rw [he] at h; exact absurd h (by simp)
      | some d =>
        constructor
        · intro h
          exact ⟨m, rfl, .inl ⟨he, d, hd, by simpa [he, hd, eq_comm (b := text)] using h⟩⟩
        · rintro ⟨m', hm, h⟩
          obtain rfl := Option.some.inj hm
          rcases h with ⟨_, d', h, h'⟩ | ⟨_, h, _⟩ | ⟨h, _⟩ | ⟨h, _⟩
          · rw [hd] at h
            obtain rfl := Option.some.inj h
            simp [he, hd, h']
          · rw [hd] at h; exact absurd h (by simp)
          · rw [he] at h; exact absurd h (by simp)
          · rw [he] at h; exact absurd h (by simp)
    | false =>
      simp only [Bool.false_eq_true, if_false, Option.some.injEq, exists_eq_left', he, false_and, false_or, true_and]
      unfold cmdRepr
      rcases hn with hn | ⟨t, ht, rfl⟩
      · rw [repr _ hn]
        constructor
        · intro h
          exact .inl ⟨hn, by rw [← h]; simp⟩
        · rintro (⟨_, h⟩ | ⟨t, _, h, _⟩)
          · rw [h]; simp
          · exact absurd (h ▸ hn) (notboth t)
      · rw [List.flatMap_append, repr _ ht]
        constructor
        · intro h
          exact .inr ⟨t, ht, rfl, by rw [← h]; simp⟩
        · rintro (⟨h, _⟩ | ⟨t', _, h, h'⟩)
          · exact absurd h (notboth t)
          · have : t = t' := by simpa using h
            rw [h', ← this]; simp

/-- Directories and files in the order in which they are looked at. -/
def entriesOf (w : CmdWorld) (dirs : List Str) : List (Str × Str) :=
  dirs.flatMap fun d => ((w.listdir d).getD []).map fun f => (d, f)

/-- The rows after these files. -/
structure RowsOf (w : CmdWorld) (es : List (Str × Str)) (rows : List Row) : Prop where
  mem : ∀ d n t, (d, n, t) ∈ rows ↔ NameLike n ∧ FirstWith (fun e => e.2 = n ++ c! ".py") es (d, n ++ c! ".py") ∧
    Described w n (fileIn d n) t
  once : rows.Pairwise (fun a b => a.2.1 ≠ b.2.1)
  full : ∀ d n, NameLike n → (d, n ++ c! ".py") ∈ es → ∃ d' t, (d', n, t) ∈ rows

theorem first_snoc {α : Type} {p : α → Prop} {l : List α} {x a : α} :
    FirstWith p (l ++ [x]) a ↔ FirstWith p l a ∨ ((∀ b ∈ l, ¬ p b) ∧ p x ∧ x = a) := by
  constructor
  · rintro ⟨before, after, he, ha, hb⟩
    rcases List.eq_nil_or_concat after with rfl | ⟨after', y, rfl⟩
    · have := List.append_inj' he rfl
      obtain ⟨rfl, h⟩ := this
      obtain rfl : x = a := by simpa using h
      exact .inr ⟨hb, ha, rfl⟩
    · have he' : l ++ [x] = (before ++ a :: after') ++ [y] := by simpa using he
      obtain ⟨h1, _⟩ := List.append_inj' he' rfl
      exact .inl ⟨before, after', h1, ha, hb⟩
  · rintro (⟨before, after, he, ha, hb⟩ | ⟨h1, h2, rfl⟩)
    · exact ⟨before, after ++ [x], by rw [he]; simp, ha, hb⟩
    · exact ⟨l, [], rfl, h2, h1⟩

theorem described_unique {w : CmdWorld} {n f t t' : Str} (hn : NameLike n) (h : Described w n f t) (h' : Described w n f t') :
    t = t' := by
  rw [← describe_iff hn] at h h'
  rw [h] at h'
  exact Option.some.inj h'

theorem listFiles_rows {w : CmdWorld} {p : Str} (files : List Str) : ∀ {es : List (Str × Str)} {rows rows' : List Row},
    RowsOf w es rows → listFiles w (commandsOf p) rows files = some rows' →
    RowsOf w (es ++ files.map fun f => (commandsOf p, f)) rows' := by
  induction files with
  | nil =>
    intro es rows rows' h h'
    rw [listFiles] at h'
    rw [← Option.some.inj h']
    simpa using h
  | cons file files ih =>
    intro es rows rows' h h'
    have step : ∀ {rows1}, RowsOf w (es ++ [(commandsOf p, file)]) rows1 → listFiles w (commandsOf p) rows1 files = some rows' →
        RowsOf w (es ++ (file :: files).map fun f => (commandsOf p, f)) rows' := by
      intro rows1 h1 h2
      have := ih h1 h2
      simpa using this
    /- a file that is no new command -/
    have skip : (∀ n, NameLike n → file = n ++ c! ".py" → ∃ d t, (d, n, t) ∈ rows) →
        RowsOf w (es ++ [(commandsOf p, file)]) rows := by
      intro hs
      refine ⟨?_, h.once, ?_⟩
      · intro d n t
        rw [h.mem, first_snoc]
        constructor
        · rintro ⟨h1, h2, h3⟩
          exact ⟨h1, .inl h2, h3⟩
        · rintro ⟨h1, h2 | ⟨h2, h4, h5⟩, h3⟩
          · exact ⟨h1, h2, h3⟩
          · obtain ⟨d', t', hm⟩ := hs n h1 h4
            obtain ⟨_, ⟨b, a, he, _⟩, _⟩ := (h.mem _ _ _).1 hm
            exact absurd rfl (h2 (d', n ++ c! ".py") (by rw [he]; simp))
      · intro d n hn hm
        rcases List.mem_append.1 hm with hm | hm
        · exact h.full d n hn hm
        · rw [List.mem_singleton, Prod.mk.injEq] at hm
          exact hs n hn hm.2.symm
    rw [listFiles] at h'
    cases hp : pyName file with
    | none =>
      rw [hp] at h'
      exact step (skip fun n _ he => by rw [pyName_eq.2 he] at hp; exact absurd hp (by simp)) h'
    | some name =>
      rw [hp] at h'
      have hf := pyName_eq.1 hp
      simp only at h'
      split at h'
      · rename_i hc
        obtain ⟨hc1, hc2⟩ := hc
        have hn := (commandRe_iff name).1 hc1
        rw [List.any_eq_true] at hc2
        cases hd : describe w name (pathJoin (commandsOf p) file) with
        | none => rw [hd] at h'; exact absurd h' (by simp)
        | some desc =>
          rw [hd] at h'
          refine step ⟨?_, ?_, ?_⟩ h'
          · rw [hf, fileIn_eq hn, describe_iff hn] at hd
            intro d n t
            rw [List.mem_append, h.mem, first_snoc, List.mem_singleton]
            constructor
            · rintro (⟨h1, h2, h3⟩ | he)
              · exact ⟨h1, .inl h2, h3⟩
              · simp only [Prod.mk.injEq] at he
                obtain ⟨rfl, rfl, rfl⟩ := he
                refine ⟨hn, .inr ⟨?_, hf, by rw [hf]⟩, hd⟩
                rintro ⟨d, f⟩ hb he
                simp only at he
                subst he
                obtain ⟨d', t, hm⟩ := h.full d n hn hb
                exact hc2 ⟨_, hm, by simp⟩
            · rintro ⟨h1, h2 | ⟨h2, h4, h5⟩, h3⟩
              · exact .inl ⟨h1, h2, h3⟩
              · simp only at h4
                rw [hf] at h4
                have : name = n := List.append_cancel_right h4
                subst this
                rw [Prod.mk.injEq] at h5
                obtain ⟨rfl, _⟩ := h5
                rw [described_unique hn h3 hd]
                exact .inr rfl
          · rw [List.pairwise_append]
            refine ⟨h.once, by simp, ?_⟩
            intro a ha b hb
            rw [List.mem_singleton] at hb
            subst hb
            intro he
            exact hc2 ⟨a, ha, by simpa using he⟩
          · intro d n hn' hm
            rcases List.mem_append.1 hm with hm | hm
            · obtain ⟨d', t, h1⟩ := h.full d n hn' hm
              exact ⟨d', t, by simp [h1]⟩
            · rw [List.mem_singleton, Prod.mk.injEq, hf] at hm
              have : n = name := List.append_cancel_right hm.2
              subst this
              exact ⟨_, desc, List.mem_append.2 (.inr (List.mem_singleton.2 rfl))⟩
      · rename_i hc
        refine step (skip fun n hn he => ?_) h'
        rw [hf] at he
        have : name = n := List.append_cancel_right he
        subst this
        rw [not_and, Classical.not_not] at hc
        have := hc ((commandRe_iff name).2 hn)
        rw [List.any_eq_true] at this
        obtain ⟨⟨d, n', t⟩, hm, he⟩ := this
        simp only [decide_eq_true_eq] at he
        subst he
        exact ⟨d, t, hm⟩

theorem listDirs_rows {w : CmdWorld} (dirs : List Str) : ∀ {es : List (Str × Str)} {rows rows' : List Row},
    (∀ d ∈ dirs, ∃ p, d = commandsOf p) → RowsOf w es rows → listDirs w rows dirs = some rows' →
    RowsOf w (es ++ entriesOf w dirs) rows' := by
  induction dirs with
  | nil =>
    intro es rows rows' _ h h'
    rw [listDirs] at h'
    rw [← Option.some.inj h']
    simpa [entriesOf] using h
  | cons d dirs ih =>
    intro es rows rows' hd h h'
    obtain ⟨p, rfl⟩ := hd d (by simp)
    have hd' : ∀ d ∈ dirs, ∃ p, d = commandsOf p := fun d hm => hd d (by simp [hm])
    rw [listDirs] at h'
    cases hl : w.listdir (commandsOf p) with
    | none =>
      rw [hl] at h'
      have := ih hd' h h'
      simpa [entriesOf, hl] using this
    | some files =>
      rw [hl] at h'
      simp only at h'
      cases hf : listFiles w (commandsOf p) rows files with
      | none => rw [hf] at h'; exact absurd h' (by simp)
      | some rows1 =>
        rw [hf] at h'
        have := ih hd' (listFiles_rows files h hf) h'
        simpa [entriesOf, hl, List.append_assoc] using this

theorem rowsOf_nil (w : CmdWorld) : RowsOf w [] [] :=
  ⟨fun d n t => by simp [FirstWith], .nil, fun d n _ h => by simp at h⟩

/-- The first file is in the first directory that has it. -/
theorem first_entry {w : CmdWorld} (dirs : List Str) (d f : Str) :
    FirstWith (fun e => e.2 = f) (entriesOf w dirs) (d, f) ↔ FirstWith (fun d => ∃ files, w.listdir d = some files ∧ f ∈ files) dirs d := by
  constructor
  · rintro ⟨before, after, he, _, hb⟩
    induction dirs generalizing before after with
    | nil => simp [entriesOf] at he
    | cons x dirs ih =>
      by_cases hx : ∃ files, w.listdir x = some files ∧ f ∈ files
      · obtain ⟨files, hl, hf⟩ := hx
        have hdx : d = x := by
          obtain ⟨a, b, rfl⟩ := List.append_of_mem hf
          have he2 : (a.map (fun f => (x, f))) ++ (x, f) :: (b.map (fun f => (x, f)) ++ entriesOf w dirs) = before ++ (d, f) :: after := by
            rw [← he]
            simp [entriesOf, hl]
          rcases List.append_eq_append_iff.1 he2 with ⟨c, h1, h2⟩ | ⟨c, h1, h2⟩
          · cases c with
            | nil => simp at h2; exact h2.1.symm
            | cons y c =>
              simp only [List.cons_append, List.cons.injEq] at h2
              exact absurd rfl (hb (x, f) (by rw [h1, h2.1]; simp))
          · cases c with
            | nil => simp at h2; exact h2.1
            | cons y c =>
              simp only [List.cons_append, List.cons.injEq] at h2
              have : (d, f) ∈ a.map (fun f => (x, f)) := by rw [h1, h2.1]; simp
              obtain ⟨g, _, hg⟩ := List.mem_map.1 this
              exact (Prod.mk.inj hg).1.symm
        exact ⟨[], dirs, by rw [hdx]; rfl, by rw [hdx]; exact ⟨files, hl, hf⟩, by simp⟩
      · have hsplit : entriesOf w (x :: dirs) = ((w.listdir x).getD []).map (fun f => (x, f)) ++ entriesOf w dirs := rfl
        rw [hsplit] at he
        have hno : ∀ e ∈ ((w.listdir x).getD []).map (fun f => (x, f)), e.2 ≠ f := by
          rintro e hm rfl
          obtain ⟨g, hg, rfl⟩ := List.mem_map.1 hm
          apply hx
          cases hl : w.listdir x with
          | none => rw [hl] at hg; simp at hg
          | some files => exact ⟨files, rfl, by rw [hl] at hg; exact hg⟩
        rcases List.append_eq_append_iff.1 he with ⟨c, h1, h2⟩ | ⟨c, h1, h2⟩
        · obtain ⟨b', a', h3, h4, h5⟩ := ih c after h2 (fun b hb' => hb b (by rw [h1]; simp [hb']))
          exact ⟨x :: b', a', by rw [h3]; rfl, h4, by
            intro b hb'
            rcases List.mem_cons.1 hb' with rfl | hb'
            · exact hx
            · exact h5 b hb'⟩
        · cases c with
          | nil =>
            obtain ⟨b', a', h3, h4, h5⟩ := ih [] after (by simpa using h2.symm) (by simp)
            exact ⟨x :: b', a', by rw [h3]; rfl, h4, by
              intro b hb'
              rcases List.mem_cons.1 hb' with rfl | hb'
              · exact hx
              · exact h5 b hb'⟩
          | cons y c =>
            simp only [List.cons_append, List.cons.injEq] at h2
            exact absurd rfl (hno (d, f) (by rw [h1, h2.1]; simp))
  · rintro ⟨before, after, rfl, ⟨files, hl, hf⟩, hb⟩
    induction before with
    | nil =>
      have : ∃ a b, files = a ++ f :: b ∧ f ∉ a := by
        clear hl hb
        induction files with
        | nil => simp at hf
        | cons g files ih =>
          by_cases hg : g = f
          · exact ⟨[], files, by rw [hg]; rfl, by simp⟩
          · obtain ⟨a, b, h1, h2⟩ := ih ((List.mem_cons.1 hf).resolve_left (Ne.symm hg))
            exact ⟨g :: a, b, by rw [h1]; rfl, by simp [h2, Ne.symm hg]⟩
      obtain ⟨a, b, rfl, h2⟩ := this
      refine ⟨a.map (fun f => (d, f)), b.map (fun f => (d, f)) ++ entriesOf w after, by simp [entriesOf, hl], rfl, ?_⟩
      rintro e hm rfl
      obtain ⟨g, hg, rfl⟩ := List.mem_map.1 hm
      exact h2 hg
    | cons x before ih =>
      obtain ⟨b', a', h1, _, h3⟩ := ih (fun b hb' => hb b (by simp [hb']))
      refine ⟨((w.listdir x).getD []).map (fun f => (x, f)) ++ b', a', ?_, rfl, ?_⟩
      · rw [List.append_assoc, ← h1]; rfl
      · rintro e hm rfl
        rcases List.mem_append.1 hm with hm | hm
        · obtain ⟨g, hg, rfl⟩ := List.mem_map.1 hm
          refine hb x (by simp) ?_
          cases hl : w.listdir x with
          | none => rw [hl] at hg; simp at hg
          | some files => exact ⟨files, hl, by rw [hl] at hg; exact hg⟩
        · exact h3 e hm rfl

theorem strLt_lt (a b : Str) : strLt a b = true ↔ a < b := by
  induction a generalizing b with
  | nil => cases b <;> simp [strLt]
  | cons x a ih =>
    cases b with
    | nil => simp [strLt]
    | cons y b =>
      rw [List.cons_lt_cons_iff, ← ih]
      simp only [strLt, Bool.or_eq_true, decide_eq_true_eq, Bool.and_eq_true, beq_iff_eq]
      exact Iff.rfl

theorem lex_weak {α β : Type} [BEq α] [LawfulBEq α] {f : β → α} {lt : α → α → Bool} {lt' : β → β → Bool} (h : Weak lt) (h' : Weak lt')
    (ht : ∀ a b, lt a b = false → lt b a = false → a = b) :
    Weak (fun a b : β => lt (f a) (f b) || (f a == f b && lt' a b)) := by
  constructor
  · intro a b hab
    simp only [Bool.or_eq_true, Bool.and_eq_true, beq_iff_eq] at hab
    simp only [Bool.or_eq_false_iff, Bool.and_eq_false_iff, beq_eq_false_iff_ne]
    rcases hab with hab | ⟨he, hab⟩
    · refine ⟨h.asymm _ _ hab, .inl fun he => ?_⟩
      rw [he, h.irrefl] at hab
      exact absurd hab (by simp)
    · exact ⟨by rw [he, h.irrefl], .inr (h'.asymm _ _ hab)⟩
  · intro a b c hac
    simp only [Bool.or_eq_true, Bool.and_eq_true, beq_iff_eq] at hac ⊢
    rcases hac with hac | ⟨he, hac⟩
    · rcases h.neg _ (f b) _ hac with h1 | h1
      · exact .inl (.inl h1)
      · exact .inr (.inl h1)
    · by_cases hab : lt (f a) (f b) = true
      · exact .inl (.inl hab)
      · by_cases hbc : lt (f b) (f c) = true
        · exact .inr (.inl hbc)
        · rw [← he] at hbc
          have := ht _ _ (by simpa using hab) (by simpa using hbc)
          rcases h'.neg _ b _ hac with h1 | h1
          · exact .inl (.inr ⟨this, h1⟩)
          · exact .inr (.inr ⟨this ▸ he, h1⟩)

theorem strLt_ext (a b : Str) (h : strLt a b = false) (h' : strLt b a = false) : a = b := strLt_total h h'

theorem rowLt_weak : Weak rowLt :=
  lex_weak (f := fun r : Row => r.1) strLt_weak
    (lex_weak (f := fun r : Row => r.2.1) strLt_weak (weak_key strLt_weak fun r : Row => r.2.2) strLt_ext) strLt_ext

/-- Rows of one directory together. -/
def groupRows : List Row → List (Str × List (Str × Str))
  | [] => []
  | (d, n, t) :: rows =>
    match groupRows rows with
    | (d', l) :: gs => if d = d' then (d, (n, t) :: l) :: gs else (d, [(n, t)]) :: (d', l) :: gs
    | [] => [(d, [(n, t)])]

theorem groupRows_head (rows : List Row) : (groupRows rows).head?.map (·.1) = rows.head?.map (·.1) := by
  cases rows with
  | nil => rfl
  | cons r rows =>
    obtain ⟨d, n, t⟩ := r
    rw [groupRows]
    split
    · split <;> rfl
    · rfl

theorem groupRows_mem (rows : List Row) (d n t : Str) : (∃ l, (d, l) ∈ groupRows rows ∧ (n, t) ∈ l) ↔ (d, n, t) ∈ rows := by
  induction rows with
  | nil => simp [groupRows]
  | cons r rows ih =>
    obtain ⟨d0, n0, t0⟩ := r
    rw [List.mem_cons, ← ih, groupRows]
    cases hg : groupRows rows with
    | nil =>
      simp only [List.mem_singleton, Prod.mk.injEq]
      constructor
      · rintro ⟨l, ⟨rfl, rfl⟩, h⟩
        rw [List.mem_singleton, Prod.mk.injEq] at h
        exact .inl ⟨rfl, h⟩
      · rintro (⟨rfl, rfl, rfl⟩ | ⟨l, h, _⟩)
        · exact ⟨_, ⟨rfl, rfl⟩, by simp⟩
        · exact absurd h (by simp)
    | cons g gs =>
      obtain ⟨d', l'⟩ := g
      simp only
      split
      · rename_i he
        subst he
        simp only [List.mem_cons, Prod.mk.injEq]
        constructor
        · rintro ⟨l, ⟨rfl, rfl⟩ | h, hm⟩
          · rcases List.mem_cons.1 hm with hm | hm
            · exact .inl ⟨rfl, Prod.mk.inj hm⟩
            · exact .inr ⟨l', .inl ⟨rfl, rfl⟩, hm⟩
          · exact .inr ⟨l, .inr h, hm⟩
        · rintro (⟨rfl, rfl, rfl⟩ | ⟨l, ⟨rfl, rfl⟩ | h, hm⟩)
          · exact ⟨_, .inl ⟨rfl, rfl⟩, by simp⟩
          · exact ⟨_, .inl ⟨rfl, rfl⟩, by simp [hm]⟩
          · exact ⟨l, .inr h, hm⟩
      · constructor
        · rintro ⟨l, h, hm⟩
          rcases List.mem_cons.1 h with h | h
          · obtain ⟨rfl, rfl⟩ := Prod.mk.inj h
            rw [List.mem_singleton, Prod.mk.injEq] at hm
            exact .inl (by simp [hm])
          · exact .inr ⟨l, h, hm⟩
        · rintro (h | ⟨l, h, hm⟩)
          · simp only [Prod.mk.injEq] at h
            obtain ⟨rfl, rfl, rfl⟩ := h
            exact ⟨_, List.mem_cons_self, by simp⟩
          · exact ⟨l, List.mem_cons_of_mem _ h, hm⟩

theorem groupRows_ne (rows : List Row) : ∀ g ∈ groupRows rows, g.2 ≠ [] := by
  induction rows with
  | nil => simp [groupRows]
  | cons r rows ih =>
    obtain ⟨d0, n0, t0⟩ := r
    rw [groupRows]
    split
    · rename_i hg
      rw [hg] at ih
      split
      · intro g hm
        rcases List.mem_cons.1 hm with rfl | hm
        · simp
        · exact ih g (by simp [hm])
      · intro g hm
        rcases List.mem_cons.1 hm with rfl | hm
        · simp
        · exact ih g hm
    · intro g hm
      rw [List.mem_singleton] at hm
      subst hm
      simp

theorem cmdLine_eq (name text : Str) : cmdLine name (wrap text 24 80) = listLine name text := by
  simp [cmdLine, listLine, padRight]

theorem rowLines_groups (rows : List Row) (last : Option Str) : rowLines last rows =
    match groupRows rows with
    | [] => []
    | (d, l) :: gs => (if last = some d then [] else [[], d ++ c! ":"]) ++ (l.map fun c => listLine c.1 c.2) ++
        gs.flatMap fun g => [[], g.1 ++ c! ":"] ++ g.2.map fun c => listLine c.1 c.2 := by
  induction rows generalizing last with
  | nil => rfl
  | cons r rows ih =>
    obtain ⟨d, n, t⟩ := r
    rw [rowLines, ih, groupRows, cmdLine_eq]
    cases hg : groupRows rows with
    | nil => simp
    | cons g gs =>
      obtain ⟨d', l⟩ := g
      simp only
      by_cases h : d = d'
      · subst h
        simp
      · rw [if_neg h, if_neg (fun he => h (Option.some.inj he))]
        simp

/-- Sorted rows with different names: the groups are in order. -/
theorem groupRows_sorted (rows : List Row) (h : Ascending rowLt rows) (hn : rows.Pairwise (fun a b => a.2.1 ≠ b.2.1)) :
    ((groupRows rows).map (·.1)).Pairwise (· < ·) ∧ ∀ g ∈ groupRows rows, (g.2.map (·.1)).Pairwise (· < ·) := by
  induction rows with
  | nil => exact ⟨.nil, by simp [groupRows]⟩
  | cons r rows ih =>
    obtain ⟨d0, n0, t0⟩ := r
    unfold Ascending at h ih
    rw [List.pairwise_cons] at h hn
    obtain ⟨ih1, ih2⟩ := ih h.2 hn.2
    have below : ∀ d n t, (d, n, t) ∈ rows → d0 < d ∨ (d0 = d ∧ n0 < n) := by
      intro d n t hm
      have h1 := h.1 _ hm
      have h2 := hn.1 _ hm
      simp only [rowLt, Bool.or_eq_false_iff, Bool.and_eq_false_iff, beq_eq_false_iff_ne, ne_eq] at h1 h2
      by_cases hd : d0 = d
      · refine .inr ⟨hd, ?_⟩
        rcases h1.2 with h3 | h3
        · exact absurd hd.symm h3
        · rw [← strLt_lt]
          cases hlt : strLt n0 n with
          | true => rfl
          | false => exact absurd (strLt_ext _ _ hlt h3.1) h2
      · refine .inl ?_
        rw [← strLt_lt]
        cases hlt : strLt d0 d with
        | true => rfl
        | false => exact absurd (strLt_ext _ _ hlt h1.1) hd
    have nonempty := groupRows_ne rows
    have mem := groupRows_mem rows
    rw [groupRows]
    cases hg : groupRows rows with
    | nil => simp
    | cons g gs =>
      obtain ⟨d', l⟩ := g
      rw [hg] at ih1 ih2 nonempty mem
      have hd' : ∀ g ∈ (d', l) :: gs, d0 < g.1 ∨ d0 = g.1 := by
        rintro ⟨d, l1⟩ hm
        have := nonempty _ hm
        cases l1 with
        | nil => exact absurd rfl this
        | cons x l1 =>
          obtain ⟨n, t⟩ := x
          rcases below d n t ((mem d n t).1 ⟨_, hm, by simp⟩) with hx | hx
          · exact .inl hx
          · exact .inr hx.1
      simp only
      split
      · rename_i he
        subst he
        refine ⟨ih1, ?_⟩
        intro g hm
        rcases List.mem_cons.1 hm with rfl | hm
        · simp only [List.map_cons, List.pairwise_cons]
          refine ⟨?_, ih2 (d0, l) (by simp)⟩
          intro n hn'
          obtain ⟨⟨n', t⟩, hx, rfl⟩ := List.mem_map.1 hn'
          rcases below d0 n' t ((mem d0 n' t).1 ⟨l, by simp, hx⟩) with hlt | hlt
          · exact absurd hlt (List.lt_irrefl _)
          · exact hlt.2
        · exact ih2 g (by simp [hm])
      · rename_i hne
        refine ⟨?_, ?_⟩
        · rw [List.map_cons, List.pairwise_cons]
          refine ⟨?_, ih1⟩
          intro d hd
          have h1 : d0 < d' := (hd' (d', l) (by simp)).resolve_right hne
          rw [List.map_cons] at hd ih1
          rcases List.mem_cons.1 hd with rfl | hd
          · exact h1
          · exact List.lt_trans h1 ((List.pairwise_cons.1 ih1).1 d hd)
        · intro g hm
          rcases List.mem_cons.1 hm with rfl | hm
          · simp
          · exact ih2 g hm

end ALint
