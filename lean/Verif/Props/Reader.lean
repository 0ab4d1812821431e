import Verif.Proofs.Reader

/-!
# C01–C03: reading files
-/

namespace ALint.Props
open ALint ALint.Spec

/-! ## C01 -/

/-- `ls` are the physical lines of a file with content `bs`: together they give the
content, each is non-empty and has an LF nowhere but at its end, and all but the
last end in LF. -/
structure LinesOf (bs : Bytes) (ls : List Bytes) : Prop where
  whole : ls.flatten = bs
  nonempty : ∀ l ∈ ls, l ≠ []
  lf_last : ∀ l ∈ ls, ∀ a b, l = a ++ 10 :: b → b = []
  terminated : ∀ l ∈ ls.dropLast, l.getLast? = some 10

/-- C01: reading a file that includes nothing delivers, in order, the physical lines
of its content under its name, numbered from 1, and then ends. -/
theorem C01_lines (fs : FS) (name : Str) (content : Bytes) :
    ∃ ls, LinesOf content ls ∧
      readFuel fs (fun _ => none) (ls.length + 1) [openFrame name content] =
        (ls.mapIdx (fun i l => ⟨name, (i : Int) + 1, l⟩), true) := by
  refine ⟨physLines content, ⟨physLines_flatten _, fun l h => (physLines_line _ l h).1,
    fun l h => (physLines_line _ l h).2, physLines_lf _⟩, ?_⟩
  have : ∀ (ls : List Bytes) (k : Nat),
      readFuel fs (fun _ => none) (ls.length + 1) [⟨name, k, ls⟩] =
        (ls.mapIdx (fun i l => (⟨name, ((k + i : Nat) : Int) + 1, l⟩ : Where)), true) := by
    intro ls
    induction ls with
    | nil => intro k; rfl
    | cons l ls ih =>
      intro k
      rw [List.length_cons, readFuel_cons]
      simp only [pulls, ih, List.mapIdx_cons, Nat.add_zero]
      congr 3
      funext i l
      congr 1
      omega
  have h := this (physLines content) 0
  simp only [Nat.zero_add] at h
  exact h

/-- C01: the four conditions determine the lines. -/
theorem C01_unique (bs : Bytes) (ls ms : List Bytes) (h : LinesOf bs ls) (h' : LinesOf bs ms) :
    ls = ms :=
  lines_unique ls ms (by rw [h.whole, h'.whole]) (fun l hl => ⟨h.nonempty l hl, h.lf_last l hl⟩)
    (fun l hl => ⟨h'.nonempty l hl, h'.lf_last l hl⟩) h.terminated h'.terminated

example : LinesOf [97, 10, 10, 98, 13] [[97, 10], [10], [98, 13]] :=
  ⟨rfl, by simp, by
    have := physLines_line [97, 10, 10, 98, 13]
    exact fun l hl => (this l hl).2, by simp⟩

example : (readFuel (fun _ => none) (fun _ => none) 4
    [openFrame (c! "f") [97, 10, 10, 98, 13]]).1 =
    [⟨c! "f", 1, [97, 10]⟩, ⟨c! "f", 2, [10]⟩, ⟨c! "f", 3, [98, 13]⟩] := by decide

/-! ## C02 -/

/-- C02: if the include expansion of the root file is finite, the reader delivers
exactly its lines, depth first and in place, and then ends. -/
theorem C02_expansion (fs : FS) (inc : Where → Option Str) (root : Str) (content : Bytes) (t : Items)
    (h : Expand fs inc root 0 (physLines content) t) :
    readFuel fs inc (t.flatten.length + 1) [openFrame root content] = (t.flatten, true) := by
  have := readFuel_expand h [] 1
  exact this.trans (by simp [readFuel, nextLine])

/-- C02: when a run of the whole linter ends without an exception, the lines it has
gone through are those of the expansion; which file a line pulls in is a function
of that line alone (`opens`). -/
theorem C02_pipeline {σ : Type} (fs : FS) (agg : σ → Elem → Res σ) (init : σ) (root : Str)
    (content : Bytes) (n : Nat) (s : σ)
    (h : (pipeRun fs agg n ⟨[openFrame root content], [], [], init⟩).val = .ok (some s)) :
    ∃ t, Expand fs opens root 0 (physLines content) t ∧
      pipeLines fs agg n ⟨[openFrame root content], [], [], init⟩ = t.flatten := by
  obtain ⟨h1, h2⟩ := pipeRun_reader fs agg n _ _ h
  have hfin : (readFuel fs opens n [openFrame root content]).2 = true := by rw [← h2]; rfl
  obtain ⟨⟨t, ht⟩, _⟩ := expand_of_finish n root 0 (physLines content) [] hfin
  refine ⟨t, ht, ?_⟩
  rw [h1]
  have e := C02_expansion fs opens root content t ht
  have m1 := readFuel_mono fs opens n (n + (t.flatten.length + 1)) _ hfin (by omega)
  have m2 := readFuel_mono fs opens (t.flatten.length + 1) (n + (t.flatten.length + 1))
    [openFrame root content] (by rw [e]) (by omega)
  have : readFuel fs opens n [openFrame root content] = (t.flatten, true) := by
    rw [← m1, m2, e]
  rw [show (⟨[openFrame root content], [], [], init⟩ : PState σ).frames =
    [openFrame root content] from rfl, this]

/-- C02: at any point of a run, finite or not, with or without an exception later,
the lines read so far are a beginning of the expansion. -/
theorem C02_beginning {σ : Type} (fs : FS) (agg : σ → Elem → Res σ) (init : σ) (root : Str)
    (content : Bytes) (n : Nat) :
    ∃ rest, Begins fs opens root 0 (physLines content)
      (pipeLines fs agg n ⟨[openFrame root content], [], [], init⟩ ++ rest) := by
  obtain ⟨rest, hr⟩ := pipeLines_prefix fs agg n ⟨[openFrame root content], [], [], init⟩
  refine ⟨rest, ?_⟩
  rw [hr]
  rcases begins_of_read (fs := fs) (inc := opens) n root 0 (physLines content) [] with h | ⟨t, m, ht, _, he⟩
  · exact h
  · have h0 : (readFuel fs opens m []).1 = [] := by cases m <;> rfl
    rw [h0, List.append_nil] at he
    rw [show (⟨[openFrame root content], [], [], init⟩ : PState σ).frames =
      [⟨root, 0, physLines content⟩] from rfl, he]
    exact begins_of_expand ht

/-- The expansion is a function of the files. -/
theorem C02_unique (fs : FS) (inc : Where → Option Str) (f : Str) (k : Nat) (ls : List Bytes)
    (t t' : Items) (h : Expand fs inc f k ls t) (h' : Expand fs inc f k ls t') : t = t' :=
  expand_deterministic h h'

/-- Two files: `r` is `a`, `#include b`, `a`; `b` is `x`, `y`. -/
def exFs : FS := fun p =>
  if p = c! "r" then some (utf8 (c! "[a]\n#include b\nk=v"))
  else if p = c! "b" then some (utf8 (c! "x=1\ny=2\n")) else none

example : Expand exFs opens (c! "r") 0 (physLines (utf8 (c! "[a]\n#include b\nk=v")))
    (.line ⟨c! "r", 1, utf8 (c! "[a]\n")⟩ <|
      .incl ⟨c! "r", 2, utf8 (c! "#include b\n")⟩ (c! "b")
        (.line ⟨c! "b", 1, utf8 (c! "x=1\n")⟩ <| .line ⟨c! "b", 2, utf8 (c! "y=2\n")⟩ .nil) <|
      .line ⟨c! "r", 3, utf8 (c! "k=v")⟩ .nil) := by
  refine .line (by decide) (.incl (c := utf8 (c! "x=1\ny=2\n")) (by decide) ?_ (.line (by decide) .nil))
  exact .line (by decide) (.line (by decide) .nil)

example : (pipeLines exFs (fun s e => ⟨[], .ok (aggStep s e).1⟩) 9
      ⟨[openFrame (c! "r") (utf8 (c! "[a]\n#include b\nk=v"))], [], [], []⟩).map
        (fun w => (w.filename, w.lineno)) =
    [(c! "r", 1), (c! "r", 2), (c! "b", 1), (c! "b", 2), (c! "r", 3)] := by decide +kernel

/-! ## C03 -/

/-- C03: the reader reaches the end of the input iff the expansion is finite. -/
theorem C03_terminates_iff (fs : FS) (inc : Where → Option Str) (root : Str) (content : Bytes) :
    (∃ n, (readFuel fs inc n [openFrame root content]).2 = true) ↔
      ∃ t, Expand fs inc root 0 (physLines content) t := by
  constructor
  · rintro ⟨n, h⟩
    exact (expand_of_finish n root 0 (physLines content) [] h).1
  · rintro ⟨t, ht⟩
    exact ⟨_, by rw [C02_expansion fs inc root content t ht]⟩

/-- C03: a file that pulls itself in, directly or through others, is read for ever:
for every `n` at least `n` lines are delivered and the end is not reached. -/
theorem C03_self_include (fs : FS) (inc : Where → Option Str) (root : Str) (content : Bytes)
    (hf : fs root = some content) (f : Str) (hr : f = root ∨ PullsPlus fs inc root f)
    (h : PullsPlus fs inc f f) (n : Nat) :
    (readFuel fs inc n [openFrame root content]).1.length = n ∧
      (readFuel fs inc n [openFrame root content]).2 = false := by
  have hfin : (readFuel fs inc n [openFrame root content]).2 = false := by
    cases hc : (readFuel fs inc n [openFrame root content]).2 with
    | false => rfl
    | true =>
      obtain ⟨⟨t, ht⟩, _⟩ := expand_of_finish n root 0 (physLines content) [] hc
      have ha := acc_of_expand hf ht
      rcases hr with rfl | hr
      · exact absurd h (acc_no_cycle ha)
      · exact absurd h (acc_no_cycle (acc_pullsPlus ha hr))
  exact ⟨readFuel_length fs inc n _ hfin, hfin⟩

/-- C03: with finitely many readable files, self-inclusion is the only obstacle. -/
theorem C03_finite_iff (fs : FS) (inc : Where → Option Str) (root : Str) (content : Bytes)
    (hf : fs root = some content) (files : List Str) (hfiles : ∀ p c, fs p = some c → p ∈ files) :
    (∃ n, (readFuel fs inc n [openFrame root content]).2 = true) ↔
      ¬ ∃ f, (f = root ∨ PullsPlus fs inc root f) ∧ PullsPlus fs inc f f := by
  constructor
  · rintro ⟨n, h⟩ ⟨f, hr, hc⟩
    have := (C03_self_include fs inc root content hf f hr hc n).2
    rw [h] at this; simp at this
  · intro h
    rw [C03_terminates_iff]
    refine expand_of_acc (acc_of_no_cycle _ root files (Nat.le_refl _) ?_ ?_) content hf
    · intro p hp
      obtain ⟨c, hc⟩ := pullsPlus_mem hp
      exact hfiles p c hc
    · intro p hp hpp
      exact h ⟨p, .inr hp, hpp⟩

/-- C03 for the whole linter: it does not finish on an infinite expansion. -/
theorem C03_pipeline_never {σ : Type} (fs : FS) (agg : σ → Elem → Res σ) (init : σ) (root : Str)
    (content : Bytes) (h : ¬ ∃ t, Expand fs opens root 0 (physLines content) t) (n : Nat) (s : σ) :
    (pipeRun fs agg n ⟨[openFrame root content], [], [], init⟩).val ≠ .ok (some s) := by
  intro hv
  obtain ⟨t, ht, _⟩ := C02_pipeline fs agg init root content n s hv
  exact h ⟨t, ht⟩

/-- C03 for the whole linter: on a finite expansion it finishes or raises. -/
theorem C03_pipeline_ends {σ : Type} (fs : FS) (agg : σ → Elem → Res σ) (init : σ) (root : Str)
    (content : Bytes) (t : Items) (h : Expand fs opens root 0 (physLines content) t) :
    (∃ s, (pipeRun fs agg (t.flatten.length + 1)
        ⟨[openFrame root content], [], [], init⟩).val = .ok (some s)) ∨
      ∃ e, (pipeRun fs agg (t.flatten.length + 1)
        ⟨[openFrame root content], [], [], init⟩).val = .error e := by
  cases hv : (pipeRun fs agg (t.flatten.length + 1) ⟨[openFrame root content], [], [], init⟩).val with
  | error e => exact .inr ⟨e, rfl⟩
  | ok o =>
    left
    have := (pipeRun_reader fs agg _ _ _ hv).2
    rw [show (⟨[openFrame root content], [], [], init⟩ : PState σ).frames =
      [openFrame root content] from rfl, C02_expansion fs opens root content t h] at this
    cases o with
    | none => simp at this
    | some s => exact ⟨s, rfl⟩

/-- A file including itself. -/
def exLoop : FS := fun p => if p = c! "d/r" then some (utf8 (c! "a=b\n#include r\n")) else none

example : PullsPlus exLoop opens (c! "d/r") (c! "d/r") :=
  .one ⟨utf8 (c! "a=b\n#include r\n"), by decide, 1, utf8 (c! "#include r\n"), by decide,
    utf8 (c! "a=b\n#include r\n"), by decide⟩

end ALint.Props
