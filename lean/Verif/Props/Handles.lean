import Verif.Proofs.Handles
import Verif.Props.Reader
import Verif.Props.LineLog

/-!
# C100, C101: open files
-/

namespace ALint.Props
open ALint ALint.Spec

/-! ## C100 -/

/-- C100: at any time, whatever has happened to files so far makes sense: only the file opened last
and not yet closed is closed or delivers lines, and the files not yet closed are those the reader is
in the middle of. -/
theorem C100_nested (fs : FS) (inc : Where → Option Str) (room n : Nat) (path : Str) (as : List Act) (frames : List Frame)
    (h : actsFile fs inc room n path = some (as, frames)) : OpenAfter [] as (frames.map (·.name)) := by
  unfold actsFile at h
  cases hf : fs path with
  | none => simp [hf] at h
  | some content =>
    simp only [hf] at h
    by_cases h0 : room = 0
    · rw [if_pos h0] at h; cases h
    · rw [if_neg h0] at h
      simp only [Option.some.injEq, Prod.mk.injEq] at h
      obtain ⟨rfl, rfl⟩ := h
      exact .opened (actsRun_open fs inc room n [openFrame path content]).1

/-- C100: at no time are more files open than there is room for. -/
theorem C100_room (fs : FS) (inc : Where → Option Str) (room n : Nat) (path : Str) (as : List Act) (frames : List Frame)
    (h : actsFile fs inc room n path = some (as, frames)) (pre post : List Act) (hs : as = pre ++ post) (open_ : List Str)
    (ho : OpenAfter [] pre open_) : open_.length ≤ room := by
  unfold actsFile at h
  cases hf : fs path with
  | none => simp [hf] at h
  | some content =>
    simp only [hf] at h
    by_cases h0 : room = 0
    · rw [if_pos h0] at h; cases h
    · rw [if_neg h0] at h
      simp only [Option.some.injEq, Prod.mk.injEq] at h
      obtain ⟨h1, rfl⟩ := h
      cases ho with
      | done => simp
      | opened ho =>
        rw [← h1, List.cons_append, List.cons.injEq] at hs
        obtain ⟨h2, hs⟩ := hs
        cases h2
        exact (actsRun_open fs inc room n [openFrame path content]).2 (by simp; omega) _ post open_ hs ho
      | refused _ => rw [← h1] at hs; cases hs

/-- C100: reading comes to an end, and then every file has been closed as often as it was opened. -/
theorem C100_closed (fs : FS) (inc : Where → Option Str) (room : Nat) (path : Str) (content : Bytes)
    (hf : fs path = some content) (h0 : 0 < room) :
    ∃ n as, (∀ m, actsFile fs inc room (n + m) path = some (as, [])) ∧ OpenAfter [] as [] ∧
      (∀ p, as.count (.opened p) = as.count (.closed p)) ∧
      ∃ t refused, ExpandIn fs inc (room - 1) path 0 (physLines content) t refused ∧ linesIn as = t.flatten := by
  obtain ⟨t, r, ht⟩ := expandIn_exists fs inc (room - 1) (physLines content) path 0
  obtain ⟨n, as, h1, h2⟩ := actsRun_expand (room := room) ht [] (by simp; omega)
  have hr : ∀ m, actsRun fs inc room (n + m) [openFrame path content] = (as, []) := by
    intro m
    rw [show openFrame path content = ⟨path, 0, physLines content⟩ from rfl, h2]
    cases m <;> simp [actsRun, actsRound]
  have ha : ∀ m, actsFile fs inc room (n + m) path = some (.opened path :: as, []) := by
    intro m
    unfold actsFile
    simp only [hf, if_neg (show ¬ room = 0 by omega), hr]
  have ho := C100_nested fs inc room (n + 0) path _ _ (ha 0)
  refine ⟨n, .opened path :: as, ha, ho, fun p => ?_, t, r, ht, h1⟩
  simpa using ho.count p

/-- A file that includes another one and then itself. -/
def limitFiles : FS := fun p =>
  if p = c! "r" then some (utf8 (c! "#include b\n#include r\n"))
  else if p = c! "b" then some (utf8 (c! "x=1\n")) else none

example : (actsFile limitFiles opens 2 99 (c! "r")).map (fun r => (r.1.filter (fun a => match a with | .line _ => false | _ => true), r.2.length)) =
    some ([.opened (c! "r"), .opened (c! "b"), .closed (c! "b"), .opened (c! "r"), .refused (c! "b"), .refused (c! "r"),
      .closed (c! "r"), .closed (c! "r")], 0) := by decide +kernel

/-! ## C101 -/

/-- C101: what a limit on open files makes of the files is determined by them. -/
theorem C101_unique (fs : FS) (inc : Where → Option Str) (d : Nat) (f : Str) (n : Nat) (ls : List Bytes) (t t' : Items)
    (r r' : List Where) (h : ExpandIn fs inc d f n ls t r) (h' : ExpandIn fs inc d f n ls t' r') : t = t' ∧ r = r' :=
  expandIn_unique h h'

/-- C101: with a limit on open files reading always ends, normally or with an exception, whatever
the files include.  The lines read are those of the expansion cut off at the limit, and for every
line whose file is there but not opened, the messages are those of a line whose file is not there. -/
theorem C101_ends {σ : Type} (room : Nat) (fs : FS) (agg : σ → Elem → Res σ) (init : σ) (root : Str) (content : Bytes)
    (h0 : 0 < room) :
    ∃ t refused, ExpandIn fs opens (room - 1) root 0 (physLines content) t refused ∧
      let run := pipeRunIn room fs agg (t.flatten.length + 1) ⟨[openFrame root content], [], [], init⟩
      let lines := pipeLinesIn room fs agg (t.flatten.length + 1) ⟨[openFrame root content], [], [], init⟩
      ((∃ e, run.val = .error e) ∧ lines <+: t.flatten) ∨
      ((∃ s, run.val = .ok (some s)) ∧ lines = t.flatten ∧
        ∀ w ∈ refused, ∀ ms g, LineTells (fun _ => none) w ms g → ∀ m ∈ ms, m ∈ run.log) := by
  obtain ⟨t, r, ht⟩ := expandIn_exists fs opens (room - 1) (physLines content) root 0
  refine ⟨t, r, ht, ?_⟩
  rcases pipeIn_expand (agg := agg) (room := room) ht [] (by simp; omega) 1 [] [] init with ⟨h1, h2⟩ | ⟨ff, vsw, a, log, h1, h2, h3⟩
  · exact .inl ⟨h1, h2⟩
  · have hl : pipeLinesIn room fs agg (t.flatten.length + 1) ⟨[openFrame root content], [], [], init⟩ = t.flatten := by
      rw [show openFrame root content = ⟨root, 0, physLines content⟩ from rfl, h2]
      simp [pipeLinesIn, nextLine]
    simp only [hl]
    have he : pipeRunIn room fs agg 1 ⟨[], ff, vsw, a⟩ = Res.bind (pipeEnd agg ⟨[], ff, vsw, a⟩) fun s => Res.pure (some s) := rfl
    rw [he] at h1
    simp only [show openFrame root content = ⟨root, 0, physLines content⟩ from rfl, h1]
    cases hv : (pipeEnd agg ⟨[], ff, vsw, a⟩).val with
    | error e => exact .inl ⟨⟨e, by simp [Res.bind, hv]⟩, List.prefix_rfl⟩
    | ok s =>
      refine .inr ⟨⟨s, by simp [Res.bind, hv, Res.pure]⟩, trivial, fun w hw ms g hg m hm => ?_⟩
      obtain ⟨ff', frames', ⟨x, hx⟩, hlog⟩ := h3 w hw
      obtain ⟨rs, oe⟩ := x
      obtain ⟨ms', g', k1, -, -, k4⟩ := lineStep_told hx
      have := (lineTells_model hg).symm.trans k1
      simp only [Option.some.injEq, Prod.mk.injEq] at this
      obtain ⟨rfl, rfl⟩ := this
      refine List.mem_append_left _ (hlog m ?_)
      have mem : ∀ {a b c : List Msg}, Merges a b c → ∀ m ∈ a, m ∈ c := by
        intro a b c h
        induction h with
        | nil => intro m hm; cases hm
        | left x _ ih =>
          intro m hm
          rcases List.mem_cons.1 hm with rfl | hm
          · exact List.mem_cons_self
          · exact List.mem_cons_of_mem _ (ih m hm)
        | right x _ ih => intro m hm; exact List.mem_cons_of_mem _ (ih m hm)
      exact mem k4 m hm

/-- C101: a line is refused its file only if that file is there; there is no such line if and only if the
expansion without limit is finite and nowhere nested too deep. -/
theorem C101_refused (room : Nat) (fs : FS) (inc : Where → Option Str) (root : Str) (content : Bytes) (t : Items)
    (refused : List Where) (h0 : 0 < room) (h : ExpandIn fs inc (room - 1) root 0 (physLines content) t refused) :
    (∀ w ∈ refused, ∃ p c, inc w = some p ∧ fs p = some c) ∧
      (refused = [] ↔ ∃ t', Expand fs inc root 0 (physLines content) t' ∧ t'.nest < room) := by
  refine ⟨expandIn_refused h, fun hr => ?_, ?_⟩
  · obtain ⟨h1, h2⟩ := expandIn_free h hr
    exact ⟨t, h1, by omega⟩
  · rintro ⟨t', h1, h2⟩
    exact (expandIn_unique h (expandIn_of h1 (room - 1) (by omega))).2

/-- C101: if a file includes itself, directly or through others, some file that is there is refused. -/
theorem C101_self_include (room : Nat) (fs : FS) (inc : Where → Option Str) (root : Str) (content : Bytes) (t : Items)
    (refused : List Where) (h0 : 0 < room) (h : ExpandIn fs inc (room - 1) root 0 (physLines content) t refused)
    (hf : fs root = some content) (f : Str) (hr : f = root ∨ PullsPlus fs inc root f) (hc : PullsPlus fs inc f f) :
    refused ≠ [] := by
  intro he
  obtain ⟨t', h1, _⟩ := (C101_refused room fs inc root content t refused h0 h).2.1 he
  have h2 := (C03_self_include fs inc root content hf f hr hc (t'.flatten.length + 1)).2
  rw [C02_expansion fs inc root content t' h1] at h2
  cases h2

/-- C101: if the files are nowhere nested too deep, the limit changes nothing: the rest of the model
does without it. -/
theorem C101_same {σ : Type} (room : Nat) (fs : FS) (agg : σ → Elem → Res σ) (init : σ) (root : Str) (content : Bytes)
    (t : Items) (h : Expand fs opens root 0 (physLines content) t) (hn : t.nest < room) (m : Nat) :
    pipeRunIn room fs agg (t.flatten.length + m) ⟨[openFrame root content], [], [], init⟩ =
      pipeRun fs agg (t.flatten.length + m) ⟨[openFrame root content], [], [], init⟩ :=
  pipeIn_same h [] (by simp; omega) m (fun ff vsw a => by cases m <;> rfl) [] [] init

/-- C101: the same for a check of a dialplan. -/
theorem C101_check (room : Nat) (fs : FS) (env : DEnv) (sp : Option Str) (root : Str) (content : Bytes)
    (t : Items) (h : Expand fs opens root 0 (physLines content) t) (hn : t.nest < room) (m : Nat) :
    checkDialplanIn room fs env sp (t.flatten.length + m) root content =
      checkDialplan fs env sp (t.flatten.length + m) root content := by
  unfold checkDialplanIn checkDialplan
  rw [C101_same room fs (dialplanStep env) (.init sp) root content t h hn m]
  rfl

-- a file that includes itself: with room for three files the reading ends, and what is said about the
-- line that is refused its file is that the file could not be found, although it is there
example : (exLoop (c! "d/r")).isSome = true ∧
    ((pipeRunIn 3 exLoop collect 7 ⟨[openFrame (c! "d/r") (utf8 (c! "a=b\n#include r\n"))], [], [], []⟩).val.toOption.bind id).isSome =
      true ∧
    (pipeLinesIn 3 exLoop collect 7 ⟨[openFrame (c! "d/r") (utf8 (c! "a=b\n#include r\n"))], [], [], []⟩).map (·.lineno) =
      [1, 2, 1, 2, 1, 2] ∧
    (pipeRunIn 3 exLoop collect 7 ⟨[openFrame (c! "d/r") (utf8 (c! "a=b\n#include r\n"))], [], [], []⟩).log.map
        (fun m => (m.kind, m.at_.lineno)) = [(.W_PP_INCLUDE_MISSING, 2)] := by
  decide +kernel

-- one file in another
example : ∃ t, Expand exFs opens (c! "r") 0 (physLines (utf8 (c! "[a]\n#include b\nk=v"))) t ∧ t.nest = 1 := by
  refine ⟨_, .line (by decide) (.incl (p := c! "b") (c := utf8 (c! "x=1\ny=2\n")) (by decide) (.line (by decide) (.line (by decide) .nil))
    (.line (by decide) .nil)), rfl⟩

end ALint.Props
