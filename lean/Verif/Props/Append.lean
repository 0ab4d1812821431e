import Verif.Proofs.Append
import Verif.Props.Fatal
import Verif.Props.Locality
import Verif.Props.Jumps

/-!
# C114: writing more at the end of a dialplan
-/

namespace ALint.Props
open ALint Spec Proofs

/-- Nothing changes for a file whose own reading ends, when only what is on disk under its name changes. -/
theorem appended_agree {fs fs' : FS} {path : Str} {content extra : Bytes} (ha : Appended fs fs' path content extra) {t : Items}
    (ht : Expand fs opens path 0 (physLines content) t) : AgreeOn (FileNamed fs path content) fs fs' := by
  intro q hq
  refine ha.others q ?_
  rintro rfl
  exact not_named ha.before ht hq

theorem walk_last (dp : Dialplan) (depth : Nat) : ∀ ds : List Dest, LogAll SaidLast (walkDests dp depth ds)
  | [] => .pure _
  | d :: ds => .bind (fun m hm => .inr (.inr (.inr (.inr (.inr ((C55_at_most_one dp depth d).2 m hm).2))))) fun _ => walk_last dp depth ds

/-- The messages of a check apart from those at its end are those of reading the files. -/
theorem check_early {fs : FS} {env : DEnv} {sp : Option Str} {n : Nat} {path : Str} {content : Bytes} {log : List Msg} {st : DState}
    (h : checkDialplan fs env sp n path content = ⟨log, .ok (some st)⟩) :
    (pipeRun fs (dialplanStep env) n ⟨[openFrame path content], [], [], .init sp⟩).val = .ok (some st) ∧
    earlyOnes log = earlyOnes (pipeRun fs (dialplanStep env) n ⟨[openFrame path content], [], [], .init sp⟩).log := by
  have hv := congrArg Res.val h
  have hl := congrArg Res.log h
  simp only at hv hl
  unfold checkDialplan at hv hl
  obtain ⟨r, h1, h2, h3⟩ := Res.bind_ok hv
  rw [h3] at hl
  cases r with
  | none => simp at h2
  | some s =>
    dsimp only at h2 hl
    obtain ⟨_, h4, h5, h6⟩ := Res.bind_ok h2
    obtain ⟨_, h7, h8, h9⟩ := Res.bind_ok h5
    simp only [Res.pure_val, Except.ok.injEq, Option.some.injEq] at h8
    subst h8
    refine ⟨h1, ?_⟩
    rw [← hl, h6, h9, earlyOnes_append, earlyOnes_append, earlyOnes_append, earlyOnes_late (late_complete _),
      earlyOnes_late (walk_last _ _ _)]
    simp [earlyOnes]

/-- C114: the check of the longer file says about the lines that were there all that the check of the shorter one said, in
the same order and before everything else, apart from what is only said at the end. -/
theorem C114_before (fs fs' : FS) (env : DEnv) (sp : Option Str) (n n' : Nat) (path : Str) (content extra : Bytes)
    (ha : Appended fs fs' path content extra) (log log' : List Msg) (st st' : DState)
    (h : checkDialplan fs env sp n path content = ⟨log, .ok (some st)⟩)
    (h' : checkDialplan fs' env sp n' path (content ++ extra) = ⟨log', .ok (some st')⟩) :
    earlyOnes log <+: earlyOnes log' := by
  obtain ⟨h1, h2⟩ := check_early h
  obtain ⟨h3, h4⟩ := check_early h'
  obtain ⟨t, ht, -⟩ := C02_pipeline fs _ _ path content n _ h1
  rw [h2, h4]
  rw [← C110_reading fs fs' _ n path content _ (appended_agree ha ht)] at h1 ⊢
  obtain ⟨steps, k, st1, e1, e2, e3⟩ := pipeRun_longer (ls := physLines extra) n _ _ h1
  have hlong : (⟨[openFrame path (content ++ extra)], [], [], .init sp⟩ : PState DState) =
      PState.longer (physLines extra) ⟨[openFrame path content], [], [], .init sp⟩ := by
    simp only [PState.longer, lengthen, openFrame, physLines_more extra content ha.whole]
  rw [hlong] at h3 ⊢
  rw [← pipeRun_fuel n' _ _ h3 k, Nat.add_comm, e3 n', e1]
  simp only [earlyOnes_append, earlyOnes_late (late_pipeEnd st1 e2), List.append_nil]
  exact List.prefix_append _ _

/-- C114: the lines read are those read before, giving the same, and then new ones. -/
theorem C114_lines (fs fs' : FS) (path : Str) (content extra : Bytes) (ha : Appended fs fs' path content extra)
    (told told' : List Told) (log log' : List Msg) (h : FilesSay fs path content told log)
    (h' : FilesSay fs' path (content ++ extra) told' log') : ∃ new, told' = told ++ new := by
  have lines : ∀ {fs content told log}, FilesSay fs path content told log → ∃ t : Items,
      Expand fs opens path 0 (physLines content) t ∧ told.map (·.line) = t.flatten := by
    intro fs content told log h
    obtain ⟨t, h1, h2, -⟩ := h.files
    exact ⟨t, h1 opens (C96_knows fs).1, h2⟩
  obtain ⟨t, h1, h2⟩ := lines h
  obtain ⟨t', h1', h2'⟩ := lines h'
  have agree : ∀ w ∈ t.flatten, ∀ q, opens w = some q → fs' q = fs q := by
    intro w hw q hq
    refine ha.others q ?_
    rintro rfl
    exact expand_not_self ha.before h1 hw hq
  have h3 := expand_agree h1 agree
  rw [physLines_more extra content ha.whole] at h1'
  obtain ⟨t1, t2, h4, h5⟩ := expand_split _ _ h1'
  rw [expand_same h4 h3] at h5
  have key : told'.map (·.line) = told.map (·.line) ++ t2 := by rw [h2', h2, h5]
  have hl : ∀ x ∈ told, LineTells fs' x.line x.msgs x.gives := by
    intro x hx
    have hm := lineTells_model (h.lines x hx)
    have hw : x.line ∈ t.flatten := by rw [← h2]; exact List.mem_map.2 ⟨x, hx, rfl⟩
    have := lineModel_asks (fs := fs) (fs' := fs') (w := x.line) fun ms q hq => agree _ hw q (lineModel_file hq)
    exact lineTells_exists (r := (x.msgs, x.gives)) (by rw [this]; exact hm)
  have hl' := h'.lines
  clear h h' lines h1 h1' h2 h2' h3 h4 h5 agree
  induction told generalizing told' with
  | nil => exact ⟨told', rfl⟩
  | cons x xs ih =>
    cases told' with
    | nil => cases key
    | cons y ys =>
      simp only [List.map_cons, List.cons_append, List.cons.injEq] at key
      have hx := hl x List.mem_cons_self
      have hy := hl' y List.mem_cons_self
      rw [key.1] at hy
      obtain ⟨e1, e2⟩ := C96_unique fs' _ _ _ _ _ hx hy
      have : x = y := by
        obtain ⟨a, b, c⟩ := x
        obtain ⟨a', b', c'⟩ := y
        simp only at key e1 e2
        rw [key.1, e1, e2]
      obtain ⟨new, hn⟩ := ih ys key.2 (fun z hz => hl z (List.mem_cons_of_mem _ hz)) fun z hz => hl' z (List.mem_cons_of_mem _ hz)
      exact ⟨new, by rw [hn, this]; rfl⟩

theorem zips_mem {α β : Type} {R : α → β → Prop} {l : List α} {l' : List β} (h : Zips R l l') : ∀ b ∈ l', ∃ a ∈ l, R a b := by
  induction h with
  | nil => intro b hb; cases hb
  | cons h _ ih =>
    intro b hb
    rcases List.mem_cons.1 hb with rfl | hb
    · exact ⟨_, List.mem_cons_self, h⟩
    · obtain ⟨a, ha, hr⟩ := ih b hb
      exact ⟨a, List.mem_cons_of_mem _ ha, hr⟩

theorem zips_mem' {α β : Type} {R : α → β → Prop} {l : List α} {l' : List β} (h : Zips R l l') : ∀ a ∈ l, ∃ b ∈ l', R a b := by
  induction h with
  | nil => intro b hb; cases hb
  | cons h _ ih =>
    intro b hb
    rcases List.mem_cons.1 hb with rfl | hb
    · exact ⟨_, List.mem_cons_self, h⟩
    · obtain ⟨a, ha, hr⟩ := ih b hb
      exact ⟨a, List.mem_cons_of_mem _ ha, hr⟩

/-- C114: writing more breaks no jump: what is said about the jumps of the longer file is about a jump on a new line, or about
one on a line about which the same kind of thing was said before. -/
theorem C114_jumps (fs fs' : FS) (env : DEnv) (sp : Option Str) (n n' : Nat) (path : Str) (content extra : Bytes)
    (ha : Appended fs fs' path content extra) (log log' : List Msg) (st st' : DState)
    (h : checkDialplan fs env sp n path content = ⟨log, .ok (some st)⟩)
    (h' : checkDialplan fs' env sp n' path (content ++ extra) = ⟨log', .ok (some st')⟩) :
    ∃ told new lines lines', FilesSay fs path content told lines ∧ FilesSay fs' path (content ++ extra) (told ++ new) lines' ∧
      ∀ m ∈ log', jumpKind m.kind = true →
        (∃ x ∈ new, x.line = m.at_) ∨ ∃ m' ∈ log, jumpKind m'.kind = true ∧ m'.at_ = m.at_ := by
  have read : ∀ {fs n content log st}, fs path = some content → checkDialplan fs env sp n path content = ⟨log, .ok (some st)⟩ →
      ∃ told lines, FilesSay fs path content told lines ∧ (feed (dialplanStep env) (.init sp) (elemsOf told)).val = .ok st := by
    intro fs n content log st hf h
    obtain ⟨es, lines, both, parts, h1, -, -, h4, -⟩ := C94_check fs env sp n path content log st h
    obtain ⟨told, t1, t2⟩ := C96_files fs n path content hf lines es h1
    exact ⟨told, lines, t1, by rw [feed_filter, ← t2, ← feed_filter]; exact congrArg Res.val h4⟩
  obtain ⟨told, lines, t1, t2⟩ := read ha.before h
  obtain ⟨told', lines', t1', t2'⟩ := read ha.after h'
  obtain ⟨new, rfl⟩ := C114_lines fs fs' path content extra ha told told' lines lines' t1 t1'
  refine ⟨told, new, lines, lines', t1, t1', fun m hm hk => ?_⟩
  have e : elemsOf (told ++ new) = elemsOf told ++ elemsOf new := List.filterMap_append
  rw [e] at t2'
  obtain ⟨g, ds, g1, g2⟩ := grown_feed t2 t2'
  obtain ⟨parts, p1, p2⟩ := C68_reports fs env sp n path content log st h
  obtain ⟨parts', q1, q2⟩ := C68_reports fs' env sp n' path (content ++ extra) log' st' h'
  have hm' : m ∈ parts'.flatten := by rw [← q1]; exact List.mem_filter.2 ⟨hm, hk⟩
  obtain ⟨part, hp, hmp⟩ := List.mem_flatten.1 hm'
  obtain ⟨d, hd, -, z2, z3⟩ := zips_mem q2 part hp
  have hat := (z3 m hmp).1
  rw [g1] at hd
  rcases List.mem_append.1 hd with hd | hd
  · right
    obtain ⟨old, ho, -, o2, o3⟩ := zips_mem' p2 d hd
    cases hold : old with
    | nil =>
      have := z2.2 (g.jumpOk (o2.1 hold))
      rw [this] at hmp
      cases hmp
    | cons m' rest =>
      rw [hold] at ho o3
      obtain ⟨a1, a2⟩ := o3 m' List.mem_cons_self
      have : m' ∈ log.filter fun m => jumpKind m.kind := by
        rw [p1]; exact List.mem_flatten.2 ⟨_, ho, List.mem_cons_self⟩
      exact ⟨m', (List.mem_filter.1 this).1, a2, by rw [a1, hat]⟩
  · left
    obtain ⟨el, he, hd⟩ := g2 d hd
    obtain ⟨x, hx, hg⟩ := List.mem_filterMap.1 he
    have := lineTells_at (t1'.lines x (List.mem_append_right _ hx)) hg
    exact ⟨x, hx, by rw [hat, hd, this]⟩

/-! ### Examples -/

def appendShort : Str := c! "[general]\n\n[globals]\n\n[a]\nexten => s,1,Goto(later,1)\n same => n,Foo()\n"
def appendMore : Str := c! "\nexten => later,1,Goto(never,1)\n\n"
def appendFiles (text : Str) : FS := fun p => if p = c! "e.conf" then some (asciiBytes text) else none

/-- The conditions are met. -/
theorem example_appended : Appended (appendFiles appendShort) (appendFiles (appendShort ++ appendMore)) (c! "e.conf")
    (asciiBytes appendShort) (asciiBytes appendMore) where
  before := by decide
  after := by decide +kernel
  whole := by decide +kernel
  others := by intro q hq; simp [appendFiles, hq]

def kindsAndLines (log : List Msg) : List (MK × Int) := log.map fun m => (m.kind, m.at_.lineno)

-- the jump of line 6 is good now, the one of line 9 is bad; what is said about line 7 stays
example : (checkDialplan (appendFiles appendShort) demoEnv none 99 (c! "e.conf") (asciiBytes appendShort)).val.toOption.join.isSome ∧
    kindsAndLines (checkDialplan (appendFiles appendShort) demoEnv none 99 (c! "e.conf") (asciiBytes appendShort)).log =
      [(.E_APP_MISSING, 7), (.W_DP_GOTO_CONTEXT_NOEXTEN, 6)] ∧
    (checkDialplan (appendFiles (appendShort ++ appendMore)) demoEnv none 99 (c! "e.conf") (asciiBytes (appendShort ++ appendMore))).val.toOption.join.isSome ∧
    kindsAndLines (checkDialplan (appendFiles (appendShort ++ appendMore)) demoEnv none 99 (c! "e.conf") (asciiBytes (appendShort ++ appendMore))).log =
      [(.E_APP_MISSING, 7), (.W_WSV_EOF, 10), (.W_DP_GOTO_CONTEXT_NOEXTEN, 9)] := by decide +kernel

end ALint.Props
