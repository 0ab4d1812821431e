import Verif.Proofs.Issued
import Verif.Props.Fatal

/-!
# The order of the messages of a check (C96)
-/

namespace ALint.Props
open ALint ALint.Spec

/-- The elements told about in order are those of the lines. -/
theorem issued_tells {env : AEnv} {s s' : Sofar} {told : List Told} {formats hints log : List Msg} {us : List Ev} {ds : List Dest}
    (h : Issued env s told formats hints log s' us ds) :
    ∃ ms, DialplanTells env s (elemsOf told) ms s' us ds ∧ ∃ lines rest, Merges formats hints rest ∧
      Merges (told.flatMap (·.msgs)) rest lines ∧ Merges lines ms log := by
  have whole : ∀ l : List Msg, Merges l [] l := fun l => by simpa using Merges.appendLeft l (Merges.nil (α := Msg))
  have whole' : ∀ l : List Msg, Merges [] l l := fun l => by simpa using Merges.appendRight l (Merges.nil (α := Msg))
  induction h with
  | @done s formats hints _ =>
    refine ⟨[], .nil, formats ++ hints, formats ++ hints, ?_, ?_, whole _⟩
    · simpa using Merges.append (whole formats) (whole' hints)
    · simpa using whole' (formats ++ hints)
  | @line s s1 s2 x told a b e f h d formats hints log us us' ds ds' h1 _ _ _ h4 h5 _ ih =>
    obtain ⟨ms, i1, lines, rest, i2, i3, i4⟩ := ih
    have hms : ∃ lines' rest', Merges (e ++ f ++ formats) (h ++ hints) rest' ∧
        Merges ((x :: told).flatMap (·.msgs)) rest' lines' ∧
        Merges lines' (d ++ ms) (a ++ e ++ f ++ b ++ h ++ d ++ log) := by
      refine ⟨a ++ e ++ f ++ b ++ h ++ lines, e ++ f ++ h ++ rest, ?_, ?_, ?_⟩
      · simpa using Merges.append (whole (e ++ f)) (Merges.append (whole' h) i2)
      · have := Merges.append (whole a) (Merges.append (whole' (e ++ f)) (Merges.append (whole b) (Merges.append (whole' h) i3)))
        simpa [h1] using this
      · have := Merges.append (whole (a ++ e ++ f ++ b ++ h)) (Merges.append (whole' d) i4)
        simpa using this
    refine ⟨d ++ ms, ?_, hms⟩
    obtain ⟨w, xm, g⟩ := x
    cases h5 with
    | elem he => exact .cons he i1
    | file p => exact i1
    | nothing => exact i1

/-- So the order only adds to what is said about the lines and about the dialplan. -/
theorem issued_says {fs : FS} {path : Str} {content : Bytes} {env : AEnv} {s s' : Sofar} {told : List Told}
    {formats hints log : List Msg} {us : List Ev} {ds : List Dest} (hf : FilesTell fs path content told formats hints)
    (h : Issued env s told formats hints log s' us ds) :
    ∃ lines ms, FilesSay fs path content told lines ∧ DialplanTells env s (elemsOf told) ms s' us ds ∧ Merges lines ms log := by
  obtain ⟨ms, h1, lines, rest, h2, h3, h4⟩ := issued_tells h
  obtain ⟨t, f1, f2, f3, f4⟩ := hf.files
  exact ⟨lines, ms, ⟨hf.lines, t, f1, f2, formats, hints, rest, f3, f4, h2, h3⟩, h1, h4⟩

theorem filesTell_of {fs : FS} {path : Str} {content : Bytes} (hf : fs path = some content) {told : List Told} {t : Items}
    (ht : Expand fs opens path 0 (physLines content) t) (hlines : told.map (·.line) = t.flatten)
    (t2 : ∀ x ∈ told, lineModel fs x.line = some (x.msgs, x.gives)) :
    FilesTell fs path content told
      ((ffRun textOf [] (told.map (·.line))).2 ++ ffEnd (ffRun textOf [] (told.map (·.line))).1)
      (vswRun [] (elemsOf told)).2 := by
  have hsay : ∀ x ∈ told, LineTells fs x.line x.msgs x.gives := fun x hx => lineTells_exists (t2 x hx)
  have hmem : ∀ w ∈ t.flatten, ∃ x ∈ told, x.line = w := fun w hw => by
    rw [← hlines] at hw; simpa using hw
  refine ⟨hsay, t, ?_, hlines, ?_, ?_⟩
  · intro inc hinc
    refine expand_congr ht fun w hw => ?_
    obtain ⟨x, hx, rfl⟩ := hmem w hw
    rw [hinc _ _ _ (hsay x hx), lineModel_file (t2 x hx)]
  · intro text htext
    rw [hlines, ffRun_congr (t := textOf) (t' := text) t.flatten [] ?_]
    · exact C07_formats text fs opens path content hf t ht
    · intro w hw
      obtain ⟨x, hx, rfl⟩ := hmem w hw
      obtain ⟨s, bad, hd⟩ := lineTells_text (hsay x hx)
      rw [htext _ _ _ hd, (C96_knows fs).2 _ _ _ hd]
  · intro hnd
    have hel : elemsOf told = t.flatten.filterMap fun w => (lineModel fs w).bind fun r => r.2.elem? := by
      rw [← hlines]
      exact elemsOf_flatten told t2
    have hnest := (expand_nested (el := fun w => (lineModel fs w).bind fun r => r.2.elem?) (fun w e he => by
      simp only [Option.bind_eq_some_iff] at he
      obtain ⟨r, hr, he⟩ := he
      exact lineTells_at (lineTells_exists hr) he) ht hnd).1
    rw [← hel] at hnest
    intro f l hlay
    have h72 := C72_own_partial (elemsOf told) (C72_nested _ _ hnest) f
    have hone : (vswRun [] (ownLines f (elemsOf told))).2 = l.hints := by
      rw [← hlay]
      refine C17_hints f l fun e he => ?_
      rw [hlay] at he
      simpa using (List.mem_filter.1 he).2
    simp only [hone] at h72
    exact h72

/-- C96: the messages of a whole check come in this order: line by line, about its bytes, about line
terminators, about its layout, about blank lines, about the dialplan; then what is missing; then what
is wrong with the jumps, in the order of the jumps. -/
theorem C96_order (fs : FS) (env : DEnv) (hd : ArgsDescribed env.toAEnv) (sp : Option Str) (n : Nat) (path : Str)
    (content : Bytes) (hf : fs path = some content) (log : List Msg) (st : DState)
    (h : checkDialplan fs env sp n path content = ⟨log, .ok (some st)⟩) :
    ∃ told formats hints both s us ds parts, FilesTell fs path content told formats hints ∧
      Issued env.toAEnv (.none sp) told formats hints both s us ds ∧
      Zips (JumpSays (viewOf (elemsOf told) s)) ds parts ∧
      log = both ++ endSays s ++ parts.flatten := by
  obtain ⟨es, lines, both, parts, h1, _, h3, h4, _⟩ := C94_check fs env sp n path content log st h
  obtain ⟨told', t1, t2⟩ := C96_files fs n path content hf lines es h1
  have hv := congrArg Res.val h
  have hl := congrArg Res.log h
  simp only at hv hl
  unfold checkDialplan at hv hl
  obtain ⟨r, k1, k2, k3⟩ := Res.bind_ok hv
  rw [k3] at hl
  cases r with
  | none => simp at k2
  | some st' =>
    simp only at k2 hl
    obtain ⟨_, _, k4, k5⟩ := Res.bind_ok k2
    obtain ⟨_, k6, k7, k8⟩ := Res.bind_ok k4
    simp only [Res.pure_val, Except.ok.injEq, Option.some.injEq] at k7
    subst k7
    rw [k5, k8] at hl
    obtain ⟨told, s, us, ds, q1, q2, q3, q4, q5, q6⟩ :=
      pipeRun_issued fs hd n ⟨[openFrame path content], [], [], .init sp⟩ (.none sp) st' (DpInv.init sp) (Agrees.init sp) k1
    obtain ⟨t, ht, hfl⟩ := C02_pipeline fs (dialplanStep env) (.init sp) path content n st' k1
    have hsay : ∀ x ∈ told, LineTells fs x.line x.msgs x.gives := fun x hx => lineTells_exists (q2 x hx)
    have htell := filesTell_of hf ht (q1.trans hfl) q2
    obtain ⟨lines2, ms2, u1, _, _⟩ := issued_says htell q3
    have := C96_told_unique fs path content told told' lines2 lines u1 t1
    subst this
    obtain ⟨i1, _, i3⟩ := after_inv h4
    have hv : viewOf (elemsOf told) s = viewOf es s := by rw [← viewOf_filter, ← t2, viewOf_filter]
    have hlike := view_alike q4 i1 i3
    have hds : st'.dp.dests = ds := by simpa [DState.init, Dialplan.init] using q6
    have hend := end_says q4
    have walk : ∀ (ds : List Dest), (walkDests st'.dp env.depth ds).val = .ok () →
        ∃ parts, (walkDests st'.dp env.depth ds).log = parts.flatten ∧ Zips (JumpSays (viewOf es s)) ds parts := by
      intro ds
      induction ds with
      | nil => intro _; exact ⟨[], rfl, .nil⟩
      | cons d ds ih =>
        intro hw
        simp only [walkDests] at hw ⊢
        obtain ⟨_, w1, w2, w3⟩ := Res.bind_ok hw
        obtain ⟨parts, p1, p2⟩ := ih w2
        refine ⟨(walkDest st'.dp env.depth d).log :: parts, ?_, .cons ?_ p2⟩
        · rw [w3, p1]; rfl
        · exact hlike.jumpSays (C94_jump env sp es _ st' h4 env.depth d _ (by rw [← w1]))
    obtain ⟨ps, p1, p2⟩ := walk _ k6
    refine ⟨told, _, _, _, s, us, ds, ps, htell, q3, ?_, ?_⟩
    · rw [hv, ← hds]; exact p2
    · rw [← hl, hend, p1]
      simp

/-! ### Example -/

def orderText : Str := c! "\n [a];x\n\n\nexten=>s,1,Goto(b,s,1)\nexten => s,3,NoOp()\r\nhint\nexten => s,n,Wait"
def orderFiles : FS := fun p => if p = c! "e.conf" then some (asciiBytes orderText) else none

-- the messages of a check, in order: the layout of a line comes before the blank lines in front of it
example : ((checkDialplan orderFiles demoEnv none 9 (c! "e.conf") (asciiBytes orderText)).log.map fun m => (m.kind, m.at_.lineno)) =
    [(.W_WSH_COMMENT, 2), (.W_WSH_BOL, 2), (.W_WSV_BOF, 1), (.W_WSH_OBJSET, 5), (.H_WSV_VARSET_BETWEEN, 4),
      (.W_FILE_UNIX_CRLF, 6), (.W_DP_PRIO_BADORDER, 6), (.E_CONF_BAD_LINE, 7), (.W_APP_NEED_PARENS, 8), (.E_APP_MISSING, 8),
      (.W_FILE_UNIX_NOLF, 8), (.H_DP_GENERAL_MISPLACED, 0), (.H_DP_GLOBALS_MISPLACED, 0), (.E_DP_GOTO_NOCONTEXT, 5)] ∧
    (checkDialplan orderFiles demoEnv none 9 (c! "e.conf") (asciiBytes orderText)).val.toOption.isSome = true := by
  decide +kernel

end ALint.Props
