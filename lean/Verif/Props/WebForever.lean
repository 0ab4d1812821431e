import Verif.Spec.WebForever
import Verif.Props.Web
import Verif.Props.LineLog
import Verif.Proofs.CanonAgain
import Verif.Proofs.Vg

/-!
# C102: web requests are answered
-/

namespace ALint.Props
open ALint ALint.Spec

theorem lineStep_of_model {fs : FS} {w : Where} {ms : List Msg} {g : Gives} (h : lineModel fs w = some (ms, g))
    (ff : List FInfo) (frames : List Frame) : ∃ r, (lineStep fs ff frames w).2 = .ok (r, g.elem?) := by
  unfold lineModel at h
  unfold lineStep fileStage
  cases he : (encodingStage w).2 with
  | error e => simp [he] at h
  | ok text =>
    simp only [he] at h ⊢
    rw [ffStage_data [] ff] at h
    unfold readModel at h
    cases hp : (parserStage w (commentStage w (ffStage ff w text).2.2).2.1 (commentStage w (ffStage ff w text).2.2).2.2).2 with
    | elem e =>
      simp only [hp, Option.map_some, Option.some.injEq, Prod.mk.injEq] at h ⊢
      obtain ⟨_, rfl⟩ := h
      exact ⟨_, rfl⟩
    | pp pp =>
      cases pp with
      | nothing =>
        simp only [hp, Option.map_some, Option.some.injEq, Prod.mk.injEq] at h ⊢
        obtain ⟨_, rfl⟩ := h
        exact ⟨_, rfl⟩
      | open_ path must name =>
        by_cases h0 : '\x00' ∈ path
        · simp [hp, h0] at h
        · simp only [hp, if_neg h0, Option.map_some, Option.some.injEq, Prod.mk.injEq] at h ⊢
          obtain ⟨_, rfl⟩ := h
          have h0' : path.any (fun c => c.toNat = 0) = false := by
            rw [Bool.eq_false_iff]
            intro hh
            obtain ⟨c, h1, h2⟩ := List.any_eq_true.1 hh
            have : c = '\x00' := Char.toNat_inj.1 (by simpa using h2)
            exact h0 (this ▸ h1)
          simp only [runPP, h0']
          cases fs path <;> exact ⟨_, rfl⟩

theorem opens_model {w : Where} (hne : ∀ p, opens w = some p → '\x00' ∉ p) {p : Str} (h : opens w = some p) (fs : FS) :
    ∃ ms, LineTells fs w ms (.file p) := by
  have h0 := hne p h
  unfold opens at h
  cases he : (encodingStage w).2 with
  | error e => simp [he] at h
  | ok text =>
    simp only [he] at h
    cases hp : (parserStage w (commentStage w (ffStage [] w text).2.2).2.1 (commentStage w (ffStage [] w text).2.2).2.2).2 with
    | elem e => simp [hp] at h
    | pp pp =>
      cases pp with
      | nothing => simp [hp] at h
      | open_ path must name =>
        simp only [hp, Option.some.injEq] at h
        subst h
        have : ∃ ms, lineModel fs w = some (ms, .file path) := by
          unfold lineModel readModel
          simp only [he, hp, if_neg h0, Option.map_some]
          exact ⟨_, rfl⟩
        obtain ⟨ms, hm⟩ := this
        exact ⟨ms, lineTells_exists hm⟩

/-- A line that is skipped changes nothing of the dialplan. -/
theorem step_skipped {fs : FS} {env : DEnv} {st : PState DState} {w : Where} {rest : List Frame} {ms : List Msg} {g : Gives}
    (hn : nextLine st.frames = some (w, rest)) (hm : lineModel fs w = some (ms, g))
    (hg : g.elem?.toList.filter notBlank = []) :
    ∃ r st', pipeStep fs (dialplanStep env) st = some r ∧ r.val = .ok st' ∧ st'.agg = st.agg := by
  obtain ⟨rs, hl⟩ := lineStep_of_model hm st.ff rest
  have hf := (fine_lineStep (S := Anywhere) (ff := st.ff) (fun _ _ => trivial) (w := w) trivial fs rest).1
  unfold pipeStep
  simp only [hn, emitAll_eq hf, hl]
  cases he : g.elem? with
  | none => exact ⟨_, _, rfl, rfl, rfl⟩
  | some e =>
    have hv := (fine_vswStep (S := Anywhere) (st := st.vsw) (fun _ _ _ _ => trivial) (e := e) trivial).1
    rw [he] at hg
    have hb : (vswStep st.vsw e).2.1.filter notBlank = [] := by
      rw [vswStep_blank]
      exact hg
    simp only [emitAll_eq hv]
    rw [feed_notBlank, hb]
    exact ⟨_, _, rfl, rfl, rfl⟩

/-- Wherever the reader is before the include in the text, it does not get beyond it. -/
theorem webRun_over {env : DEnv} {data : Bytes} : ∀ (n : Nat) (k : Nat) (stack : List Frame) (ff : List FInfo)
    (vsw : List Vsw) (s : DState), (∃ pre line post, physLines data = pre ++ line :: post ∧ IncludesItself data pre.length line ∧
      (∀ i l, pre[i]? = some l → ∃ ms g, LineTells (webFs data) (webLine i l) ms g ∧ Skipped g) ∧ k ≤ pre.length) →
    (webRun data env n ⟨⟨webName, k, (physLines data).drop k⟩ :: stack, ff, vsw, s⟩).val = .ok none := by
  intro n
  induction n with
  | zero => intros; rfl
  | succ n ih =>
    intro k stack ff vsw s hp
    obtain ⟨pre, line, post, h1, ⟨mi, h2⟩, h3, hk⟩ := hp
    have hi : ∃ l, (physLines data)[k]? = some l ∧ ∃ ms g, LineTells (webFs data) (webLine k l) ms g ∧
        ((k < pre.length ∧ Skipped g) ∨ (k = pre.length ∧ g = .file webName)) := by
      rcases Nat.lt_or_eq_of_le hk with hlt | rfl
      · obtain ⟨l, hl⟩ : ∃ l, pre[k]? = some l := ⟨_, List.getElem?_eq_getElem hlt⟩
        obtain ⟨ms, g, h4, h5⟩ := h3 k l hl
        exact ⟨l, by rw [h1, List.getElem?_append_left hlt, hl], ms, g, h4, .inl ⟨hlt, h5⟩⟩
      · exact ⟨line, by simp [h1], mi, _, h2, .inr ⟨rfl, rfl⟩⟩
    obtain ⟨l, hl, ms, g, hg, hc⟩ := hi
    have hd : (physLines data).drop k = l :: (physLines data).drop (k + 1) := by
      obtain ⟨hlt, he⟩ := List.getElem?_eq_some_iff.1 hl
      rw [List.drop_eq_getElem_cons hlt, he]
    rw [hd]
    have hn : nextLine (⟨webName, k, l :: (physLines data).drop (k + 1)⟩ :: stack) =
        some (webLine k l, ⟨webName, k + 1, (physLines data).drop (k + 1)⟩ :: stack) := rfl
    have hm := lineTells_model hg
    have hb : g.elem?.toList.filter notBlank = [] := by
      rcases hc with ⟨_, hs⟩ | ⟨_, rfl⟩
      · cases hs <;> rfl
      · rfl
    obtain ⟨r, st', hs, hv, ha⟩ := step_skipped (env := env)
      (st := ⟨⟨webName, k, l :: (physLines data).drop (k + 1)⟩ :: stack, ff, vsw, s⟩) hn hm hb
    have hfr := pipeStep_frames _ _ _ _ _ _ _ hn hs hv
    have ho := lineModel_file hm
    rw [webRun, hs]
    dsimp only
    rw [Res.bind_of_ok hv]
    have hown : opensOther (⟨⟨webName, k, l :: (physLines data).drop (k + 1)⟩ :: stack, ff, vsw, s⟩ : PState DState) = false := by
      simp only [opensOther, hn, ho]
      rcases hc with ⟨_, hs⟩ | ⟨_, rfl⟩
      · cases hs <;> rfl
      · simp [Gives.file?]
    rw [hown]
    simp only [Bool.false_eq_true, if_false]
    obtain ⟨frames', ff', vsw', s'⟩ := st'
    dsimp only at hfr
    rcases hc with ⟨hlt, hs⟩ | ⟨_, rfl⟩
    · have hpull : pulls (webFs data) opens (webLine k l) = none := by
        unfold pulls
        rw [ho]
        cases hs <;> rfl
      rw [hpull] at hfr
      dsimp only at hfr
      subst hfr
      exact ih (k + 1) _ _ _ _ ⟨pre, line, post, h1, ⟨mi, h2⟩, h3, hlt⟩
    · have hpull : pulls (webFs data) opens (webLine k l) = some (webName, data) := by
        unfold pulls
        rw [ho]
        simp [Gives.file?, webFs]
      rw [hpull] at hfr
      dsimp only at hfr
      subst hfr
      exact ih 0 _ _ _ _ ⟨pre, line, post, h1, ⟨mi, h2⟩, h3, Nat.zero_le _⟩

/-- C102 is violated: a text that starts with an include of its own name, apart from comments, blank
lines and lines that are no good, is never answered, whatever was asked before. -/
theorem C102_violated (env : DEnv) (n : Nat) (lost : Option Str) (st : WebState) (text : Str) (h : StartsOver (utf8 text)) :
    (webStep env n lost st (.check text)).2 = .never := by
  have h0 := h
  obtain ⟨pre, line, post, h1, h2, h3⟩ := h0
  have := webRun_over (env := env) n 0 [] [] [] (.init st.sp) ⟨pre, line, post, h1, h2, h3, Nat.zero_le _⟩
  rw [List.drop_zero] at this
  have hv : (webCheck env st.sp n (utf8 text)).val = .ok none := by
    unfold webCheck
    rw [show [openFrame webName (utf8 text)] = [⟨webName, 0, physLines (utf8 text)⟩] from rfl, Res.bind_of_ok this]
    rfl
  unfold webStep
  simp only [hv]

/-- C102: a text in which no line includes the text itself is answered, at the latest when its lines
have been read. -/
theorem C102_answered_partial (env : DEnv) (n : Nat) (lost : Option Str) (st : WebState) (text : Str)
    (hi : ∀ k line, (physLines (utf8 text))[k]? = some line → ¬ IncludesItself (utf8 text) k line)
    (hn : (physLines (utf8 text)).length < n) : (webStep env n lost st (.check text)).2 ≠ .never := by
  have key : ∀ (ls : List Bytes) (n k : Nat) (ff : List FInfo) (vsw : List Vsw) (s : DState), ls.length < n →
      (∀ i line, ls[i]? = some line → ¬ IncludesItself (utf8 text) (k + i) line) →
      (webRun (utf8 text) env n ⟨[⟨webName, k, ls⟩], ff, vsw, s⟩).val ≠ .ok none := by
    intro ls
    induction ls with
    | nil =>
      intro n k ff vsw s hn _ h
      cases n with
      | zero => omega
      | succ n =>
        have he : pipeStep (webFs (utf8 text)) (dialplanStep env) ⟨[⟨webName, k, []⟩], ff, vsw, s⟩ = none := rfl
        rw [webRun, he] at h
        obtain ⟨_, _, h2, _⟩ := Res.bind_ok h
        cases h2
    | cons l ls ih =>
      intro n k ff vsw s hn hi h
      cases n with
      | zero => omega
      | succ n =>
        rw [webRun] at h
        have hx : nextLine [⟨webName, k, l :: ls⟩] = some (webLine k l, [⟨webName, k + 1, ls⟩]) := rfl
        cases hs : pipeStep (webFs (utf8 text)) (dialplanStep env) ⟨[⟨webName, k, l :: ls⟩], ff, vsw, s⟩ with
        | none => unfold pipeStep at hs; simp [hx] at hs
        | some r =>
          rw [hs] at h
          dsimp only at h
          obtain ⟨st', h1, h2, _⟩ := Res.bind_ok h
          have hfr := pipeStep_frames _ _ _ _ _ _ _ hx hs h1
          split at h2
          · cases h2
          · rename_i hown
            have hp : pulls (webFs (utf8 text)) opens (webLine k l) = none := by
              unfold pulls
              cases ho : opens (webLine k l) with
              | none => rfl
              | some p =>
                exfalso
                simp only [opensOther, hx, ho] at hown
                have hp : p = webName := by simpa using hown
                subst hp
                refine hi 0 l (by simp) (opens_model ?_ ho _)
                intro p hp
                rw [ho] at hp
                cases hp
                decide
            rw [hp] at hfr
            dsimp only at hfr
            obtain ⟨frames', ff', vsw', s'⟩ := st'
            dsimp only at hfr
            subst hfr
            refine ih n (k + 1) ff' vsw' s' (by simp at hn; omega) (fun i line h => ?_) h2
            have := hi (i + 1) line (by simpa using h)
            rwa [show k + (i + 1) = k + 1 + i by omega] at this
  intro h
  have hv : (webCheck env st.sp n (utf8 text)).val = .ok none := by
    unfold webStep at h
    dsimp only at h
    cases hv : (webCheck env st.sp n (utf8 text)).val with
    | error e => simp [hv] at h
    | ok o =>
      cases o with
      | none => rfl
      | some s => simp only [hv] at h; split at h <;> simp at h
  unfold webCheck at hv
  obtain ⟨r, h1, h2, _⟩ := Res.bind_ok hv
  cases r with
  | none => exact key _ n 0 _ _ _ hn (fun i line h => by rw [Nat.zero_add]; exact hi i line h) h1
  | some s =>
    obtain ⟨_, _, h2, _⟩ := Res.bind_ok h2
    obtain ⟨_, _, h2, _⟩ := Res.bind_ok h2
    simp at h2

/-- C102: the other requests are answered. -/
theorem C102_others (env : DEnv) (n : Nat) (lost : Option Str) (st : WebState) (q : Request) (h : ∀ text, q ≠ .check text) :
    (webStep env n lost st q).2 ≠ .never := by
  cases q with
  | check text => exact absurd rfl (h text)
  | index => simp [webStep]
  | healthz => simp [webStep]
  | invalid => simp [webStep]

/-- C102: the text of a request that is not answered includes itself. -/
theorem C102_never (env : DEnv) (lost : Option Str) (st : WebState) (text : Str)
    (h : ∀ n, (webStep env n lost st (.check text)).2 = .never) :
    ∃ k line, (physLines (utf8 text))[k]? = some line ∧ IncludesItself (utf8 text) k line := by
  refine Classical.byContradiction fun hn => ?_
  exact C102_answered_partial env ((physLines (utf8 text)).length + 1) lost st text
    (fun k line hk hi => hn ⟨k, line, hk, hi⟩) (by omega) (h _)

theorem tells_of_model {fs : FS} {w : Where} (g : Gives) (h : (lineModel fs w).map (·.2) = some g) :
    ∃ ms, LineTells fs w ms g := by
  cases hm : lineModel fs w with
  | none => rw [hm] at h; cases h
  | some r =>
    rw [hm] at h
    cases h
    exact ⟨r.1, lineTells_exists hm⟩

/-- A text of two lines that is read for ever. -/
example : StartsOver (utf8 (c! "; hi\n#include extensions.conf\n")) := by
  refine ⟨[asciiBytes (c! "; hi\n")], asciiBytes (c! "#include extensions.conf\n"), [], by decide +kernel, ?_, ?_⟩
  · exact tells_of_model _ (by decide +kernel)
  · intro k l hk
    cases k with
    | zero =>
      simp only [List.getElem?_cons_zero, Option.some.injEq] at hk
      subst hk
      obtain ⟨ms, h⟩ := tells_of_model (fs := webFs (utf8 (c! "; hi\n#include extensions.conf\n")))
        (w := webLine 0 (asciiBytes (c! "; hi\n"))) (.elem (.empty true (webLine 0 (asciiBytes (c! "; hi\n"))))) (by decide +kernel)
      exact ⟨ms, _, h, .blank ..⟩
    | succ k => simp at hk

/-- A text that is answered, since none of its lines includes itself (but one another file). -/
example : ∀ k line, (physLines (utf8 (c! "#include x\n")))[k]? = some line → ¬ IncludesItself (utf8 (c! "#include x\n")) k line := by
  intro k line hk ⟨ms, h⟩
  have hl : physLines (utf8 (c! "#include x\n")) = [asciiBytes (c! "#include x\n")] := by decide +kernel
  rw [hl] at hk
  cases k with
  | zero =>
    simp only [List.getElem?_cons_zero, Option.some.injEq] at hk
    subst hk
    have h1 := lineModel_file (lineTells_model h)
    have h2 : opens (webLine 0 (asciiBytes (c! "#include x\n"))) = some (c! "x") := by decide +kernel
    rw [h2] at h1
    cases h1
  | succ k => simp at hk

end ALint.Props
