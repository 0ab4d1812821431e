import Verif.Proofs.Web
import Verif.Proofs.Tidy
import Verif.Spec.Web
import Verif.Proofs.VgPlain
import Verif.Props.Config
import Verif.Props.Reader
import Verif.Props.File
import Verif.Props.Located

/-!
# C64, C90: web requests
-/

namespace ALint.Props
open ALint ALint.Spec

/-! ## Examples -/

/-- Some applications, `Background` among them. -/
def webEnv : DEnv where
  lower := fun s => s.map Char.toLower
  funcs := fun _ => none
  apps := fun s =>
    if s = c! "noop" then some ⟨c! "NoOp", c! "<builtin>", .plain⟩
    else if s = c! "background" then some ⟨c! "Background", c! "<builtin>", .background⟩
    else if s = c! "unknown" then some ⟨c! "Unknown", c! "unknown", .plain⟩
    else none
  depth := 9

/-- A freshly started server. -/
def fresh : WebState := ⟨[], none⟩

/-- The response of a fresh server. -/
def alone (env : DEnv) (n : Nat) (q : Request) : Response := (webStep env n none fresh q).2

/-- The lines and classes of a report. -/
def shown : Response → Option (List (Int × Str))
  | .report es => some (es.map fun e => (e.line, e.cls))
  | _ => none

def plainText : Str := c! "[general]\n\n[globals]\n\n[a]\nexten => s,1,NoOp()\n"
/-- Two `[general]` sections. -/
def twiceText : Str := c! "[general]\n\n[general]\n"
/-- A label without closing parenthesis. -/
def openLabelText : Str := c! "[general]\n\n[globals]\n\n[a]\nexten => s,1(x,NoOp()\n"
def backText : Str := c! "[general]\n\n[globals]\n\n[a]\nexten => s,1,Background(x)\n"
def groundText : Str := c! "[general]\n\n[globals]\n\n[a]\nexten => s,1,BackGround(x)\n"

/-! ## Violations -/

/-- C64 is violated: after a request that ends in an internal error, the next one is told
about messages of that one. -/
theorem C64_violated_leak :
    shown (alone webEnv 99 (.check plainText)) = some [] ∧
    (webResponses webEnv 99 fresh [(.check twiceText, none), (.check plainText, none)]).map shown =
      [none, some [(3, c! "W_CONF_CTX_DUPE")]] := by
  decide +kernel

/-- C64 is violated: after a request with a broken label, the next one gets no report at all. -/
theorem C64_violated_failure :
    shown (alone webEnv 99 (.check plainText)) = some [] ∧
    webResponses webEnv 99 fresh [(.check openLabelText, none), (.check plainText, none)] = [.failed, .failed] := by
  decide +kernel

/-- C64 is violated: the spelling of `Background` in one request decides which one is accepted
in the next. -/
theorem C64_violated_spelling :
    shown (alone webEnv 99 (.check groundText)) = some [] ∧
    (webResponses webEnv 99 fresh [(.check backText, none), (.check groundText, none)]).map shown =
      [some [], some [(6, c! "W_APP_BAD_CASE")]] := by
  decide +kernel

/-! ## What holds -/

/-- A request whose response is no failure and that does not use `Background`. -/
def Harmless (env : DEnv) (n : Nat) (q : Request) : Prop :=
  match q with
  | .check text => ∃ s, (webCheck env none n (utf8 text)).val = .ok (some s) ∧ ¬ usesBackground env.toAEnv s.uses
  | _ => True

theorem harmless_step {env : DEnv} {n : Nat} {q : Request} (lost : Option Str) (h : Harmless env n q) :
    (webStep env n lost fresh q).1 = fresh := by
  cases q with
  | index => rfl
  | healthz => rfl
  | invalid => rfl
  | check text =>
    obtain ⟨s, h1, h2⟩ := h
    have h1' : (webCheck env fresh.sp n (utf8 text)).val = .ok (some s) := h1
    rw [webStep]
    rw [h1']
    dsimp only
    rcases webCheck_sp h1 with he | hu
    · rw [he]; rfl
    · exact absurd hu h2

/-- C64: the responses after requests none of which ended in an internal error, went on for
ever or used `Background` are those of a fresh server. -/
theorem C64_independent_partial (env : DEnv) (n : Nat) (before : List (Request × Option Str)) (q : Request)
    (lost : Option Str) (h : ∀ p ∈ before, Harmless env n p.1) :
    (webStep env n lost (webAfter env n fresh before) q).2 = alone env n q := by
  have hf : webAfter env n fresh before = fresh := by
    induction before with
    | nil => rfl
    | cons p before ih =>
      obtain ⟨q', lost'⟩ := p
      rw [webAfter, harmless_step lost' (h (q', lost') (by simp))]
      exact ih (fun p hp => h p (by simp [hp]))
  rw [hf]
  unfold alone
  cases q with
  | index => rfl
  | healthz => rfl
  | invalid => rfl
  | check text =>
    unfold webStep
    dsimp only
    split <;> rfl

/-- The condition is met, also by requests with messages. -/
example : Harmless webEnv 99 (.check plainText) ∧ Harmless webEnv 99 .index ∧
    Harmless webEnv 99 (.check (c! "[a]\nexten => s,2,NOOP(\n")) ∧
    shown (alone webEnv 99 (.check (c! "[a]\nexten => s,2,NOOP(\n"))) ≠ some [] := by
  have key : ∀ text, (match (webCheck webEnv none 99 (utf8 text)).val with
      | .ok (some s) => s.uses.all (fun e => match e with
        | .app l => ((webEnv.apps l).or (webEnv.apps (c! "unknown"))).all (fun a => a.beh ≠ .background)
        | _ => true)
      | _ => false) = true → Harmless webEnv 99 (.check text) := by
    intro text h
    show ∃ s, _
    cases hv : (webCheck webEnv none 99 (utf8 text)).val with
    | error e => rw [hv] at h; simp at h
    | ok o =>
      cases o with
      | none => rw [hv] at h; simp at h
      | some s =>
        rw [hv] at h
        refine ⟨s, rfl, ?_⟩
        rintro ⟨l, a, h1, h2, h3⟩
        have := List.all_eq_true.1 h _ h1
        simp only at this
        rw [h2] at this
        simp [h3] at this
  exact ⟨key _ (by decide +kernel), trivial, key _ (by decide +kernel), by decide +kernel⟩

/-- A check that ends is that of the command line, on a disk with the uploaded file only. -/
theorem webRun_pipe {env : DEnv} {data : Bytes} : ∀ (n : Nat) (st : PState DState) (o : Option DState),
    (webRun data env n st).val = .ok o →
    webRun data env n st = pipeRun (webFs data) (dialplanStep env) n st := by
  intro n
  induction n with
  | zero => intro st o h; rfl
  | succ n ih =>
    intro st s h
    rw [webRun] at h ⊢
    rw [pipeRun]
    cases hp : pipeStep (webFs data) (dialplanStep env) st with
    | none => rfl
    | some r =>
      rw [hp] at h
      dsimp only at h ⊢
      obtain ⟨st', h1, h2, _⟩ := Res.bind_ok h
      rw [Res.bind_of_ok h1, Res.bind_of_ok h1]
      split at h2
      · simp at h2
      · rename_i ho
        rw [if_neg ho, ih _ _ h2]

theorem webCheck_check {env : DEnv} {sp : Option Str} {n : Nat} {data : Bytes} {s : DState}
    (h : (webCheck env sp n data).val = .ok (some s)) :
    webCheck env sp n data = checkDialplan (webFs data) env sp n webName data := by
  have h' := h
  unfold webCheck at h
  obtain ⟨r, h1, h2, _⟩ := Res.bind_ok h
  cases r with
  | none => simp at h2
  | some st =>
    unfold webCheck checkDialplan
    rw [webRun_pipe _ _ _ h1]
    rfl

/-- A fresh server reports exactly the messages of the check of the file uploaded, each with
its line, class and text, in the order of lines. -/
theorem C64_report (env : DEnv) (n : Nat) (text : Str) (s : DState)
    (h : (webCheck env none n (utf8 text)).val = .ok (some s)) :
    let log := (checkDialplan (webFs (utf8 text)) env none n webName (utf8 text)).log
    ∃ es ms, alone env n (.check text) = .report es ∧ ms.Perm log ∧
      List.Pairwise (fun a b : Msg => a.at_.lineno ≤ b.at_.lineno) ms ∧
      Zips (fun m (e : Entry) => e.line = m.at_.lineno ∧ e.cls = m.kind.name ∧ m.render = .ok e.desc) ms es := by
  have hc := webCheck_check h
  have h' : (webCheck env fresh.sp n (utf8 text)).val = .ok (some s) := h
  dsimp only
  rw [← hc]
  have hfile : ∀ m ∈ (webCheck env none n (utf8 text)).log, m.at_.filename = webName := by
    have hl : ∀ w, LineOf (webFs (utf8 text)) webName (utf8 text) w → w.filename = webName := by
      rintro w ⟨bytes, hf, k, _, hk⟩
      rcases hf with ⟨h1, _⟩ | h1
      · exact h1
      · unfold webFs at h1
        split at h1
        · assumption
        · simp only [Option.some.injEq] at h1
          subst h1
          simp [physLines] at hk
    intro m hm
    rw [hc] at hm
    rcases C66_located _ _ _ _ _ _ m hm with h | ⟨_, _, _, _, w, h1, h2⟩
    · exact hl _ h.1
    · rw [← h2]; exact hl w h1
  have hprints : ∀ m ∈ (webCheck env none n (utf8 text)).log, Prints m := by
    rw [hc]
    rw [hc] at h
    exact (tidyr_checkDialplan ..).ok h
  have ha : alone env n (.check text) = (match entries (collectMessages (webCheck env none n (utf8 text)).log) with
      | none => .failed | some es => .report es) := by
    unfold alone webStep
    dsimp only
    rw [h']
    dsimp only [fresh]
    rw [List.nil_append]
    rfl
  have hp := collect_perm (webCheck env none n (utf8 text)).log
  rw [ha]
  cases he : entries (collectMessages (webCheck env none n (utf8 text)).log) with
  | some es =>
    refine ⟨es, _, rfl, hp, sortMsgs_lines (f := webName) ?_, ?_⟩
    · intro x hx
      exact hfile x ((byClass_perm _).mem_iff.1 hx)
    · have := entries_some he
      clear he ha hp
      generalize collectMessages (webCheck env none n (utf8 text)).log = ms at this
      induction this with
      | nil => exact .nil
      | cons h _ ih => exact .cons ⟨h.1, h.2.1, h.2.2.1⟩ ih
  | none =>
    have key : ∀ ms : List Msg, (∀ m ∈ ms, m.at_.filename = webName) → entries ms = none → ∃ m ∈ ms, ¬ Prints m := by
      intro ms
      induction ms with
      | nil => intro _ h; simp [entries] at h
      | cons m ms ih =>
        intro hf h
        rw [entries] at h
        split at h
        · rename_i e hr
          exact ⟨m, by simp, fun ⟨t, ht⟩ => by rw [hr] at ht; simp at ht⟩
        · rw [if_pos (hf m (by simp))] at h
          simp only [Option.map_eq_none_iff] at h
          obtain ⟨m', h1, h2⟩ := ih (fun m hm => hf m (by simp [hm])) h
          exact ⟨m', by simp [h1], h2⟩
    obtain ⟨m, hm, hn⟩ := key _ (fun m hm => hfile m (hp.mem_iff.1 hm)) he
    exact absurd (hprints m (hp.mem_iff.1 hm)) hn

/-- A report with messages on several lines, found in another order. -/
example : shown (alone webEnv 99 (.check (c! "[a]\nexten => s,2,NOOP(\nfoo\n\n"))) =
    some [(0, c! "H_DP_GENERAL_MISPLACED"), (0, c! "H_DP_GLOBALS_MISPLACED"), (2, c! "W_APP_BAD_CASE"),
      (2, c! "W_APP_BALANCE"), (2, c! "W_DP_PRIO_BADORDER"), (3, c! "E_CONF_BAD_LINE"), (4, c! "W_WSV_EOF")] := by
  decide +kernel

/-! ## C90 -/

/-- What a line makes the reader include follows from what it says. -/
theorem opens_includes {w : Where} {name : Str} (h : IncludesFile w.line name) :
    opens w = some (pathJoin (dirname w.filename) name) := by
  obtain ⟨indent, sep, q, must, ⟨t, s, d, bl, h1, h2, h3, h4⟩, hi, hs0, hs, hq, he⟩ := h
  have hdec : (encodingStage w).2 = .ok t := by
    unfold encodingStage
    rcases h1 with h1 | ⟨h1, h1'⟩
    · simp only [h1]
    · simp only [h1, h1']
  have hcom : ∃ c, (commentStage w s).2 = (indent ++ (if must then c! "#include" else c! "#tryinclude") ++ sep ++ q, c) := by
    rcases h4 with ⟨ha, hd⟩ | ⟨a, b, y, ha, hd⟩
    · exact ⟨_, by rw [C09_no_comment w s d bl h3 ha, ← hd]⟩
    · exact ⟨_, C09_comment w s d bl a b _ y h3 ha hd⟩
  obtain ⟨c, hc⟩ := hcom
  obtain ⟨ms, hp, _⟩ := C14_opens w c indent sep name q must hi hs0 hs hq he
  have hf : (ffStage [] w t).2.2 = s := withoutEol_eq h2
  unfold opens
  simp only [hdec, hf, hc, hp]

/-- A check that ends has opened no other file. -/
theorem webRun_own {env : DEnv} {data : Bytes} : ∀ (n : Nat) (st : PState DState) (s : DState),
    (webRun data env n st).val = .ok (some s) →
    ∀ w ∈ pipeLines (webFs data) (dialplanStep env) n st, ∀ p, opens w = some p → p = webName := by
  intro n
  induction n with
  | zero => intro st s h; simp [webRun] at h
  | succ n ih =>
    intro st s h w hw p hp
    rw [webRun] at h
    rw [pipeLines] at hw
    cases hn : nextLine st.frames with
    | none => simp [hn] at hw
    | some x =>
      obtain ⟨w', rest⟩ := x
      simp only [hn] at hw
      cases hs : pipeStep (webFs data) (dialplanStep env) st with
      | none =>
        exfalso
        unfold pipeStep at hs
        simp [hn] at hs
      | some r =>
        simp only [hs] at h hw
        obtain ⟨st', h1, h2, _⟩ := Res.bind_ok h
        simp only [h1] at hw
        split at h2
        · simp at h2
        · rename_i ho
          rcases List.mem_cons.1 hw with rfl | hw
          · simp only [opensOther, hn, hp] at ho
            simpa using ho
          · exact ih _ _ h2 w hw p hp

/-- The lines of the file itself are in its expansion. -/
theorem expand_lines {fs : FS} {inc : Where → Option Str} {f : Str} {n : Nat} {ls : List Bytes} {t : Items}
    (h : Expand fs inc f n ls t) : ∀ k l, ls[k]? = some l → (⟨f, ((n + k : Nat) : Int) + 1, l⟩ : Where) ∈ t.flatten := by
  induction h with
  | nil => intro k l hk; simp at hk
  | @line f n l ls t _ _ ih =>
    intro k l' hk
    cases k with
    | zero => simp only [List.getElem?_cons_zero, Option.some.injEq] at hk; subst hk; simp [Items.flatten]
    | succ k =>
      have := ih k l' (by simpa using hk)
      rw [show n + 1 + k = n + (k + 1) by omega] at this
      exact List.mem_cons_of_mem _ this
  | @incl f n l ls p c sub t _ _ _ _ ih =>
    intro k l' hk
    cases k with
    | zero => simp only [List.getElem?_cons_zero, Option.some.injEq] at hk; subst hk; simp [Items.flatten]
    | succ k =>
      have := ih k l' (by simpa using hk)
      rw [show n + 1 + k = n + (k + 1) by omega] at this
      exact List.mem_cons_of_mem _ (List.mem_append_right _ this)

theorem webCheck_opens {env : DEnv} {sp : Option Str} {n : Nat} {data : Bytes} {s : DState}
    (h : (webCheck env sp n data).val = .ok (some s)) (k : Nat) (line : Bytes)
    (hk : (physLines data)[k]? = some line) : opens ⟨webName, (k : Int) + 1, line⟩ = none := by
  unfold webCheck at h
  obtain ⟨r, h1, h2, _⟩ := Res.bind_ok h
  cases r with
  | none => simp at h2
  | some st =>
    have hown := webRun_own _ _ _ h1
    have hpipe := h1
    rw [webRun_pipe _ _ _ h1] at hpipe
    obtain ⟨t, ht, hl⟩ := C02_pipeline _ _ _ _ _ _ _ hpipe
    have hmem := expand_lines ht k line hk
    rw [Nat.zero_add, ← hl] at hmem
    cases ho : opens ⟨webName, (k : Int) + 1, line⟩ with
    | none => rfl
    | some p =>
      exfalso
      have hp := hown _ hmem p ho
      subst hp
      have hfs : webFs data webName = some data := by simp [webFs]
      have hcyc : PullsPlus (webFs data) opens webName webName := .one ⟨data, hfs, k, line, hk, data, by simp [pulls, ho, hfs]⟩
      have hr := (pipeRun_reader _ _ _ _ _ hpipe).2
      have := (C03_self_include (webFs data) opens webName data hfs webName (.inl rfl) hcyc n).2
      rw [show (⟨[openFrame webName data], [], [], DState.init sp⟩ : PState DState).frames = [openFrame webName data] from rfl,
        this] at hr
      simp at hr

/-- C90: a text with a line that includes a file, whichever (even itself), is never given a report,
whatever has been checked before. -/
theorem C90_includes_refused (env : DEnv) (n : Nat) (lost : Option Str) (st : WebState) (text : Str) (k : Nat) (line : Bytes)
    (name : Str) (hk : (physLines (utf8 text))[k]? = some line) (hi : IncludesFile line name) (es : List Entry) :
    (webStep env n lost st (.check text)).2 ≠ .report es := by
  intro h
  unfold webStep at h
  dsimp only at h
  cases hv : (webCheck env st.sp n (utf8 text)).val with
  | error e => simp [hv] at h
  | ok o =>
    cases o with
    | none => simp [hv] at h
    | some s =>
      have h1 := webCheck_opens hv k line hk
      have h2 := opens_includes (w := ⟨webName, (k : Int) + 1, line⟩) hi
      rw [h1] at h2
      simp at h2

/-- A line that opens a file says so. -/
theorem says_of_opens {w : Where} {p : Str} (h : opens w = some p) :
    ∃ data rest, Says w.line data ∧ (lstripP isSpace data = c! "#include" ++ rest ∨ lstripP isSpace data = c! "#tryinclude" ++ rest) := by
  unfold opens at h
  cases hd : (encodingStage w).2 with
  | error e => simp [hd] at h
  | ok t =>
    simp only [hd] at h
    cases hp : (parserStage w (commentStage w (ffStage [] w t).2.2).2.1 (commentStage w (ffStage [] w t).2.2).2.2).2 with
    | elem e => simp [hp] at h
    | pp pp =>
      cases pp with
      | nothing => simp [hp] at h
      | open_ path must name =>
        obtain ⟨rest, hr⟩ := C14_only_includes _ _ _ _ _ _ hp
        refine ⟨(commentStage w (ffStage [] w t).2.2).2.1, rest, ?_, ?_⟩
        · obtain ⟨s, hs⟩ : ∃ s, EolOff t s := ⟨_, eolOff_withoutEol t⟩
          have hf : (ffStage [] w t).2.2 = s := withoutEol_eq hs
          rw [hf]
          obtain ⟨bl, ht⟩ := trimmed_rstrip s
          refine ⟨t, s, _, bl, decodes_of_ok hd, hs, ht, ?_⟩
          rcases comment_cases (rstripP isBlank s) with hc | ⟨a, b, hc⟩
          · exact .inl ⟨hc, by rw [C09_no_comment w s _ bl ht hc]⟩
          · obtain ⟨y, hy⟩ := trimmed_rstrip (unescape a)
            exact .inr ⟨a, b, y, hc, by rw [C09_comment w s _ bl a b _ y ht hc hy]; exact hy⟩
        · cases must with
          | true => exact .inl hr
          | false => exact .inr hr

/-- C90: a text none of whose lines is an `#include` or `#tryinclude` is answered once its lines have
been read. -/
theorem C90_answered (env : DEnv) (n : Nat) (lost : Option Str) (st : WebState) (text : Str)
    (hi : ∀ line ∈ physLines (utf8 text), ∀ data rest, Says line data →
      lstripP isSpace data ≠ c! "#include" ++ rest ∧ lstripP isSpace data ≠ c! "#tryinclude" ++ rest)
    (hn : (physLines (utf8 text)).length < n) :
    (webStep env n lost st (.check text)).2 ≠ .never := by
  intro h
  have hv : (webCheck env st.sp n (utf8 text)).val = .ok none := by
    unfold webStep at h
    dsimp only at h
    cases hv : (webCheck env st.sp n (utf8 text)).val with
    | error e => simp [hv] at h
    | ok o =>
      cases o with
      | none => rfl
      | some s => simp only [hv] at h; split at h <;> simp at h
  have hrun : (webRun (utf8 text) env n ⟨[openFrame webName (utf8 text)], [], [], .init st.sp⟩).val = .ok none := by
    unfold webCheck at hv
    obtain ⟨r, h1, h2, _⟩ := Res.bind_ok hv
    cases r with
    | none => exact h1
    | some s =>
      obtain ⟨_, _, h2, _⟩ := Res.bind_ok h2
      obtain ⟨_, _, h2, _⟩ := Res.bind_ok h2
      simp at h2
  rw [webRun_pipe _ _ _ hrun] at hrun
  have hr := (pipeRun_reader _ _ _ _ _ hrun).2
  have flat : ∀ (ls : List Bytes) (k : Nat), (∀ l ∈ ls, l ∈ physLines (utf8 text)) →
      ∃ t : Items, Expand (webFs (utf8 text)) opens webName k ls t ∧ t.flatten.length = ls.length := by
    intro ls
    induction ls with
    | nil => intro k _; exact ⟨.nil, .nil, rfl⟩
    | cons l ls ih =>
      intro k hl
      obtain ⟨t, h1, h2⟩ := ih (k + 1) (fun l h => hl l (by simp [h]))
      refine ⟨.line _ t, .line ?_ h1, by simp [Items.flatten, h2]⟩
      cases ho : opens ⟨webName, (k : Int) + 1, l⟩ with
      | none => simp [pulls, ho]
      | some p =>
        obtain ⟨data, rest, g1, g2⟩ := says_of_opens ho
        obtain ⟨f1, f2⟩ := hi l (hl l (by simp)) data rest g1
        rcases g2 with g2 | g2
        · exact absurd g2 f1
        · exact absurd g2 f2
  obtain ⟨t, h1, h2⟩ := flat _ 0 (fun l h => h)
  have he := C02_expansion (webFs (utf8 text)) opens webName (utf8 text) t h1
  have hm := readFuel_mono (webFs (utf8 text)) opens (t.flatten.length + 1) n [openFrame webName (utf8 text)]
    (by rw [he]) (by omega)
  rw [show (⟨[openFrame webName (utf8 text)], [], [], DState.init st.sp⟩ : PState DState).frames =
    [openFrame webName (utf8 text)] from rfl, hm, he] at hr
  simp at hr

/-- Such a text; without the line, it gets its report. -/
example : IncludesFile (asciiBytes (c! "#include \"sip.conf\" ; more\n")) (c! "sip.conf") ∧
    (physLines (utf8 (c! "[general]\n#include \"sip.conf\" ; more\n")))[1]? =
      some (asciiBytes (c! "#include \"sip.conf\" ; more\n")) ∧
    alone webEnv 99 (.check (c! "[general]\n#include \"sip.conf\" ; more\n")) = .failed ∧
    (shown (alone webEnv 99 (.check (c! "[general]\n")))).isSome = true := by
  refine ⟨⟨[], c! " ", c! "\"sip.conf\"", true, ⟨c! "#include \"sip.conf\" ; more\n", c! "#include \"sip.conf\" ; more",
    c! "#include \"sip.conf\" ; more", [], .inl (by decide +kernel), .inr (.inl ⟨by decide, by decide⟩),
    ⟨by decide, by simp, ?_⟩, .inr ⟨c! "#include \"sip.conf\" ", c! " more", c! " ", ⟨rfl, ?_, by decide⟩,
      ⟨by decide, by simp [Blank], ?_⟩⟩⟩, by simp [Spaces], by decide, by decide, .double, by decide⟩,
    by decide +kernel, by decide +kernel, by decide +kernel⟩
  · rintro ⟨c, h, hb⟩; simp at h; subst h; rcases hb with h | h <;> simp at h
  · intro a b h
    have : ';' ∈ c! "#include \"sip.conf\" " := by rw [h]; simp
    simp at this
  · rintro ⟨c, h, hb⟩; simp at h; subst h; rcases hb with h | h <;> simp at h

/-- A text that includes itself is read for ever. -/
example : alone webEnv 99 (.check (c! "\n#include extensions.conf\n")) = .never := by decide +kernel

end ALint.Props
