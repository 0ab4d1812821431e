import Verif.Proofs.Page
import Verif.Props.WebFront
import Verif.Model.Command
import Verif.Proofs.Clean

/-!
# C105: the web page shows the messages
-/

namespace ALint.Props
open ALint ALint.Spec

/-! ## Reading HTML -/

/-- What is read is unique, so that it can be spoken of what is on a page. -/
theorem C105_unique (s : Str) (ts us : List HtmlTok) (h : HtmlReads s ts) (h' : HtmlReads s us) : ts = us :=
  html_unique h h'

example : HtmlReads (c! "<b>1 &lt; 2</b>") [.tag (c! "b"), .ch '1', .ch ' ', .ch '<', .ch ' ', .ch '2', .tag (c! "/b")] :=
  .tag (t := c! "b") (by decide) (by decide) <| .plain (by decide) (by decide) <| .plain (by decide) (by decide) <|
    .lt <| .plain (by decide) (by decide) <| .plain (by decide) (by decide) <|
    .tag (t := c! "/b") (by decide) (by decide) .nil

/-- C105: any text is shown as it is. -/
theorem C105_escaped (text : Str) : HtmlReads (htmlEsc text) (textToks text) := reads_esc text

example : htmlEsc (c! "&lt;<a&b>") = c! "&amp;lt;&lt;a&amp;b&gt;" := by decide

/-! ## No markup from texts -/

/-- C105: whatever the text and the results, the page has the tags of the script only: nothing in a text or a message
becomes markup. -/
theorem C105_no_markup (version val : Str) (rs : List PageIssue) (hv : PlainHtml version)
    (hp : ∀ r ∈ rs, PlainHtml r.cls) : OnlyPageTags (onSuccess version val rs) := by
  unfold onSuccess
  split
  · exact (only_joy hv).append (only_listing hp)
  · exact (only_sad hv hp).append (only_listing fun r hr => hp r ((List.dropWhile_sublist _).subset hr))

/-- Nor does anything in the response to a request that failed. -/
theorem C105_no_markup_failed (status : Nat) (statusText responseText : Str) :
    OnlyPageTags (onFail status statusText responseText) := by
  unfold onFail
  have h1 : OnlyPageTags (c! "<h2>Error</h2><div class=\"alert alert-danger\" role=\"alert\"><strong>") :=
    (only_tag (c! "h2") (by decide) (by decide) (by decide)).append
      ((only_text (reads_plain (s := c! "Error") (by simp [PlainHtml]))).append
        ((only_tag (c! "/h2") (by decide) (by decide) (by decide)).append
          ((only_tag (c! "div class=\"alert alert-danger\" role=\"alert\"") (by decide) (by decide) (by decide)).append
            (only_tag (c! "strong") (by decide) (by decide) (by decide)))))
  have h2 : OnlyPageTags (c! " ") := only_text (reads_plain (s := c! " ") (by simp [PlainHtml]))
  have h3 : OnlyPageTags (c! "</strong><br/><br/>") :=
    (only_tag (c! "/strong") (by decide) (by decide) (by decide)).append
      ((only_tag (c! "br/") (by decide) (by decide) (by decide)).append
        (only_tag (c! "br/") (by decide) (by decide) (by decide)))
  have h4 : OnlyPageTags (c! "</div>") := only_tag (c! "/div") (by decide) (by decide) (by decide)
  exact (((((h1.append (only_text (reads_plain (natStr_plain status)))).append h2).append (only_esc _)).append h3).append
    (only_esc _)).append h4

/-- What would not be: the classes are not escaped. -/
example : ¬ PlainHtml (c! "<script>") := fun h => (h '<' (by simp)).1 rfl

example : PlainHtml (c! "W_APP_BALANCE") ∧ PlainHtml (c! "0.4.0") := by
  constructor <;> simp [PlainHtml]

/-! ## Where messages are shown -/

/-- C105: with results in the order of lines, the page is the number of messages, those for line 0, and then the lines
of the text each with its messages.  Every message is shown once. -/
theorem C105_page (version val : Str) (rs : List PageIssue) (hv : PlainHtml version)
    (hp : ∀ r ∈ rs, PlainHtml r.cls) (h : InOrder rs (pageInput val).length) :
    HtmlReads (onSuccess version val rs) (pageToks version rs (pageInput val)) ∧
      shownIssues rs (pageInput val) = rs :=
  ⟨reads_page hv h.sorted (fun r hr => (h.range r hr).1) hp, shown_all h⟩

/-- Two messages for the third line, one for none, a line without. -/
def someIssues : List PageIssue :=
  [⟨0, c! "H_DP_GENERAL_MISPLACED", c! "x"⟩, ⟨1, c! "E_CONF_BAD_LINE", c! "y"⟩, ⟨3, c! "W_APP_BALANCE", c! "a < b"⟩,
   ⟨3, c! "W_DP_PRIO_BADORDER", c! "z"⟩]

example : InOrder someIssues (pageInput (c! "foo\r\n\r\n & bar \n\n ")).length := by
  refine ⟨?_, ?_⟩
  · simp [someIssues]
  · have : (pageInput (c! "foo\r\n\r\n & bar \n\n ")).length = 3 := by decide +kernel
    rw [this]
    simp [someIssues]

example : listingToks someIssues (pageInput (c! "foo\r\n\r\n & bar \n\n ")) =
    [.tag (c! "div class=\"code\""), .tag (c! "ol class=\"source\"")] ++
    ([.tag (c! "li class=\"bad\"")] ++ textToks (c! "foo") ++
      [.tag (c! "div class=\"alert alert-danger\" role=\"alert\"")] ++ textToks (c! "E_CONF_BAD_LINE: y") ++
      [.tag (c! "/div"), .tag (c! "/li")]) ++
    [.tag (c! "li"), .tag (c! "/li")] ++
    ([.tag (c! "li class=\"bad\"")] ++ textToks (c! " & bar") ++
      [.tag (c! "div class=\"alert alert-warning\" role=\"alert\"")] ++ textToks (c! "W_APP_BALANCE: a < b") ++
      [.tag (c! "/div")] ++
      [.tag (c! "div class=\"alert alert-warning\" role=\"alert\"")] ++ textToks (c! "W_DP_PRIO_BADORDER: z") ++
      [.tag (c! "/div"), .tag (c! "/li")]) ++
    [.tag (c! "/ol"), .tag (c! "/div")] := by
  decide +kernel

/-! ## The lines -/

/-- C105: what is sent is the text without CR and without white space at its end, and a LF; the lines shown are the
lines of that. -/
theorem C105_posted (val : Str) :
    ∃ u w, val.filter (· ≠ '\r') = u ++ w ∧ (∀ c ∈ w, jsSpace c = true) ∧
      (∀ c, u.getLast? = some c → jsSpace c = false) ∧
      getTextarea val = u ++ ['\n'] ∧ joinWith '\n' (pageInput val) = u ∧ ∀ l ∈ pageInput val, '\n' ∉ l := by
  obtain ⟨w, h1, h2, h3⟩ := rstripP_spec jsSpace (val.filter (· ≠ '\r'))
  refine ⟨_, w, h1, h2, h3, rfl, ?_, fun l hl => splitAll_mem _ _ l hl⟩
  unfold pageInput getTextarea
  rw [joinWith_splitAll]
  exact rstripP_append _ _ _ (by intro c hc; simp only [List.mem_singleton] at hc; subst hc; decide) h3

/-- The lines of a text as they are counted by the server. -/
theorem physLines_joined (ls : List Str) (hne : ls ≠ []) (h : ∀ l ∈ ls, '\n' ∉ l) :
    physLines (utf8 (joinWith '\n' ls ++ ['\n'])) = ls.map fun l => utf8 l ++ [10] := by
  rw [← physLines_file ls h]
  congr 1
  clear h
  induction ls with
  | nil => exact absurd rfl hne
  | cons l ls ih =>
    cases ls with
    | nil => rw [joinWith, utf8_append]; simp [fileBytes]; rfl
    | cons l' ls =>
      rw [joinWith, List.append_assoc, utf8_append, List.cons_append, utf8_cons', ih (by simp)]
      have : enc '\n' = [10] := by decide
      rw [this]
      simp [fileBytes]

/-- C105: line `k` on the page is line `k` for the server. -/
theorem C105_lines (val : Str) :
    physLines (utf8 (getTextarea val)) = (pageInput val).map fun l => utf8 l ++ [10] := by
  obtain ⟨u, w, _, _, _, h1, h2, h3⟩ := C105_posted val
  rw [h1, ← h2]
  exact physLines_joined _ (splitAll_ne_nil _ _) h3

example : pageInput (c! "[a]\r\n\r\nfoo \t\n\n") = [c! "[a]", [], c! "foo"] := by decide +kernel

/-! ## With the server -/

theorem kind_plain (k : MK) : PlainHtml k.name := by
  have key : ∀ s : Str, s.all (fun c => c ≠ '<' && c ≠ '&') = true → PlainHtml s := by
    intro s h c hc
    have := List.all_eq_true.1 h c hc
    simpa using this
  apply key
  cases k <;> decide

/-- An entry of a report, as the page gets it. -/
def pageIssue (rep : Arg → Str) (e : Entry) : PageIssue := ⟨e.line, e.cls, e.desc.flatMap (Rendered.shown rep)⟩

/-- C105: what the page shows after a report of the server, for a text that has not been changed meanwhile: the messages
of the check of the text, each once, with its text, at the line it is about, in the order of lines. -/
theorem C105_server_partial (env : DEnv) (n : Nat) (before : List (Request × Option Str)) (lost : Option Str)
    (hb : ∀ p ∈ before, Harmless env n p.1) (rep : Arg → Str) (version val : Str) (hv : PlainHtml version)
    (es : List Entry)
    (h : (webStep env n lost (webAfter env n fresh before) (.check (getTextarea val))).2 = .report es) :
    let text := utf8 (getTextarea val)
    let rs := es.map (pageIssue rep)
    HtmlReads (onSuccess version val rs) (pageToks version rs (pageInput val)) ∧
    shownIssues rs (pageInput val) = rs ∧
    ∃ ms, ms.Perm (checkDialplan (webFs text) env none n webName text).log ∧
      Zips (fun (m : Msg) (r : PageIssue) => r.line = m.at_.lineno ∧ r.cls = m.kind.name ∧
        (∃ t, m.render = .ok t ∧ r.desc = t.flatMap (Rendered.shown rep)) ∧
        (r.line = 0 ∧ (m.kind = .H_DP_GENERAL_MISPLACED ∨ m.kind = .H_DP_GLOBALS_MISPLACED) ∨
          ∃ (k : Nat) (line : Str), r.line = (k : Int) + 1 ∧ (pageInput val)[k]? = some line ∧ m.at_.line = utf8 line ++ [10])) ms rs := by
  intro text rs
  rw [C64_independent_partial env n before _ lost hb] at h
  have hs : ∃ s, (webCheck env none n text).val = .ok (some s) := by
    unfold alone webStep at h
    dsimp only [fresh] at h
    revert h
    show (match (webCheck env none n text).val with
      | .error _ => _ | .ok none => _ | .ok (some s) => _ : WebState × Response).2 = _ → _
    cases hc : (webCheck env none n text).val with
    | error e => intro h; simp at h
    | ok o =>
      cases o with
      | none => intro h; simp at h
      | some s => exact fun _ => ⟨s, rfl⟩
  obtain ⟨s, hs⟩ := hs
  obtain ⟨es', ms, h1, h2, h3, h4⟩ := C64_report env n _ s hs
  rw [h] at h1
  cases h1
  have hplace : ∀ m ∈ ms, (m.at_.lineno = 0 ∧ (m.kind = .H_DP_GENERAL_MISPLACED ∨ m.kind = .H_DP_GLOBALS_MISPLACED)) ∨
      ∃ k line, m.at_.lineno = ((k : Nat) : Int) + 1 ∧ (pageInput val)[k]? = some line ∧ m.at_.line = utf8 line ++ [10] := by
    intro m hm
    rcases C66_located _ _ _ _ _ _ m (h2.mem_iff.1 hm) with ⟨⟨bytes, hf, k, hk, hl⟩, _⟩ | ⟨hk, _, h0, _⟩
    · right
      have hl' : (physLines text)[k]? = some m.at_.line := by
        rcases hf with ⟨_, rfl⟩ | hf
        · exact hl
        · unfold webFs at hf
          split at hf
          · cases hf; exact hl
          · cases hf; simp [physLines] at hl
      rw [C105_lines, List.getElem?_map] at hl'
      cases hq : (pageInput val)[k]? with
      | none => rw [hq] at hl'; simp at hl'
      | some line =>
        rw [hq] at hl'
        simp only [Option.map_some, Option.some.injEq] at hl'
        exact ⟨k, line, hk, hq, hl'.symm⟩
    · exact .inl ⟨h0, hk⟩
  have hz : Zips (fun (m : Msg) (r : PageIssue) => m ∈ ms ∧ r.line = m.at_.lineno ∧ r.cls = m.kind.name ∧
        (∃ t, m.render = .ok t ∧ r.desc = t.flatMap (Rendered.shown rep))) ms rs := by
    have key : ∀ (l : List Msg) (es : List Entry), (∀ m ∈ l, m ∈ ms) →
        Zips (fun m (e : Entry) => e.line = m.at_.lineno ∧ e.cls = m.kind.name ∧ m.render = .ok e.desc) l es →
        Zips (fun (m : Msg) (r : PageIssue) => m ∈ ms ∧ r.line = m.at_.lineno ∧ r.cls = m.kind.name ∧
          (∃ t, m.render = .ok t ∧ r.desc = t.flatMap (Rendered.shown rep))) l (es.map (pageIssue rep)) := by
      intro l es hl hz
      induction hz with
      | nil => exact .nil
      | cons hx _ ih =>
        exact .cons ⟨hl _ (by simp), hx.1, hx.2.1, _, hx.2.2, rfl⟩ (ih fun m hm => hl m (by simp [hm]))
    exact key ms es (fun _ h => h) h4
  have horder : List.Pairwise (fun a b : PageIssue => a.line ≤ b.line) rs := by
    have key : ∀ (l : List Msg) (rs : List PageIssue),
        Zips (fun (m : Msg) (r : PageIssue) => m ∈ ms ∧ r.line = m.at_.lineno ∧ r.cls = m.kind.name ∧
          (∃ t, m.render = .ok t ∧ r.desc = t.flatMap (Rendered.shown rep))) l rs →
        List.Pairwise (fun a b : Msg => a.at_.lineno ≤ b.at_.lineno) l →
        List.Pairwise (fun a b : PageIssue => a.line ≤ b.line) rs ∧ ∀ r ∈ rs, ∃ m ∈ l, r.line = m.at_.lineno := by
      intro l rs hz
      induction hz with
      | nil => intro _; exact ⟨.nil, by simp⟩
      | @cons m r l rs hx _ ih =>
        intro hp
        rw [List.pairwise_cons] at hp
        obtain ⟨i1, i2⟩ := ih hp.2
        refine ⟨List.pairwise_cons.2 ⟨fun r' hr' => ?_, i1⟩, fun r' hr' => ?_⟩
        · obtain ⟨m', hm', he⟩ := i2 r' hr'
          rw [he, hx.2.1]
          exact hp.1 m' hm'
        · rcases List.mem_cons.1 hr' with rfl | hr'
          · exact ⟨m, by simp, hx.2.1⟩
          · obtain ⟨m', hm', he⟩ := i2 r' hr'
            exact ⟨m', by simp [hm'], he⟩
    exact (key _ _ hz h3).1
  have hmem : ∀ r ∈ rs, ∃ m ∈ ms, r.line = m.at_.lineno ∧ r.cls = m.kind.name := by
    have key : ∀ (l : List Msg) (rs : List PageIssue),
        Zips (fun (m : Msg) (r : PageIssue) => m ∈ ms ∧ r.line = m.at_.lineno ∧ r.cls = m.kind.name ∧
          (∃ t, m.render = .ok t ∧ r.desc = t.flatMap (Rendered.shown rep))) l rs →
        ∀ r ∈ rs, ∃ m ∈ ms, r.line = m.at_.lineno ∧ r.cls = m.kind.name := by
      intro l rs hz
      induction hz with
      | nil => simp
      | cons hx _ ih =>
        intro r hr
        rcases List.mem_cons.1 hr with rfl | hr
        · exact ⟨_, hx.1, hx.2.1, hx.2.2.1⟩
        · exact ih r hr
    exact key _ _ hz
  have hin : InOrder rs (pageInput val).length := by
    refine ⟨horder, fun r hr => ?_⟩
    obtain ⟨m, hm, he, _⟩ := hmem r hr
    rw [he]
    rcases hplace m hm with ⟨h0, _⟩ | ⟨k, line, hk, hl, _⟩
    · rw [h0]; omega
    · have := (List.getElem?_eq_some_iff.1 hl).1
      omega
  obtain ⟨p1, p2⟩ := C105_page version val rs hv (fun r hr => by
    obtain ⟨m, _, _, hc⟩ := hmem r hr
    rw [hc]
    exact kind_plain _) hin
  refine ⟨p1, p2, ms, h2, ?_⟩
  generalize rs = rs at hz
  clear p1 p2 hin hmem horder h4 h3 h2
  revert hz
  have key : ∀ (l : List Msg) (rs : List PageIssue),
      Zips (fun (m : Msg) (r : PageIssue) => m ∈ ms ∧ r.line = m.at_.lineno ∧ r.cls = m.kind.name ∧
        (∃ t, m.render = .ok t ∧ r.desc = t.flatMap (Rendered.shown rep))) l rs →
      Zips (fun (m : Msg) (r : PageIssue) => r.line = m.at_.lineno ∧ r.cls = m.kind.name ∧
        (∃ t, m.render = .ok t ∧ r.desc = t.flatMap (Rendered.shown rep)) ∧
        (r.line = 0 ∧ (m.kind = .H_DP_GENERAL_MISPLACED ∨ m.kind = .H_DP_GLOBALS_MISPLACED) ∨
          ∃ (k : Nat) (line : Str), r.line = (k : Int) + 1 ∧ (pageInput val)[k]? = some line ∧ m.at_.line = utf8 line ++ [10])) l rs := by
    intro l rs hz
    induction hz with
    | nil => exact .nil
    | cons hx _ ih =>
      refine .cons ⟨hx.2.1, hx.2.2.1, hx.2.2.2, ?_⟩ ih
      rw [hx.2.1]
      exact hplace _ hx.1
  exact key ms rs

/-- The whole way: the page posts the text, the server checks it. -/
theorem C105_sent (env : DEnv) (n : Nat) (lost : Option Str) (st : WebState) (val : Str) (length : Nat)
    (h : length ≤ 65536) :
    frontStep env n lost st (postOf (some length) (bodyOf (getTextarea val))) =
      ((webStep env n lost st (.check (getTextarea val))).1,
        .done (webStep env n lost st (.check (getTextarea val))).2) :=
  C104_asks _ _ _ _ _ _ (asks_post fun k hk => by cases hk; exact h)

/-- A report is there, with messages for several lines. -/
example : shown (webStep webEnv 99 none (webAfter webEnv 99 fresh [])
      (.check (getTextarea (c! "[a]\r\nexten => s,2,NOOP(\r\nfoo\r\n\r\n")))).2 =
    some [(0, c! "H_DP_GENERAL_MISPLACED"), (0, c! "H_DP_GLOBALS_MISPLACED"), (2, c! "W_APP_BAD_CASE"),
      (2, c! "W_APP_BALANCE"), (2, c! "W_DP_PRIO_BADORDER"), (3, c! "E_CONF_BAD_LINE")] := by
  decide +kernel

/-! ## The violation -/

/-- A text of one line. -/
def shortText : Str := c! "[general]"

/-- What the page shows for a report. -/
def pageAfter (val : Str) : Response → Option Str
  | .report es => some (onSuccess (c! "0.4.0") val (es.map (pageIssue fun _ => [])))
  | _ => none

/-- C105 is violated after a request that failed: a message for line 3 of the earlier text is counted for a text of
one line, but shown nowhere on the page. -/
theorem C105_violated_leak :
    let rs := webResponses webEnv 99 fresh [(.check (getTextarea twiceText), none), (.check (getTextarea shortText), none)]
    rs.map shown = [none, some [(3, c! "W_CONF_CTX_DUPE")]] ∧
    (rs.map (pageAfter shortText)).map (fun p => p.map fun html =>
      (contains (c! "1 issues") html, contains (c! "W_CONF_CTX_DUPE") html)) =
      [none, some (true, false)] := by
  decide +kernel

end ALint.Props
