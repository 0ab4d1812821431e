import Verif.Spec.Page
import Verif.Proofs.Str

/-!
# What is on the page
-/

namespace ALint
open Spec

theorem Spec.HtmlReads.append {a b : Str} {ts us : List HtmlTok} (h : HtmlReads a ts) (h' : HtmlReads b us) :
    HtmlReads (a ++ b) (ts ++ us) := by
  induction h with
  | nil => exact h'
  | tag h1 h2 _ ih =>
    rw [List.cons_append, List.append_assoc, List.cons_append]
    exact .tag h1 h2 ih
  | plain h1 h2 _ ih => exact .plain h1 h2 ih
  | amp _ ih => rw [List.append_assoc]; exact .amp ih
  | lt _ ih => rw [List.append_assoc]; exact .lt ih
  | gt _ ih => rw [List.append_assoc]; exact .gt ih

theorem reads_tag (t : Str) (h1 : '>' ∉ t) (h2 : '<' ∉ t) : HtmlReads ('<' :: (t ++ ['>'])) [.tag t] :=
  .tag h1 h2 .nil

theorem reads_plain {s : Str} (h : PlainHtml s) : HtmlReads s (textToks s) := by
  induction s with
  | nil => exact .nil
  | cons c s ih =>
    have := h c (by simp)
    exact .plain this.1 this.2 (ih fun c hc => h c (by simp [hc]))

theorem replaceAll_append (c : Char) (r a b : Str) : replaceAll c r (a ++ b) = replaceAll c r a ++ replaceAll c r b := by
  simp [replaceAll]

theorem htmlEsc_append (a b : Str) : htmlEsc (a ++ b) = htmlEsc a ++ htmlEsc b := by
  simp only [htmlEsc, replaceAll_append]

theorem htmlEsc_one (c : Char) : htmlEsc [c] =
    if c = '&' then c! "&amp;" else if c = '<' then c! "&lt;" else if c = '>' then c! "&gt;" else [c] := by
  by_cases h1 : c = '&'
  · subst h1; rfl
  by_cases h2 : c = '<'
  · subst h2; rfl
  by_cases h3 : c = '>'
  · subst h3; rfl
  simp [htmlEsc, replaceAll, h1, h2, h3]

theorem reads_esc (t : Str) : HtmlReads (htmlEsc t) (textToks t) := by
  induction t with
  | nil => exact .nil
  | cons c t ih =>
    rw [show c :: t = [c] ++ t from rfl, htmlEsc_append, htmlEsc_one]
    split
    · rename_i h; subst h; exact .amp ih
    split
    · rename_i h; subst h; exact .lt ih
    split
    · rename_i h; subst h; exact .gt ih
    · rename_i h1 h2 h3; exact .plain h2 h1 ih

/-- Reading is unique. -/
theorem html_unique {s : Str} {ts us : List HtmlTok} (h : HtmlReads s ts) (h' : HtmlReads s us) : ts = us := by
  have tags : ∀ (t u a b : Str), '>' ∉ t → '>' ∉ u → t ++ '>' :: a = u ++ '>' :: b → t = u ∧ a = b := by
    intro t
    induction t with
    | nil =>
      intro u a b _ hu he
      cases u with
      | nil => simpa using he
      | cons x u =>
        simp only [List.nil_append, List.cons_append, List.cons.injEq] at he
        exact absurd (by simp [← he.1]) hu
    | cons x t ih =>
      intro u a b ht hu he
      cases u with
      | nil =>
        simp only [List.nil_append, List.cons_append, List.cons.injEq] at he
        exact absurd (by simp [he.1]) ht
      | cons y u =>
        simp only [List.cons_append, List.cons.injEq] at he
        simp only [List.mem_cons, not_or] at ht hu
        obtain ⟨h1, h2⟩ := ih u a b ht.2 hu.2 he.2
        exact ⟨by rw [he.1, h1], h2⟩
  induction h generalizing us with
  | nil => cases h'; rfl
  | @tag t rest ts h1 h2 _ ih =>
    generalize hs : '<' :: (t ++ '>' :: rest) = s at h'
    cases h' with
    | nil => cases hs
    | @tag u rest' ts' h1' _ hr =>
      simp only [List.cons.injEq, true_and] at hs
      obtain ⟨rfl, rfl⟩ := tags _ _ _ _ h1 h1' hs
      rw [ih hr]
    | plain n1 n2 hr => simp only [List.cons.injEq] at hs; exact absurd hs.1.symm n1
    | amp hr => cases hs
    | lt hr => cases hs
    | gt hr => cases hs
  | @plain c rest ts h1 h2 _ ih =>
    generalize hs : c :: rest = s at h'
    cases h' with
    | nil => cases hs
    | tag h1' _ hr => simp only [List.cons.injEq] at hs; exact absurd hs.1 h1
    | plain n1 n2 hr =>
      simp only [List.cons.injEq] at hs
      obtain ⟨rfl, rfl⟩ := hs
      rw [ih hr]
    | amp hr => simp only [List.cons_append, List.cons.injEq] at hs; exact absurd hs.1 h2
    | lt hr => simp only [List.cons_append, List.cons.injEq] at hs; exact absurd hs.1 h2
    | gt hr => simp only [List.cons_append, List.cons.injEq] at hs; exact absurd hs.1 h2
  | @amp rest ts _ ih =>
    generalize hs : c! "&amp;" ++ rest = s at h'
    cases h' with
    | nil => cases hs
    | tag h1' _ hr => cases hs
    | plain n1 n2 hr => simp only [List.cons_append, List.cons.injEq] at hs; exact absurd hs.1.symm n2
    | amp hr => simp only [List.append_cancel_left_eq] at hs; subst hs; rw [ih hr]
    | lt hr => simp at hs
    | gt hr => simp at hs
  | @lt rest ts _ ih =>
    generalize hs : c! "&lt;" ++ rest = s at h'
    cases h' with
    | nil => cases hs
    | tag h1' _ hr => cases hs
    | plain n1 n2 hr => simp only [List.cons_append, List.cons.injEq] at hs; exact absurd hs.1.symm n2
    | amp hr => simp at hs
    | lt hr => simp only [List.append_cancel_left_eq] at hs; subst hs; rw [ih hr]
    | gt hr => simp at hs
  | @gt rest ts _ ih =>
    generalize hs : c! "&gt;" ++ rest = s at h'
    cases h' with
    | nil => cases hs
    | tag h1' _ hr => cases hs
    | plain n1 n2 hr => simp only [List.cons_append, List.cons.injEq] at hs; exact absurd hs.1.symm n2
    | amp hr => simp at hs
    | lt hr => simp at hs
    | gt hr => simp only [List.append_cancel_left_eq] at hs; subst hs; rw [ih hr]

/-! ## Messages -/

theorem textToks_append (a b : Str) : textToks (a ++ b) = textToks a ++ textToks b := by simp [textToks]

theorem reads_box (cls : Str) :
    HtmlReads (c! "<div class=\"alert " ++ alertClass cls ++ c! "\" role=\"alert\">") [.tag (boxTag cls)] := by
  have hb : boxTag cls = c! "div class=\"alert " ++ alertClass cls ++ c! "\" role=\"alert\"" := by
    cases cls with
    | nil => rfl
    | cons c cs =>
      by_cases h1 : c = 'H'
      · subst h1; rfl
      · by_cases h2 : c = 'W'
        · subst h2; rfl
        · have ha : alertClass (c :: cs) = c! "alert-danger" := by simp [alertClass, h1, h2]
          rw [ha]
          unfold boxTag
          split
          · rename_i h; cases h; exact absurd rfl h1
          · rename_i h; cases h; exact absurd rfl h2
          · rfl
  have hc : alertClass cls = c! "alert-info" ∨ alertClass cls = c! "alert-warning" ∨ alertClass cls = c! "alert-danger" := by
    unfold alertClass
    split
    · exact .inl rfl
    · split
      · exact .inr (.inl rfl)
      · exact .inr (.inr rfl)
  rw [hb]
  rcases hc with h | h | h <;> rw [h]
  · exact reads_tag (c! "div class=\"alert alert-info\" role=\"alert\"") (by decide) (by decide)
  · exact reads_tag (c! "div class=\"alert alert-warning\" role=\"alert\"") (by decide) (by decide)
  · exact reads_tag (c! "div class=\"alert alert-danger\" role=\"alert\"") (by decide) (by decide)

theorem reads_message (i : PageIssue) (h : PlainHtml i.cls) : HtmlReads (newMessage i) (messageToks i) := by
  have h1 := reads_box i.cls
  have h2 := reads_plain h
  have h3 : HtmlReads (c! ": ") (textToks (c! ": ")) := reads_plain (by simp [PlainHtml])
  have h4 := reads_esc i.desc
  have h5 : HtmlReads (c! "</div>") [.tag (c! "/div")] := reads_tag (c! "/div") (by decide) (by decide)
  have := h1.append (h2.append (h3.append (h4.append h5)))
  unfold newMessage messageToks
  simpa [textToks] using this

theorem reads_messages {rs : List PageIssue} (h : ∀ r ∈ rs, PlainHtml r.cls) :
    HtmlReads ((rs.map newMessage).flatten) (rs.flatMap messageToks) := by
  induction rs with
  | nil => exact .nil
  | cons r rs ih =>
    exact (reads_message r (h r (by simp))).append (ih fun r hr => h r (by simp [hr]))

/-! ## Lines -/

theorem sourceToks_congr {rs rs' : List PageIssue} : ∀ (lines : List Str) (n : Nat),
    (∀ k, n ≤ k → issuesAt rs k = issuesAt rs' k) → sourceToks rs n lines = sourceToks rs' n lines := by
  intro lines
  induction lines with
  | nil => intro n _; rfl
  | cons l lines ih =>
    intro n h
    rw [sourceToks, sourceToks, ih (n + 1) fun k hk => h k (by omega)]
    unfold lineToks
    rw [h n (Nat.le_refl n)]

/-- Of sorted results from line `n` on, those for line `n` come first. -/
theorem at_first {rs : List PageIssue} {n : Int} (hs : List.Pairwise (fun a b : PageIssue => a.line ≤ b.line) rs)
    (hn : ∀ r ∈ rs, n ≤ r.line) :
    rs.takeWhile (fun r => r.line = n) = rs.filter (fun r => r.line = n) ∧
    (∀ r ∈ rs.dropWhile (fun r => r.line = n), n < r.line) := by
  induction rs with
  | nil => simp
  | cons r rs ih =>
    rw [List.pairwise_cons] at hs
    by_cases h : r.line = n
    · have := ih hs.2 fun r hr => hn r (by simp [hr])
      simp only [List.takeWhile_cons, List.filter_cons, List.dropWhile_cons, h, decide_true, if_true]
      exact ⟨by rw [this.1], this.2⟩
    · have hlt : n < r.line := by have := hn r (by simp); omega
      simp only [List.takeWhile_cons, List.filter_cons, List.dropWhile_cons, h, decide_false, Bool.false_eq_true, if_false]
      refine ⟨?_, ?_⟩
      · symm
        rw [List.filter_eq_nil_iff]
        intro x hx
        have := hs.1 x hx
        simp only [decide_eq_true_eq]
        omega
      · intro x hx
        rcases List.mem_cons.1 hx with rfl | hx
        · exact hlt
        · have := hs.1 x hx
          omega

/-- Dropping those does not change the ones for other lines. -/
theorem at_rest {rs : List PageIssue} {n : Int} {k : Nat} (h : (k : Int) ≠ n) :
    issuesAt (rs.dropWhile fun r => r.line = n) k = issuesAt rs k := by
  unfold issuesAt
  induction rs with
  | nil => rfl
  | cons r rs ih =>
    by_cases hr : r.line = n
    · have : ¬ r.line = (k : Int) := by omega
      simp only [List.dropWhile_cons, List.filter_cons, hr, decide_true, if_true]
      rw [ih]
      have hk : ¬ n = (k : Int) := by omega
      simp [hk]
    · simp [hr]

theorem reads_source : ∀ (lines : List Str) (n : Nat) (rs : List PageIssue),
    List.Pairwise (fun a b : PageIssue => a.line ≤ b.line) rs → (∀ r ∈ rs, (n : Int) ≤ r.line) →
    (∀ r ∈ rs, PlainHtml r.cls) →
    HtmlReads (sourceItems n lines rs).flatten (sourceToks rs n lines) := by
  intro lines
  induction lines with
  | nil => intro n rs _ _ _; exact .nil
  | cons line lines ih =>
    intro n rs hs hn hp
    have hli : HtmlReads (c! "</li>") [.tag (c! "/li")] := reads_tag (c! "/li") (by decide) (by decide)
    obtain ⟨h1, h2⟩ := at_first hs hn
    rw [sourceItems, sourceToks]
    unfold lineToks
    split
    · rename_i hh
      have hne : issuesAt rs n ≠ [] := by
        cases rs with
        | nil => simp at hh
        | cons r rs =>
          simp only [List.head?_cons, Option.map_some, Option.some.injEq] at hh
          simp [issuesAt, hh]
      rw [if_neg hne]
      have hbad : HtmlReads (c! "<li class=\"bad\">") [.tag (c! "li class=\"bad\"")] :=
        reads_tag (c! "li class=\"bad\"") (by decide) (by decide)
      have hm : HtmlReads (((rs.takeWhile fun r => r.line = (n : Int)).map newMessage).flatten)
          ((issuesAt rs n).flatMap messageToks) := by
        have : issuesAt rs n = rs.takeWhile fun r => r.line = (n : Int) := h1.symm
        rw [this]
        exact reads_messages fun r hr => hp r ((List.takeWhile_sublist _).subset hr)
      have hr := ih (n + 1) (rs.dropWhile fun r => r.line = (n : Int)) (hs.sublist (List.dropWhile_sublist _))
        (fun r hr => by have := h2 r hr; omega) (fun r hr => hp r ((List.dropWhile_sublist _).subset hr))
      rw [sourceToks_congr lines (n + 1) (rs' := rs) fun k hk => at_rest (by omega)] at hr
      have := ((hbad.append (reads_esc line)).append (hm.append (hli.append hr)))
      simpa using this
    · rename_i hh
      have he : issuesAt rs n = [] := by
        rw [issuesAt, ← h1]
        cases rs with
        | nil => rfl
        | cons r rs =>
          simp only [List.head?_cons, Option.map_some, Option.some.injEq] at hh
          simp [hh]
      rw [he, if_pos rfl]
      have hgood : HtmlReads (c! "<li>") [.tag (c! "li")] := reads_tag (c! "li") (by decide) (by decide)
      have hr := ih (n + 1) rs hs (fun r hr => by
        have h3 := hn r hr
        have : r.line ≠ (n : Int) := fun e => by
          have : r ∈ issuesAt rs n := by simp [issuesAt, hr, e]
          rw [he] at this
          simp at this
        omega) hp
      have := ((hgood.append (reads_esc line)).append (hli.append hr))
      simpa using this

theorem reads_listing {val : Str} {rs : List PageIssue} (hs : List.Pairwise (fun a b : PageIssue => a.line ≤ b.line) rs)
    (hn : ∀ r ∈ rs, 1 ≤ r.line) (hp : ∀ r ∈ rs, PlainHtml r.cls) :
    HtmlReads (logInput val rs) (listingToks rs (pageInput val)) := by
  have h1 : HtmlReads (c! "<div class=\"code\">") [.tag (c! "div class=\"code\"")] :=
    reads_tag (c! "div class=\"code\"") (by decide) (by decide)
  have h2 : HtmlReads (c! "<ol class=\"source\">") [.tag (c! "ol class=\"source\"")] :=
    reads_tag (c! "ol class=\"source\"") (by decide) (by decide)
  have h3 : HtmlReads (c! "</ol>") [.tag (c! "/ol")] := reads_tag (c! "/ol") (by decide) (by decide)
  have h4 : HtmlReads (c! "</div>") [.tag (c! "/div")] := reads_tag (c! "/div") (by decide) (by decide)
  have := (h1.append (h2.append ((reads_source (pageInput val) 1 rs hs hn hp).append (h3.append h4))))
  unfold logInput listingToks
  simpa using this

theorem natStr_plain (n : Nat) : PlainHtml (natStr n) := by
  have key : ∀ f n, PlainHtml (decDigits f n) := by
    intro f
    induction f with
    | zero => intro n c hc; simp [decDigits] at hc
    | succ f ih =>
      intro n c hc
      have hd : ∀ k, k < 10 → Char.ofNat (48 + k) ≠ '<' ∧ Char.ofNat (48 + k) ≠ '&' := by
        intro k hk
        rcases k with _ | _ | _ | _ | _ | _ | _ | _ | _ | _ | k <;> first | decide | omega
      rw [decDigits] at hc
      split at hc
      · simp only [List.mem_singleton] at hc
        subst hc
        exact hd n (by assumption)
      · rcases List.mem_append.1 hc with hc | hc
        · exact ih _ c hc
        · simp only [List.mem_singleton] at hc
          subst hc
          exact hd _ (Nat.mod_lt _ (by decide))
  exact key _ _

theorem PlainHtml_append {a b : Str} (ha : PlainHtml a) (hb : PlainHtml b) : PlainHtml (a ++ b) := by
  intro c hc
  rcases List.mem_append.1 hc with hc | hc
  · exact ha c hc
  · exact hb c hc

theorem reads_h2 : HtmlReads (c! "<h2>Results</h2>") (.tag (c! "h2") :: (textToks (c! "Results") ++ [.tag (c! "/h2")])) :=
  (reads_tag (c! "h2") (by decide) (by decide)).append
    ((reads_plain (s := c! "Results") (by simp [PlainHtml])).append (reads_tag (c! "/h2") (by decide) (by decide)))

theorem reads_joy {version : Str} (hv : PlainHtml version) : HtmlReads (logJoy version) (joyToks version) := by
  have h1 : HtmlReads (c! "<div class=\"alert alert-success\" role=\"alert\">")
      [.tag (c! "div class=\"alert alert-success\" role=\"alert\"")] :=
    reads_tag (c! "div class=\"alert alert-success\" role=\"alert\"") (by decide) (by decide)
  have h2 : HtmlReads (c! "The dialplan looks good according to AsteriskLint ")
      (textToks (c! "The dialplan looks good according to AsteriskLint ")) := reads_plain (by simp [PlainHtml])
  have h3 := reads_plain hv
  have h4 : HtmlReads (c! "!") (textToks (c! "!")) := reads_plain (by simp [PlainHtml])
  have h5 : HtmlReads (c! "</strong>") [.tag (c! "/strong")] := reads_tag (c! "/strong") (by decide) (by decide)
  have h6 : HtmlReads (c! "</div>") [.tag (c! "/div")] := reads_tag (c! "/div") (by decide) (by decide)
  have := reads_h2.append (h1.append (h2.append (h3.append (h4.append (h5.append h6)))))
  unfold logJoy joyToks
  simpa [textToks] using this

theorem reads_sad {version : Str} (hv : PlainHtml version) {rs : List PageIssue}
    (hs : List.Pairwise (fun a b : PageIssue => a.line ≤ b.line) rs) (hn : ∀ r ∈ rs, 0 ≤ r.line)
    (hp : ∀ r ∈ rs, PlainHtml r.cls) : HtmlReads (logSadness version rs) (sadToks version rs) := by
  have h1 : HtmlReads (c! "<div class=\"alert alert-info\" role=\"alert\">")
      [.tag (c! "div class=\"alert alert-info\" role=\"alert\"")] :=
    reads_tag (c! "div class=\"alert alert-info\" role=\"alert\"") (by decide) (by decide)
  have h2 : HtmlReads (c! "<strong>") [.tag (c! "strong")] := reads_tag (c! "strong") (by decide) (by decide)
  have h3 := reads_plain (natStr_plain rs.length)
  have h4 : HtmlReads (c! " issues") (textToks (c! " issues")) := reads_plain (by simp [PlainHtml])
  have h5 : HtmlReads (c! "</strong>") [.tag (c! "/strong")] := reads_tag (c! "/strong") (by decide) (by decide)
  have h6 : HtmlReads (c! " found in dialplan according to AsteriskLint ")
      (textToks (c! " found in dialplan according to AsteriskLint ")) := reads_plain (by simp [PlainHtml])
  have h7 := reads_plain hv
  have h8 : HtmlReads (c! "!") (textToks (c! "!")) := reads_plain (by simp [PlainHtml])
  have h9 : HtmlReads (c! "</div>") [.tag (c! "/div")] := reads_tag (c! "/div") (by decide) (by decide)
  have h10 : HtmlReads (c! "<div class=\"code\">") [.tag (c! "div class=\"code\"")] :=
    reads_tag (c! "div class=\"code\"") (by decide) (by decide)
  have h11 : HtmlReads (((rs.takeWhile fun r => r.line = 0).map newMessage).flatten)
      ((issuesAt rs 0).flatMap messageToks) := by
    have : issuesAt rs 0 = rs.takeWhile fun r => r.line = 0 := (at_first hs hn).1.symm
    rw [this]
    exact reads_messages fun r hr => hp r ((List.takeWhile_sublist _).subset hr)
  have := reads_h2.append (h1.append (h2.append (h3.append (h4.append (h5.append (h6.append (h7.append (h8.append
    (h9.append (h10.append (h11.append h9)))))))))))
  unfold logSadness sadToks
  simpa [textToks] using this

theorem listing_rest {rs : List PageIssue} {lines : List Str} :
    listingToks (withoutZero rs) lines = listingToks rs lines := by
  unfold listingToks
  rw [sourceToks_congr lines 1 (rs := withoutZero rs) (rs' := rs) fun k hk => at_rest (by omega)]

theorem reads_page {version val : Str} {rs : List PageIssue} (hv : PlainHtml version)
    (hs : List.Pairwise (fun a b : PageIssue => a.line ≤ b.line) rs) (hn : ∀ r ∈ rs, 0 ≤ r.line)
    (hp : ∀ r ∈ rs, PlainHtml r.cls) : HtmlReads (onSuccess version val rs) (pageToks version rs (pageInput val)) := by
  unfold onSuccess pageToks
  cases rs with
  | nil => exact (reads_joy hv).append (reads_listing .nil (by simp) (by simp))
  | cons r rs =>
    rw [if_neg (by simp), if_neg (by simp), ← listing_rest (rs := r :: rs)]
    exact (reads_sad hv hs hn hp).append (reads_listing (hs.sublist (List.dropWhile_sublist _))
      (fun x hx => by have := (at_first hs hn).2 x hx; omega) (fun x hx => hp x ((List.dropWhile_sublist _).subset hx)))

/-! ## All messages -/

theorem shown_from {rs : List PageIssue} : ∀ (k n : Nat),
    List.Pairwise (fun a b : PageIssue => a.line ≤ b.line) rs →
    (∀ r ∈ rs, (n : Int) ≤ r.line ∧ r.line < n + k) → (List.range' n k).flatMap (issuesAt rs) = rs := by
  intro k
  induction k generalizing rs with
  | zero =>
    intro n _ h
    cases rs with
    | nil => rfl
    | cons r rs => have := h r (by simp); omega
  | succ k ih =>
    intro n hs h
    obtain ⟨h1, h2⟩ := at_first hs fun r hr => (h r hr).1
    have := ih (rs := rs.dropWhile fun r => r.line = (n : Int)) (n + 1) (hs.sublist (List.dropWhile_sublist _))
      (fun r hr => by
        have := h2 r hr
        have := h r ((List.dropWhile_sublist _).subset hr)
        omega)
    rw [List.range'_succ, List.flatMap_cons]
    have hc : (List.range' (n + 1) k).flatMap (issuesAt rs) =
        (List.range' (n + 1) k).flatMap (issuesAt (rs.dropWhile fun r => r.line = (n : Int))) := by
      rw [List.flatMap_def, List.flatMap_def]
      congr 1
      apply List.map_congr_left
      intro a ha
      rw [List.mem_range'_1] at ha
      exact (at_rest (by omega)).symm
    rw [hc, this]
    have : issuesAt rs n = rs.takeWhile fun r => r.line = (n : Int) := h1.symm
    rw [this, List.takeWhile_append_dropWhile]

theorem shown_all {rs : List PageIssue} {lines : List Str} (h : InOrder rs lines.length) :
    shownIssues rs lines = rs := by
  have := shown_from (rs := rs) (lines.length + 1) 0 h.sorted fun r hr => by have := h.range r hr; omega
  rw [List.range'_succ, List.flatMap_cons] at this
  exact this

/-! ## Markup -/

theorem Spec.OnlyPageTags.append {a b : Str} (ha : OnlyPageTags a) (hb : OnlyPageTags b) : OnlyPageTags (a ++ b) := by
  obtain ⟨ts, h1, h2⟩ := ha
  obtain ⟨us, h3, h4⟩ := hb
  refine ⟨_, h1.append h3, fun t ht => ?_⟩
  rcases List.mem_append.1 ht with ht | ht
  · exact h2 t ht
  · exact h4 t ht

theorem only_nil : OnlyPageTags [] := ⟨[], .nil, by simp⟩

theorem only_flatten {l : List Str} (h : ∀ s ∈ l, OnlyPageTags s) : OnlyPageTags l.flatten := by
  induction l with
  | nil => exact only_nil
  | cons s l ih => exact (h s (by simp)).append (ih fun s hs => h s (by simp [hs]))

theorem only_text {s : Str} {t : Str} (h : HtmlReads s (textToks t)) : OnlyPageTags s :=
  ⟨_, h, fun t ht => by simp [textToks] at ht⟩

theorem only_esc (t : Str) : OnlyPageTags (htmlEsc t) := only_text (reads_esc t)

theorem only_tag (t : Str) (h1 : '>' ∉ t) (h2 : '<' ∉ t) (h : t ∈ pageTags) : OnlyPageTags ('<' :: (t ++ ['>'])) :=
  ⟨_, reads_tag t h1 h2, by simpa using h⟩

theorem only_message {i : PageIssue} (h : PlainHtml i.cls) : OnlyPageTags (newMessage i) := by
  refine ⟨_, reads_message i h, fun t ht => ?_⟩
  unfold messageToks at ht
  simp only [textToks, List.mem_cons, HtmlTok.tag.injEq, List.mem_append, List.mem_map, reduceCtorEq, and_false,
    exists_const, false_or, List.not_mem_nil, or_false] at ht
  rcases ht with rfl | rfl
  · unfold boxTag
    split <;> decide
  · decide

theorem only_source : ∀ (lines : List Str) (n : Nat) (rs : List PageIssue), (∀ r ∈ rs, PlainHtml r.cls) →
    ∀ s ∈ sourceItems n lines rs, OnlyPageTags s := by
  intro lines
  induction lines with
  | nil => intro n rs _ s hs; simp [sourceItems] at hs
  | cons line lines ih =>
    intro n rs hp s hs
    have hli : OnlyPageTags (c! "</li>") := only_tag (c! "/li") (by decide) (by decide) (by decide)
    rw [sourceItems] at hs
    split at hs
    · rcases List.mem_cons.1 hs with rfl | hs
      · exact (only_tag (c! "li class=\"bad\"") (by decide) (by decide) (by decide)).append (only_esc line)
      rcases List.mem_append.1 hs with hs | hs
      · obtain ⟨r, hr, rfl⟩ := List.mem_map.1 hs
        exact only_message (hp r ((List.takeWhile_sublist _).subset hr))
      rcases List.mem_cons.1 hs with rfl | hs
      · exact hli
      · exact ih _ _ (fun r hr => hp r ((List.dropWhile_sublist _).subset hr)) s hs
    · rcases List.mem_cons.1 hs with rfl | hs
      · exact ((only_tag (c! "li") (by decide) (by decide) (by decide)).append (only_esc line)).append hli
      · exact ih _ _ hp s hs

theorem only_listing {val : Str} {rs : List PageIssue} (hp : ∀ r ∈ rs, PlainHtml r.cls) :
    OnlyPageTags (logInput val rs) := by
  unfold logInput
  refine ((only_tag (c! "div class=\"code\"") (by decide) (by decide) (by decide)).append (only_flatten ?_)).append
    (only_tag (c! "/div") (by decide) (by decide) (by decide))
  intro s hs
  rcases List.mem_cons.1 hs with rfl | hs
  · exact only_tag (c! "ol class=\"source\"") (by decide) (by decide) (by decide)
  rcases List.mem_append.1 hs with hs | hs
  · exact only_source _ _ _ hp s hs
  · simp only [List.mem_singleton] at hs
    subst hs
    exact only_tag (c! "/ol") (by decide) (by decide) (by decide)

theorem only_joy {version : Str} (hv : PlainHtml version) : OnlyPageTags (logJoy version) := by
  refine ⟨_, reads_joy hv, fun t ht => ?_⟩
  unfold joyToks at ht
  simp only [textToks, List.mem_cons, HtmlTok.tag.injEq, List.mem_append, List.mem_map, reduceCtorEq, and_false,
    exists_const, false_or, List.not_mem_nil, or_false] at ht
  rcases ht with rfl | (rfl | rfl) | rfl | rfl <;> decide

theorem only_sad {version : Str} (hv : PlainHtml version) {rs : List PageIssue} (hp : ∀ r ∈ rs, PlainHtml r.cls) :
    OnlyPageTags (logSadness version rs) := by
  unfold logSadness
  have h2 : OnlyPageTags (c! "<h2>Results</h2>") :=
    (only_tag (c! "h2") (by decide) (by decide) (by decide)).append
      ((only_text (reads_plain (s := c! "Results") (by simp [PlainHtml]))).append
        (only_tag (c! "/h2") (by decide) (by decide) (by decide)))
  have hc : OnlyPageTags (c! "<div class=\"code\">") :=
    only_tag (c! "div class=\"code\"") (by decide) (by decide) (by decide)
  have hd : OnlyPageTags (c! "</div>") := only_tag (c! "/div") (by decide) (by decide) (by decide)
  have ho : OnlyPageTags (c! "<div class=\"alert alert-info\" role=\"alert\"><strong>") :=
    (only_tag (c! "div class=\"alert alert-info\" role=\"alert\"") (by decide) (by decide) (by decide)).append
      (only_tag (c! "strong") (by decide) (by decide) (by decide))
  have hi : OnlyPageTags (c! " issues</strong> found in dialplan according to AsteriskLint ") :=
    (only_text (reads_plain (s := c! " issues") (by simp [PlainHtml]))).append
      ((only_tag (c! "/strong") (by decide) (by decide) (by decide)).append
        (only_text (reads_plain (s := c! " found in dialplan according to AsteriskLint ") (by simp [PlainHtml]))))
  have he : OnlyPageTags (c! "!</div>") := (only_text (reads_plain (s := c! "!") (by simp [PlainHtml]))).append hd
  refine (((h2.append ?_).append hc).append (only_flatten ?_)).append hd
  · exact (((ho.append (only_text (reads_plain (natStr_plain _)))).append hi).append (only_text (reads_plain hv))).append he
  · intro s hs
    obtain ⟨r, hr, rfl⟩ := List.mem_map.1 hs
    exact only_message (hp r ((List.takeWhile_sublist _).subset hr))

end ALint
