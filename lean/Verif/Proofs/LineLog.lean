import Verif.Spec.LineLog
import Verif.Props.Layout
import Verif.Props.File
import Verif.Props.Reader
import Verif.Proofs.DialplanLog

/-!
# What is said about the lines of the files (proofs)
-/

namespace ALint
open ALint.Spec ALint.Props

theorem tells_unique {p : Prop} {m : Msg} {a b : List Msg} (h : Tells p m a) (h' : Tells p m b) : a = b := by
  rcases h with ⟨h1, h2⟩ | ⟨h1, h2⟩ <;> rcases h' with ⟨h3, h4⟩ | ⟨h3, h4⟩
  · rw [h2, h4]
  · exact absurd h1 h3
  · exact absurd h3 h1
  · rw [h2, h4]

theorem tells_exists (p : Prop) (m : Msg) : ∃ ms, Tells p m ms := by
  by_cases h : p
  · exact ⟨_, .inl ⟨h, rfl⟩⟩
  · exact ⟨_, .inr ⟨h, rfl⟩⟩

theorem tells_ite (p : Prop) [Decidable p] (m : Msg) : Tells p m (if p then [m] else []) := said_ite p m

theorem tells_congr {p q : Prop} {m : Msg} {ms : List Msg} (h : Tells p m ms) (e : p ↔ q) : Tells q m ms :=
  said_congr h e

/-! ## Arguments -/

theorem lone_bad : BadQuotes ['"'] := (C71_violated_quote ⟨[], 1, []⟩).1

theorem argNames_name {arg name : Str} (h0 : ∃ c, arg.head? = some c ∧ 32 < c.toNat) (h : ArgNames arg name) :
    (ppUnquote arg).2 = name := by
  cases h with
  | quoted _ hq => rw [ppUnquote_quoted hq]
  | lone e => subst e; decide
  | bad hb hne =>
    obtain ⟨h1, h2⟩ := unquote_cases h0 hne
    rcases h2 with hq | ⟨_, e⟩
    · have := ppUnquote_quoted hq
      rw [h1.2 hb |> fun e => (Prod.ext e rfl : ppUnquote arg = (true, (ppUnquote arg).2))] at this
      cases this
    · exact e

theorem argNames_exists {arg : Str} (h0 : ∃ c, arg.head? = some c ∧ 32 < c.toNat) : ∃ name, ArgNames arg name := by
  by_cases hq : arg = ['"']
  · exact ⟨_, .lone hq⟩
  · rcases (unquote_cases h0 hq).2 with h | ⟨h, _⟩
    · exact ⟨_, .quoted _ h⟩
    · exact ⟨_, .bad h hq⟩

theorem unquote_bad {arg : Str} (h0 : ∃ c, arg.head? = some c ∧ 32 < c.toNat) :
    (ppUnquote arg).1 = true ↔ BadQuotes arg ∧ arg ≠ ['"'] := by
  by_cases hq : arg = ['"']
  · subst hq
    simp; decide
  · rw [(unquote_cases h0 hq).1]
    simp [hq]

/-! ## Paths -/

theorem dropWhile_slash (pre base : Str) (hs : pre.getLast? = some '/') (hb : '/' ∉ base) :
    (((pre ++ base).reverse).dropWhile (· ≠ '/')).reverse = pre := by
  obtain ⟨p, rfl⟩ := List.getLast?_eq_some_iff.1 hs
  have e : (p ++ ['/'] ++ base).reverse = base.reverse ++ '/' :: p.reverse := by simp
  rw [e]
  have := lstripP_append (fun c => decide (c ≠ '/')) base.reverse ('/' :: p.reverse)
    (by intro c hc; simp at hc ⊢; rintro rfl; exact hb hc) (by simp)
  rw [lstripP] at this
  rw [this]
  simp

theorem allSlash_last {s : Str} (h0 : s ≠ []) (h : ∀ c ∈ s, c = '/') (d : Str) : (d ++ s).getLast? = some '/' := by
  rw [List.getLast?_append, List.getLast?_eq_some_getLast h0]
  have := h _ (List.getLast_mem h0)
  rw [this]
  rfl

theorem pathFrom_eq {file name path : Str} (h : PathFrom file name path) : path = pathJoin (dirname file) name := by
  cases h with
  | absolute hn =>
    cases name with
    | nil => simp at hn
    | cons c r => simp at hn; subst hn; rfl
  | here hf => exact (C14_no_directory file name hf).symm
  | root slashes base hn hf h0 hs hb =>
    subst hf
    have hd : dirname (slashes ++ base) = slashes := by
      unfold dirname
      rw [dropWhile_slash slashes base (by simpa using allSlash_last h0 hs []) hb]
      simp only
      rw [if_pos]
      simpa [List.all_eq_true] using hs
    rw [hd]
    unfold pathJoin
    have hl : slashes.getLast? = some '/' := by simpa using allSlash_last h0 hs []
    split
    · simp at hn
    · rw [hl]; rfl
  | beside dir slashes base hn hf hd0 hd h0 hs hb =>
    subst hf
    have hdir : dirname (dir ++ slashes ++ base) = dir := by
      unfold dirname
      rw [dropWhile_slash (dir ++ slashes) base (allSlash_last h0 hs dir) hb]
      simp only
      rw [if_neg]
      · exact rstripP_append _ dir slashes (by simpa using hs) (by
          intro c hc
          simp
          rintro rfl
          exact hd hc)
      · intro hall
        obtain ⟨c, hc⟩ : ∃ c, dir.getLast? = some c := ⟨_, List.getLast?_eq_some_getLast hd0⟩
        have := List.all_eq_true.1 hall c (by simp [List.mem_of_getLast? hc])
        simp at this
        subst this
        exact hd hc
    rw [hdir]
    obtain ⟨c, hc⟩ : ∃ c, dir.getLast? = some c := ⟨_, List.getLast?_eq_some_getLast hd0⟩
    unfold pathJoin
    split
    · simp at hn
    · rw [hc]
      have : c ≠ '/' := by rintro rfl; exact hd hc
      split
      · rename_i h; simp at h
      · rename_i h; simp at h; exact absurd h this
      · rfl

theorem pathFrom_exists (file name : Str) : ∃ path, PathFrom file name path := by
  by_cases hn : name.head? = some '/'
  · exact ⟨_, .absolute hn⟩
  by_cases hf : '/' ∈ file
  · obtain ⟨base, pre, hpre, hb⟩ : ∃ base pre, file = pre ++ '/' :: base ∧ '/' ∉ base := by
      clear hn
      induction file with
      | nil => cases hf
      | cons c r ih =>
        by_cases hr : '/' ∈ r
        · obtain ⟨base, pre, e, hb⟩ := ih hr
          exact ⟨base, c :: pre, by rw [e]; rfl, hb⟩
        · rcases List.mem_cons.1 hf with e | e
          · exact ⟨r, [], by rw [← e]; rfl, hr⟩
          · exact absurd e hr
    obtain ⟨tail, ht1, ht2, ht3⟩ : ∃ t, pre = rstripP (· = '/') pre ++ t ∧ (∀ c ∈ t, c = '/') ∧
        (rstripP (· = '/') pre).getLast? ≠ some '/' := by
      refine ⟨(pre.reverse.takeWhile (· = '/')).reverse, ?_, ?_, ?_⟩
      · rw [rstripP, ← List.reverse_append, List.takeWhile_append_dropWhile, List.reverse_reverse]
      · intro c hc
        simpa using mem_takeWhile' (List.mem_reverse.1 hc)
      · rw [rstripP, List.getLast?_reverse]
        intro h
        have hne : pre.reverse.dropWhile (· = '/') ≠ [] := by intro e; rw [e] at h; simp at h
        have := List.head_dropWhile_not (l := pre.reverse) (fun c => decide (c = '/')) hne
        rw [List.head?_eq_some_head hne] at h
        simp only [Option.some.injEq] at h
        rw [h] at this
        simp at this
    by_cases hd : rstripP (· = '/') pre = []
    · exact ⟨_, .root (pre ++ ['/']) base hn (by rw [hpre]; simp) (by simp)
        (by rw [ht1, hd]; intro c hc; simp at hc; rcases hc with hc | hc; exact ht2 c hc; exact hc) hb⟩
    · refine ⟨_, .beside (rstripP (· = '/') pre) (tail ++ ['/']) base hn ?_ hd ht3 (by simp) ?_ hb⟩
      · rw [hpre]
        conv => lhs; rw [ht1]
        simp
      · intro c hc; simp at hc; rcases hc with hc | hc; exact ht2 c hc; exact hc
  · exact ⟨_, .here hf⟩

/-! ## The parser -/

/-- What the parser says about some data, and what they come to; `none`: an exception. -/
def readModel (fs : FS) (w : Where) (data comment : Str) : Option (List Msg × Gives) :=
  match (parserStage w data comment).2 with
  | .elem e => some ((parserStage w data comment).1, .elem e)
  | .pp .nothing => some ((parserStage w data comment).1, .nothing)
  | .pp (.open_ path must name) =>
    if '\x00' ∈ path then none
    else some ((parserStage w data comment).1 ++
      (if must = true ∧ fs path = none then [⟨.W_PP_INCLUDE_MISSING, w, [(c! "filename", .one (.str name))], none⟩] else []),
      .file path)

theorem directive_stage (w : Where) (comment indent text cmd sep arg : Str) (hi : Spaces indent)
    (h : DirectiveText text cmd sep arg) (he : '=' ∉ arg) :
    ∃ m1 m2 m3, Tells (indent ≠ []) (plainMsg .W_WSH_BOL w) m1 ∧
      Tells (OddSeparator sep) (plainMsg .W_WSH_CTRL w) m2 ∧
      Tells (BadQuotes arg ∧ arg ≠ ['"']) (plainMsg .W_PP_QUOTE_BAD w) m3 ∧
      parserStage w (indent ++ text) comment =
        if cmd = c! "#exec" then
          (m1 ++ m2 ++ m3 ++ [⟨.W_PP_EXEC, w, [(c! "cmd", .one (.str (ppUnquote arg).2))], none⟩], .pp .nothing)
        else (m1 ++ m2 ++ m3, .pp (.open_ (pathJoin (dirname w.filename) (ppUnquote arg).2) (cmd = c! "#include")
          (ppUnquote arg).2)) := by
  obtain ⟨hshape, hcmd, hs0, hs, ha⟩ := h
  have hu1 := unquote_bad ha
  obtain ⟨tl, htl, htl2⟩ := directive_hash hcmd
  have hsep : '=' ∉ sep := fun hm => absurd (hs _ hm) (by decide)
  have hlow : ∀ c ∈ sep, isLowCtl c = true := fun c hc => by simpa [isLowCtl] using hs c hc
  obtain ⟨a, ha1, ha2⟩ := ha
  have hhigh : ∀ c, arg.head? = some c → isLowCtl c = false := fun c hc => by
    rw [ha1] at hc; cases hc
    simp [isLowCtl]; omega
  obtain ⟨s0, ss, rfl⟩ := List.exists_cons_of_ne_nil hs0
  have hnotall : (s0 :: ss ++ arg).all isLowCtl = false := by
    rw [← Bool.not_eq_true, List.all_eq_true]
    intro h
    have := hhigh a ha1
    rw [h a (List.mem_append.2 (.inr (List.mem_of_mem_head? (by rw [ha1]; rfl))))] at this
    simp at this
  have htw : (s0 :: ss ++ arg).takeWhile isLowCtl = s0 :: ss := takeWhile_append_stop _ _ _ hlow hhigh
  have hdw : (s0 :: ss ++ arg).dropWhile isLowCtl = arg := lstripP_append _ _ _ hlow hhigh
  have e : text = '#' :: (tl ++ (s0 :: ss) ++ arg) := by rw [hshape, htl]; simp
  have e' : text = cmd ++ (s0 :: ss ++ arg) := by rw [hshape]; simp
  have hnone := directive_reads indent (tl ++ (s0 :: ss) ++ arg) hi (by
    rw [List.mem_append, List.mem_append, not_or, not_or]
    exact ⟨⟨htl2, hsep⟩, he⟩)
  rw [← e] at hnone
  have hstrip : lstripP isSpace (indent ++ text) = cmd ++ (s0 :: ss ++ arg) := by
    rw [lstripP_append isSpace indent _ hi (by rw [e]; simp; decide), e']
  have hhead : (cmd ++ (s0 :: ss ++ arg)).head? = some '#' := by rw [htl]; rfl
  have hlen : (cmd ++ (s0 :: ss ++ arg)).length = (indent ++ text).length ↔ indent = [] := by
    rw [← e', List.length_append]
    constructor
    · intro h; exact List.length_eq_zero_iff.1 (by omega)
    · rintro rfl; simp
  refine ⟨if indent ≠ [] then [plainMsg .W_WSH_BOL w] else [],
    if ¬ (∀ c ∈ s0 :: ss, c = ' ') ∧ ¬ ∀ c ∈ s0 :: ss, c = '\t' then [plainMsg .W_WSH_CTRL w] else [],
    if (ppUnquote arg).1 = true then [plainMsg .W_PP_QUOTE_BAD w] else [],
    tells_ite _ _, tells_ite (¬ (∀ c ∈ s0 :: ss, c = ' ') ∧ ¬ ∀ c ∈ s0 :: ss, c = '\t') _,
    tells_congr (tells_ite _ _) hu1, ?_⟩
  simp only [parserStage, hnone, hstrip, hhead, if_true, preprocessor, ppCommand_directive hcmd]
  simp only [List.cons_append]
  simp only [hlow s0 (by simp), Bool.not_true, Bool.false_eq_true, if_false]
  simp only [← List.cons_append]
  simp only [hnotall, hdw, htw]
  rw [if_neg (by simp)]
  have e0 : (if (cmd ++ (s0 :: ss ++ arg)).length = (indent ++ text).length then ([] : List Msg)
      else [⟨.W_WSH_BOL, w, [], none⟩]) = if indent ≠ [] then [plainMsg .W_WSH_BOL w] else [] := by
    by_cases hx : indent = []
    · rw [if_pos (hlen.2 hx), if_neg (by simpa using hx)]
    · rw [if_neg (fun h => hx (hlen.1 h)), if_pos hx]; rfl
  have e1 : (if (!(s0 :: ss).all (· = ' ') && !(s0 :: ss).all (· = '\t')) = true
      then [(⟨.W_WSH_CTRL, w, [], none⟩ : Msg)] else []) =
      if ¬ (∀ c ∈ s0 :: ss, c = ' ') ∧ ¬ ∀ c ∈ s0 :: ss, c = '\t' then [plainMsg .W_WSH_CTRL w] else [] := by
    have : (!(s0 :: ss).all (· = ' ') && !(s0 :: ss).all (· = '\t')) = true ↔
        ¬ (∀ c ∈ s0 :: ss, c = ' ') ∧ ¬ ∀ c ∈ s0 :: ss, c = '\t' := by
      rw [Bool.and_eq_true, Bool.not_eq_true', Bool.not_eq_true', ← Bool.not_eq_true, ← Bool.not_eq_true,
        List.all_eq_true, List.all_eq_true]
      simp only [decide_eq_true_eq]
    by_cases hp : ¬ (∀ c ∈ s0 :: ss, c = ' ') ∧ ¬ ∀ c ∈ s0 :: ss, c = '\t'
    · rw [if_pos hp, if_pos (this.2 hp)]; rfl
    · rw [if_neg hp, if_neg (fun h => hp (this.1 h))]
  rw [e0, e1]
  by_cases hx : cmd = c! "#exec"
  · simp only [if_pos hx]; rfl
  · simp only [if_neg hx]; rfl

theorem hash_noLead {text : Str} (h : text.head? = some '#') : NoLead text := by
  rw [noLead_iff]
  intro c hc
  rw [h] at hc
  cases hc
  decide

theorem hash_no_header {indent text : Str} (hi : Spaces indent) (h : text.head? = some '#') (he : '=' ∉ indent ++ text) :
    ¬ SomeHeader (indent ++ text) := by
  cases text with
  | nil => simp at h
  | cons c r =>
    simp at h
    subst h
    have := directive_reads indent r hi (fun hm => he (by simp [hm]))
    exact ((readLine_none _).1 this).1

theorem readAs_model {fs : FS} {w : Where} {data comment : Str} {ms : List Msg} {g : Gives}
    (h : ReadAs fs w data (!comment.isEmpty) ms g) : readModel fs w data comment = some (ms, g) := by
  generalize hb : (!comment.isEmpty) = b at h
  cases h with
  | header hh ht =>
    obtain ⟨m, h1, h2⟩ := (C71_header w data comment _ _).1 hh
    rw [readModel, h1, tells_unique ht h2, hb]
  | template hh ht =>
    obtain ⟨m, h1, h2⟩ := (C71_header w data comment _ _).2.1 _ hh
    rw [readModel, h1, tells_unique ht h2, hb]
  | arrow hh ha hi hk h1 h2 =>
    obtain ⟨m1, m2, h3, h4, h5⟩ := C71_assignment w data comment _ _ _ _ true ha hh hi
      (fun c hc => by simpa [Blank] using hk c hc)
    rw [readModel, h3, tells_unique h1 h4, tells_unique h2 h5, hb]
  | equals hh ha hi hk h1 h2 =>
    obtain ⟨m1, m2, h3, h4, h5⟩ := C71_assignment w data comment _ _ _ _ false ha hh hi
      (fun c hc => by simpa [Blank] using hk c hc)
    rw [readModel, h3, tells_unique h1 h4, tells_unique h2 h5, hb]
  | blank hs =>
    simp only [readModel, parserStage, (readLine_blank data).2 hs, mkElem, hb]
  | exec hd hi he ht hn t1 t2 t3 =>
    subst hd
    obtain ⟨m1, m2, m3, u1, u2, u3, e⟩ := directive_stage w comment _ _ _ _ _ hi ht
      (fun hm => he (by rw [ht.shape]; simp [hm]))
    rw [if_pos rfl] at e
    rw [readModel, e, argNames_name ht.argStart hn, tells_unique t1 u1, tells_unique t2 u2, tells_unique t3 u3]
  | «include» hd hi he ht hx hn hp h0 t1 t2 t3 t4 =>
    subst hd
    obtain ⟨m1, m2, m3, u1, u2, u3, e⟩ := directive_stage w comment _ _ _ _ _ hi ht
      (fun hm => he (by rw [ht.shape]; simp [hm]))
    rw [if_neg hx, argNames_name ht.argStart hn, ← pathFrom_eq hp] at e
    rw [readModel, e, tells_unique t1 u1, tells_unique t2 u2, tells_unique t3 u3]
    simp only [if_neg h0, decide_eq_true_eq]
    rw [tells_unique t4 (tells_ite _ _)]
  | @hash indent text m hd hi he hh hno ht =>
    subst hd
    have hne : text ≠ [] := fun e => by rw [e] at hh; simp at hh
    obtain ⟨m, h1, h2⟩ := C71_other w comment _ _ hi hne (hash_noLead hh) (hash_no_header hi hh he)
      (fun hm => he (by simp [hm])) hno
    rw [readModel, h1, if_pos hh, tells_unique ht (tells_congr h2 (by simp [hh]))]
  | other hh he hs hno =>
    obtain ⟨h1, h2⟩ := lstrip_eq (data := data) rfl
    have hx := hno _ _ h1 h2
    simp only [readModel, parserStage, (readLine_none data).2 ⟨hh, he, hs⟩, if_neg hx]

theorem readAs_exists {fs : FS} {w : Where} {data comment : Str} {r : List Msg × Gives}
    (h : readModel fs w data comment = some r) : ReadAs fs w data (!comment.isEmpty) r.1 r.2 := by
  have key : ∃ ms g, ReadAs fs w data (!comment.isEmpty) ms g := by
    cases hr : readLine data with
    | some rd =>
      cases rd with
      | header i n t =>
        obtain ⟨m, hm⟩ := tells_exists (i ≠ []) (plainMsg .W_WSH_BOL w)
        rcases (readLine_header _ _ _ _).1 hr with ⟨h1, _⟩ | ⟨c, h1, _⟩
        · exact ⟨_, _, .header h1 hm⟩
        · exact ⟨_, _, .template h1 hm⟩
      | assign k sep v =>
        obtain ⟨h1, h2⟩ := (readLine_assign _ _ _ _).1 hr
        have hk : k = k.takeWhile isBlank ++ k.dropWhile isBlank := List.takeWhile_append_dropWhile.symm
        have hi : Blanks (k.takeWhile isBlank) := fun c hc => by
          simpa [isBlank] using mem_takeWhile' hc
        have hd : ∀ c, (k.dropWhile isBlank).head? = some c → ¬ Blank c := fun c hc => by
          have hne : k.dropWhile isBlank ≠ [] := fun e => by rw [e] at hc; simp at hc
          have := List.head_dropWhile_not (l := k) isBlank hne
          rw [List.head?_eq_some_head hne] at hc
          simp only [Option.some.injEq] at hc
          rw [hc] at this
          exact (isBlank_false_iff c).1 (by simpa using this)
        obtain ⟨m2, hm2⟩ := tells_exists (k.takeWhile isBlank ≠ [] ∧ k.dropWhile isBlank ≠ c! "same") (plainMsg .W_WSH_BOL w)
        rw [hk] at h2
        rcases h2 with h2 | h2
        · obtain ⟨m1, hm1⟩ := tells_exists (sep ≠ c! " => ") (plainMsg .W_WSH_OBJSET w)
          exact ⟨_, _, .arrow h1 h2 hi hd hm1 hm2⟩
        · obtain ⟨m1, hm1⟩ := tells_exists (sep ≠ c! "=") (plainMsg .W_WSH_VARSET w)
          exact ⟨_, _, .equals h1 h2 hi hd hm1 hm2⟩
      | blank => exact ⟨_, _, .blank ((readLine_blank _).1 hr)⟩
    | none =>
      obtain ⟨hh, he, hs⟩ := (readLine_none data).1 hr
      by_cases hx : ∃ indent text, data = indent ++ text ∧ Spaces indent ∧ text.head? = some '#'
      · obtain ⟨indent, text, hd, hi, hx⟩ := hx
        obtain ⟨m1, hm1⟩ := tells_exists (indent ≠ []) (plainMsg .W_WSH_BOL w)
        by_cases ht : ∃ cmd sep arg, DirectiveText text cmd sep arg
        · obtain ⟨cmd, sep, arg, ht⟩ := ht
          obtain ⟨m2, hm2⟩ := tells_exists (OddSeparator sep) (plainMsg .W_WSH_CTRL w)
          obtain ⟨m3, hm3⟩ := tells_exists (BadQuotes arg ∧ arg ≠ ['"']) (plainMsg .W_PP_QUOTE_BAD w)
          obtain ⟨name, hn⟩ := argNames_exists ht.argStart
          by_cases hc : cmd = c! "#exec"
          · subst hc
            exact ⟨_, _, .exec hd hi he ht hn hm1 hm2 hm3⟩
          · obtain ⟨path, hp⟩ := pathFrom_exists w.filename name
            obtain ⟨m4, hm4⟩ := tells_exists (cmd = c! "#include" ∧ fs path = none)
              ⟨.W_PP_INCLUDE_MISSING, w, [(c! "filename", .one (.str name))], none⟩
            refine ⟨_, _, .include hd hi he ht hc hn hp ?_ hm1 hm2 hm3 hm4⟩
            subst hd
            obtain ⟨_, _, _, _, _, _, e⟩ := directive_stage w comment _ _ _ _ _ hi ht
              (fun hm => he (by rw [ht.shape]; simp [hm]))
            rw [if_neg hc, argNames_name ht.argStart hn, ← pathFrom_eq hp] at e
            intro hz
            rw [readModel, e] at h
            simp [hz] at h
        · exact ⟨_, _, .hash hd hi he hx (fun cmd sep arg h => ht ⟨cmd, sep, arg, h⟩) hm1⟩
      · exact ⟨_, _, .other hh he hs fun i t e1 e2 e3 => hx ⟨i, t, e1, e2, e3⟩⟩
  obtain ⟨ms, g, hk⟩ := key
  have := readAs_model hk
  rw [h] at this
  simp only [Option.some.injEq] at this
  rw [this]
  exact hk

theorem readModel_file {fs : FS} {w : Where} {data comment : Str} {r : List Msg × Gives}
    (h : readModel fs w data comment = some r) :
    r.2.file? = (match (parserStage w data comment).2 with | .pp (.open_ path _ _) => some path | _ => none) := by
  unfold readModel at h
  cases hp : (parserStage w data comment).2 with
  | elem e => rw [hp] at h; simp only [Option.some.injEq] at h; rw [← h]; rfl
  | pp p =>
    cases p with
    | nothing => rw [hp] at h; simp only [Option.some.injEq] at h; rw [← h]; rfl
    | open_ path must name =>
      rw [hp] at h
      simp only at h
      split at h
      · cases h
      · simp only [Option.some.injEq] at h; rw [← h]; rfl

/-! ## The whole line -/

/-- What is said about a line by all readers but the one for file formats. -/
def lineModel (fs : FS) (w : Where) : Option (List Msg × Gives) :=
  match (encodingStage w).2 with
  | .error _ => none
  | .ok text =>
    let c := commentStage w (ffStage [] w text).2.2
    (readModel fs w c.2.1 c.2.2).map fun r => ((encodingStage w).1 ++ ctrlStage w text ++ c.1 ++ r.1, r.2)

theorem decodesAs_stage {w : Where} {text : Str} {bad : Bool} (h : DecodesAs w.line text bad) :
    (encodingStage w).2 = .ok text ∧ Tells (bad = true) (plainMsg .E_FILE_UTF8_BAD w) (encodingStage w).1 := by
  cases h with
  | utf8 e => rw [C04_valid w text e]; exact ⟨rfl, .inr ⟨by simp, rfl⟩⟩
  | cp1252 h1 h2 =>
    obtain ⟨a, b, _⟩ := C04_invalid w h1
    exact ⟨(b text).2 h2, .inl ⟨rfl, a⟩⟩

theorem decodesAs_exists {w : Where} {text : Str} (h : (encodingStage w).2 = .ok text) : ∃ bad, DecodesAs w.line text bad := by
  by_cases hu : ∃ s, w.line = utf8 s
  · obtain ⟨s, hs⟩ := hu
    rw [C04_valid w s hs] at h
    simp only [Except.ok.injEq] at h
    subst h
    exact ⟨_, .utf8 _ hs⟩
  · exact ⟨_, .cp1252 _ hu (((C04_invalid w hu).2.1 text).1 h)⟩

theorem unterminated_stage {text body : Str} (h : Unterminated text body) (st : List FInfo) (w : Where) :
    (ffStage st w text).2.2 = body := by
  cases h with
  | crlf _ e => subst e; exact (C06_terminator st w body).1
  | lf _ e hn =>
    subst e
    refine (C06_terminator st w body).2.1 fun hl => hn ?_
    obtain ⟨t, rfl⟩ := List.getLast?_eq_some_iff.1 hl
    exact ⟨t, by simp⟩
  | none hn =>
    refine (C06_terminator st w _).2.2 fun hl => hn ?_
    exact List.getLast?_eq_some_iff.1 hl

theorem unterminated_exists (text : Str) : ∃ body, Unterminated text body := by
  by_cases h1 : CrLf text
  · obtain ⟨t, e⟩ := h1; exact ⟨_, .crlf t e⟩
  by_cases h2 : Lf text
  · obtain ⟨t, e⟩ := h2; exact ⟨_, .lf t e h1⟩
  · exact ⟨_, .none h2⟩

theorem trimmed_unique {s d b d' b' : Str} (h : Trimmed s d b) (h' : Trimmed s d' b') : d = d' ∧ b = b' := by
  obtain ⟨h1, h2⟩ := trimmed_eq h
  obtain ⟨h3, h4⟩ := trimmed_eq h'
  have e : d = d' := h1.symm.trans h3
  subst e
  exact ⟨rfl, h2.symm.trans h4⟩

theorem content_stage {body data comment : Str} (h : Content body data comment) (w : Where) :
    (commentStage w body).2 = (data, comment) := by
  cases h with
  | plain d bl h1 h2 => exact C09_no_comment w body d bl h1 h2
  | comment d bl a b x y h1 h2 h3 => exact C09_comment w body d bl a b _ y h1 h2 h3

theorem content_exists (body : Str) : ∃ data comment, Content body data comment := by
  obtain ⟨bl, ht⟩ := trimmed_rstrip body
  rcases comment_cases (rstripP isBlank body) with h | ⟨a, b, h⟩
  · exact ⟨_, _, .plain _ bl ht h⟩
  · obtain ⟨y, hy⟩ := trimmed_rstrip (unescape a)
    exact ⟨_, _, .comment _ bl a b _ y ht h hy⟩

theorem comment_msgs (w : Where) (body : Str) : ∃ m3 m4, (commentStage w body).1 = m3 ++ m4 ∧
    Tells (EndsBlank body) (plainMsg .W_WSH_EOL w) m3 ∧ Tells (Glued body) (plainMsg .W_WSH_COMMENT w) m4 := by
  obtain ⟨bl, ht⟩ := trimmed_rstrip body
  obtain ⟨eol, com, h1, h2, h3⟩ := C10_messages w body _ bl ht
  refine ⟨_, _, h1, tells_congr (tells_ite (eol = true) _) h2, tells_congr (tells_ite (com = true) _) (h3.trans ?_)⟩
  constructor
  · rintro ⟨a, b, c, h4, h5⟩; exact ⟨_, bl, a, c, b, ht, h4, h5⟩
  · rintro ⟨d, bl', a, c, b, h4, h5, h6⟩
    obtain ⟨e, _⟩ := trimmed_unique h4 ht
    subst e
    exact ⟨a, b, c, h5, h6⟩

theorem ctrl_tells (w : Where) (text : Str) : Tells (HasControl text) (plainMsg .W_FILE_CTRL_CHAR w) (ctrlStage w text) := by
  by_cases h : HasControl text
  · exact .inl ⟨h, (C05_ctrl w text).1 h⟩
  · exact .inr ⟨h, (C05_ctrl w text).2 h⟩

theorem lineTells_model {fs : FS} {w : Where} {ms : List Msg} {g : Gives} (h : LineTells fs w ms g) :
    lineModel fs w = some (ms, g) := by
  cases h with
  | mk h1 h2 h3 t1 t2 t3 t4 h5 =>
    obtain ⟨e1, u1⟩ := decodesAs_stage h1
    obtain ⟨m3, m4, e4, u3, u4⟩ := comment_msgs w _
    have e2 := unterminated_stage h2 [] w
    have e3 := content_stage h3 w
    rw [lineModel]
    simp only [e1, e2, e3, readAs_model h5, Option.map_some]
    rw [e4, tells_unique t1 u1, tells_unique t2 (ctrl_tells w _), tells_unique t3 u3, tells_unique t4 u4]
    simp

theorem lineTells_exists {fs : FS} {w : Where} {r : List Msg × Gives} (h : lineModel fs w = some r) :
    LineTells fs w r.1 r.2 := by
  unfold lineModel at h
  cases he : (encodingStage w).2 with
  | error e => simp [he] at h
  | ok text =>
    obtain ⟨bad, hd⟩ := decodesAs_exists he
    obtain ⟨body, hb⟩ := unterminated_exists text
    obtain ⟨data, comment, hc⟩ := content_exists body
    obtain ⟨m3, m4, e4, u3, u4⟩ := comment_msgs w body
    simp only [he, unterminated_stage hb [] w, content_stage hc w] at h
    cases hr : readModel fs w data comment with
    | none => rw [hr] at h; cases h
    | some r0 =>
      rw [hr] at h
      simp only [Option.map_some, Option.some.injEq] at h
      subst h
      have := LineTells.mk hd hb hc (decodesAs_stage hd).2 (ctrl_tells w text) u3 u4 (readAs_exists hr)
      rw [e4]
      simpa using this

/-! ## The pipeline -/

theorem Merges.append {α : Type} {a b c a' b' c' : List α} (h : Merges a b c) (h' : Merges a' b' c') :
    Merges (a ++ a') (b ++ b') (c ++ c') := by
  induction h with
  | nil => exact h'
  | left x _ ih => exact .left x ih
  | right x _ ih => exact .right x ih

theorem emitAll_told : ∀ (ms : List Msg) {u : Unit}, (Res.emitAll ms).val = .ok u → (Res.emitAll ms).log = ms
  | [], _, _ => rfl
  | m :: ms, u, h => by
    rw [Res.emitAll] at h ⊢
    obtain ⟨_, _, h2, h3⟩ := Res.bind_ok h
    rw [h3, emitAll_told ms h2]
    rfl

/-- The decoded line. -/
def textOf (w : Where) : Str :=
  match (encodingStage w).2 with
  | .ok t => t
  | .error _ => []

theorem lineStep_told {fs : FS} {ff : List FInfo} {frames : List Frame} {w : Where} {r : RState} {oe : Option Elem}
    (h : (lineStep fs ff frames w).2 = .ok (r, oe)) :
    ∃ ms g, lineModel fs w = some (ms, g) ∧ g.elem? = oe ∧ r.ff = (ffStage ff w (textOf w)).1 ∧
      Merges ms (ffStage ff w (textOf w)).2.1 (lineStep fs ff frames w).1 := by
  unfold lineStep fileStage at h ⊢
  unfold lineModel textOf
  cases he : (encodingStage w).2 with
  | error e => simp [he] at h
  | ok text =>
    simp only [he] at h ⊢
    rw [ffStage_data [] ff w text]
    generalize hf : ffStage ff w text = f at h ⊢
    obtain ⟨ff', fm, body⟩ := f
    simp only at h ⊢
    generalize hc : commentStage w body = c at h ⊢
    obtain ⟨cm, data, comment⟩ := c
    simp only at h ⊢
    have merge : ∀ x : List Msg, Merges ((encodingStage w).1 ++ ctrlStage w text ++ cm ++ x) fm
        ((encodingStage w).1 ++ ctrlStage w text ++ fm ++ cm ++ x) := by
      intro x
      have h1 : Merges (cm ++ x) [] (cm ++ x) := by simpa using Merges.appendLeft (cm ++ x) (Merges.nil (α := Msg))
      have h2 := Merges.appendLeft ((encodingStage w).1 ++ ctrlStage w text) (Merges.appendRight fm h1)
      simpa using h2
    unfold readModel
    cases hp : (parserStage w data comment).2 with
    | elem e =>
      simp only [hp, Except.ok.injEq, Prod.mk.injEq] at h
      obtain ⟨rfl, rfl⟩ := h
      exact ⟨_, _, rfl, rfl, rfl, merge _⟩
    | pp p =>
      cases p with
      | nothing =>
        simp only [hp, runPP, Except.ok.injEq, Prod.mk.injEq] at h
        obtain ⟨rfl, rfl⟩ := h
        refine ⟨_, _, rfl, rfl, rfl, ?_⟩
        simp only [runPP, List.append_nil]
        exact merge _
      | open_ path must name =>
        simp only [hp] at h ⊢
        have hz : (path.any fun c => decide (c.toNat = 0)) = true ↔ '\x00' ∈ path := by
          rw [List.any_eq_true]
          constructor
          · rintro ⟨c, h1, h2⟩
            have : c = '\x00' := Char.toNat_inj.1 (by simpa using h2)
            rw [← this]; exact h1
          · intro h1; exact ⟨_, h1, by decide⟩
        by_cases h0 : '\x00' ∈ path
        · simp [runPP, hz.2 h0] at h
        · have h0' : (path.any fun c => decide (c.toNat = 0)) = false := by
            rw [← Bool.not_eq_true]; exact fun h => h0 (hz.1 h)
          simp only [runPP, h0', Bool.false_eq_true, if_false] at h ⊢
          rw [if_neg h0]
          cases hx : fs path with
          | some content =>
            simp only [hx, Except.ok.injEq, Prod.mk.injEq] at h
            obtain ⟨rfl, rfl⟩ := h
            refine ⟨_, _, rfl, rfl, rfl, ?_⟩
            simp
            simpa using merge (parserStage w data comment).1
          | none =>
            simp only [hx, Except.ok.injEq, Prod.mk.injEq] at h
            obtain ⟨rfl, rfl⟩ := h
            refine ⟨_, _, rfl, rfl, rfl, ?_⟩
            cases must with
            | true => simpa using merge ((parserStage w data comment).1 ++ [_])
            | false => simpa using merge (parserStage w data comment).1

theorem lineModel_file {fs : FS} {w : Where} {r : List Msg × Gives} (h : lineModel fs w = some r) :
    opens w = r.2.file? := by
  unfold lineModel at h
  unfold opens
  cases he : (encodingStage w).2 with
  | error e => simp [he] at h
  | ok text =>
    simp only [he] at h ⊢
    cases hr : readModel fs w (commentStage w (ffStage [] w text).2.2).2.1 (commentStage w (ffStage [] w text).2.2).2.2 with
    | none => rw [hr] at h; cases h
    | some r0 =>
      rw [hr] at h
      simp only [Option.map_some, Option.some.injEq] at h
      subst h
      exact (readModel_file hr).symm

theorem pipeRun_told (fs : FS) : ∀ (n : Nat) (st : PState (List Elem)) (s : List Elem),
    (pipeRun fs collect n st).val = .ok (some s) →
    ∃ told : List Told, told.map (·.line) = pipeLines fs collect n st ∧
      (∀ x ∈ told, lineModel fs x.line = some (x.msgs, x.gives)) ∧
      s = st.agg ++ (vswRun st.vsw (elemsOf told)).1 ∧
      ∃ rest, Merges ((ffRun textOf st.ff (told.map (·.line))).2 ++ ffEnd (ffRun textOf st.ff (told.map (·.line))).1)
          (vswRun st.vsw (elemsOf told)).2 rest ∧
        Merges (told.flatMap (·.msgs)) rest (pipeRun fs collect n st).log := by
  intro n
  induction n with
  | zero => intro st s h; simp [pipeRun] at h
  | succ n ih =>
    intro st s h
    rw [pipeRun] at h ⊢
    rw [pipeLines]
    cases hn : nextLine st.frames with
    | none =>
      have hp : pipeStep fs collect st = none := by unfold pipeStep; rw [hn]
      simp only [hp] at h ⊢
      obtain ⟨a, h1, h2, h3⟩ := Res.bind_ok h
      simp only [Res.pure_val, Except.ok.injEq, Option.some.injEq] at h2
      subst h2
      unfold pipeEnd at h1
      obtain ⟨u, h4, h5, h6⟩ := Res.bind_ok h1
      obtain ⟨u', h7, h8, h9⟩ := Res.bind_ok h5
      rw [feed_collect] at h8 h9
      simp only [Res.pure_val, Except.ok.injEq] at h8
      refine ⟨[], rfl, by simp, h8.symm, ffEnd st.ff ++ (vswEnd st.vsw).2, ?_, ?_⟩
      · have := Merges.appendLeft (ffEnd st.ff) (Merges.appendRight (vswEnd st.vsw).2 .nil)
        simpa [ffRun, vswRun, elemsOf] using this
      · have e : (Res.bind (pipeEnd collect st) fun s => Res.pure (some s)).log = ffEnd st.ff ++ (vswEnd st.vsw).2 := by
          rw [h3, show (pipeEnd collect st).log = _ from h6]
          simp only [feed_collect] at h9 ⊢
          rw [h9]
          simp [emitAll_told _ h4, emitAll_told _ h7]
        rw [e]
        simpa using Merges.appendRight (ffEnd st.ff ++ (vswEnd st.vsw).2) .nil
    | some p =>
      obtain ⟨w, frames⟩ := p
      cases hp : pipeStep fs collect st with
      | none => unfold pipeStep at hp; rw [hn] at hp; cases hp
      | some r =>
        simp only [hp] at h ⊢
        obtain ⟨st', h1, h2, h3⟩ := Res.bind_ok h
        simp only [h1]
        unfold pipeStep at hp
        simp only [hn, Option.some.injEq] at hp
        rw [← hp] at h1
        obtain ⟨_, he1, h4, h5⟩ := Res.bind_ok h1
        rw [hp] at h5
        cases hl : (lineStep fs st.ff frames w).2 with
        | error e => rw [hl] at h4; simp at h4
        | ok x =>
          obtain ⟨rs, oe⟩ := x
          obtain ⟨ms, g, g1, g2, g3, g4⟩ := lineStep_told hl
          obtain ⟨told, t1, t2, t3, rest, t4, t5⟩ := ih st' s h2
          rw [hl] at h4 h5
          cases oe with
          | none =>
            simp only [Res.pure_val, Except.ok.injEq] at h4
            subst h4
            have hel : elemsOf (⟨w, ms, g⟩ :: told) = elemsOf told := by simp [elemsOf, g2]
            refine ⟨⟨w, ms, g⟩ :: told, by simp [t1], ?_, ?_, (ffStage st.ff w (textOf w)).2.1 ++ rest, ?_, ?_⟩
            · intro x hx
              rcases List.mem_cons.1 hx with rfl | hx
              · exact g1
              · exact t2 x hx
            · rw [hel]; exact t3
            · rw [hel]
              simp only [List.map_cons, ffRun, ← g3, List.append_assoc]
              exact Merges.appendLeft _ t4
            · rw [h3, h5]
              simp only [List.flatMap_cons, Res.pure_log, List.append_nil]
              rw [emitAll_told _ he1]; exact Merges.append g4 t5
          | some e =>
            simp only at h4 h5
            obtain ⟨_, he2, h6, h7⟩ := Res.bind_ok h4
            rw [feed_collect] at h6 h7
            simp only [Res.pure_bind, Res.pure_val, Except.ok.injEq] at h6
            subst h6
            have hel : elemsOf (⟨w, ms, g⟩ :: told) = e :: elemsOf told := by simp [elemsOf, g2]
            refine ⟨⟨w, ms, g⟩ :: told, by simp [t1], ?_, ?_,
              (ffStage st.ff w (textOf w)).2.1 ++ ((vswStep st.vsw e).2.2 ++ rest), ?_, ?_⟩
            · intro x hx
              rcases List.mem_cons.1 hx with rfl | hx
              · exact g1
              · exact t2 x hx
            · rw [hel, t3]; simp [vswRun]
            · rw [hel]
              simp only [List.map_cons, ffRun, vswRun, ← g3, List.append_assoc]
              exact Merges.appendLeft _ (Merges.appendRight _ t4)
            · rw [h3, h5]
              rw [feed_collect, h7]
              simp only [List.flatMap_cons, Res.pure_bind, Res.pure_log, List.append_nil, List.append_assoc]
              rw [emitAll_told _ he1, emitAll_told _ he2]; exact Merges.append g4 (Merges.appendRight _ t5)

theorem ffRun_congr {t t' : Where → Str} : ∀ (ws : List Where) (st : List FInfo), (∀ w ∈ ws, t w = t' w) →
    ffRun t st ws = ffRun t' st ws
  | [], _, _ => rfl
  | w :: ws, st, h => by
    simp only [ffRun, h w (by simp), ffRun_congr ws _ fun x hx => h x (by simp [hx])]

/-! ## Trees -/

theorem expand_congr {fs : FS} {inc inc' : Where → Option Str} {f : Str} {n : Nat} {ls : List Bytes} {t : Items}
    (h : Expand fs inc f n ls t) : (∀ w ∈ t.flatten, inc w = inc' w) → Expand fs inc' f n ls t := by
  induction h with
  | nil => intro _; exact .nil
  | line h1 _ ih =>
    intro hw
    refine .line ?_ (ih fun w hm => hw w (by simp [Items.flatten, hm]))
    unfold pulls at h1 ⊢
    rw [← hw _ (by simp [Items.flatten])]
    exact h1
  | incl h1 _ _ ih1 ih2 =>
    intro hw
    refine .incl ?_ (ih1 fun w hm => hw w (by simp [Items.flatten, hm])) (ih2 fun w hm => hw w (by simp [Items.flatten, hm]))
    unfold pulls at h1 ⊢
    rw [← hw _ (by simp [Items.flatten])]
    exact h1

theorem expand_nested {fs : FS} {inc : Where → Option Str} {el : Where → Option Elem}
    (he : ∀ w e, el w = some e → e.at_ = w) {f : Str} {n : Nat} {ls : List Bytes} {t : Items} (h : Expand fs inc f n ls t) :
    (f :: t.files).Nodup → Nested f (t.flatten.filterMap el) ∧
      ∀ x ∈ filesOf (t.flatten.filterMap el), x = f ∨ x ∈ t.files := by
  have one : ∀ (w : Where) (f : Str) (es : List Elem), w.filename = f → Nested f es → Nested f ((el w).toList ++ es) := by
    intro w f es hw hn
    cases hx : el w with
    | none => simpa using hn
    | some e => exact .line f e es (by rw [he w e hx]; exact hw) hn
  have cons : ∀ (w : Where) (ws : List Where), (w :: ws).filterMap el = (el w).toList ++ ws.filterMap el := by
    intro w ws
    cases hx : el w with
    | none => simp [hx]
    | some e => simp [hx]
  have mem : ∀ (w : Where) x, x ∈ filesOf (el w).toList → x = w.filename := by
    intro w x hx
    cases hy : el w with
    | none => rw [hy] at hx; simp [filesOf] at hx
    | some e => rw [hy] at hx; simp [filesOf, he w e hy] at hx; exact hx
  have app : ∀ a b : List Elem, filesOf (a ++ b) = filesOf a ++ filesOf b := fun a b => by simp [filesOf]
  induction h with
  | nil => intro _; exact ⟨.nil _, by simp [Items.flatten, filesOf]⟩
  | line h1 _ ih =>
    intro hn
    obtain ⟨i1, i2⟩ := ih hn
    rw [Items.flatten, cons]
    refine ⟨one _ _ _ rfl i1, fun x hx => ?_⟩
    rw [app] at hx
    rcases List.mem_append.1 hx with hx | hx
    · exact .inl (mem _ x hx)
    · exact i2 x hx
  | @incl f n l ls p c sub t h1 _ _ ih1 ih2 =>
    intro hn
    simp only [Items.files, List.nodup_cons, List.mem_cons, List.mem_append, not_or, List.nodup_append] at hn
    obtain ⟨⟨n1, n2, n3⟩, ⟨n4, n5⟩, n6, n7, n8⟩ := hn
    obtain ⟨i1, i2⟩ := ih1 (by simp [n4, n6])
    obtain ⟨j1, j2⟩ := ih2 (by simp [n3, n7])
    rw [Items.flatten, cons, List.filterMap_append]
    constructor
    · refine one _ _ _ rfl (.incl f p _ _ ?_ ?_ i1 j1)
      · intro hx
        rcases i2 f hx with e | e
        · exact n1 e
        · exact n2 e
      · intro x hx hy
        rcases i2 x hx with rfl | e1 <;> rcases j2 x hy with rfl | e2
        · exact n1 rfl
        · exact n5 e2
        · exact n2 e1
        · exact n8 x e1 x e2 rfl
    · intro x hx
      rw [app, app] at hx
      simp only [List.mem_append] at hx
      rcases hx with hx | hx | hx
      · exact .inl (mem _ x hx)
      · right
        rcases i2 x hx with rfl | e
        · simp [Items.files]
        · simp [Items.files, e]
      · rcases j2 x hx with e | e
        · exact .inl e
        · right; simp [Items.files, e]

theorem lineTells_at {fs : FS} {w : Where} {ms : List Msg} {g : Gives} (h : LineTells fs w ms g) {e : Elem}
    (he : g.elem? = some e) : e.at_ = w := by
  cases h with
  | mk _ _ _ _ _ _ _ h5 => cases h5 <;> simp [Gives.elem?] at he <;> subst he <;> rfl

theorem lineTells_text {fs : FS} {w : Where} {ms : List Msg} {g : Gives} (h : LineTells fs w ms g) :
    ∃ s bad, DecodesAs w.line s bad := by
  cases h with
  | mk h1 => exact ⟨_, _, h1⟩

theorem elemsOf_flatten {fs : FS} : ∀ (told : List Told), (∀ x ∈ told, lineModel fs x.line = some (x.msgs, x.gives)) →
    elemsOf told = (told.map (·.line)).filterMap fun w => (lineModel fs w).bind fun r => r.2.elem?
  | [], _ => rfl
  | x :: xs, h => by
    have ih := elemsOf_flatten xs fun y hy => h y (by simp [hy])
    have hx := h x (by simp)
    unfold elemsOf at ih ⊢
    rw [List.map_cons, List.filterMap_cons, List.filterMap_cons, hx, ih]
    rfl

theorem elemSays_blank (env : DEnv) (s : Sofar) (c : Bool) (w : Where) : elemSays env s (.empty c w) = ([], s) := rfl

theorem dialplanSays_filter (env : DEnv) : ∀ (es : List Elem) (s : Sofar),
    dialplanSays env s es = dialplanSays env s (es.filter notBlank)
  | [], _ => rfl
  | .empty c w :: es, s => by
    rw [dialplanSays, elemSays_blank, List.filter_cons_of_neg (by simp [notBlank]), ← dialplanSays_filter env es]
    rfl
  | .ctx c :: es, s => by
    rw [dialplanSays, List.filter_cons_of_pos (by rfl), dialplanSays, ← dialplanSays_filter env es]
  | .var c :: es, s => by
    rw [dialplanSays, List.filter_cons_of_pos (by rfl), dialplanSays, ← dialplanSays_filter env es]

end ALint
