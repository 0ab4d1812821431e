import Verif.Proofs.DialplanRel

/-!
# Lines from their text
-/

namespace ALint
open ALint.Spec
open Pattern (Values)

theorem decVal_ascii {d : Char} (h : d.isDigit = true) : decVal? d = some (d.toNat - 48) := by
  have h2 : 48 ≤ d.toNat ∧ d.toNat ≤ 57 := by
    simp only [Char.isDigit, Bool.and_eq_true, decide_eq_true_eq] at h
    exact ⟨h.1, h.2⟩
  have : ∃ n, n < 58 ∧ 48 ≤ n ∧ d.toNat = n := ⟨d.toNat, by omega, by omega, rfl⟩
  obtain ⟨n, h3, h4, h5⟩ := this
  unfold decVal? decimalZeros
  rw [h5, List.find?_cons]
  have : (decide (48 ≤ n) && decide (n < 48 + 10)) = true := by simp; omega
  simp only [this]
  rfl

theorem decNat_decimal (ds : Str) (h : ∀ d ∈ ds, d.isDigit = true) (a : Nat) :
    decNat a ds = some (ds.foldl (fun a d => 10 * a + (d.toNat - 48)) a) := by
  induction ds generalizing a with
  | nil => rfl
  | cons d ds ih =>
    simp only [decNat, decVal_ascii (h d (by simp)), List.foldl]
    exact ih (fun x hx => h x (by simp [hx])) _

theorem readPrio_text {w : Where} {p : Option Nat} {ps : Str} (h : PrioText p ps) :
    readPrio w ps = .pure (some p) := by
  cases h with
  | next => rfl
  | num ds hne hd =>
    have h1 : isDigitS ps = true := by
      simp only [isDigitS, Bool.and_eq_true, List.all_eq_true]
      refine ⟨by cases ps <;> simp at hne ⊢, fun d h => ?_⟩
      simp [isDigitC, decVal_ascii (hd d h)]
    have h2 : ps ≠ c! "n" := by
      rintro rfl
      exact absurd (hd 'n' (by simp)) (by decide)
    simp only [readPrio, if_neg h2, h1, if_true, decNat_decimal ps hd 0]
    rfl

theorem prioText_chars {p : Option Nat} {ps : Str} (h : PrioText p ps) : ',' ∉ ps ∧ '(' ∉ ps := by
  cases h with
  | next => decide
  | num ds hne hd =>
    exact ⟨fun hm => absurd (hd _ hm) (by decide), fun hm => absurd (hd _ hm) (by decide)⟩

theorem splitLabel_text {p : Option Nat} {ps : Str} (h : PrioText p ps) (l : Option Str) :
    splitLabel (ps ++ labelText l) = (ps, l.map (· ++ [')'])) := by
  have hp := (prioText_chars h).2
  cases l with
  | none =>
    simp only [labelText, List.append_nil, splitLabel, splitOnce_none hp]
    rfl
  | some l =>
    simp only [labelText, splitLabel, splitOnce_append hp]
    rfl

theorem readLabel_text (w : Where) (l : Option Str) :
    readLabel w (l.map (· ++ [')'])) = .pure (some l) := by
  cases l with
  | none => rfl
  | some l => simp [readLabel]

/-- The pattern of the parts. -/
def partsPattern (p : Parts) : Except Exc (Option (Str × Values)) := readPattern p.exten

/-- The reading of a line from its parts. -/
theorem readExten_text (env : DEnv) (sp : Option Str) {v : VarE} {p : Parts} (h : StepText v p) :
    readExten env sp v =
      .bind (.lift (readPattern p.exten)) fun pat =>
      .bind (runApp env.toAEnv env.depth sp v.at_ (strV p.app)).toRes fun r =>
      .pure (r.1.1, r.2, .ext ⟨pat, p.prio, p.label, p.app, r.1.2, v.comment, v.at_⟩) := by
  obtain ⟨ps, hkey, hext, hprio, hlabel, hval⟩ := h
  have hlab : ',' ∉ ps ++ labelText p.label := by
    simp only [List.mem_append, not_or]
    refine ⟨(prioText_chars hprio).1, ?_⟩
    cases hl : p.label with
    | none => simp [labelText]
    | some l =>
      have := hlabel l hl
      simp [labelText, this]
  obtain ⟨rest, h1, h2⟩ : ∃ rest, splitExten v = .ok (p.exten, rest) ∧
      splitApp rest = (ps ++ labelText p.label, p.app) := by
    have hsa : ∀ rest, (rest = ps ++ labelText p.label ++ ',' :: p.app ∨
        (p.app = [] ∧ rest = ps ++ labelText p.label)) →
        splitApp rest = (ps ++ labelText p.label, p.app) := by
      rintro rest (rfl | ⟨ha, rfl⟩)
      · simp only [splitApp, splitOnce_append hlab]
      · simp only [splitApp, splitOnce_none hlab, ha]
    cases he : p.exten with
    | none =>
      have hk : ¬ v.key = c! "exten" := by rw [hkey, he]; decide
      refine ⟨v.value, by simp only [splitExten, if_neg hk], hsa _ ?_⟩
      rw [he] at hval
      simpa [extenText] using hval
    | some raw =>
      have hk : v.key = c! "exten" := by rw [hkey, he]; rfl
      obtain ⟨hr, hc⟩ := hext raw he
      rw [he] at hval
      have hr' : raw.isEmpty = false := by cases raw <;> simp at hr ⊢
      rcases hval with hval | ⟨ha, hval⟩
      · refine ⟨ps ++ labelText p.label ++ ',' :: p.app, ?_, hsa _ (.inl rfl)⟩
        have : v.value = raw ++ ',' :: (ps ++ labelText p.label ++ ',' :: p.app) := by
          rw [hval]; simp [extenText]
        simp [splitExten, if_pos hk, this, splitOnce_append hc, hr']
      · refine ⟨ps ++ labelText p.label, ?_, hsa _ (.inr ⟨ha, rfl⟩)⟩
        have : v.value = raw ++ ',' :: (ps ++ labelText p.label) := by
          rw [hval]; simp [extenText]
        simp [splitExten, if_pos hk, this, splitOnce_append hc, hr']
  unfold readExten
  rw [h1]
  rw [Res.bind_of_ok (x := Res.lift (Except.ok (p.exten, rest))) rfl]
  simp only [h2, splitLabel_text hprio, readPrio_text hprio, readLabel_text]
  rfl


/-! ## The messages of `add` -/

/-- The messages of `DialplanContext.add`. -/
def addKind : MK → Bool
  | .E_DP_PAT_MISSING | .E_DP_PRIO_MISSING | .E_DP_PRIO_INVALID | .E_DP_PRIO_DUPE | .E_DP_LABEL_DUPE
  | .W_DP_PRIO_BADORDER => true
  | _ => false

theorem appKind_add {k : MK} (h : appKind k = true) : addKind k = false := by
  cases k <;> first | rfl | simp [appKind] at h

/-- A line with these parts under a header of a context. -/
theorem text_add {env : DEnv} {st st' : DState} {v : VarE} {n : Str} {p : Parts} {log : List Msg}
    (hi : DpInv st) (hn : st.cur = .ctx n) (ht : StepText v p)
    (h : dialplanStep env st (.var v) = ⟨log, .ok st'⟩) :
    ∃ c pat jumps a pre as, st.dp.get n = some c ∧ readPattern p.exten = .ok pat ∧
      AddCase st.dp.lastPrio c ⟨pat, p.prio, p.label, p.app, jumps, v.comment, v.at_⟩ a as ∧
      st'.dp = st.dp.withAdded a ∧ st'.cur = st.cur ∧ log = pre ++ as ∧
      ∀ m ∈ pre, addKind m.kind = false ∧ dropKind m.kind = false := by
  obtain ⟨c, hc⟩ := hi.cur n hn
  have hk : v.key = c! "exten" ∨ v.key = c! "same" := by
    obtain ⟨_, hkey, _⟩ := ht
    cases he : p.exten with
    | none => rw [he] at hkey; exact .inr hkey
    | some r => rw [he] at hkey; exact .inl hkey
  have hv := congrArg Res.val h
  have hl := congrArg Res.log h
  simp only [dialplanStep, onVarset, hn, hc, fromVarset, if_pos hk, readExten_text env st.sp ht] at hv hl
  obtain ⟨⟨sp', us, dv⟩, g1, g2, g3⟩ := Res.bind_ok hv
  obtain ⟨_, _, g4, g5⟩ := Res.bind_ok g1
  obtain ⟨pat, g6, g7, g8⟩ := Res.bind_ok g4
  obtain ⟨⟨⟨sp'', jumps⟩, us'⟩, g9, g10, g11⟩ := Res.bind_ok g7
  simp only [Res.pure_val, Except.ok.injEq, Prod.mk.injEq] at g10
  obtain ⟨rfl, rfl, rfl⟩ := g10
  obtain ⟨dp, g12, g13, g14⟩ := Res.bind_ok g2
  simp only [Res.pure_val, Except.ok.injEq] at g13
  obtain ⟨_, g15, g16, g17⟩ := Res.bind_ok g12
  obtain ⟨a, g18, g19, g20⟩ := Res.bind_ok g16
  simp only [Res.pure_val, Except.ok.injEq] at g19
  have hac := addExt_cases g18
  rw [g3, g5, g8, g11, g14] at hl
  simp only [onDVar] at g17 hl
  rw [g17, g20] at hl
  refine ⟨c, pat, jumps, a, (expectArrow v).log ++
      evMsgs (runApp env.toAEnv env.depth st.sp v.at_ (strV p.app)).ev ++
      (canonCheck ⟨pat, p.prio, p.label, p.app, jumps, v.comment, v.at_⟩).log, _, hc, g6, hac,
      by rw [← g13, ← g19], by rw [← g13, hn], ?_, ?_⟩
  · rw [← hl]
    simp [Tr.toRes]
  · intro m hm
    rcases List.mem_append.1 hm with hm | hm
    · rcases List.mem_append.1 hm with hm | hm
      · rw [expectArrow_log] at hm
        rw [arrowMsgs_mem hm]; exact ⟨rfl, rfl⟩
      · exact ⟨appKind_add (here_runApp _ _ _ _ _ _ hm).2, appKind_drop (here_runApp _ _ _ _ _ _ hm).2⟩
    · rw [(canonCheck_log _ m hm).2]; exact ⟨rfl, rfl⟩

end ALint
