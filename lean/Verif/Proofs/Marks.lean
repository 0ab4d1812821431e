import Verif.Proofs.AppParts

/-!
# Question marks

How often `ExecIf` is nested in an application is bounded by the number of question marks.
-/

namespace ALint
open Spec

theorem marksAll_append (a b : List V) : V.marksAll (a ++ b) = V.marksAll a + V.marksAll b := by
  induction a with
  | nil => simp [V.marksAll]
  | cons v a ih => simp only [List.cons_append, V.marksAll, ih]; omega

theorem marks_char (c : Char) : (tk c).marks = if c = '?' then 1 else 0 := by
  simp only [tk, V.marks, List.count_cons, List.count_nil, beq_iff_eq]
  omega

theorem marksAll_chars (s : Str) : V.marksAll (s.map fun c => V.str [c]) = s.count '?' := by
  induction s with
  | nil => rfl
  | cons c s ih =>
    simp only [List.map_cons, V.marksAll, ih, V.marks, List.count_cons, List.count_nil]
    omega

mutual
theorem marks_tokens : (v : V) → V.marksAll v.tokens = v.marks
  | .str s => by rw [V.tokens, marksAll_chars, V.marks]
  | .lst items => by rw [V.tokens, V.marks, marksAll_tokens items]
  | .atom k n s l => by simp [V.tokens, V.marksAll]
  | .int _ => by simp [V.tokens, V.marksAll, V.marks]
  | .none => by simp [V.tokens, V.marksAll, V.marks]
theorem marksAll_tokens : (vs : List V) → V.marksAll (V.tokensAll vs) = V.marksAll vs
  | [] => rfl
  | v :: vs => by rw [V.tokensAll, marksAll_append, marks_tokens v, marksAll_tokens vs, V.marksAll]
end

theorem joinItems_marks (vs : List V) : V.marksAll (joinItems vs) ≤ V.marksAll vs := by
  induction vs with
  | nil => simp [joinItems]
  | cons v vs ih =>
    simp only [joinItems]
    split
    · have : V.marksAll (joinCons v (joinItems vs)) = v.marks + V.marksAll (joinItems vs) := by
        unfold joinCons
        split
        · rename_i h _; rw [h]; simp [V.marksAll, V.marks]; omega
        · simp [V.marksAll]
      rw [this]; simp [V.marksAll]; omega
    · simp [V.marksAll]; omega

theorem join_marks (vs : List V) : (join vs).marks ≤ V.marksAll vs := by
  refine Nat.le_trans ?_ (joinItems_marks vs)
  unfold join
  split
  · simp [V.marks]
  · rename_i v hv; simp [hv, V.marksAll]
  · simp [V.marks]

theorem decDigits_marks (fuel n : Nat) : (decDigits fuel n).count '?' = 0 := by
  have hne : ∀ k, k < 10 → Char.ofNat (48 + k) ≠ '?' := by decide
  induction fuel generalizing n with
  | zero => rfl
  | succ fuel ih =>
    rw [decDigits]
    split
    · rename_i h
      simp [hne n h]
    · rw [List.count_append, ih]
      simp [hne _ (Nat.mod_lt n (by decide))]

theorem intStr_marks (n : Int) : (intStr n).count '?' = 0 := by
  cases n with
  | ofNat n => exact decDigits_marks _ _
  | negSucc n =>
    rw [intStr, List.count_cons]
    simp [natStr, decDigits_marks]

mutual
theorem toStr_marks : (v : V) → ∀ s, v.toStr = .ok s → s.count '?' ≤ v.marks
  | .str t, s, h => by
    rw [V.toStr, Except.ok.injEq] at h
    rw [V.marks, h]
    exact Nat.le_refl _
  | .int n, s, h => by
    rw [V.toStr, Except.ok.injEq] at h
    rw [← h, intStr_marks]
    exact Nat.zero_le _
  | .none, s, h => by
    rw [V.toStr, Except.ok.injEq] at h
    rw [← h]
    decide
  | .lst items, s, h => by
    rw [V.toStr] at h
    rw [V.marks]
    exact toStrAll_marks items s h
  | .atom k n st l, s, h => by
    have hn := toStr_marks n
    have hs := toStr_marks st
    have hl := toStr_marks l
    rw [V.marks]
    have simple : ∀ (a b : Str), a.count '?' = 0 → b.count '?' = 0 →
        (if n.truthy then (V.toStr n).map (fun t => a ++ t ++ b) else .error .attributeError) = .ok s →
        s.count '?' ≤ n.marks + st.marks + l.marks := by
      intro a b ha hb h
      split at h
      · cases ht : n.toStr with
        | error e => rw [ht] at h; cases h
        | ok t =>
          rw [ht] at h
          cases h
          have := hn t ht
          rw [List.count_append, List.count_append]
          omega
      · cases h
    have part : (match V.toStr n, V.toStr st, V.toStr l with
      | .error e, _, _ => Except.error e
      | .ok _, .error e, _ => Except.error e
      | .ok tn, .ok ts, tl =>
        if l.truthy then tl.map (fun tl => c! "${" ++ tn ++ c! ":" ++ ts ++ c! ":" ++ tl ++ c! "}")
        else .ok (c! "${" ++ tn ++ c! ":" ++ ts ++ c! "}")) = .ok s → s.count '?' ≤ n.marks + st.marks + l.marks := by
      intro h
      cases htn : n.toStr with
      | error e => rw [htn] at h; cases h
      | ok tn =>
        cases hts : st.toStr with
        | error e => rw [htn, hts] at h; cases h
        | ok ts =>
          rw [htn, hts] at h
          have h1 := hn tn htn
          have h2 := hs ts hts
          simp only at h
          split at h
          · cases htl : l.toStr with
            | error e => rw [htl] at h; cases h
            | ok tl =>
              rw [htl] at h
              cases h
              have h3 := hl tl htl
              simp only [List.count_append, List.count_cons, List.count_nil, beq_iff_eq, ite_false, Char.reduceEq]
              omega
          · cases h
            simp only [List.count_append, List.count_cons, List.count_nil, beq_iff_eq, ite_false, Char.reduceEq]
            omega
    cases k with
    | var => exact simple (c! "${") (c! "}") (by decide) (by decide) (by simpa only [V.toStr] using h)
    | func => exact simple (c! "${") (c! "}") (by decide) (by decide) (by simpa only [V.toStr] using h)
    | expr => exact simple (c! "$[") (c! "]") (by decide) (by decide) (by simpa only [V.toStr] using h)
    | slice => exact part (by rw [V.toStr] at h; exact h)
    | funcSlice => exact part (by rw [V.toStr] at h; exact h)
    | dynSlice => exact part (by rw [V.toStr] at h; exact h)
theorem toStrAll_marks : (vs : List V) → ∀ s, V.toStrAll vs = .ok s → s.count '?' ≤ V.marksAll vs
  | [], s, h => by
    rw [V.toStrAll, Except.ok.injEq] at h
    rw [← h]
    exact Nat.zero_le _
  | v :: vs, s, h => by
    rw [V.toStrAll] at h
    rw [V.marksAll]
    cases h1 : v.toStr with
    | error e => rw [h1] at h; cases h
    | ok a =>
      cases h2 : V.toStrAll vs with
      | error e => rw [h1, h2] at h; cases h
      | ok b =>
        rw [h1, h2] at h
        cases h
        have := toStr_marks v a h1
        have := toStrAll_marks vs b h2
        rw [List.count_append]
        omega
end

/-! ## Reading -/

theorem marksAll_sepBy {c : Char} (parts : List (List V)) :
    V.marksAll (parts.map join) ≤ V.marksAll (sepBy (tk c) parts) := by
  induction parts with
  | nil => exact Nat.le_refl _
  | cons p parts ih =>
    have hp := join_marks p
    cases parts with
    | nil => simp only [List.map_cons, List.map_nil, V.marksAll, sepBy]; omega
    | cons q parts =>
      simp only [List.map_cons, V.marksAll, sepBy, marksAll_append] at ih ⊢
      omega

theorem fields_marks {c : Char} {v : V} {parts : List V} (h : Fields c v parts) : V.marksAll parts ≤ v.marks := by
  induction h with
  | text h1 h2 h3 h4 =>
    rw [← marks_tokens, h3]
    exact marksAll_sepBy _
  | inside h1 h2 ih =>
    rw [V.marks]
    omega
  | whole h1 h2 =>
    rw [V.marks, V.marksAll, V.marksAll]
    omega

theorem means_marks {part v : V} (h : Means part v) : v.marks ≤ part.marks := by
  rcases h with ⟨-, rfl⟩ | ⟨s, n, -, rfl, -⟩
  · exact Nat.le_refl _
  · exact Nat.zero_le _

theorem slice_marks {w : Where} {data name start length : V} {evs : List Ev} (h : SliceSays w data name start length evs) :
    name.marks + start.marks + length.marks ≤ data.marks := by
  have n0 : V.none.marks = 0 := rfl
  cases h with
  | wrongNumber h1 _ _ _ => have := fields_marks h1; rw [V.marksAll] at this; omega
  | start h1 h2 _ =>
    have := fields_marks h1
    have := means_marks h2
    simp only [V.marksAll] at *
    omega
  | zero h1 h2 => have := fields_marks h1; simp only [V.marksAll] at *; omega
  | badStart h1 _ _ => have := fields_marks h1; simp only [V.marksAll] at *; omega
  | both h1 h2 h3 _ =>
    have := fields_marks h1
    have := means_marks h2
    have := means_marks h3
    simp only [V.marksAll] at *
    omega
  | badLength h1 _ _ => have := fields_marks h1; simp only [V.marksAll] at *; omega
  | unfit h1 h2 _ _ _ =>
    have := fields_marks h1
    have := means_marks h2
    simp only [V.marksAll] at *
    omega
  | unfitZero h1 _ _ => have := fields_marks h1; simp only [V.marksAll] at *; omega

theorem parts_marks {w : Where} {data : V} {rest : List V} {args start length : V} {evs : List Ev}
    (h : CallParts w data rest args start length evs) : args.marks + start.marks + length.marks ≤ V.marksAll rest := by
  have n0 : V.none.marks = 0 := rfl
  cases h with
  | «open» _ _ => have := join_marks rest; omega
  | @closed args =>
    have := join_marks args
    rw [marksAll_append]
    omega
  | @part args tail _ _ _ _ _ h =>
    have := slice_marks h
    have := join_marks args
    have := join_marks tail
    rw [marksAll_append, V.marksAll]
    omega
  | @excess args tail _ _ _ _ _ _ _ h =>
    have := join_marks args
    rw [marksAll_append, V.marksAll]
    omega

theorem curly_marks {env : FEnv} {w : Where} {data v : V} {evs : List Ev} (h : CurlySays env w data v evs) : v.marks ≤ data.marks := by
  have n0 : V.none.marks = 0 := rfl
  cases h with
  | var _ _ _ => simp only [V.marks]; omega
  | slice _ _ h _ =>
    have := slice_marks h
    unfold takenPart
    split
    · simp only [V.marks]; omega
    · split <;> simp only [V.marks] <;> omega
  | @call f rest args start length fi parts look call h1 _ _ h2 _ _ =>
    have := parts_marks h2
    have hd : data.marks = f.count '?' + V.marksAll rest := by
      rw [← marks_tokens, h1, marksAll_append, V.marksAll, marks_char, if_neg (by decide)]
      have e : f.map tk = f.map fun c => V.str [c] := rfl
      rw [e, marksAll_chars]
      omega
    have hj := join_marks [.str f, .str (c! "("), args, .str (c! ")")]
    have e1 : (V.str (c! "(")).marks = 0 := by decide
    have e2 : (V.str (c! ")")).marks = 0 := by decide
    have e3 : (V.str f).marks = f.count '?' := by rw [V.marks]
    simp only [V.marksAll, e1, e2, e3] at hj
    unfold called
    rw [V.marks]
    split <;> (try simp only [n0]) <;> omega

theorem reads_marks {env : FEnv} {w : Where} {s : Str} {l : List V} {evs : List Ev} (h : TextReads env w s l evs) :
    V.marksAll l ≤ s.count '?' := by
  induction h with
  | plain _ => simp only [V.marksAll, V.marks]; omega
  | @curly pre s inner tail l1 l2 v e1 e2 e3 _ he _ hv _ ih1 ih2 =>
    have := curly_marks hv
    have := join_marks l1
    rw [he.1]
    simp only [V.marksAll, V.marks, List.count_append, List.count_cons]
    omega
  | @square pre s inner tail l1 l2 e1 e3 _ he _ _ ih1 ih2 =>
    have := join_marks l1
    rw [he.1]
    simp only [V.marksAll, V.marks, List.count_append, List.count_cons]
    omega

theorem data_marks {env : FEnv} {w : Where} {app s : Str} {v : V} {evs : List Ev} (h : DataSays env w app s v evs) :
    v.marks ≤ s.count '?' := by
  cases h with
  | text h => exact Nat.le_trans (join_marks _) (reads_marks h)
  | unread _ => rw [V.marks]; exact Nat.le_refl _

/-! ## Applications -/

theorem unquote_marks (e : Bool) (ts : List V) : V.marksAll (unquoteToks e ts) ≤ V.marksAll ts := by
  induction ts generalizing e with
  | nil => simp [unquoteToks]
  | cons t ts ih =>
    have h1 := ih true
    have h2 := ih false
    cases e <;> cases t <;> simp only [unquoteToks, V.marksAll] <;> try omega
    split
    · omega
    · split
      · omega
      · simp only [V.marksAll]; omega

theorem sepBy_mem_marks {d : Char} {parts : List (List V)} {p : List V} (h : p ∈ parts) :
    V.marksAll p ≤ V.marksAll (sepBy (tk d) parts) := by
  induction parts with
  | nil => cases h
  | cons q parts ih =>
    cases parts with
    | nil =>
      rw [sepBy]
      rcases List.mem_cons.1 h with rfl | h
      · exact Nat.le_refl _
      · cases h
    | cons r parts =>
      rw [sepBy, marksAll_append, V.marksAll]
      rcases List.mem_cons.1 h with rfl | h
      · omega
      · have := ih h; omega

/-- An action behind a question mark has fewer of them. -/
theorem acts_marks {w : Where} {name : Str} {data : V} {cond : List V} {acts : List Arg} {evs : List Ev}
    (h : PartsSay w name data cond acts evs) {v : V} (hv : Arg.one v ∈ acts) : v.marks < data.marks := by
  have key : ∀ (c s : List V) (more as : List (List V)), Pieces '?' data.tokens (c :: s :: more) →
      Pieces ':' (unquoteToks false s) as →
      Arg.one v ∈ ((as.take 2).filter (!·.isEmpty)).map (fun a => Arg.one (join a)) → v.marks < data.marks := by
    intro c s more as h1 h2 hv
    obtain ⟨a, ha, he⟩ := List.mem_map.1 hv
    cases he
    have ha : a ∈ as := List.mem_of_mem_take (List.mem_filter.1 ha).1
    have e1 := join_marks a
    have e2 : V.marksAll a ≤ V.marksAll (unquoteToks false s) := by
      rw [← h2.2.1]
      exact sepBy_mem_marks ha
    have e3 := unquote_marks false s
    have e4 : V.marksAll s ≤ V.marksAll (sepBy (tk '?') (s :: more)) := sepBy_mem_marks List.mem_cons_self
    have e5 : data.marks = V.marksAll c + (1 + V.marksAll (sepBy (tk '?') (s :: more))) := by
      rw [← marks_tokens, ← h1.2.1, sepBy, marksAll_append, V.marksAll]
      rfl
    omega
  cases h with
  | two h1 h2 => exact key _ _ _ _ h1 h2 hv
  | many h1 h2 => exact key _ _ _ _ h1 h2 hv
  | old _ _ _ _ => simp at hv
  | few _ _ => cases hv

theorem cond_marks {w : Where} {name : Str} {const : Bool} {data : V} {acts : List Arg} {evs : List Ev}
    (h : CondSays w name const data acts evs) {v : V} (hv : Arg.one v ∈ acts) : v.marks < data.marks := by
  cases h with
  | mk h1 _ _ _ _ => exact acts_marks h1 hv

theorem front_marks {env : FEnv} {w : Where} {raw : V} {front data : Str} {evs : List Ev} (h : Front env w raw front data evs) :
    data.count '?' ≤ raw.marks := by
  have rest : ∀ (raw : V) (front : Str) (rest : List V) (s : Str), raw.tokens = front.map tk ++ tk '(' :: rest →
      (join rest).toStr = .ok s → s.count '?' ≤ raw.marks := by
    intro raw front rest s h1 h2
    have e1 := toStr_marks _ s h2
    have e2 := join_marks rest
    rw [← marks_tokens, h1, marksAll_append, V.marksAll]
    omega
  induction h with
  | closed _ h1 _ h2 =>
    have := rest _ _ _ _ h1 h2
    rw [List.count_append] at this
    omega
  | unclosed _ h1 _ h2 _ =>
    have := rest _ _ _ _ h1 h2
    rw [List.count_cons]
    simpa using this
  | bare _ _ => exact Nat.zero_le _
  | @inside k t front data s l parens _ _ ih =>
    rw [V.marks]
    omega

end ALint
