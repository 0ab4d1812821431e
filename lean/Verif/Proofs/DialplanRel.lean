import Verif.Proofs.DialplanLine
import Verif.Proofs.Separate

/-!
# The dialplan in terms of the elements read
-/

namespace ALint
open ALint.Spec
open Pattern (Values)

/-! ## Spec functions, one element more -/

theorem headers_append (a b : List Elem) : headers (a ++ b) = headers a ++ headers b := by
  induction a with
  | nil => rfl
  | cons e es ih => cases e <;> simp [headers, ih]

theorem lastHeader_append (cur : Option Str) (a b : List Elem) :
    lastHeader cur (a ++ b) = lastHeader (lastHeader cur a) b := by
  induction a generalizing cur with
  | nil => rfl
  | cons e es ih => cases e <;> simp [lastHeader, ih]

theorem governed_append (cur : Option Str) (a b : List Elem) :
    governed cur (a ++ b) = governed cur a ++ governed (lastHeader cur a) b := by
  induction a generalizing cur with
  | nil => rfl
  | cons e es ih => cases e <;> simp [governed, lastHeader, ih]

theorem linesOf_snoc_ctx (n : Str) (es : List Elem) (c : CtxE) : linesOf n (es ++ [.ctx c]) = linesOf n es := by
  simp [linesOf, governed_append, governed]

theorem linesOf_snoc_empty (n : Str) (es : List Elem) (b : Bool) (w : Where) :
    linesOf n (es ++ [.empty b w]) = linesOf n es := by
  simp [linesOf, governed_append, governed]

theorem linesOf_snoc_var (n : Str) (es : List Elem) (v : VarE) :
    linesOf n (es ++ [.var v]) = linesOf n es ++ (if lastHeader none es = some n then [v] else []) := by
  by_cases h : lastHeader none es = some n <;> simp [linesOf, governed_append, governed, h]

theorem stepLines_snoc_ctx (es : List Elem) (c : CtxE) : stepLines (es ++ [.ctx c]) = stepLines es := by
  simp [stepLines, governed_append, governed]

theorem stepLines_snoc_empty (es : List Elem) (b : Bool) (w : Where) :
    stepLines (es ++ [.empty b w]) = stepLines es := by
  simp [stepLines, governed_append, governed]

theorem stepLines_snoc_var (es : List Elem) (v : VarE) :
    stepLines (es ++ [.var v]) = stepLines es ++
      (if ((lastHeader none es).map fun n => !special n).getD false && stepLine v then [v] else []) := by
  unfold stepLines
  simp only [governed_append, governed, List.filter_append, List.map_append, List.append_cancel_left_eq]
  by_cases h : (((lastHeader none es).map fun n => !special n).getD false && stepLine v) = true
  · simp only [List.filter, h, if_true, List.map]
  · simp only [List.filter, h, List.map]
    simp

/-- No header. -/
def noHeader : List Elem → Bool
  | [] => true
  | .ctx _ :: _ => false
  | _ :: es => noHeader es

/-- The first header of that name is the last header. -/
def openBlock (n : Str) : List Elem → Bool
  | [] => false
  | .ctx c :: es => if c.name = n then noHeader es else openBlock n es
  | _ :: es => openBlock n es

theorem noHeader_append (a b : List Elem) : noHeader (a ++ b) = (noHeader a && noHeader b) := by
  induction a with
  | nil => simp [noHeader]
  | cons e es ih => cases e <;> simp [noHeader, ih]

theorem block_snoc (es : List Elem) (v : VarE) :
    block (es ++ [.var v]) = block es ++ (if noHeader es then [v] else []) := by
  induction es with
  | nil => simp [block, noHeader]
  | cons e es ih =>
    cases e with
    | ctx c => simp [block, noHeader]
    | var x => exact congrArg (x :: ·) ih
    | empty b w => exact ih

theorem block_snoc_ctx (es : List Elem) (c : CtxE) : block (es ++ [.ctx c]) = block es := by
  induction es with
  | nil => rfl
  | cons e es ih => cases e <;> simp [block, ih]

theorem block_snoc_empty (es : List Elem) (b : Bool) (w : Where) : block (es ++ [.empty b w]) = block es := by
  induction es with
  | nil => rfl
  | cons e es ih => cases e <;> simp [block, ih]

theorem firstBlock_snoc (n : Str) (es : List Elem) (v : VarE) :
    firstBlock n (es ++ [.var v]) = (firstBlock n es).map fun b => b ++ if openBlock n es then [v] else [] := by
  induction es with
  | nil => rfl
  | cons e es ih =>
    cases e with
    | ctx c =>
      by_cases h : c.name = n
      · simp [firstBlock, openBlock, h, block_snoc]
      · simp [firstBlock, openBlock, h, ih]
    | var v' => exact ih
    | empty b w => exact ih

theorem firstBlock_snoc_ctx (n : Str) (es : List Elem) (c : CtxE) :
    firstBlock n (es ++ [.ctx c]) = (firstBlock n es).or (if c.name = n then some [] else none) := by
  induction es with
  | nil => simp [firstBlock, block]
  | cons e es ih =>
    cases e with
    | ctx d =>
      by_cases h : d.name = n
      · simp [firstBlock, h, block_snoc_ctx]
      · simp [firstBlock, h, ih]
    | var v' => simp [firstBlock, ih]
    | empty b w => simp [firstBlock, ih]

theorem firstBlock_snoc_empty (n : Str) (es : List Elem) (b : Bool) (w : Where) :
    firstBlock n (es ++ [.empty b w]) = firstBlock n es := by
  induction es with
  | nil => rfl
  | cons e es ih =>
    cases e with
    | ctx d =>
      by_cases h : d.name = n
      · simp [firstBlock, h, block_snoc_empty]
      · simp [firstBlock, h, ih]
    | var v' => simp [firstBlock, ih]
    | empty b w => simp [firstBlock, ih]

theorem firstBlock_isSome (n : Str) (es : List Elem) : (firstBlock n es).isSome ↔ n ∈ headers es := by
  induction es with
  | nil => simp [firstBlock, headers]
  | cons e es ih =>
    cases e with
    | ctx d =>
      by_cases h : d.name = n
      · simp [firstBlock, headers, h]
      · have : ¬ n = d.name := fun e => h e.symm
        simp [firstBlock, headers, h, ih, this]
    | var v' => simp [firstBlock, headers, ih]
    | empty b w => simp [firstBlock, headers, ih]

theorem openBlock_snoc_ctx (n : Str) (es : List Elem) (c : CtxE) :
    openBlock n (es ++ [.ctx c]) = (decide (n ∉ headers es) && decide (c.name = n)) := by
  induction es with
  | nil => by_cases h : c.name = n <;> simp [openBlock, noHeader, headers, h]
  | cons e es ih =>
    cases e with
    | ctx d =>
      by_cases h : d.name = n
      · simp [openBlock, headers, h, noHeader_append, noHeader]
      · have : ¬ n = d.name := fun e => h e.symm
        simp [openBlock, headers, h, ih, this]
    | var v' => exact ih
    | empty b w => exact ih

theorem openBlock_snoc_other (n : Str) (es : List Elem) (e : Elem) (h : noHeader [e] = true) :
    openBlock n (es ++ [e]) = openBlock n es := by
  induction es with
  | nil => cases e <;> simp [openBlock, noHeader] at h ⊢
  | cons e' es ih =>
    cases e' with
    | ctx d =>
      by_cases hd : d.name = n
      · simp [openBlock, hd, noHeader_append, h]
      · simp [openBlock, hd, ih]
    | var v' => simp [openBlock, ih]
    | empty b w => simp [openBlock, ih]

/-! ## The relation -/

/-- Where assignments go. -/
def curOf (es : List Elem) : Cur :=
  match lastHeader none es with
  | none => .none
  | some n =>
    if n = c! "general" then .general
    else if n = c! "globals" then (if openBlock (c! "globals") es then .globals else .detached)
    else .ctx n

structure Rel (es : List Elem) (log : List Msg) (st : DState) : Prop where
  cur : st.cur = curOf es
  names : st.dp.contexts.map (·.name) = ((headers es).filter fun n => !special n).eraseDups
  includes : ∀ c ∈ st.dp.contexts, c.includes =
    ((linesOf c.name es).filter fun v => v.key = c! "include").map fun v => (v.value, v.at_)
  steps : ∀ c ∈ st.dp.contexts,
    List.Sublist (c.steps.map (·.at_)) (((linesOf c.name es).filter stepLine).map (·.at_))
  general : st.dp.general.map (·.2) = if c! "general" ∈ headers es then some (linesOf (c! "general") es) else none
  globals : st.dp.globals.map (·.2) = firstBlock (c! "globals") es
  count : stepCount st.dp + (drops log).length = (stepLines es).length

theorem mem_names {st : DState} {es : List Elem} {log : List Msg} (h : Rel es log st) {n : Str}
    (hn : n ∈ headers es) (hs : special n = false) : ∃ c ∈ st.dp.contexts, c.name = n := by
  have : n ∈ st.dp.contexts.map (·.name) := by
    rw [h.names, List.mem_eraseDups]
    exact List.mem_filter.2 ⟨hn, by simp [hs]⟩
  simpa using this

theorem linesOf_unseen {n : Str} {es : List Elem} (h : n ∉ headers es) : linesOf n es = [] := by
  have key : ∀ (cur : Option Str) (es : List Elem), n ∉ headers es → cur ≠ some n →
      (governed cur es).filter (fun x => x.1 = some n) = [] := by
    intro cur es
    induction es generalizing cur with
    | nil => simp [governed]
    | cons e es ih =>
      cases e with
      | ctx c =>
        intro h hc
        simp only [headers, List.mem_cons, not_or] at h
        exact ih _ h.2 (by simpa using fun e => h.1 e.symm)
      | var v =>
        intro h hc
        simp only [governed, List.filter]
        simp [hc, ih cur h hc]
      | empty b w => exact fun h hc => ih cur h hc
  simp [linesOf, key none es h (by simp)]

/-- Counting when a context is replaced. -/
theorem stepCount_put {dp : Dialplan} (hn : (dp.contexts.map (·.name)).Nodup) {n : Str} {c d : DCtx}
    (hc : dp.get n = some c) (hd : d.name = n) :
    ((putCtx d dp.contexts).map fun c => c.steps.length).sum + c.steps.length =
      (dp.contexts.map fun c => c.steps.length).sum + d.steps.length := by
  unfold Dialplan.get at hc
  generalize dp.contexts = l at hn hc
  induction l with
  | nil => simp at hc
  | cons e es ih =>
    simp only [List.map_cons, List.nodup_cons] at hn
    by_cases h : e.name = n
    · simp [h] at hc
      subst hc
      simp [putCtx, h, hd]
      omega
    · simp only [List.find?, h, decide_false] at hc
      have := ih hn.2 hc
      simp only [putCtx, hd, h, if_false, List.map_cons, List.sum_cons]
      omega

theorem mem_of_get_iff {st : DState} (hi : DpInv st) {c : DCtx} :
    c ∈ st.dp.contexts ↔ st.dp.get c.name = some c :=
  ⟨fun h => get_of_mem hi.names h, fun h => (get_mem h).1⟩

theorem stepCount_line {st st' : DState} (hi : DpInv st) {n : Str} {c c' : DCtx}
    (hf : LineFrame st st' n) (hc : st.dp.get n = some c) (hc' : st'.dp.get n = some c') :
    stepCount st'.dp + c.steps.length = stepCount st.dp + c'.steps.length := by
  -- the two lists of contexts agree except at `n`
  have key : ∀ (l l' : List DCtx), l'.map (·.name) = l.map (·.name) → (l.map (·.name)).Nodup →
      (∀ m, m ≠ n → l'.find? (·.name = m) = l.find? (·.name = m)) →
      l.find? (·.name = n) = some c → l'.find? (·.name = n) = some c' →
      (l'.map fun c => c.steps.length).sum + c.steps.length =
        (l.map fun c => c.steps.length).sum + c'.steps.length := by
    intro l
    induction l with
    | nil => intro l' _ _ _ h; simp at h
    | cons d ds ih =>
      intro l' hm hn ho h1 h2
      cases l' with
      | nil => simp at hm
      | cons d' ds' =>
        simp only [List.map_cons, List.cons.injEq] at hm
        simp only [List.map_cons, List.nodup_cons] at hn
        by_cases hd : d.name = n
        · have hd' : d'.name = n := by rw [hm.1]; exact hd
          simp [hd] at h1
          simp [hd'] at h2
          subst h1; subst h2
          -- the tails are equal
          have : ds' = ds := by
            have hne : ∀ x ∈ ds, x.name ≠ n := by
              intro x hx e
              exact hn.1 (by rw [hd, ← e]; exact List.mem_map.2 ⟨x, hx, rfl⟩)
            have ho' : ∀ m, m ≠ n → ds'.find? (·.name = m) = ds.find? (·.name = m) := by
              intro m hm'
              have := ho m hm'
              have g1 : ¬ d.name = m := by rw [hd]; exact fun e => hm' e.symm
              have g2 : ¬ d'.name = m := by rw [hd']; exact fun e => hm' e.symm
              simpa [g1, g2] using this
            clear ho hd hd' ih
            have hn2 := hn.2
            have hm2 := hm.2
            clear hn hm
            induction ds generalizing ds' with
            | nil => simpa using hm2
            | cons x xs ih2 =>
              cases ds' with
              | nil => simp at hm2
              | cons y ys =>
                simp only [List.map_cons, List.cons.injEq] at hm2
                simp only [List.map_cons, List.nodup_cons] at hn2
                have hxn := hne x (by simp)
                have e1 := ho' x.name hxn
                simp [hm2.1] at e1
                subst e1
                congr 1
                refine ih2 _ (fun z hz => hne z (by simp [hz])) ?_ hn2.2 hm2.2
                intro m hm'
                by_cases hym : y.name = m
                · have hnil : ∀ l : List DCtx, y.name ∉ l.map (·.name) → l.find? (·.name = y.name) = none := by
                    intro l hl
                    rw [List.find?_eq_none]
                    intro z hz hz'
                    simp at hz'
                    exact hl (by rw [← hz']; exact List.mem_map.2 ⟨z, hz, rfl⟩)
                  subst hym
                  rw [hnil xs hn2.1, hnil ys (by rw [hm2.2]; exact hn2.1)]
                · have := ho' m hm'
                  simpa [hym] using this
          rw [this]
          simp
          omega
        · have hd' : ¬ d'.name = n := by rw [hm.1]; exact hd
          have e1 := ho d.name hd
          simp [hm.1] at e1
          subst e1
          simp [hd] at h1 h2
          have := ih ds' hm.2 hn.2 (fun m hm' => by
            by_cases hym : d'.name = m
            · have hnil : ∀ l : List DCtx, d'.name ∉ l.map (·.name) → l.find? (·.name = d'.name) = none := by
                intro l hl
                rw [List.find?_eq_none]
                intro z hz hz'
                simp at hz'
                exact hl (by rw [← hz']; exact List.mem_map.2 ⟨z, hz, rfl⟩)
              subst hym
              rw [hnil ds hn.1, hnil ds' (by rw [hm.2]; exact hn.1)]
            · have := ho m hm'
              simpa [hym] using this) (by simpa using h1) (by simpa using h2)
          simp only [List.map_cons, List.sum_cons]
          omega
  exact key _ _ hf.names hi.names hf.other hc hc'

theorem rel_ctx {es : List Elem} {log ms : List Msg} {st st' : DState} {c : CtxE} (hi : DpInv st)
    (h : Rel es log st) (hc : HeaderCase st c st' ms) : Rel (es ++ [.ctx c]) (log ++ ms) st' := by
  have hlast : lastHeader none (es ++ [.ctx c]) = some c.name := by simp [lastHeader_append, lastHeader]
  have hhead : headers (es ++ [.ctx c]) = headers es ++ [c.name] := by simp [headers_append, headers]
  have hspec : special c.name = true → ((headers es ++ [c.name]).filter fun n => !special n) =
      (headers es).filter fun n => !special n := by intro h; simp [h]
  have hgen : c! "general" ∉ [c.name] → (c! "general" ∈ headers es ++ [c.name] ↔ c! "general" ∈ headers es) := by
    intro h; simp at h; simp [h]
  cases hc with
  | general ms hn hg hm =>
    have hs : special c.name = true := by simp [special, hn]
    have hnot : c! "general" ∉ headers es := by
      intro hmem
      have := h.general
      rw [hg, if_pos hmem] at this
      simp at this
    refine ⟨?_, ?_, ?_, ?_, ?_, ?_, ?_⟩
    · simp [curOf, hlast, hn]
    · rw [hhead, hspec hs]; exact h.names
    · intro d hd; rw [linesOf_snoc_ctx]; exact h.includes d hd
    · intro d hd; rw [linesOf_snoc_ctx]; exact h.steps d hd
    · rw [hhead, linesOf_snoc_ctx, linesOf_unseen hnot]; simp [hn]
    · rw [firstBlock_snoc_ctx]; simp [hn]; exact h.globals
    · rw [drops_append, drops_nil (l := ms) fun m hm' => by rw [hm m hm']; rfl, stepLines_snoc_ctx]
      simpa [stepCount] using h.count
  | globals ms hn hg hm =>
    have hs : special c.name = true := by simp [special, hn]
    have hnot : firstBlock (c! "globals") es = none := by
      rw [← h.globals, hg]; rfl
    have hnot' : c! "globals" ∉ headers es := by
      rw [← firstBlock_isSome, hnot]; simp
    refine ⟨?_, ?_, ?_, ?_, ?_, ?_, ?_⟩
    · simp [curOf, hlast, hn, openBlock_snoc_ctx, hnot']
    · rw [hhead, hspec hs]; exact h.names
    · intro d hd; rw [linesOf_snoc_ctx]; exact h.includes d hd
    · intro d hd; rw [linesOf_snoc_ctx]; exact h.steps d hd
    · rw [linesOf_snoc_ctx]
      have : (c! "general" ∈ headers (es ++ [.ctx c])) ↔ c! "general" ∈ headers es := by
        rw [hhead]; exact hgen (by rw [hn]; decide)
      simp only [this]; exact h.general
    · rw [firstBlock_snoc_ctx]; simp [hn, hnot]
    · rw [drops_append, drops_nil (l := ms) fun m hm' => by rw [hm m hm']; rfl, stepLines_snoc_ctx]
      simpa [stepCount] using h.count
  | detached g hn hg =>
    have hs : special c.name = true := by simp [special, hn]
    have hsome : (firstBlock (c! "globals") es).isSome := by
      rw [← h.globals, hg]; rfl
    have hin := (firstBlock_isSome _ _).1 hsome
    refine ⟨?_, ?_, ?_, ?_, ?_, ?_, ?_⟩
    · simp [curOf, hlast, hn, openBlock_snoc_ctx, hin]
    · rw [hhead, hspec hs]; exact h.names
    · intro d hd; rw [linesOf_snoc_ctx]; exact h.includes d hd
    · intro d hd; rw [linesOf_snoc_ctx]; exact h.steps d hd
    · rw [linesOf_snoc_ctx]
      have : (c! "general" ∈ headers (es ++ [.ctx c])) ↔ c! "general" ∈ headers es := by
        rw [hhead]; exact hgen (by rw [hn]; decide)
      simp only [this]; exact h.general
    · rw [firstBlock_snoc_ctx]
      obtain ⟨b, hb⟩ := Option.isSome_iff_exists.1 hsome
      rw [h.globals, hb]; rfl
    · rw [drops_append, stepLines_snoc_ctx]
      simpa [drops, dropKind] using h.count
  | fresh ms hn hg hm =>
    have hs := hn
    simp only [special, Bool.or_eq_false_iff, decide_eq_false_iff_not] at hs
    have hnot : c.name ∉ st.dp.contexts.map (·.name) := by
      intro hmem
      obtain ⟨d, hd, he⟩ := List.mem_map.1 hmem
      unfold Dialplan.get at hg
      rw [List.find?_eq_none] at hg
      exact hg d hd (by simp [he])
    have hnot' : c.name ∉ headers es := by
      intro hmem
      obtain ⟨d, hd, he⟩ := mem_names h hmem hn
      exact hnot (List.mem_map.2 ⟨d, hd, he⟩)
    refine ⟨?_, ?_, ?_, ?_, ?_, ?_, ?_⟩
    · simp [curOf, hlast, hs.1, hs.2]
    · rw [hhead, List.filter_append, List.eraseDups_append, ← h.names]
      have : ([c.name].filter fun n => !special n) = [c.name] := by simp [hn]
      rw [this]
      have : [c.name].removeAll ((headers es).filter fun n => !special n) = [c.name] := by
        simp [List.removeAll, List.filter, hnot']
      rw [this]
      simp [List.eraseDups_cons]
    · intro d hd
      rw [linesOf_snoc_ctx]
      rcases List.mem_append.1 hd with hd | hd
      · exact h.includes d hd
      · simp at hd; subst hd; simp [linesOf_unseen hnot']
    · intro d hd
      rw [linesOf_snoc_ctx]
      rcases List.mem_append.1 hd with hd | hd
      · exact h.steps d hd
      · simp at hd; subst hd; simp [linesOf_unseen hnot']
    · rw [linesOf_snoc_ctx]
      have : (c! "general" ∈ headers (es ++ [.ctx c])) ↔ c! "general" ∈ headers es := by
        rw [hhead]; exact hgen (by simpa using fun e => hs.1 e.symm)
      simp only [this]; exact h.general
    · rw [firstBlock_snoc_ctx]; simp [hs.2]; exact h.globals
    · rw [drops_append, drops_nil (l := ms) fun m hm' => by rw [hm m hm']; rfl, stepLines_snoc_ctx]
      simpa [stepCount] using h.count
  | again ms d hn hg hc hm =>
    have hs := hn
    simp only [special, Bool.or_eq_false_iff, decide_eq_false_iff_not] at hs
    obtain ⟨hmem, hname⟩ := get_mem hg
    have hex : ∃ e ∈ st.dp.contexts, e.name =
      ({ d with lastPrio := none, sorted := none, at_ := c.at_ } : DCtx).name := ⟨d, hmem, rfl⟩
    have hin : c.name ∈ (headers es).filter fun n => !special n := by
      have : c.name ∈ st.dp.contexts.map (·.name) := List.mem_map.2 ⟨d, hmem, hname⟩
      rw [h.names, List.mem_eraseDups] at this
      exact this
    refine ⟨?_, ?_, ?_, ?_, ?_, ?_, ?_⟩
    · simp [curOf, hlast, hs.1, hs.2]
    · show (putCtx _ _).map _ = _
      rw [putCtx_names, hhead, List.filter_append, List.eraseDups_append, ← h.names]
      have : ([c.name].filter fun n => !special n).removeAll ((headers es).filter fun n => !special n) = [] := by
        simp only [List.removeAll, List.filter_eq_nil_iff]
        intro x hx
        have : x = c.name := by simpa using (List.mem_filter.1 hx).1
        subst this
        rw [List.elem_eq_mem]
        simpa using hin
      rw [this]
      simp
    · intro x hx
      rw [linesOf_snoc_ctx]
      rcases (mem_putCtx hi.names hex).1 hx with rfl | ⟨hx, _⟩
      · exact h.includes d hmem
      · exact h.includes x hx
    · intro x hx
      rw [linesOf_snoc_ctx]
      rcases (mem_putCtx hi.names hex).1 hx with rfl | ⟨hx, _⟩
      · exact h.steps d hmem
      · exact h.steps x hx
    · rw [linesOf_snoc_ctx]
      have : (c! "general" ∈ headers (es ++ [.ctx c])) ↔ c! "general" ∈ headers es := by
        rw [hhead]; exact hgen (by simpa using fun e => hs.1 e.symm)
      simp only [this]; exact h.general
    · rw [firstBlock_snoc_ctx]; simp [hs.2]; exact h.globals
    · rw [drops_append, drops_nil (l := ms) fun m hm' => by rw [hm m hm']; rfl, stepLines_snoc_ctx]
      have := stepCount_put hi.names hg (d := { d with lastPrio := none, sorted := none, at_ := c.at_ }) hname
      have h2 := h.count
      simp only [stepCount, List.append_nil] at this h2 ⊢
      omega

theorem rel_step {env : DEnv} {es : List Elem} {log : List Msg} {st st' : DState} {el : Elem} (hi : DpInv st)
    (h : Rel es log st) (hs : (dialplanStep env st el).val = .ok st') :
    Rel (es ++ [el]) (log ++ (dialplanStep env st el).log) st' := by
  cases el with
  | ctx c => exact rel_ctx hi h (onContext_cases hs)
  | empty b w =>
    have hlast : lastHeader none (es ++ [.empty b w]) = lastHeader none es := by simp [lastHeader_append, lastHeader]
    have hhead : headers (es ++ [.empty b w]) = headers es := by simp [headers_append, headers]
    simp only [dialplanStep, Res.pure_val, Except.ok.injEq] at hs
    subst hs
    simp only [dialplanStep, Res.pure_log, List.append_nil]
    refine ⟨?_, ?_, ?_, ?_, ?_, ?_, ?_⟩
    · rw [h.cur, curOf, curOf, hlast, openBlock_snoc_other _ _ _ rfl]
    · rw [hhead]; exact h.names
    · intro c hc; rw [linesOf_snoc_empty]; exact h.includes c hc
    · intro c hc; rw [linesOf_snoc_empty]; exact h.steps c hc
    · rw [hhead, linesOf_snoc_empty]; exact h.general
    · rw [firstBlock_snoc_empty]; exact h.globals
    · rw [stepLines_snoc_empty]; exact h.count
  | var v =>
    have hlast : lastHeader none (es ++ [.var v]) = lastHeader none es := by simp [lastHeader_append, lastHeader]
    have hhead : headers (es ++ [.var v]) = headers es := by simp [headers_append, headers]
    have hcur' : curOf (es ++ [.var v]) = curOf es := by rw [curOf, curOf, hlast, openBlock_snoc_other _ _ _ rfl]
    have hcur := h.cur
    -- nothing changes for contexts not under the last header
    have hlines : ∀ n, lastHeader none es ≠ some n → linesOf n (es ++ [.var v]) = linesOf n es := by
      intro n hn; rw [linesOf_snoc_var]; simp [hn]
    have hctx : ∀ c ∈ st.dp.contexts, special c.name = false := by
      intro c hc
      have : c.name ∈ st.dp.contexts.map (·.name) := List.mem_map.2 ⟨c, hc, rfl⟩
      rw [h.names, List.mem_eraseDups] at this
      simpa using (List.mem_filter.1 this).2
    -- the cases without a dialplan context
    have quiet : ∀ (dp' : Dialplan) (ms : List Msg), drops ms = [] → dp'.contexts = st.dp.contexts →
        (∀ n, lastHeader none es = some n → special n = true) →
        dp'.general.map (·.2) = (if c! "general" ∈ headers es then some (linesOf (c! "general") (es ++ [.var v])) else none) →
        dp'.globals.map (·.2) = firstBlock (c! "globals") (es ++ [.var v]) →
        Rel (es ++ [.var v]) (log ++ ms) ⟨dp', st.cur, st.sp, st.uses⟩ := by
      intro dp' ms hms hcs hno hg hgl
      have hne : ∀ c ∈ st.dp.contexts, lastHeader none es ≠ some c.name := by
        intro c hc e
        have := hno _ e
        rw [hctx c hc] at this
        simp at this
      refine ⟨?_, ?_, ?_, ?_, ?_, hgl, ?_⟩
      · rw [hcur']; exact hcur
      · rw [hhead, hcs]; exact h.names
      · intro c hc
        rw [hcs] at hc
        rw [hlines _ (hne c hc)]; exact h.includes c hc
      · intro c hc
        rw [hcs] at hc
        rw [hlines _ (hne c hc)]; exact h.steps c hc
      · rw [hhead]; exact hg
      · rw [drops_append, hms, stepLines_snoc_var, stepCount, hcs]
        have : ((lastHeader none es).map fun n => !special n).getD false = false := by
          cases hl : lastHeader none es with
          | none => rfl
          | some n => simp [hno n hl]
        rw [this]
        simpa [stepCount] using h.count
    have hgl' : openBlock (c! "globals") es = true → lastHeader none es = some (c! "globals") := by
      intro ho
      -- the open block is the last header
      have key : ∀ (es : List Elem) (cur : Option Str), noHeader es = true → lastHeader cur es = cur := by
        intro es
        induction es with
        | nil => intro cur _; rfl
        | cons e es ih => cases e <;> intro cur h <;> simp [noHeader] at h <;> exact ih cur h
      have key2 : ∀ (es : List Elem) (cur : Option Str), openBlock (c! "globals") es = true →
          lastHeader cur es = some (c! "globals") := by
        intro es
        induction es with
        | nil => intro cur h; simp [openBlock] at h
        | cons e es ih =>
          cases e with
          | ctx d =>
            intro cur h
            simp only [openBlock] at h
            by_cases hd : d.name = c! "globals"
            · rw [if_pos hd] at h
              simp only [lastHeader, hd]
              exact key es _ h
            · rw [if_neg hd] at h
              exact ih _ h
          | var v => exact fun cur h => ih cur h
          | empty b w => exact fun cur h => ih cur h
      exact key2 es none ho
    have hgl : ∀ n, lastHeader none es = some n → openBlock (c! "globals") es = true → n = c! "globals" := by
      intro n hn ho
      rw [hgl' ho] at hn
      simpa using hn.symm
    cases hl : lastHeader none es with
    | none =>
      have hc0 : st.cur = .none := by rw [hcur, curOf, hl]
      simp only [dialplanStep, onVarset, hc0] at hs ⊢
      obtain ⟨_, _, h2, h3⟩ := Res.bind_ok hs
      simp only [Res.pure_val, Except.ok.injEq] at h2
      subst h2
      rw [h3]
      refine quiet st.dp _ rfl rfl (by simp [hl]) ?_ ?_
      · rw [hlines _ (by simp [hl])]; exact h.general
      · rw [firstBlock_snoc]
        have : openBlock (c! "globals") es = false := by
          cases ho : openBlock (c! "globals") es with
          | false => rfl
          | true =>
            rw [hgl' ho] at hl; simp at hl
        rw [this, ← h.globals]
        cases st.dp.globals <;> simp
    | some n =>
      by_cases hn1 : n = c! "general"
      · have hc0 : st.cur = .general := by rw [hcur, curOf, hl]; simp [hn1]
        simp only [dialplanStep, onVarset, hc0, Res.pure_val, Except.ok.injEq, Res.pure_log] at hs ⊢
        subst hs
        rw [← hc0]
        have ho : openBlock (c! "globals") es = false := by
          cases ho : openBlock (c! "globals") es with
          | false => rfl
          | true => have := hgl n hl ho; rw [hn1] at this; exact absurd this (by decide)
        have hin : c! "general" ∈ headers es := by
          have : ∀ (es : List Elem) (cur : Option Str) (n : Str), lastHeader cur es = some n → cur = some n ∨ n ∈ headers es := by
            intro es
            induction es with
            | nil => intro cur n h; exact .inl h
            | cons e es ih =>
              cases e with
              | ctx d =>
                intro cur n h
                rcases ih _ _ h with h | h
                · simp at h; simp [headers, h]
                · simp [headers, h]
              | var v => exact fun cur n h => ih cur n h
              | empty b w => exact fun cur n h => ih cur n h
          rcases this es none n hl with h | h
          · simp at h
          · rw [← hn1]; exact h
        refine quiet _ _ rfl rfl (by intro m hm; rw [hl] at hm; simp at hm; subst hm; simp [special, hn1]) ?_ ?_
        · have hg := h.general
          rw [if_pos hin] at hg ⊢
          cases hgen : st.dp.general with
          | none => rw [hgen] at hg; simp at hg
          | some g =>
            rw [hgen] at hg
            simp at hg
            rw [linesOf_snoc_var, hl, hn1]
            simp [addVar, hg]
        · rw [firstBlock_snoc, ho, ← h.globals]
          cases st.dp.globals <;> simp
      · by_cases hn2 : n = c! "globals"
        · have hlg : linesOf (c! "general") (es ++ [.var v]) = linesOf (c! "general") es :=
            hlines _ (by rw [hl, hn2]; decide)
          have hsp : ∀ m, lastHeader none es = some m → special m = true := by
            intro m hm; rw [hl] at hm; simp at hm; subst hm; simp [special, hn2]
          cases ho : openBlock (c! "globals") es with
          | true =>
            have hc0 : st.cur = .globals := by rw [hcur, curOf, hl]; simp [hn2, ho]
            simp only [dialplanStep, onVarset, hc0, Res.pure_val, Except.ok.injEq, Res.pure_log] at hs ⊢
            subst hs
            rw [← hc0]
            refine quiet _ _ rfl rfl hsp ?_ ?_
            · rw [hlg]; exact h.general
            · rw [firstBlock_snoc, ho, ← h.globals]
              cases st.dp.globals <;> simp [addVar]
          | false =>
            have hc0 : st.cur = .detached := by rw [hcur, curOf, hl]; simp [hn2, ho]
            simp only [dialplanStep, onVarset, hc0, Res.pure_val, Except.ok.injEq, Res.pure_log] at hs ⊢
            subst hs
            refine quiet _ _ rfl rfl hsp ?_ ?_
            · rw [hlg]; exact h.general
            · rw [firstBlock_snoc, ho, ← h.globals]
              cases st.dp.globals <;> simp
        · have hc0 : st.cur = .ctx n := by rw [hcur, curOf, hl]; simp [hn1, hn2]
          have hi' : DpInv st' := step_inv hi hs
          obtain ⟨c, hc, hlc⟩ := onVarset_cases hi hc0 hs
          obtain ⟨hf, c', hc', hinc, _, he1, he2⟩ := line_effect hc hlc
          obtain ⟨hm', hnm'⟩ := get_mem hc'
          have hother : ∀ d ∈ st'.dp.contexts, d.name ≠ n → d ∈ st.dp.contexts := by
            intro d hd hne
            have := get_of_mem hi'.names hd
            rw [hf.other d.name hne] at this
            exact (get_mem this).1
          have hself : ∀ d ∈ st'.dp.contexts, d.name = n → d = c' := by
            intro d hd e
            have := get_of_mem hi'.names hd
            rw [e, hc'] at this
            simpa using this.symm
          have hlg : linesOf (c! "general") (es ++ [.var v]) = linesOf (c! "general") es :=
            hlines _ (by rw [hl]; simpa using hn1)
          have ho : openBlock (c! "globals") es = false := by
            cases ho : openBlock (c! "globals") es with
            | false => rfl
            | true => exact absurd (hgl n hl ho) hn2
          have hln : linesOf n (es ++ [.var v]) = linesOf n es ++ [v] := by
            rw [linesOf_snoc_var, hl]; simp
          have hcm := (get_mem hc)
          refine ⟨?_, ?_, ?_, ?_, ?_, ?_, ?_⟩
          · rw [hcur', hf.cur]; exact hcur
          · rw [hhead, hf.names]; exact h.names
          · intro d hd
            by_cases hne : d.name = n
            · rw [hne, hself d hd hne, hln, hinc]
              have := h.includes c hcm.1
              rw [hcm.2] at this
              rw [this]
              by_cases hk : v.key = c! "include" <;> simp [hk]
            · rw [hlines _ (by rw [hl]; simpa using fun e => hne e.symm)]
              exact h.includes d (hother d hd hne)
          · intro d hd
            by_cases hne : d.name = n
            · rw [hne, hself d hd hne, hln]
              have := h.steps c hcm.1
              rw [hcm.2] at this
              simp only [List.filter_append, List.map_append]
              cases hsl : stepLine v with
              | true =>
                rcases he1 hsl with ⟨s, h1, h2, _⟩ | ⟨h1, _⟩
                · rw [h1]
                  simp only [List.map_append, List.map_cons, List.map_nil, List.filter, hsl, h2]
                  exact List.Sublist.append this (List.Sublist.refl _)
                · rw [h1]
                  exact this.trans (List.sublist_append_left _ _)
              | false =>
                rw [(he2 hsl).1]
                exact this.trans (List.sublist_append_left _ _)
            · rw [hlines _ (by rw [hl]; simpa using fun e => hne e.symm)]
              exact h.steps d (hother d hd hne)
          · rw [hhead, hlg, hf.general]; exact h.general
          · rw [firstBlock_snoc, ho, hf.globals, ← h.globals]
            cases st.dp.globals <;> simp
          · have hcount := stepCount_line hi hf hc hc'
            have h2 := h.count
            have hsn : special n = false := by simp [special, hn1, hn2]
            rw [drops_append, stepLines_snoc_var, hl]
            simp only [Option.map_some, Option.getD_some, hsn, Bool.not_false, Bool.true_and]
            cases hsl : stepLine v with
            | true =>
              rcases he1 hsl with ⟨s, h1, _, _, h4⟩ | ⟨h1, m, h4, _⟩
              · have h4' : drops (dialplanStep env st (.var v)).log = [] := h4
                rw [h1] at hcount
                rw [h4']
                simp at hcount h2 ⊢
                omega
              · have h4' : drops (dialplanStep env st (.var v)).log = [m] := h4
                rw [h1] at hcount
                rw [h4']
                simp at hcount h2 ⊢
                omega
            | false =>
              obtain ⟨h1, h4⟩ := he2 hsl
              have h4' : drops (dialplanStep env st (.var v)).log = [] := h4
              rw [h1] at hcount
              rw [h4']
              simp at hcount h2 ⊢
              omega

theorem Rel.init (sp : Option Str) : Rel [] [] (.init sp) where
  cur := rfl
  names := by simp [DState.init, Dialplan.init, headers]
  includes := by simp [DState.init, Dialplan.init]
  steps := by simp [DState.init, Dialplan.init]
  general := by simp [DState.init, Dialplan.init, headers]
  globals := by simp [DState.init, Dialplan.init, firstBlock]
  count := by simp [DState.init, Dialplan.init, stepCount, drops, stepLines, governed]

theorem rel_feed {env : DEnv} {es : List Elem} {log : List Msg} {st st' : DState} (hi : DpInv st)
    (h : Rel es log st) (more : List Elem) (hs : (feed (dialplanStep env) st more).val = .ok st') :
    Rel (es ++ more) (log ++ (feed (dialplanStep env) st more).log) st' := by
  induction more generalizing es log st with
  | nil =>
    simp only [feed, Res.pure_val, Except.ok.injEq] at hs
    subst hs
    simpa [feed] using h
  | cons e more ih =>
    obtain ⟨s, h1, h2, h3⟩ := feed_cons_ok hs
    have := ih (step_inv hi h1) (rel_step hi h h1) h2
    rw [h3]
    simpa using this

theorem rel_read {env : DEnv} {sp : Option Str} {es : List Elem} {st : DState}
    (hs : (feed (dialplanStep env) (.init sp) es).val = .ok st) :
    Rel es (feed (dialplanStep env) (.init sp) es).log st := by
  simpa using rel_feed (DpInv.init sp) (Rel.init sp) es hs

end ALint
