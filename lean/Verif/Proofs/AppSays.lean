import Verif.Proofs.Marks

/-!
# What is said about an application
-/

namespace ALint
open ALint.Spec ALint.Props
open V (tokens tokensAll)

/-! ## Completeness -/

/-- A function that does what is said does nothing else, if something is said in any case. -/
theorem complete_of {α : Type} {R : List Ev → α → Prop} {x : Tr α} (hs : ∀ e a, R e a → x = ⟨e, .ok a⟩) (ht : ∃ e a, R e a)
    {evs : List Ev} {b : α} (h : x = ⟨evs, .ok b⟩) : R evs b := by
  obtain ⟨e, a, hr⟩ := ht
  have := hs e a hr
  rw [h] at this
  simp only [Tr.mk.injEq, Except.ok.injEq] at this
  rw [this.1, this.2]
  exact hr

theorem exactly_total (p : Prop) (m : Msg) : ∃ evs, Exactly p m evs := by
  by_cases h : p
  · exact ⟨_, .inl ⟨h, rfl⟩⟩
  · exact ⟨_, .inr ⟨h, rfl⟩⟩

/-! ## Arguments -/

theorem separate_normal (d : Char) (rm : Bool) (v : V) : ∀ p ∈ separateArgs d rm (.one v), Normal p := by
  intro p hp
  unfold separateArgs at hp
  obtain ⟨g, hg, rfl⟩ := List.mem_map.1 hp
  have := sepLoop_all d rm (.one v) (fun u => isPiece u = true) (fun i j => getSlice_iter_piece v i j)
    0 v.tokens .init 0 [] (by simp) g hg
  exact ⟨g, this, squash_eq_join g this⟩

theorem separate_join (d : Char) (rm : Bool) (v : V) :
    separateArgs d rm (.one v) = ((separateArgs d rm (.one v)).map V.tokens).map join := by
  rw [List.map_map]
  conv => lhs; rw [← List.map_id (separateArgs d rm (.one v))]
  exact List.map_congr_left fun p hp => normal_join (separate_normal d rm v p hp)

theorem argsOf_eq {d : Char} (hd : d ∉ sepSpecial) {data : V} {args : List V} (h : ArgsOf d data args) :
    separateArgs d false (.one data) = args := by
  obtain ⟨parts, hp, rfl⟩ := h
  rw [separate_join, pieces_unique hp (pieces_sep d hd data)]

theorem bareArgsOf_eq {d : Char} (hd : d ∉ sepSpecial) {data : V} {args : List V} (h : BareArgsOf d data args) :
    separateArgs d true (.one data) = args := by
  obtain ⟨parts, hp, rfl⟩ := h
  rw [separate_join, pieces_unique hp (pieces_sep d hd data), separate_true d (fun e => hd (by rw [e]; decide)), List.map_map]
  rfl

theorem count_says {w : Where} {name : Str} {mn : Option Nat} {mx : Nat} {args : List V} {evs : List Ev} (hx : 1 ≤ mx)
    (h0 : args ≠ []) (ht : ∀ a ∈ args, isText a = true) (h : CountSays w name (mn.getD 0) mx args evs) :
    minMaxCheck w name mn (some mx) args = ⟨evs, .ok ()⟩ := by
  obtain ⟨h1, h2⟩ := h
  have hfew : minMaxCheck.tooFew mn args = true ↔ given args < mn.getD 0 := by
    cases mn with
    | none => simp [minMaxCheck.tooFew]
    | some m => exact tooFew_iff m args h0 ht
  have hmany := tooMany_iff mx hx args
  unfold minMaxCheck
  rcases h1 with ⟨hp, rfl⟩ | ⟨hp, rfl⟩
  · rw [if_pos (hfew.2 hp)]
    rcases h2 with ⟨hq, rfl⟩ | ⟨hq, rfl⟩
    · omega
    · rfl
  · rw [if_neg (fun h => hp (hfew.1 h))]
    rcases h2 with ⟨hq, rfl⟩ | ⟨hq, rfl⟩
    · rw [if_pos (hmany.2 hq.2)]; rfl
    · rw [if_neg (fun h => hq ⟨by omega, hmany.1 h⟩)]; rfl

theorem pipe_says {w : Where} {name : Str} {data : V} {args : List V} {evs : List Ev} (h : PipeSays w name data args evs) :
    pipeCheck w name data args = ⟨evs, .ok ()⟩ := by
  unfold pipeCheck
  split
  · rename_i a
    exact exactly_emit (by rw [hasTok_iff]; simp) h fun _ => ⟨_, rfl⟩
  · rename_i hn
    rcases h with ⟨⟨a, ha, _⟩, _⟩ | ⟨_, rfl⟩
    · exact absurd ha (hn a)
    · rfl

theorem arg_says {w : Where} {name : Str} {n : Nat} {b : ArgBeh} {a : V} {evs : List Ev} (h : ArgSays w name n b a evs) :
    validateArg w name n b a = ⟨evs, .ok ()⟩ := by
  cases h with
  | any => rfl
  | @options opts _ bad dupe h1 h2 =>
    have hb : (badOptions opts a).isEmpty = true ↔ ¬ ∃ c ∈ letters a.tokens, c ∉ opts := by
      rw [badOptions_eq, List.isEmpty_iff]; simp
    have hf : (badOptions opts a).flatten = (letters a.tokens).filter (fun c => decide (c ∉ opts)) := by
      rw [badOptions_eq]
      generalize (letters a.tokens).filter _ = l
      induction l with
      | nil => rfl
      | cons x xs ih => simpa using ih
    unfold validateArg
    dsimp only
    rw [hf]
    have e1 : (if (badOptions opts a).isEmpty = true then Tr.pure ()
      else Tr.emit (mkMsg .E_APP_ARG_BADOPT w [(c! "argno", natV n), (c! "app", strV name),
        (c! "opts", strV ((letters a.tokens).filter fun c => decide (c ∉ opts)))])) = ⟨bad, .ok ()⟩ := by
      rcases h1 with ⟨hp, rfl⟩ | ⟨hp, rfl⟩
      · rw [if_neg (fun h => hb.1 h hp)]; rfl
      · rw [if_pos (hb.2 hp)]; rfl
    rw [e1]
    refine bind_done ?_
    rcases h2 with ⟨hp, rfl⟩ | ⟨hp, rfl⟩
    · rw [if_pos ((dupes_iff a).2 hp)]; rfl
    · rw [if_neg (fun h => hp ((dupes_iff a).1 h))]; rfl
  | appOrExten h =>
    unfold validateArg
    dsimp only
    rcases h with ⟨hp, rfl⟩ | ⟨hp, rfl⟩
    · rw [if_neg (fun h => h.elim hp.1 hp.2)]; rfl
    · rw [if_pos (by
        by_cases h : a = .str (c! "app")
        · exact .inl h
        · exact .inr (Classical.byContradiction fun h' => hp ⟨h, h'⟩))]
      rfl

theorem args_say {w : Where} {name : Str} {n : Nat} {bs : List ArgBeh} {as : List V} {evs : List Ev}
    (h : ArgsSay w name n bs as evs) : validateArgs w name n bs as = ⟨evs, .ok ()⟩ := by
  induction h with
  | @noneLeft n bs => cases bs <;> rfl
  | noMore => rfl
  | next h1 _ ih =>
    rw [validateArgs, arg_says h1]
    exact bind_done ih

theorem args_facts {data : V} {args : List V} (h : ArgsOf ',' data args) : args ≠ [] ∧ ∀ a ∈ args, isText a = true := by
  rw [← argsOf_eq (by decide) h]
  exact ⟨(C40_lossless ',' data).1, (separateArgs_tokens ',' false data).2⟩

theorem callArgs_says {w : Where} {name : Str} {mn : Option Nat} {behs : List ArgBeh} {data : V} {args : List V}
    {count each pipe : List Ev} (hb : behs ≠ []) (h0 : ArgsOf ',' data args)
    (h1 : CountSays w name (mn.getD 0) behs.length args count) (h2 : ArgsSay w name 1 behs args each)
    (h3 : PipeSays w name data args pipe) :
    callArgs w name mn behs data = ⟨count ++ (each ++ pipe), .ok args⟩ := by
  obtain ⟨f1, f2⟩ := args_facts h0
  rw [callArgs_eq, argsOf_eq (by decide) h0, count_says (List.length_pos_iff.2 hb) f1 f2 h1, args_say h2, pipe_says h3]
  simp

theorem jumpArgs_says {w : Where} {name : Str} {data : V} {args : List V} {count pipe : List Ev} (h0 : ArgsOf ',' data args)
    (h1 : CountSays w name 1 3 args count) (h3 : PipeSays w name data args pipe) :
    jumpArgs w name data = ⟨count ++ pipe, .ok args⟩ := by
  obtain ⟨f1, f2⟩ := args_facts h0
  unfold jumpArgs
  rw [argsOf_eq (by decide) h0]
  dsimp only
  rw [ count_says (mn := some 1) (by decide) f1 f2 h1, pipe_says h3]
  simp [Tr.bind, Tr.pure]

theorem aligned_pad {args : List V} {c e p : V} (h : Aligned args c e p) (hl : args.length ≤ 3) :
    padJump args = .ok ⟨c, e, .one p⟩ := by
  obtain ⟨c', e', p', h1, h2⟩ := C47_aligned args hl
  have := h2.trans h.symm
  simp only [List.cons.injEq, and_true] at this
  obtain ⟨rfl, rfl, rfl⟩ := this
  exact h1

theorem goto_says {args : List V} {j : Jump} (h : GotoSays args j) : padJump args = .ok j := by
  obtain ⟨hl, c, e, p, ha, rfl⟩ := h
  exact aligned_pad ha hl

theorem paren_says {w : Where} {p : V} {bal : List Ev}
    (h : Exactly (p.tokens.getLast? ≠ some (tk ')')) (mkMsg .W_APP_BALANCE w [(c! "data", .one p)]) bal) :
    (if endsParen p = true then Tr.pure () else Tr.emit (mkMsg .W_APP_BALANCE w [(c! "data", .one p)])) = ⟨bal, .ok ()⟩ := by
  have hb : endsParen p = true ↔ p.tokens.getLast? = some (tk ')') := by simp [endsParen, tk]
  rcases h with ⟨hp, rfl⟩ | ⟨hp, rfl⟩
  · rw [if_neg (fun h => hp (hb.1 h))]; rfl
  · rw [if_pos (hb.2 (Classical.byContradiction hp))]; rfl

theorem findIdx_toks {front rest : List V} (h : tk '(' ∉ front) : firstParen (front ++ tk '(' :: rest) = front.length := by
  unfold firstParen
  rw [List.findIdx_append]
  have : List.findIdx (· == V.str (c! "(")) front = front.length := by
    rw [List.findIdx_eq_length]
    intro x hx
    simp only [beq_eq_false_iff_ne, ne_eq]
    rintro rfl
    exact h hx
  rw [this, if_neg (by omega)]
  simp [tk, List.findIdx_cons]

theorem prio_says {w : Where} {p : V} {p' : Arg} {ev : List Ev} (h : PrioSays w p p' ev) : gosubPrio w p = ⟨ev, .ok p'⟩ := by
  unfold gosubPrio
  cases h with
  | plain h =>
    rw [if_neg (by rw [hasTok_iff]; exact h)]
    rfl
  | args h1 h2 h3 h4 h5 =>
    rename_i front rest
    rw [if_pos (by rw [hasTok_iff, h1]; simp), paren_says h5]
    have hg : p.getSlice 0 (firstParen p.tokens) = p' := by
      rw [h1, findIdx_toks h2]
      exact cut_unique (cut_front h1 h3) h4
    rw [hg]
    simp [Tr.bind, Tr.pure]
  | nothing h1 h5 =>
    rw [if_pos (by rw [hasTok_iff, h1]; simp), paren_says h5]
    have hg : p.getSlice 0 (firstParen p.tokens) = if p.isStr = true then strV [] else .many [] := by
      rw [h1]
      rw [show firstParen (tk '(' :: _) = 0 from findIdx_toks (front := []) (by simp)]
      cases p <;> simp [V.getSlice, V.isStr, strV, strjoin]
    rw [hg]
    simp [Tr.bind, Tr.pure]

theorem prio_total (w : Where) (p : V) : ∃ ev p', PrioSays w p p' ev := by
  by_cases h : tk '(' ∈ p.tokens
  · obtain ⟨a, b, h1, h2⟩ := first_of h
    obtain ⟨bal, hb⟩ := exactly_total (p.tokens.getLast? ≠ some (tk ')')) (mkMsg .W_APP_BALANCE w [(c! "data", .one p)])
    by_cases ha : a = []
    · subst ha
      exact ⟨bal, _, .nothing h1 hb⟩
    · exact ⟨bal, _, .args h1 h2 ha (cut_front h1 ha) hb⟩
  · exact ⟨[], _, .plain h⟩

theorem gosub_says {w : Where} {name : Str} {warn : Bool} {args : List V} {j : Jump} {ev : List Ev}
    (h : GosubSays w name warn args j ev) : gosubDest w name warn args = ⟨ev, .ok j⟩ := by
  cases h with
  | @upTo3 _ c e p p' _ h0 ha hp =>
    have hl : args.length ≤ 3 := by
      have := congrArg List.length ha
      simp at this
      omega
    have hp := prio_says hp
    match args, h0, hl, ha with
    | [], h0, _, _ => exact absurd rfl h0
    | [x], _, _, ha =>
      simp [Aligned, List.replicate] at ha
      obtain ⟨rfl, rfl, rfl⟩ := ha
      simp [gosubDest, hp, Tr.bind, Tr.pure]
    | [x, y], _, _, ha =>
      simp [Aligned] at ha
      obtain ⟨rfl, rfl, rfl⟩ := ha
      simp [gosubDest, hp, Tr.bind, Tr.pure]
    | [x, y, z], _, _, ha =>
      simp [Aligned] at ha
      obtain ⟨rfl, rfl, rfl⟩ := ha
      simp [gosubDest, hp, Tr.bind, Tr.pure]
    | _ :: _ :: _ :: _ :: _, _, hl, _ => simp at hl
  | @more c e p q p' qs many ev h1 h2 =>
    have h2 := prio_says h2
    rw [gosubDest]
    · rw [exactly_emit (b := warn) Iff.rfl h1 fun _ => ⟨_, rfl⟩]
      rw [show joinExcess p (q :: qs) = join (p :: (q :: qs).flatMap fun i => [tk ',', i]) from rfl, h2]
      simp [Tr.bind, Tr.pure]
    all_goals simp

theorem gosub_total (w : Where) (name : Str) (warn : Bool) {args : List V} (h : args ≠ []) :
    ∃ ev j, GosubSays w name warn args j ev := by
  match args, h with
  | [], h => exact absurd rfl h
  | [p], h =>
    obtain ⟨ev, p', hp⟩ := prio_total w p
    exact ⟨ev, _, .upTo3 (c := .none) (e := .none) h rfl hp⟩
  | [e, p], h =>
    obtain ⟨ev, p', hp⟩ := prio_total w p
    exact ⟨ev, _, .upTo3 (c := .none) (e := e) h rfl hp⟩
  | [c, e, p], h =>
    obtain ⟨ev, p', hp⟩ := prio_total w p
    exact ⟨ev, _, .upTo3 (c := c) (e := e) h rfl hp⟩
  | c :: e :: p :: q :: qs, _ =>
    obtain ⟨ev, p', hp⟩ := prio_total w (join (p :: (q :: qs).flatMap fun i => [tk ',', i]))
    obtain ⟨many, hm⟩ := exactly_total (warn = true) (mkMsg .E_APP_ARG_MANY w [(c! "app", strV name), (c! "max_args", natV 3)])
    exact ⟨_, _, .more hm hp⟩

theorem gosub_iff {w : Where} {name : Str} {warn : Bool} {args : List V} {j : Jump} {ev : List Ev} (h0 : args ≠ []) :
    gosubDest w name warn args = ⟨ev, .ok j⟩ ↔ GosubSays w name warn args j ev :=
  ⟨complete_of (R := fun e j => GosubSays w name warn args j e) (fun _ _ => gosub_says) (gosub_total w name warn h0), gosub_says⟩

theorem goto_iff {args : List V} {j : Jump} : padJump args = .ok j ↔ GotoSays args j := by
  refine ⟨fun h => ?_, goto_says⟩
  match args, h with
  | [], h => cases h; exact ⟨by simp, _, _, _, rfl, rfl⟩
  | [p], h => cases h; exact ⟨by simp, _, _, _, rfl, rfl⟩
  | [e, p], h => cases h; exact ⟨by simp, _, _, _, rfl, rfl⟩
  | [c, e, p], h => cases h; exact ⟨by simp, _, _, _, rfl, rfl⟩
  | _ :: _ :: _ :: _ :: _, h => simp [padJump] at h

theorem argsOf_total {d : Char} (hd : d ∉ sepSpecial) (data : V) : ArgsOf d data (separateArgs d false (.one data)) :=
  ⟨_, pieces_sep d hd data, separate_join d false data⟩

theorem count_total (w : Where) (name : Str) (least most : Nat) (args : List V) : ∃ e, CountSays w name least most args e := by
  obtain ⟨a, ha⟩ := exactly_total (given args < least) (mkMsg .E_APP_ARG_FEW w [(c! "app", strV name), (c! "min_args", natV least)])
  obtain ⟨b, hb⟩ := exactly_total (least ≤ given args ∧ most < given args)
    (mkMsg .E_APP_ARG_MANY w [(c! "app", strV name), (c! "max_args", natV most)])
  exact ⟨_, ha, hb⟩

theorem arg_total (w : Where) (name : Str) (n : Nat) (b : ArgBeh) (a : V) : ∃ e, ArgSays w name n b a e := by
  cases b with
  | any => exact ⟨_, .any⟩
  | options opts =>
    obtain ⟨x, hx⟩ := exactly_total (∃ c ∈ letters a.tokens, c ∉ opts)
      (mkMsg .E_APP_ARG_BADOPT w [(c! "argno", natV n), (c! "app", strV name),
        (c! "opts", strV ((letters a.tokens).filter fun c => decide (c ∉ opts)))])
    obtain ⟨y, hy⟩ := exactly_total (¬ (letters a.tokens).Nodup)
      (mkMsg .E_APP_ARG_DUPEOPT w [(c! "argno", natV n), (c! "app", strV name), (c! "opts", .one a)])
    exact ⟨_, .options hx hy⟩
  | appOrExten =>
    obtain ⟨x, hx⟩ := exactly_total (a ≠ .str (c! "app") ∧ a ≠ .str (c! "exten"))
        (mkMsg .E_APP_ARG_BADOPT w [(c! "argno", natV n), (c! "app", strV name), (c! "opts", .one a)])
    exact ⟨_, .appOrExten hx⟩

theorem args_total (w : Where) (name : Str) (n : Nat) (bs : List ArgBeh) (as : List V) : ∃ e, ArgsSay w name n bs as e := by
  induction bs generalizing n as with
  | nil => exact ⟨_, .noMore⟩
  | cons b bs ih =>
    cases as with
    | nil => exact ⟨_, .noneLeft⟩
    | cons a as =>
      obtain ⟨e, h⟩ := arg_total w name n b a
      obtain ⟨es, hs⟩ := ih (n + 1) as
      exact ⟨_, .next h hs⟩

theorem callArgs_complete {w : Where} {name : Str} {mn : Option Nat} {behs : List ArgBeh} {data : V} {args : List V} {evs : List Ev}
    (hb : behs ≠ []) (h : callArgs w name mn behs data = ⟨evs, .ok args⟩) : ∃ count each pipe, ArgsOf ',' data args ∧
      CountSays w name (mn.getD 0) behs.length args count ∧ ArgsSay w name 1 behs args each ∧ PipeSays w name data args pipe ∧
      evs = count ++ (each ++ pipe) := by
  have h0 := argsOf_total (d := ',') (by decide) data
  generalize separateArgs ',' false (.one data) = as at h0
  obtain ⟨a, ha⟩ := count_total w name (mn.getD 0) behs.length as
  obtain ⟨b, hb'⟩ := args_total w name 1 behs as
  obtain ⟨c, hc⟩ := exactly_total (∃ a, as = [a] ∧ tk '|' ∈ a.tokens)
    (mkMsg .E_APP_ARG_PIPEDELIM w [(c! "app", strV name), (c! "data", .one data)])
  have := callArgs_says hb h0 ha hb' hc
  rw [h] at this
  simp only [Tr.mk.injEq, Except.ok.injEq] at this
  obtain ⟨rfl, rfl⟩ := this
  exact ⟨a, b, c, h0, ha, hb', hc, rfl⟩

theorem jumpArgs_complete {w : Where} {name : Str} {data : V} {args : List V} {evs : List Ev}
    (h : jumpArgs w name data = ⟨evs, .ok args⟩) : ∃ count pipe, ArgsOf ',' data args ∧
      CountSays w name 1 3 args count ∧ PipeSays w name data args pipe ∧ evs = count ++ pipe := by
  have h0 := argsOf_total (d := ',') (by decide) data
  generalize separateArgs ',' false (.one data) = as at h0
  obtain ⟨a, ha⟩ := count_total w name 1 3 as
  obtain ⟨c, hc⟩ := exactly_total (∃ a, as = [a] ∧ tk '|' ∈ a.tokens)
    (mkMsg .E_APP_ARG_PIPEDELIM w [(c! "app", strV name), (c! "data", .one data)])
  have := jumpArgs_says h0 ha hc
  rw [h] at this
  simp only [Tr.mk.injEq, Except.ok.injEq] at this
  obtain ⟨rfl, rfl⟩ := this
  exact ⟨a, c, h0, ha, hc, rfl⟩

/-! ## Conditions -/

theorem tokens_sep {d : Char} (hd : d ∉ sepSpecial) {data : V} {parts : List (List V)} (h : Pieces d data.tokens parts) :
    (separateArgs d false (.one data)) = parts.map join ∧
      separateArgs d true (.one data) = parts.map fun p => join (unquoteToks false p) :=
  ⟨argsOf_eq hd ⟨parts, h, rfl⟩, bareArgsOf_eq hd ⟨parts, h, rfl⟩⟩

theorem actions_join {data : V} {as : List (List V)} (h : Pieces ':' data.tokens as) :
    actions (ifActions (separateArgs ':' false (.one data))) = ((as.take 2).filter (!·.isEmpty)).map fun a => .one (join a) := by
  obtain ⟨vs, h1, h2⟩ := actions_spec (d := ':') (v := data)
  rw [← pieces_unique h (pieces_sep ':' (by decide) data)] at h2
  rw [h1, ← h2, List.map_map]
  have hn : ∀ v ∈ vs, Normal v := by
    intro v hv
    have hm : Arg.one v ∈ actions (ifActions (separateArgs ':' false (.one data))) := by rw [h1]; exact List.mem_map_of_mem hv
    have ht := (List.mem_filter.1 hm).2
    have hm := (List.mem_filter.1 hm).1
    have hsep := separate_normal ':' false data
    generalize separateArgs ':' false (.one data) = l at hm hsep
    match l, hm, hsep with
    | [], hm, _ => 
      simp [ifActions] at hm
      subst hm
      simp [Arg.truthy, V.truthy] at ht
    | [a], hm, hsep =>
      simp [ifActions] at hm
      rcases hm with rfl | rfl
      · exact hsep _ (by simp)
      · simp [Arg.truthy, V.truthy] at ht
    | a :: b :: _, hm, hsep =>
      simp [ifActions] at hm
      rcases hm with rfl | rfl
      · exact hsep _ (by simp)
      · exact hsep _ (by simp)
  exact List.map_congr_left fun v hv => congrArg Arg.one (normal_join (hn v hv))

theorem emit_old {w : Where} {name : Str} {data cond : V} {rest : List V} {evs : List Ev} :
    Tr.emit (ifOldStyle w name data cond rest) = ⟨evs, .ok ()⟩ ↔
      (∃ s, data.toStr = .ok s) ∧ (∃ t, cond.toStr = .ok t) ∧ evs = [.msg (ifOldStyle w name data cond rest)] := by
  constructor
  · intro h
    obtain ⟨h1, r, h2⟩ := emit_iff.1 h
    cases hd : data.toStr with
    | error e =>
      simp [ifOldStyle, mkMsg, Msg.render, MK.template, renderAll, renderPiece, hd, Except.map, List.lookup] at h2
    | ok s =>
      cases hc : cond.toStr with
      | error e =>
        simp [ifOldStyle, mkMsg, Msg.render, MK.template, renderAll, renderPiece, hd, hc, Except.map, List.lookup] at h2
      | ok t => exact ⟨⟨s, rfl⟩, ⟨t, rfl⟩, h1⟩
  · rintro ⟨⟨s, h1⟩, ⟨t, h2⟩, rfl⟩
    rw [← render_old (w := w) (name := name) (rest := rest) h1 h2]
    rfl

theorem parts_says {w : Where} {name : Str} {data : V} {cond : List V} {acts : List Arg} {evs : List Ev}
    (h : PartsSay w name data cond acts evs) :
    ∃ p, ifParts w name data = ⟨evs, .ok (join cond, p)⟩ ∧ actions p = acts ∧ (∀ t ∈ cond, t ∈ data.tokens) := by
  have htok : ∀ {s : List V}, (∀ t ∈ s, t ∈ data.tokens) → ∀ t ∈ s, isTok t = true :=
    fun hs t ht => tokens_isTok data t (hs t ht)
  unfold ifParts
  cases h with
  | @two c s as h1 h2 =>
    have hm : ∀ t ∈ unquoteToks false s, t ∈ data.tokens := fun t ht => pieces_mem h1 (p := s) (by simp) (unquoteToks_mem ht)
    rw [(tokens_sep (by decide) h1).2]
    refine ⟨ifActions (separateArgs ':' false (.one (join (unquoteToks false s)))), ?_, ?_, ?_⟩
    · simp [Tr.bind, Tr.pure]
    · exact actions_join (by rw [tokens_join (htok hm)]; exact h2)
    · exact fun t ht => pieces_mem h1 (p := c) (by simp) (unquoteToks_mem ht)
  | @many c s m more as h1 h2 =>
    have hm : ∀ t ∈ unquoteToks false s, t ∈ data.tokens := fun t ht => pieces_mem h1 (p := s) (by simp) (unquoteToks_mem ht)
    rw [(tokens_sep (by decide) h1).2]
    refine ⟨ifActions (separateArgs ':' false (.one (join (unquoteToks false s)))), ?_, ?_, ?_⟩
    · have : (Tr.emit (ifMany w name data)) = ⟨[.msg (ifMany w name data)], .ok ()⟩ := by
        simp [Tr.emit, ifMany, mkMsg, Msg.render, MK.template, renderAll, renderPiece, Except.map, List.lookup]
        try rfl
      simp [this, Tr.bind, Tr.pure]
      rfl
    · exact actions_join (by rw [tokens_join (htok hm)]; exact h2)
    · exact fun t ht => pieces_mem h1 (p := c) (by simp) (unquoteToks_mem ht)
  | @old _ a more sd sc h1 h2 hsd hsc =>
    have hc : ∀ t ∈ cond, t ∈ data.tokens := fun t ht => pieces_mem h2 (p := cond) (by simp) ht
    rw [(tokens_sep (by decide) h1).2, (tokens_sep (by decide) h2).1]
    refine ⟨(.many ((a :: more).map join), .none), ?_, ?_, hc⟩
    · have := (emit_old (w := w) (name := name) (rest := (a :: more).map join)).2 ⟨⟨_, hsd⟩, ⟨_, hsc⟩, rfl⟩
      simp only [List.map_cons] at this
      simp [this, Tr.bind, Tr.pure]
      rfl
    · simp [actions, Arg.truthy, V.truthy]
  | few h1 h2 =>
    rw [(tokens_sep (by decide) h1).2, (tokens_sep (by decide) h2).1]
    refine ⟨(.many [], .none), ?_, ?_, fun _ => id⟩
    · have : (Tr.emit (ifFew w name data)) = ⟨[.msg (ifFew w name data)], .ok ()⟩ := by
        simp [Tr.emit, ifFew, mkMsg, Msg.render, MK.template, renderAll, renderPiece, Except.map, List.lookup]
        try rfl
      simp [this, Tr.bind, Tr.pure]
      rfl
    · simp [actions, Arg.truthy, V.truthy]

/-- There is something to say about the parts unless a message cannot be printed. -/
theorem parts_total (w : Where) (name : Str) (data : V) : (∃ cond acts evs, PartsSay w name data cond acts evs) ∨
    ∃ c a more, Pieces '?' data.tokens [data.tokens] ∧ Pieces ',' data.tokens (c :: a :: more) := by
  have hq := pieces_sep '?' (by decide) data
  have hc := pieces_sep ',' (by decide) data
  match hp : (separateArgs '?' false (.one data)).map tokens with
  | [] => exact absurd hp hq.1
  | [g] =>
    rw [hp] at hq
    have : g = data.tokens := hq.2.1
    subst this
    match hp' : (separateArgs ',' false (.one data)).map tokens with
    | [] => exact absurd hp' hc.1
    | [g] =>
      rw [hp'] at hc
      have : g = data.tokens := hc.2.1
      subst this
      exact .inl ⟨_, _, _, .few hq hc⟩
    | c :: a :: more =>
      rw [hp'] at hc
      exact .inr ⟨c, a, more, hq, hc⟩
  | [c, s] =>
    rw [hp] at hq
    have hk : ∀ t ∈ unquoteToks false s, isTok t = true := fun t ht =>
      tokens_isTok data t (pieces_mem hq (p := s) (by simp) (unquoteToks_mem ht))
    have := pieces_sep ':' (by decide) (join (unquoteToks false s))
    rw [tokens_join hk] at this
    exact .inl ⟨_, _, _, .two hq this⟩
  | c :: s :: m :: more =>
    rw [hp] at hq
    have hk : ∀ t ∈ unquoteToks false s, isTok t = true := fun t ht =>
      tokens_isTok data t (pieces_mem hq (p := s) (by simp) (unquoteToks_mem ht))
    have := pieces_sep ':' (by decide) (join (unquoteToks false s))
    rw [tokens_join hk] at this
    exact .inl ⟨_, _, _, .many hq this⟩

theorem parts_complete {w : Where} {name : Str} {data c : V} {p : Arg × V} {evs : List Ev}
    (h : ifParts w name data = ⟨evs, .ok (c, p)⟩) : ∃ cond, PartsSay w name data cond (actions p) evs ∧ c = join cond := by
  rcases parts_total w name data with ⟨cond, acts, es, hp⟩ | ⟨cond, a, more, h1, h2⟩
  · obtain ⟨p', e1, e2, _⟩ := parts_says hp
    rw [h] at e1
    simp only [Tr.mk.injEq, Except.ok.injEq, Prod.mk.injEq] at e1
    obtain ⟨rfl, rfl, rfl⟩ := e1
    rw [e2]
    exact ⟨cond, hp, rfl⟩
  · unfold ifParts at h
    rw [(tokens_sep (by decide) h1).2, (tokens_sep (by decide) h2).1] at h
    simp only [List.map_cons, List.map_nil, List.isEmpty_cons, Bool.false_eq_true, if_false] at h
    obtain ⟨⟨⟩, e1, e2, h3, h4, rfl⟩ := bind_iff.1 h
    obtain ⟨h5, rfl⟩ := pure_iff.1 h4
    simp only [Prod.mk.injEq] at h5
    obtain ⟨rfl, rfl⟩ := h5
    obtain ⟨⟨s, hs⟩, ⟨t, ht⟩, rfl⟩ := emit_old.1 h3
    have := PartsSay.old (w := w) (name := name) h1 h2 hs ht
    refine ⟨cond, ?_, rfl⟩
    simpa [actions, Arg.truthy, V.truthy, ifOldStyle] using this

/-- The actions: texts, or one in the old style. -/
theorem parts_acts {w : Where} {name : Str} {data : V} {cond : List V} {acts : List Arg} {evs : List Ev}
    (h : PartsSay w name data cond acts evs) : ∀ act ∈ acts, (∃ v, act = .one v ∧ Normal v) ∨
      ∃ vs, act = .many vs ∧ separateArgs ',' true act = [join (vs.filter fun v => v ≠ tk '"' ∧ v ≠ tk '\\')] := by
  have key : ∀ {s : List V} {as : List (List V)}, (∀ t ∈ s, t ∈ data.tokens) → Pieces ':' (unquoteToks false s) as →
      ∀ act ∈ ((as.take 2).filter (!·.isEmpty)).map fun a => Arg.one (join a), ∃ v, act = .one v ∧ Normal v := by
    intro s as hs hp act ha
    obtain ⟨g, hg, rfl⟩ := List.mem_map.1 ha
    refine ⟨_, rfl, tok_normal fun t ht => tokens_isTok data t (hs t ?_)⟩
    exact unquoteToks_mem (pieces_mem hp (List.mem_of_mem_take (List.mem_filter.1 hg).1) ht)
  cases h with
  | @two c s as h1 h2 => exact fun act ha => .inl (key (fun t ht => pieces_mem h1 (p := s) (by simp) ht) h2 act ha)
  | @many c s m more as h1 h2 => exact fun act ha => .inl (key (fun t ht => pieces_mem h1 (p := s) (by simp) ht) h2 act ha)
  | @old _ a more sd sc h1 h2 hsd hsc =>
    intro act ha
    simp only [List.mem_singleton] at ha
    subst ha
    exact .inr ⟨_, rfl, old_args (by simp) h2⟩
  | few => simp

theorem squashed_normal {v : V} (h : Normal v) : Squashed v := by
  obtain ⟨vs, h1, rfl⟩ := h
  rw [← squash_eq_join vs h1]
  exact squash_shape vs h1

theorem emit_empty {w : Where} {name : Str} {data : V} {evs : List Ev} :
    Tr.emit (mkMsg .E_APP_ARG_IFEMPTY w [(c! "app", strV name), (c! "data", .one data)]) = ⟨evs, .ok ()⟩ ↔
      (∃ s, data.toStr = .ok s) ∧ evs = [.msg (mkMsg .E_APP_ARG_IFEMPTY w [(c! "app", strV name), (c! "data", .one data)])] := by
  rw [emit_iff]
  cases hd : data.toStr with
  | error e => simp [mkMsg, Msg.render, MK.template, renderAll, renderPiece, hd, Except.map, List.lookup]
  | ok s => simp [mkMsg, Msg.render, MK.template, renderAll, renderPiece, hd, Except.map, List.lookup]

theorem emit_const {w : Where} {name : Str} {data r : V} {evs : List Ev} :
    Tr.emit (mkMsg .E_APP_ARG_IFCONST w [(c! "app", strV name), (c! "data", .one data), (c! "cond", .one r)]) = ⟨evs, .ok ()⟩ ↔
      (∃ s, data.toStr = .ok s) ∧ (∃ s, r.toStr = .ok s) ∧
      evs = [.msg (mkMsg .E_APP_ARG_IFCONST w [(c! "app", strV name), (c! "data", .one data), (c! "cond", .one r)])] := by
  rw [emit_iff]
  cases hd : data.toStr with
  | error e => simp [mkMsg, Msg.render, MK.template, renderAll, renderPiece, hd, Except.map, List.lookup]
  | ok s =>
    cases hr : r.toStr with
    | error e => simp [mkMsg, Msg.render, MK.template, renderAll, renderPiece, hd, hr, Except.map, List.lookup]
    | ok t => simp [mkMsg, Msg.render, MK.template, renderAll, renderPiece, hd, hr, Except.map, List.lookup]

/-- The check for an empty condition. -/
theorem empty_iff {w : Where} {name : Str} {data r : V} {cond : List V} {evs : List Ev} (h : r = .str [] ↔ BlankToks cond) :
    (if r = .str [] then Tr.emit (mkMsg .E_APP_ARG_IFEMPTY w [(c! "app", strV name), (c! "data", .one data)]) else Tr.pure ()) =
      ⟨evs, .ok ()⟩ ↔
    Showing (BlankToks cond) data (mkMsg .E_APP_ARG_IFEMPTY w [(c! "app", strV name), (c! "data", .one data)]) evs := by
  unfold Showing Exactly
  by_cases hb : BlankToks cond
  · rw [if_pos (h.2 hb), emit_empty]
    simp [hb, and_comm]
  · rw [if_neg (fun e => hb (h.1 e)), pure_iff]
    simp [hb]

/-- The check for a constant. -/
theorem const_iff {w : Where} {name : Str} {data r : V} {p : Prop} {evs : List Ev} (h : condConst r = true ↔ p) :
    (if condConst r = true then
      Tr.emit (mkMsg .E_APP_ARG_IFCONST w [(c! "app", strV name), (c! "data", .one data), (c! "cond", .one r)]) else Tr.pure ()) =
      ⟨evs, .ok ()⟩ ↔
    Showing p data (mkMsg .E_APP_ARG_IFCONST w [(c! "app", strV name), (c! "data", .one data), (c! "cond", .one r)]) evs ∧
      (p → ∃ s, r.toStr = .ok s) := by
  unfold Showing Exactly
  by_cases hb : p
  · rw [if_pos (h.2 hb), emit_const]
    simp only [hb, true_and, not_true, false_and, or_false, forall_const]
    exact ⟨fun ⟨a, b, c⟩ => ⟨⟨c, a⟩, b⟩, fun ⟨⟨c, a⟩, b⟩ => ⟨a, b, c⟩⟩
  · rw [if_neg (fun e => hb (h.1 e)), pure_iff]
    simp [hb]

/-- The parts and the condition. -/
theorem cond_iff {w : Where} {name : Str} {const : Bool} {data : V} {acts : List Arg} {evs : List Ev} :
    CondSays w name const data acts evs ↔
    ∃ r p, (if const = true then condSplit w name data else ifSplit w name data) = ⟨evs, .ok (r, p)⟩ ∧ actions p = acts := by
  have facts : ∀ {cond : List V} {acts : List Arg} {parts : List Ev} {r : V}, PartsSay w name data cond acts parts →
      ((join cond).strip = .ok r ↔ CondTrimmed cond r) ∧ (CondTrimmed cond r →
        (r = .str [] ↔ BlankToks cond) ∧ (condConst r = true ↔ ¬ BlankToks cond ∧ Constant cond)) := by
    intro cond acts parts r h
    obtain ⟨_, _, _, e3⟩ := parts_says h
    have htok : ∀ t ∈ cond, isTok t = true := fun t ht => tokens_isTok data t (e3 t ht)
    have htk := tokens_join htok
    have hi := trimmed_iff (r := r) (tok_normal htok)
    rw [htk] at hi
    refine ⟨hi, fun ht => ?_⟩
    have := cond_facts (squashed_normal (tok_normal htok)) (hi.2 ht)
    rwa [htk] at this
  constructor
  · intro h
    obtain @⟨cond, r, acts, parts, empty, constant, h1, h2, h3, h4, h5⟩ := h
    obtain ⟨p, e1, e2, e3⟩ := parts_says h1
    obtain ⟨f1, f2⟩ := facts (r := r) h1
    obtain ⟨s2, s3⟩ := f2 h2
    have hi : ifSplit w name data = ⟨parts ++ empty, .ok (r, p)⟩ := by
      unfold ifSplit
      rw [e1]
      simp only [Tr.bind, Tr.lift, f1.2 h2, (empty_iff s2).2 h3]
      simp [Tr.pure]
    refine ⟨r, p, ?_, e2⟩
    cases const with
    | false =>
      rw [if_neg (by simp), hi]
      rcases h4 with ⟨⟨hp, _⟩ | ⟨_, rfl⟩, _⟩
      · simp at hp
      · simp
    | true =>
      rw [if_pos rfl]
      unfold condSplit
      rw [hi]
      simp only [Tr.bind, (const_iff (p := true = true ∧ ¬ BlankToks cond ∧ Constant cond) (by rw [s3]; simp)).2 ⟨h4, h5⟩]
      simp [Tr.pure]
  · rintro ⟨r, p, h, rfl⟩
    have key : ∀ {evs : List Ev}, ifSplit w name data = ⟨evs, .ok (r, p)⟩ → ∃ cond parts empty,
        PartsSay w name data cond (actions p) parts ∧ CondTrimmed cond r ∧
        Showing (BlankToks cond) data (mkMsg .E_APP_ARG_IFEMPTY w [(c! "app", strV name), (c! "data", .one data)]) empty ∧
        evs = parts ++ empty := by
      intro evs h
      unfold ifSplit at h
      obtain ⟨⟨c, p'⟩, e1, e2, h1, h2, rfl⟩ := bind_iff.1 h
      obtain ⟨r', e3, e4, h3, h4, rfl⟩ := bind_iff.1 h2
      obtain ⟨⟨⟩, e5, e6, h5, h6, rfl⟩ := bind_iff.1 h4
      obtain ⟨h7, rfl⟩ := pure_iff.1 h6
      simp only [Prod.mk.injEq] at h7
      obtain ⟨rfl, rfl⟩ := h7
      obtain ⟨h8, rfl⟩ := lift_iff.1 h3
      obtain ⟨cond, hp, rfl⟩ := parts_complete h1
      obtain ⟨f1, f2⟩ := facts (r := r) hp
      have ht := f1.1 h8
      exact ⟨cond, e1, e5, hp, ht, (empty_iff (f2 ht).1).1 h5, by simp⟩
    cases const with
    | false =>
      rw [if_neg (by simp)] at h
      obtain ⟨cond, parts, empty, h1, h2, h3, rfl⟩ := key h
      have := CondSays.mk (const := false) (constant := []) h1 h2 h3 ⟨.inr ⟨by simp, rfl⟩, by simp⟩ (by simp)
      simpa using this
    | true =>
      rw [if_pos rfl] at h
      unfold condSplit at h
      obtain ⟨⟨r', p'⟩, e1, e2, h1, h2, rfl⟩ := bind_iff.1 h
      obtain ⟨⟨⟩, e3, e4, h3, h4, rfl⟩ := bind_iff.1 h2
      obtain ⟨h5, rfl⟩ := pure_iff.1 h4
      simp only [Prod.mk.injEq] at h5
      obtain ⟨rfl, rfl⟩ := h5
      obtain ⟨cond, parts, empty, g1, g2, g3, rfl⟩ := key h1
      obtain ⟨_, s3⟩ := (facts (r := r) g1).2 g2
      obtain ⟨g4, g5⟩ := (const_iff (p := true = true ∧ ¬ BlankToks cond ∧ Constant cond) (by rw [s3]; simp)).1 h3
      have := CondSays.mk (const := true) g1 g2 g3 g4 g5
      simpa using this

theorem cond_says {w : Where} {name : Str} {const : Bool} {data : V} {acts : List Arg} {evs : List Ev}
    (h : CondSays w name const data acts evs) :
    ∃ r p, (if const = true then condSplit w name data else ifSplit w name data) = ⟨evs, .ok (r, p)⟩ ∧ actions p = acts := cond_iff.1 h

theorem cond_acts {w : Where} {name : Str} {const : Bool} {data : V} {acts : List Arg} {evs : List Ev}
    (h : CondSays w name const data acts evs) : ∀ act ∈ acts, (∃ v, act = .one v ∧ Normal v) ∨
      ∃ vs, act = .many vs ∧ separateArgs ',' true act = [join (vs.filter fun v => v ≠ tk '"' ∧ v ≠ tk '\\')] := by
  obtain ⟨h1, _⟩ := h
  exact parts_acts h1

/-- The arguments of an action. -/
theorem action_iff {act : Arg} {args : List V} (h : (∃ v, act = .one v ∧ Normal v) ∨
      ∃ vs, act = .many vs ∧ separateArgs ',' true act = [join (vs.filter fun v => v ≠ tk '"' ∧ v ≠ tk '\\')]) :
    separateArgs ',' true act = args ↔ ActionArgs act args := by
  constructor
  · rintro rfl
    rcases h with ⟨v, rfl, _⟩ | ⟨vs, rfl, h⟩
    · refine .text ⟨_, pieces_sep ',' (by decide) v, ?_⟩
      rw [separate_join, separate_true ',' (by decide), List.map_map]
      rfl
    · rw [h]; exact .old
  · intro h'
    rcases h with ⟨v, rfl, _⟩ | ⟨vs, rfl, h⟩
    · obtain ⟨h'⟩ := h'
      exact bareArgsOf_eq (by decide) h'
    · cases h'
      exact h

theorem action_ne {act : Arg} {args : List V} (h : ActionArgs act args) : args ≠ [] := by
  cases h with
  | text h =>
    obtain ⟨parts, h1, rfl⟩ := h
    simpa using h1.1
  | old => simp

/-! ## Names -/

theorem name_iff {env : AEnv} {sp sp' : Option Str} {w : Where} {name : Str} {a : AppInfo} {evs : List Ev} :
    getApp env sp w name = ⟨evs, .ok (a, sp')⟩ ↔ NameSays env sp w name a evs ∧ sp' = spelled sp a name := by
  have hsp : ∀ a, chooseSpelling sp a name = spelled sp a name := by
    intro a
    cases sp with
    | none => simp [chooseSpelling, spelled]
    | some s => simp [chooseSpelling, spelled]
  have hpn : ∀ sp (a : AppInfo), appName sp a = properName sp a := by
    intro sp a
    unfold appName properName
    cases sp <;> cases ha : a.beh <;> simp
  have hst : ∀ a, (env.apps (env.lower name)).or (env.apps (c! "unknown")) = some a ↔ Stands env name a := by
    intro a
    unfold Stands
    cases env.apps (env.lower name) <;> simp
  unfold getApp
  constructor
  · intro h
    split at h
    · exact absurd h raise_iff.1
    · rename_i a' ha'
      have ha' := (hst a').1 ha'
      obtain ⟨⟨⟩, e1, e2, h1, h2, rfl⟩ := bind_iff.1 h
      obtain ⟨⟨⟩, e3, e4, h3, h4, rfl⟩ := bind_iff.1 h2
      have h1 := note_iff.1 h1
      subst h1
      obtain ⟨h5, rfl⟩ := pure_iff.1 h4
      simp only [Prod.mk.injEq] at h5
      obtain ⟨rfl, rfl⟩ := h5
      refine ⟨?_, hsp a⟩
      unfold checkAvailability at h3
      rw [hsp, hpn] at h3
      split at h3
      · rename_i hn
        obtain ⟨_, rfl⟩ := pure_iff.1 h3
        exact .known ha' hn
      · rename_i hn
        split at h3
        · rename_i hu
          obtain ⟨rfl, _⟩ := emit_iff.1 h3
          exact .unknown ha' hn hu
        · rename_i hu
          obtain ⟨rfl, _⟩ := emit_iff.1 h3
          exact .miscased ha' hn hu
  · rintro ⟨h, rfl⟩
    cases h with
    | known h1 h2 =>
      rw [(hst a).2 h1]
      simp only [hsp, hpn, checkAvailability]
      rw [if_pos h2]; rfl
    | miscased h1 h2 h3 =>
      rw [(hst a).2 h1]
      simp only [hsp, hpn, checkAvailability]
      rw [if_neg h2, if_neg h3]; rfl
    | unknown h1 h2 h3 =>
      rw [(hst a).2 h1]
      simp only [hsp, hpn, checkAvailability]
      rw [if_neg h2, if_pos h3]; rfl

theorem name_says {env : AEnv} {sp : Option Str} {w : Where} {name : Str} {a : AppInfo} {evs : List Ev}
    (h : NameSays env sp w name a evs) : getApp env sp w name = ⟨evs, .ok (a, spelled sp a name)⟩ := name_iff.2 ⟨h, rfl⟩

/-! ## Data -/

theorem data_says {env : FEnv} {w : Where} {app s : Str} {v : V} {evs : List Ev} (h : DataSays env w app s v evs) :
    parseInner env w app s = ⟨evs, .ok v⟩ := parseInner_iff.2 h

/-- A text as it should be written. -/
theorem data_text {env : FEnv} {w : Where} {app : Str} {t : Txt} {evs : List Ev} (h : TextSays env w false t evs) :
    DataSays env w app t.write (join t.meaning) evs := parseInner_iff.1 (parseInner_exact app h)

/-! ## Front -/

theorem split_one_inside {k : Kind} {c : Char} {t : Str} {s l : V} (h : c ∈ t) :
    (V.atom k (.str t) s l).split c (some 1) = (V.str t).split c (some 1) := by
  have htr : (V.str t).truthy = true := by cases t <;> simp_all [V.truthy]
  simp only [V.split, htr, if_true]
  congr 1
  simp only [splitGroups]
  rw [if_neg (by simp [h])]
  exact spread_str _ (split_str_ne _ _ _)

theorem first_char {c : Char} {t : Str} (h : c ∈ t) : ∃ a b, t = a ++ c :: b ∧ c ∉ a := by
  induction t with
  | nil => simp at h
  | cons x xs ih =>
    by_cases hx : x = c
    · exact ⟨[], xs, by simp [hx], by simp⟩
    · rcases List.mem_cons.1 h with rfl | h
      · exact absurd rfl hx
      · obtain ⟨a, b, rfl, hn⟩ := ih h
        exact ⟨x :: a, b, rfl, by simp [hn, Ne.symm hx]⟩

theorem split_str {c : Char} {t : Str} (h : c ∈ t) :
    ∃ a b, t = a ++ c :: b ∧ c ∉ a ∧ (V.str t).split c (some 1) = .ok [.str a, .str b] := by
  obtain ⟨a, b, rfl, hn⟩ := first_char h
  obtain ⟨r, e1, e2, e3⟩ := split_first (v := .str (a ++ c :: b)) (d := .str a) (c := c) (rest := b.map tk) rfl (normal_str a)
    (by simp [tokens, tk]) (by simpa [tokens, tk] using hn)
  refine ⟨a, b, rfl, hn, ?_⟩
  rw [e1, normal_determined e3 (normal_str b) (by rw [e2]; simp [tokens, tk])]

theorem inside_split {env : FEnv} {w : Where} {k : Kind} {t : Str} {s l : V} (h : '(' ∈ t) :
    splitAppData env w (.one (.atom k (.str t) s l)) = splitAppData env w (.one (.str t)) := by
  obtain ⟨a, b, _, _, e⟩ := split_str h
  simp only [splitAppData, split_one_inside h, e]
  rfl

theorem front_says {env : FEnv} {w : Where} {raw : V} {front data : Str} {evs : List Ev} (h : Front env w raw front data evs) :
    ∃ d, stripParens d = data ∧
      splitAppData env w (.one raw) = ⟨evs ++ (splitAppEnd w (.str front) d).ev, (splitAppEnd w (.str front) d).val⟩ := by
  have hmap : ∀ front : Str, (front.map tk) = (V.str front).tokens := fun _ => rfl
  have key : ∀ {raw : V} {front : Str} {rest : List V} {s : Str}, isMixed raw = true → raw.tokens = front.map tk ++ tk '(' :: rest → '(' ∉ front →
      (join rest).toStr = .ok s → splitAppData env w (.one raw) = splitAppEnd w (.str front) ('(' :: s) := by
    intro raw front rest s h1 h2 h3 h4
    rw [hmap] at h2
    obtain ⟨r, e1, e2, e3⟩ := split_first h1 (normal_str _) h2 (by simpa [tokens, tk] using h3)
    have hr := normal_join e3
    rw [e2] at hr
    unfold splitAppData
    simp only [e1]
    rw [show Tr.lift (Except.ok [V.str front, r]) = Tr.pure _ from rfl, Tr.pure_bind]
    dsimp only
    rw [hr, h4]
    exact Tr.pure_bind _ _
  induction h with
  | inside ht _ ih => rw [inside_split ht]; exact ih
  | @closed raw front data rest h1 h2 h3 h4 =>
    refine ⟨'(' :: (data ++ [')']), by simp [stripParens, List.getLast?_cons], ?_⟩
    rw [key h1 h2 h3 h4]
    simp
  | @unclosed raw front s rest h1 h2 h3 h4 h5 =>
    refine ⟨'(' :: s, ?_, ?_⟩
    · unfold stripParens
      rw [if_neg]
      rintro ⟨_, h⟩
      cases hs : s.getLast? with
      | none => 
        rw [List.getLast?_eq_none_iff] at hs
        subst hs
        simp at h
      | some x =>
        rw [List.getLast?_cons, hs] at h
        rw [hs] at h5
        simp at h
        exact h5 (by rw [h])
    · rw [key h1 h2 h3 h4]
      simp
  | @bare front evs h1 h2 =>
    refine ⟨c! "()", rfl, ?_⟩
    have hs : (V.str front).split '(' (some 1) = .ok [.str front] := by
      obtain ⟨ps, e1, e2, _⟩ := split_tokens '(' (some 1) (V.str front) rfl
      rw [splitT_no (V.str ['(']) _ _ (by simpa [tokens] using h1)] at e2
      have := split_normal (v := V.str front) rfl e1
      match ps, e2, this with
      | [p], e2, hn =>
        simp at e2
        rw [e1, normal_determined (hn p (by simp)) (normal_str front) e2]
      | _ :: _ :: _, e2, _ => simp at e2
    unfold splitAppData
    simp only [hs]
    rw [show Tr.lift (Except.ok [V.str front]) = Tr.pure _ from rfl, Tr.pure_bind]
    dsimp only
    unfold splitAppBare
    dsimp only
    have he : (if env.lower front ≠ c! "noop" then Tr.emit (mkMsg .W_APP_NEED_PARENS w [(c! "app", strV front)])
      else .pure ()) = ⟨evs, .ok ()⟩ := by
      rcases h2 with ⟨hp, rfl⟩ | ⟨hp, rfl⟩
      · rw [if_pos hp]; rfl
      · rw [if_neg hp]; rfl
    rw [he]
    simp [Tr.bind]

theorem line_bad {env : FEnv} {w : Where} {raw : V} {front data : Str} {x : Char} {e : List Ev}
    (h : Front env w raw (front ++ [x]) data e) (hx : isSpace x = true) :
    splitAppData env w (.one raw) = ⟨e ++ [.msg (mkMsg .E_APP_WSH w [(c! "app", strV (front ++ [x]))])], .ok none⟩ := by
  obtain ⟨d, _, h2⟩ := front_says h
  rw [h2]
  have : rstripP isSpace (front ++ [x]) ≠ front ++ [x] := by
    intro he
    have := congrArg List.length he
    simp only [rstripP, List.reverse_append, List.reverse_cons, List.reverse_nil, List.nil_append, List.cons_append,
      hx, List.dropWhile_cons, if_true, List.length_append, List.length_cons,
      List.length_nil, List.length_reverse] at this
    have h3 := (List.dropWhile_suffix isSpace (l := front.reverse)).length_le
    simp at h3
    omega
  simp only [splitAppEnd]
  rw [if_pos this]
  rfl

theorem line_none {env : FEnv} {w : Where} {raw : V} {data : Str} {e : List Ev} (h : Front env w raw [] data e) :
    splitAppData env w (.one raw) = ⟨e ++ [.msg (mkMsg .E_APP_MISSING w [(c! "app", strV (c! "(none)"))])], .ok none⟩ := by
  obtain ⟨d, _, h2⟩ := front_says h
  rw [h2]
  rfl

theorem lstrip_lead {blank name : Str} (hb : ∀ c ∈ blank, isSpace c = true) (hl : NoLead name) :
    lstripP isSpace (blank ++ name) = name := by
  induction blank with
  | nil =>
    refine lstripP_self _ _ fun c hc => ?_
    cases name with
    | nil => simp at hc
    | cons x xs => simp at hc; subst hc; exact hl _ _ rfl
  | cons b bs ih =>
    have := ih fun c hc => hb c (by simp [hc])
    simp [lstripP, hb b (by simp)] at this ⊢
    exact this

theorem line_app {env : FEnv} {w : Where} {raw : V} {blank name data : Str} {front lead : List Ev}
    (h : Front env w raw (blank ++ name) data front) (hb : ∀ c ∈ blank, isSpace c = true) (hn : name ≠ []) (hl : NoLead name)
    (ht : NoTrail name) (he : Exactly (blank ≠ []) (mkMsg .W_APP_WSH w [(c! "app", strV (blank ++ name))]) lead) :
    splitAppData env w (.one raw) = ⟨front ++ lead, .ok (some (name, data))⟩ := by
  obtain ⟨d, rfl, h2⟩ := front_says h
  rw [h2]
  have hr : rstripP isSpace (blank ++ name) = blank ++ name := by
    refine rstripP_self _ _ fun c hc => ?_
    rw [List.getLast?_append] at hc
    cases hg : name.getLast? with
    | none => exact absurd (List.getLast?_eq_none_iff.1 hg) hn
    | some x =>
      rw [hg] at hc
      simp at hc
      subst hc
      obtain ⟨r, rfl⟩ := List.getLast?_eq_some_iff.1 hg
      exact ht r x rfl
  simp only [splitAppEnd]
  rw [if_neg (fun h => h hr), lstrip_lead hb hl, if_neg hn]
  have e1 : (if name ≠ blank ++ name then Tr.emit (mkMsg .W_APP_WSH w [(c! "app", strV (blank ++ name))]) else Tr.pure ()) =
      ⟨lead, .ok ()⟩ := by
    have hiff : name ≠ blank ++ name ↔ blank ≠ [] := by
      constructor
      · rintro h rfl; exact h rfl
      · intro h he
        have := congrArg List.length he
        simp at this
        exact h this
    rcases he with ⟨hp, rfl⟩ | ⟨hp, rfl⟩
    · rw [if_pos (hiff.2 hp)]; rfl
    · rw [if_neg (fun h => hp (hiff.1 h))]; rfl
  rw [e1]
  simp [Tr.bind, Tr.pure]

/-! ## Running -/

/-- Running an application given as an argument. -/
private def innerAt (env : AEnv) (w : Where) (d : Nat) (sp : Option Str) (raw : Arg) : Tr (Option Str) :=
  .bind (runApp env d sp w raw) fun r => .pure r.1

private abbrev RunsApp (env : AEnv) (w : Where) (sp : Option Str) (a : AppInfo) (v : V) (evs : List Ev) (sp' : Option Str)
    (js : List Jump) : Prop :=
  ∀ d, v.marks ≤ d → callApp env.toFEnv (innerAt env w d) sp w a v = ⟨evs, .ok (sp', js)⟩

private abbrev RunsAll (env : AEnv) (w : Where) (sp : Option Str) (acts : List V) (evs : List Ev) (sp' : Option Str) : Prop :=
  ∀ d, (∀ a ∈ acts, a.marks < d) → execAll (innerAt env w d) sp (acts.map .one) = ⟨evs, .ok sp'⟩

private abbrev RunsLine (env : AEnv) (w : Where) (sp : Option Str) (raw : V) (evs : List Ev) (sp' : Option Str) (js : List Jump) : Prop :=
  ∀ d, raw.marks < d → runApp env d sp w (.one raw) = ⟨evs, .ok (sp', js)⟩

theorem balance_app {w : Where} {v : V} {bal : List Ev} (h : BalanceSays w v bal) : appBalance w v = ⟨bal, .ok ()⟩ :=
  appBalance_iff.2 h

theorem mapM_goto {acts : List Arg} {js : List Jump} {evs : List Ev} (ha : ∀ act ∈ acts, (∃ v, act = .one v ∧ Normal v) ∨
      ∃ vs, act = .many vs ∧ separateArgs ',' true act = [join (vs.filter fun v => v ≠ tk '"' ∧ v ≠ tk '\\')]) :
    Tr.mapM (fun a => Tr.lift (padJump (separateArgs ',' true a))) acts = ⟨evs, .ok js⟩ ↔
      evs = [] ∧ Zips (fun act j => ∃ args, ActionArgs act args ∧ GotoSays args j) acts js := by
  induction acts generalizing js evs with
  | nil =>
    rw [Tr.mapM, pure_iff]
    constructor
    · rintro ⟨rfl, rfl⟩; exact ⟨rfl, .nil⟩
    · rintro ⟨rfl, h⟩; cases h; exact ⟨rfl, rfl⟩
  | cons act acts ih =>
    have ih := fun {js evs} => ih (js := js) (evs := evs) fun a h => ha a (by simp [h])
    have ha := ha act (by simp)
    rw [Tr.mapM]
    constructor
    · intro h
      obtain ⟨j, e1, e2, h1, h2, rfl⟩ := bind_iff.1 h
      obtain ⟨js', e3, e4, h3, h4, rfl⟩ := bind_iff.1 h2
      obtain ⟨rfl, rfl⟩ := pure_iff.1 h4
      obtain ⟨h5, rfl⟩ := lift_iff.1 h1
      obtain ⟨rfl, h6⟩ := ih.1 h3
      exact ⟨rfl, .cons ⟨_, (action_iff ha).1 rfl, goto_iff.1 h5⟩ h6⟩
    · rintro ⟨rfl, h⟩
      cases h with
      | cons h1 h2 =>
        obtain ⟨args, e1, e2⟩ := h1
        rw [(action_iff ha).2 e1, goto_says e2, ih.2 ⟨rfl, h2⟩]
        rfl

theorem mapM_gosub {w : Where} {name : Str} {acts : List Arg} {js : List Jump} {evs : List Ev}
    (ha : ∀ act ∈ acts, (∃ v, act = .one v ∧ Normal v) ∨
      ∃ vs, act = .many vs ∧ separateArgs ',' true act = [join (vs.filter fun v => v ≠ tk '"' ∧ v ≠ tk '\\')]) :
    Tr.mapM (fun a => gosubDest w name true (separateArgs ',' true a)) acts = ⟨evs, .ok js⟩ ↔
      ∃ ps : List (Jump × List Ev), Zips (fun act j => ∃ args, ActionArgs act args ∧ GosubSays w name true args j.1 j.2) acts ps ∧
        evs = ps.flatMap (·.2) ∧ js = ps.map (·.1) := by
  induction acts generalizing js evs with
  | nil =>
    rw [Tr.mapM, pure_iff]
    constructor
    · rintro ⟨rfl, rfl⟩; exact ⟨[], .nil, rfl, rfl⟩
    · rintro ⟨ps, h, rfl, rfl⟩; cases h; exact ⟨rfl, rfl⟩
  | cons act acts ih =>
    have ih := fun {js evs} => ih (js := js) (evs := evs) fun a h => ha a (by simp [h])
    have ha := ha act (by simp)
    rw [Tr.mapM]
    constructor
    · intro h
      obtain ⟨j, e1, e2, h1, h2, rfl⟩ := bind_iff.1 h
      obtain ⟨js', e3, e4, h3, h4, rfl⟩ := bind_iff.1 h2
      obtain ⟨rfl, rfl⟩ := pure_iff.1 h4
      obtain ⟨ps, h6, rfl, rfl⟩ := ih.1 h3
      have hargs := (action_iff ha).1 rfl
      exact ⟨(j, e1) :: ps, .cons ⟨_, hargs, (gosub_iff (action_ne hargs)).1 h1⟩ h6, by simp, rfl⟩
    · rintro ⟨ps, h, rfl, rfl⟩
      cases h with
      | @cons _ _ p ps h1 h2 =>
        obtain ⟨args, e1, e2⟩ := h1
        rw [(action_iff ha).2 e1, gosub_says e2, ih.2 ⟨ps, h2, rfl, rfl⟩]
        simp [Tr.bind, Tr.pure]

theorem cond_true {w : Where} {name : Str} {data : V} {acts : List Arg} {evs : List Ev} (h : CondSays w name true data acts evs) :
    ∃ r p, condSplit w name data = ⟨evs, .ok (r, p)⟩ ∧ actions p = acts := cond_says h

theorem cond_false {w : Where} {name : Str} {data : V} {acts : List Arg} {evs : List Ev} (h : CondSays w name false data acts evs) :
    ∃ r p, ifSplit w name data = ⟨evs, .ok (r, p)⟩ ∧ actions p = acts := cond_says h

variable {env : AEnv} {w : Where}

private theorem runs_simple {sp : Option Str} {a : AppInfo} {v : V} {evs : List Ev} {sp' : Option Str} {js : List Jump}
    (h : ∀ inner, callApp env.toFEnv inner sp w a v = ⟨evs, .ok (sp', js)⟩) : RunsApp env w sp a v evs sp' js :=
  fun _ _ => h _

private theorem runs_app {sp sp' : Option Str} {raw v : V} {blank name data : Str} {a : AppInfo}
    {front lead look inner call : List Ev} {js : List Jump} (h1 : Front env.toFEnv w raw (blank ++ name) data front)
    (h2 : ∀ c ∈ blank, isSpace c = true) (h3 : name ≠ []) (h4 : NoLead name) (h5 : NoTrail name)
    (h6 : Exactly (blank ≠ []) (mkMsg .W_APP_WSH w [(c! "app", strV (blank ++ name))]) lead)
    (h7 : NameSays env sp w name a look) (h8 : DataSays env.toFEnv w name data v inner)
    (h9 : RunsApp env w (spelled sp a name) a v call sp' js) :
    RunsLine env w sp raw (front ++ (lead ++ (look ++ (inner ++ call)))) sp' js := by
  intro d hd
  obtain ⟨d, rfl⟩ : ∃ k, d = k + 1 := ⟨d - 1, by omega⟩
  have hm1 := front_marks h1
  have hm2 := data_marks h8
  have h9 := h9 d (by omega)
  rw [runApp, line_app h1 h2 h3 h4 h5 h6]
  have e := name_says h7
  have e' := data_says h8
  unfold innerAt at h9
  simp only [Tr.bind] at h9 ⊢
  rw [e]
  simp only
  rw [e']
  simp only
  rw [h9]
  simp

private theorem runs_cons {sp sp' sp'' : Option Str} {raw : V} {raws : List V} {e es : List Ev} {js : List Jump}
    (h1 : RunsLine env w sp raw e sp' js) (h2 : RunsAll env w sp' raws es sp'') : RunsAll env w sp (raw :: raws) (e ++ es) sp'' := by
  intro d hd
  have h1 := h1 d (hd _ List.mem_cons_self)
  have h2 := h2 d fun a ha => hd _ (List.mem_cons_of_mem _ ha)
  rw [List.map_cons, execAll, innerAt, h1]
  simp [Tr.bind, Tr.pure, h2]

private theorem runs_execIf {sp sp' : Option Str} {a : AppInfo} {data : V} {acts : List V} {evs runs : List Ev} (hb : a.beh = .execIf)
    (h1 : CondSays w a.name true data (acts.map .one) evs) (h2 : RunsAll env w sp acts runs sp') :
    RunsApp env w sp a data (evs ++ runs) sp' [] := by
  obtain ⟨r, p, e1, e2⟩ := cond_true h1
  intro d hd
  have h2 := h2 d fun a ha => Nat.lt_of_lt_of_le (cond_marks h1 (List.mem_map.2 ⟨a, ha, rfl⟩)) hd
  simp only [callApp, hb, e1]
  simp [Tr.bind, e2, h2, Tr.pure]

theorem line_runs {sp sp' : Option Str} {raw : V} {evs : List Ev} {js : List Jump} (h : LineSays env w sp raw evs sp' js) :
    ∀ d, raw.marks < d → runApp env d sp w (.one raw) = ⟨evs, .ok (sp', js)⟩ := by
  refine LineSays.rec (motive_1 := fun sp a v evs sp' js _ => RunsApp env w sp a v evs sp' js)
    (motive_2 := fun sp acts evs sp' _ => RunsAll env w sp acts evs sp')
    (motive_3 := fun sp raw evs sp' js _ => RunsLine env w sp raw evs sp' js) ?_ ?_ ?_ ?_ ?_ ?_ ?_ ?_ ?_ ?_ ?_ ?_ ?_ ?_ h
  · intro sp a data bal hb h
    refine runs_simple fun inner => ?_
    rcases hb with hb | hb <;> simp [callApp, hb, balance_app h, Tr.bind, Tr.pure]
  · intro sp a data asg bal hb h1 h2
    refine runs_simple fun inner => ?_
    simp [callApp, hb, says_assign h1, balance_app h2, Tr.bind, Tr.pure]
  · intro sp a data least behs args count each pipe hb hne h0 h1 h2 h3
    refine runs_simple fun inner => ?_
    simp [callApp, hb, callArgs_says hne h0 h1 h2 h3, Tr.bind, Tr.pure]
  · intro sp a data args j count pipe hb h0 h1 h2 h3
    refine runs_simple fun inner => ?_
    simp [callApp, hb, jumpArgs_says h0 h1 h2, goto_says h3, Tr.bind, Tr.pure, Tr.lift]
  · intro sp a data args j count pipe prio hb h0 h1 h2 h3
    refine runs_simple fun inner => ?_
    simp [callApp, hb, jumpArgs_says h0 h1 h2, gosub_says h3, Tr.bind, Tr.pure]
  · intro sp a data acts evs hb h
    obtain ⟨r, p, e1, _⟩ := cond_false h
    refine runs_simple fun inner => ?_
    simp [callApp, hb, e1, Tr.bind, Tr.pure]
  · intro sp a data acts js evs hb h1 h2
    obtain ⟨r, p, e1, e2⟩ := cond_true h1
    refine runs_simple fun inner => ?_
    simp [callApp, hb, e1, e2, (mapM_goto (cond_acts h1)).2 ⟨rfl, h2⟩, Tr.bind, Tr.pure]
  · intro sp a data acts js evs hb h1 h2
    obtain ⟨r, p, e1, e2⟩ := cond_true h1
    refine runs_simple fun inner => ?_
    simp [callApp, hb, e1, e2, (mapM_gosub (cond_acts h1)).2 ⟨_, h2, rfl, rfl⟩, Tr.bind, Tr.pure]
  · intro sp sp' a data acts evs runs hb h1 _ h2
    exact runs_execIf hb h1 h2
  · exact fun _ _ => rfl
  · intro sp sp' sp'' raw raws e es js _ _ h1 h2
    exact runs_cons h1 h2
  · intro sp raw front data x e h1 h2
    intro d hd
    obtain ⟨d, rfl⟩ : ∃ k, d = k + 1 := ⟨d - 1, by omega⟩
    rw [runApp, line_bad h1 h2]
    simp [Tr.bind, Tr.pure]
  · intro sp raw data e h1
    intro d hd
    obtain ⟨d, rfl⟩ : ∃ k, d = k + 1 := ⟨d - 1, by omega⟩
    rw [runApp, line_none h1]
    simp [Tr.bind, Tr.pure]
  · intro sp sp' raw v blank name data a front lead look inner call js h1 h2 h3 h4 h5 h6 h7 h8 _ h9
    exact runs_app h1 h2 h3 h4 h5 h6 h7 h8 h9

/-! ## Nothing else is said -/

omit env w in
theorem front_str (env : FEnv) (w : Where) (t : Str) : ∃ front data e, Front env w (.str t) front data e := by
  by_cases h : '(' ∈ t
  · obtain ⟨a, b, rfl, hn⟩ := first_char h
    have ht : (V.str (a ++ '(' :: b)).tokens = a.map tk ++ tk '(' :: b.map tk := by
      show (a ++ '(' :: b).map tk = _
      simp
    have hj : (join (b.map tk)).toStr = .ok b := by
      rw [normal_determined (tok_normal (p := b.map tk) (by simp [isTok, tk])) (normal_str b) (by
        rw [tokens_join (by simp [isTok, tk])]; simp [tokens, tk])]
      rfl
    by_cases hl : b.getLast? = some ')'
    · obtain ⟨d, rfl⟩ := List.getLast?_eq_some_iff.1 hl
      exact ⟨_, _, _, .closed rfl ht hn hj⟩
    · exact ⟨_, _, _, .unclosed rfl ht hn hj hl⟩
  · obtain ⟨e, he⟩ := exactly_total (env.lower t ≠ c! "noop") (mkMsg .W_APP_NEED_PARENS w [(c! "app", strV t)])
    exact ⟨_, _, _, .bare h he⟩

omit env w in
theorem front_exists {env : FEnv} {w : Where} {raw : V} (hr : Normal raw) {evs : List Ev} {r : Option (Str × Str)}
    (h : splitAppData env w (.one raw) = ⟨evs, .ok r⟩) : ∃ front data e, Front env w raw front data e := by
  rcases normal_cases hr with ⟨s, rfl⟩ | ⟨k, n, s, l, rfl⟩ | ⟨items, rfl, hc, hp, h2⟩
  · exact front_str env w s
  · by_cases hn : ∃ t, n = .str t ∧ '(' ∈ t
    · obtain ⟨t, rfl, ht⟩ := hn
      obtain ⟨f, d, e, hf⟩ := front_str env w t
      exact ⟨f, d, e, .inside ht hf⟩
    · exfalso
      unfold splitAppData at h
      obtain ⟨parts, e1, e2, h1, h2, -⟩ := bind_iff.1 h
      obtain ⟨h1, -⟩ := lift_iff.1 h1
      rw [V.split] at h1
      split at h1
      · have : (splitGroups '(' (some 1) [n]).map joinGroup = [n] := by
          cases n with
          | str t =>
            have : '(' ∉ t := fun ht => hn ⟨t, rfl, ht⟩
            simp [splitGroups, this, consHead, joinGroup]
          | _ => simp [splitGroups, consHead, joinGroup]
        rw [this] at h1
        cases h1
        exact raise_iff.1 h2
      · cases h1
  · by_cases hm : tk '(' ∈ (V.lst items).tokens
    · obtain ⟨a, b, ht, hn⟩ := first_of hm
      have hka : ∀ t ∈ a, isTok t = true := fun t h => tokens_isTok _ t (by rw [ht]; simp [h])
      obtain ⟨r', e1, e2, e3⟩ := split_first (v := .lst items) (d := join a) (c := '(') (rest := b) (by simpa [isMixed] using hp) (tok_normal hka)
        (by rw [tokens_join hka]; exact ht) (by rw [tokens_join hka]; exact hn)
      unfold splitAppData at h
      simp only [e1] at h
      obtain ⟨parts, x1, x2, h3, h4, -⟩ := bind_iff.1 h
      obtain ⟨h3, -⟩ := lift_iff.1 h3
      cases h3
      obtain ⟨sd, x3, x4, h5, h6, -⟩ := bind_iff.1 h4
      obtain ⟨h5, -⟩ := lift_iff.1 h5
      have hrj := normal_join e3
      rw [e2] at hrj
      rw [hrj] at h5
      cases hj : join a with
      | str f =>
        have hf : a = f.map tk := by
          rw [← tokens_join hka, hj]; rfl
        subst hf
        have hn' : '(' ∉ f := by simpa [tk] using hn
        by_cases hl : sd.getLast? = some ')'
        · obtain ⟨d, rfl⟩ := List.getLast?_eq_some_iff.1 hl
          exact ⟨_, _, _, .closed (by simpa [isMixed] using hp) ht hn' h5⟩
        · exact ⟨_, _, _, .unclosed (by simpa [isMixed] using hp) ht hn' h5 hl⟩
      | _ =>
        rw [hj] at h6
        exact absurd h6 raise_iff.1
    · exfalso
      obtain ⟨p, e⟩ := split_none (v := .lst items) (c := '(') (by simpa [isMixed] using hp) hm
      unfold splitAppData at h
      simp only [e] at h
      obtain ⟨parts, x1, x2, h3, h4, -⟩ := bind_iff.1 h
      obtain ⟨h3, -⟩ := lift_iff.1 h3
      cases h3
      exact raise_iff.1 h4

omit env w in
/-- White space at the end, nothing, or a name with white space in front. -/
theorem front_cases (front : Str) : (∃ f x, front = f ++ [x] ∧ isSpace x = true) ∨ front = [] ∨
    ∃ blank name, front = blank ++ name ∧ (∀ c ∈ blank, isSpace c = true) ∧ name ≠ [] ∧ NoLead name ∧ NoTrail name := by
  rcases List.eq_nil_or_concat front with rfl | ⟨f, x, rfl⟩
  · exact .inr (.inl rfl)
  · cases hx : isSpace x with
    | true => exact .inl ⟨f, x, by simp, hx⟩
    | false =>
      refine .inr (.inr ⟨(f ++ [x]).takeWhile isSpace, (f ++ [x]).dropWhile isSpace, ?_, ?_, ?_, ?_, ?_⟩)
      · simp
      · intro c hc
        exact mem_takeWhile' hc
      · intro h
        have h1 := List.takeWhile_append_dropWhile (p := isSpace) (l := f ++ [x])
        rw [h, List.append_nil] at h1
        have : isSpace x = true := mem_takeWhile' (s := f ++ [x]) (by rw [h1]; simp)
        rw [this] at hx
        cases hx
      · intro c r hcr
        have := List.head?_dropWhile_not isSpace (f ++ [x])
        rw [hcr] at this
        simpa using this
      · intro r c hrc
        have hs := List.dropWhile_suffix isSpace (l := f ++ [x])
        rw [hrc] at hs
        obtain ⟨p, hp⟩ := hs
        have := congrArg List.getLast? hp
        simp at this
        rw [this, hx]

/-- What running an application inside says. -/
private abbrev InnerSays (env : AEnv) (w : Where) (inner : Option Str → Arg → Tr (Option Str)) : Prop :=
  ∀ sp act evs sp', inner sp act = ⟨evs, .ok sp'⟩ → ∃ v, act = .one v ∧ (Normal v → ∃ js, LineSays env w sp v evs sp' js)

private theorem execAll_complete {inner : Option Str → Arg → Tr (Option Str)} (hi : InnerSays env w inner) {sp sp' : Option Str}
    {acts : List Arg} {evs : List Ev} (h : execAll inner sp acts = ⟨evs, .ok sp'⟩) (hn : ∀ v, .one v ∈ acts → Normal v) :
    ∃ vs : List V, acts = vs.map .one ∧ LinesSay env w sp vs evs sp' := by
  induction acts generalizing sp evs with
  | nil =>
    obtain ⟨rfl, rfl⟩ := pure_iff.1 h
    exact ⟨[], rfl, .nil⟩
  | cons a as ih =>
    obtain ⟨s, e1, e2, h1, h2, rfl⟩ := bind_iff.1 h
    obtain ⟨vs, rfl, h3⟩ := ih h2 fun v hv => hn v (by simp [hv])
    obtain ⟨v, rfl, h4⟩ := hi _ _ _ _ h1
    obtain ⟨js, h4⟩ := h4 (hn v (by simp))
    exact ⟨v :: vs, rfl, .cons h4 h3⟩

private theorem callApp_complete {inner : Option Str → Arg → Tr (Option Str)} (hi : InnerSays env w inner) {sp sp' : Option Str}
    {a : AppInfo} (hd : ∀ least behs, a.beh = .args least behs → behs ≠ []) {v : V} (hv : Normal v) {evs : List Ev} {js : List Jump}
    (h : callApp env.toFEnv inner sp w a v = ⟨evs, .ok (sp', js)⟩) : AppSays env w sp a v evs sp' js := by
  unfold callApp at h
  have plain : ∀ (_ : a.beh = .plain ∨ a.beh = .background),
      (Tr.bind (appBalance w v) fun _ => Tr.pure (sp, ([] : List Jump))) = ⟨evs, .ok (sp', js)⟩ → AppSays env w sp a v evs sp' js := by
    intro hb h
    obtain ⟨⟨⟩, e1, e2, h1, h2, rfl⟩ := bind_iff.1 h
    obtain ⟨h3, rfl⟩ := pure_iff.1 h2
    cases h3
    rw [List.append_nil]
    exact .plain hb (appBalance_iff.1 h1)
  cases hb : a.beh with
  | plain => rw [hb] at h; exact plain (.inl hb) h
  | background => rw [hb] at h; exact plain (.inr hb) h
  | set =>
    simp only [hb] at h
    obtain ⟨⟨⟩, e1, e2, h1, h2, rfl⟩ := bind_iff.1 h
    obtain ⟨⟨⟩, e3, e4, h3, h4, rfl⟩ := bind_iff.1 h2
    obtain ⟨h5, rfl⟩ := pure_iff.1 h4
    cases h5
    rw [List.append_nil]
    exact .set hb ((assign_iff hv).1 h1) (appBalance_iff.1 h3)
  | args least behs =>
    simp only [hb] at h
    obtain ⟨args, e1, e2, h1, h2, rfl⟩ := bind_iff.1 h
    obtain ⟨h5, rfl⟩ := pure_iff.1 h2
    cases h5
    rw [List.append_nil]
    obtain ⟨c, e, p, g0, g1, g2, g3, rfl⟩ := callArgs_complete (hd least behs hb) h1
    exact .args hb (hd least behs hb) g0 g1 g2 g3
  | goto =>
    simp only [hb] at h
    obtain ⟨args, e1, e2, h1, h2, rfl⟩ := bind_iff.1 h
    obtain ⟨j, e3, e4, h3, h4, rfl⟩ := bind_iff.1 h2
    obtain ⟨h5, rfl⟩ := pure_iff.1 h4
    cases h5
    obtain ⟨h6, rfl⟩ := lift_iff.1 h3
    rw [List.append_nil, List.append_nil]
    obtain ⟨c, p, g0, g1, g2, rfl⟩ := jumpArgs_complete h1
    exact .goto hb g0 g1 g2 (goto_iff.1 h6)
  | gosub =>
    simp only [hb] at h
    obtain ⟨args, e1, e2, h1, h2, rfl⟩ := bind_iff.1 h
    obtain ⟨j, e3, e4, h3, h4, rfl⟩ := bind_iff.1 h2
    obtain ⟨h5, rfl⟩ := pure_iff.1 h4
    cases h5
    rw [List.append_nil]
    obtain ⟨c, p, g0, g1, g2, rfl⟩ := jumpArgs_complete h1
    rw [List.append_assoc]
    exact .gosub hb g0 g1 g2 ((gosub_iff (args_facts g0).1).1 h3)
  | ifTime =>
    simp only [hb] at h
    obtain ⟨⟨r, p⟩, e1, e2, h1, h2, rfl⟩ := bind_iff.1 h
    obtain ⟨h5, rfl⟩ := pure_iff.1 h2
    cases h5
    rw [List.append_nil]
    exact .ifTime hb (cond_iff.2 ⟨r, p, h1, rfl⟩)
  | gotoIf =>
    simp only [hb] at h
    obtain ⟨⟨r, p⟩, e1, e2, h1, h2, rfl⟩ := bind_iff.1 h
    obtain ⟨js', e3, e4, h3, h4, rfl⟩ := bind_iff.1 h2
    obtain ⟨h5, rfl⟩ := pure_iff.1 h4
    cases h5
    have hc : CondSays w a.name true v (actions p) e1 := cond_iff.2 ⟨r, p, h1, rfl⟩
    obtain ⟨rfl, h6⟩ := (mapM_goto (cond_acts hc)).1 h3
    rw [List.append_nil, List.append_nil]
    exact .gotoIf hb hc h6
  | gosubIf =>
    simp only [hb] at h
    obtain ⟨⟨r, p⟩, e1, e2, h1, h2, rfl⟩ := bind_iff.1 h
    obtain ⟨js', e3, e4, h3, h4, rfl⟩ := bind_iff.1 h2
    obtain ⟨h5, rfl⟩ := pure_iff.1 h4
    cases h5
    have hc : CondSays w a.name true v (actions p) e1 := cond_iff.2 ⟨r, p, h1, rfl⟩
    obtain ⟨ps, h6, rfl, rfl⟩ := (mapM_gosub (cond_acts hc)).1 h3
    rw [List.append_nil]
    exact .gosubIf hb hc h6
  | execIf =>
    simp only [hb] at h
    obtain ⟨⟨r, p⟩, e1, e2, h1, h2, rfl⟩ := bind_iff.1 h
    obtain ⟨s, e3, e4, h3, h4, rfl⟩ := bind_iff.1 h2
    obtain ⟨h5, rfl⟩ := pure_iff.1 h4
    cases h5
    have hc : CondSays w a.name true v (actions p) e1 := cond_iff.2 ⟨r, p, h1, rfl⟩
    obtain ⟨vs, hvs, h6⟩ := execAll_complete hi h3 fun u hu => by
      rcases cond_acts hc _ hu with ⟨u', he, hn⟩ | ⟨us, he, _⟩
      · cases he; exact hn
      · cases he
    rw [hvs] at hc
    rw [List.append_nil]
    exact .execIf hb hc h6

theorem line_complete (hd : ArgsDescribed env) {d : Nat} {sp sp' : Option Str} {raw : V} (hr : Normal raw) {evs : List Ev} {js : List Jump}
    (h : runApp env d sp w (.one raw) = ⟨evs, .ok (sp', js)⟩) : LineSays env w sp raw evs sp' js := by
  induction d generalizing sp sp' raw evs js with
  | zero => exact absurd h raise_iff.1
  | succ d ih =>
    rw [runApp] at h
    obtain ⟨r, e1, e2, h1, h2, rfl⟩ := bind_iff.1 h
    obtain ⟨front, data, e, hf⟩ := front_exists hr h1
    rcases front_cases front with ⟨f, x, rfl, hx⟩ | rfl | ⟨blank, name, rfl, hb, hn, hl, ht⟩
    · rw [line_bad hf hx] at h1
      simp only [Tr.mk.injEq, Except.ok.injEq] at h1
      obtain ⟨rfl, rfl⟩ := h1
      obtain ⟨h3, rfl⟩ := pure_iff.1 h2
      cases h3
      rw [List.append_nil]
      exact .blankBehind hf hx
    · rw [line_none hf] at h1
      simp only [Tr.mk.injEq, Except.ok.injEq] at h1
      obtain ⟨rfl, rfl⟩ := h1
      obtain ⟨h3, rfl⟩ := pure_iff.1 h2
      cases h3
      rw [List.append_nil]
      exact .noName hf
    · obtain ⟨lead, hlead⟩ := exactly_total (blank ≠ []) (mkMsg .W_APP_WSH w [(c! "app", strV (blank ++ name))])
      rw [line_app hf hb hn hl ht hlead] at h1
      simp only [Tr.mk.injEq, Except.ok.injEq] at h1
      obtain ⟨rfl, rfl⟩ := h1
      obtain ⟨⟨a, sp1⟩, e3, e4, h3, h4, rfl⟩ := bind_iff.1 h2
      obtain ⟨v, e5, e6, h5, h6, rfl⟩ := bind_iff.1 h4
      obtain ⟨hname, rfl⟩ := name_iff.1 h3
      have hdata := parseInner_iff.1 h5
      have hin : InnerSays env w fun sp raw => .bind (runApp env d sp w raw) fun r => .pure r.1 := by
        intro sp act evs sp' h
        obtain ⟨⟨s, js⟩, x1, x2, g1, g2, rfl⟩ := bind_iff.1 h
        obtain ⟨g3, rfl⟩ := pure_iff.1 g2
        subst g3
        rw [List.append_nil]
        cases act with
        | one v => exact ⟨v, rfl, fun hv => ⟨js, ih hv g1⟩⟩
        | many vs =>
          cases d with
          | zero => exact absurd g1 raise_iff.1
          | succ d =>
            rw [runApp] at g1
            obtain ⟨_, _, _, g4, _, _⟩ := bind_iff.1 g1
            exact absurd g4 raise_iff.1
      have hbeh : ∀ least behs, a.beh = .args least behs → behs ≠ [] := by
        intro least behs hb
        have : Stands env name a := by cases hname <;> assumption
        rcases this with h | h
        · exact hd _ a least behs h hb
        · exact hd _ a least behs h.2 hb
      have := LineSays.app hf hb hn hl ht hlead hname hdata (callApp_complete hin hbeh (data_normal hdata) h6)
      simpa using this

/-- What is said about an application, exactly. -/
theorem line_iff (hd : ArgsDescribed env) {sp sp' : Option Str} {raw : V} (hr : Normal raw) {evs : List Ev} {js : List Jump} :
    (∃ d, runApp env d sp w (.one raw) = ⟨evs, .ok (sp', js)⟩) ↔ LineSays env w sp raw evs sp' js := by
  constructor
  · rintro ⟨d, h⟩
    exact line_complete hd hr h
  · intro h
    exact ⟨_, line_runs h _ (Nat.lt_succ_self _)⟩

end ALint
