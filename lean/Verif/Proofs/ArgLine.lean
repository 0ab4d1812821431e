import Verif.Proofs.ArgWords

/-!
# Command lines: the loop over the words
-/

namespace ALint
open Spec

/-! ## The loop -/

/-- What `parse_args` makes of the outcome of the loop. -/
def argFinal : Except ArgStop (ArgSpace × List Str) → ArgEnd
  | .error e => .error e
  | .ok (ns, []) => .ok ns
  | .ok (_, _ :: _) => .error .refused

/-- The loop with enough rounds. -/
def argAll (p : ArgParser) (ns : ArgSpace) (open_ : Bool) (extras : List Str) (items : List ArgItem) : ArgEnd :=
  argFinal (argLoop p (items.length + 1) ns open_ extras items)

theorem following_length {act : OptAct} {rest rest' : List ArgItem} {acts : List (OptAct × List Str)} {ex : List Str}
    (h : matchFollowing act rest = .ok (acts, ex, rest')) : rest'.length ≤ rest.length := by
  unfold matchFollowing at h
  split at h
  · split at h
    · cases h; simp
    · cases h
  · cases h; exact Nat.le_refl _

theorem explicit_length {p : ArgParser} {rest : List ArgItem} : ∀ {act : OptAct} {short : Bool} {sep v : Str}
    {rest' : List ArgItem} {acts : List (OptAct × List Str)} {ex : List Str},
    matchExplicit p rest act short sep v = .ok (acts, ex, rest') → rest'.length ≤ rest.length := by
  intro act short sep v
  fun_induction matchExplicit p rest act short sep v with
  | case1 => intro _ _ _ h; cases h; exact Nat.le_refl _
  | case2 => intro _ _ _ h; cases h
  | case3 => intro _ _ _ h; cases h; exact Nat.le_refl _
  | case4 => intro _ _ _ h; cases h
  | case5 => intro _ _ _ h; cases h
  | case6 => intro _ _ _ h; cases h; exact Nat.le_refl _
  | case7 =>
    rename_i ih
    intro rest' acts ex h
    have key : ∀ {m : OptMatch} {a : OptAct}, m.after a = .ok (acts, ex, rest') → ∃ acts', m = .ok (acts', ex, rest') := by
      intro m a hm
      unfold OptMatch.after at hm
      split at hm
      · cases hm
      · cases hm; exact ⟨_, rfl⟩
    obtain ⟨acts', h⟩ := key h
    clear key
    split at h
    · exact following_length h
    · exact ih h
    · split at ih
      · rename_i e; cases e
      · rename_i hd _ _ _ e
        injection e with e _; exact absurd e hd
      · rename_i e
        cases e
        exact ih h

theorem optMatch_length {p : ArgParser} {t : OptTuple} {act : OptAct} {rest rest' : List ArgItem}
    {acts : List (OptAct × List Str)} {ex : List Str} (h : optMatch p t act rest = .ok (acts, ex, rest')) :
    rest'.length ≤ rest.length := by
  unfold optMatch at h
  split at h
  · exact explicit_length h
  · exact following_length h

theorem consumeOptional_length {p : ArgParser} {ns ns' : ArgSpace} {s : Str} {t : OptTuple} {rest rest' : List ArgItem}
    {ex : List Str} (h : consumeOptional p ns s t rest = .ok (ns', ex, rest')) : rest'.length ≤ rest.length := by
  cases ht : t.act with
  | none =>
    unfold consumeOptional at h
    rw [ht] at h
    cases h
    exact Nat.le_refl _
  | some act =>
    rw [consumeOptional_some ht] at h
    split at h
    · cases h
    · rename_i hm
      split at h
      · cases h
      · cases h
        exact optMatch_length hm

/-- The round in which there are no options left. -/
theorem loop_none {p : ArgParser} {n : Nat} {ns : ArgSpace} {open_ : Bool} {extras : List Str} {items : List ArgItem}
    (h : items.any ArgItem.isOpt = false) : argLoop p (n + 1) ns open_ extras items =
      .ok ((consumePositionals p ns open_ items).1, extras ++ (consumePositionals p ns open_ items).2.map ArgItem.text) := by
  unfold argLoop
  rw [if_neg (by simp [h])]

/-- A round that begins with something that is no option. -/
theorem loop_plain {p : ArgParser} {n : Nat} {ns : ArgSpace} {open_ : Bool} {extras : List Str} {i : ArgItem} {rest : List ArgItem}
    (hi : i.isOpt = false) (ha : rest.any ArgItem.isOpt = true) : argLoop p (n + 1) ns open_ extras (i :: rest) =
      if (consumePositionals p ns open_ (i :: rest)).2.length < (i :: rest).length then
        argLoop p n (consumePositionals p ns open_ (i :: rest)).1 false extras (consumePositionals p ns open_ (i :: rest)).2
      else argLoop p n (consumePositionals p ns open_ (i :: rest)).1 false
        (extras ++ i.text :: (rest.takeWhile (!·.isOpt)).map ArgItem.text) (rest.dropWhile (!·.isOpt)) := by
  conv => lhs; unfold argLoop
  rw [if_pos (by simp [ha])]
  cases i with
  | opt s t => cases hi
  | _ => simp [hi]

/-- More rounds make no difference. -/
theorem argLoop_fuel (p : ArgParser) : ∀ (n m : Nat) (ns : ArgSpace) (open_ : Bool) (extras : List Str) (items : List ArgItem),
    items.length < n → items.length < m → argLoop p n ns open_ extras items = argLoop p m ns open_ extras items
  | 0, _, _, _, _, _, h, _ => absurd h (Nat.not_lt_zero _)
  | _, 0, _, _, _, _, _, h => absurd h (Nat.not_lt_zero _)
  | n + 1, m + 1, ns, open_, extras, items, hn, hm => by
    cases ha : items.any ArgItem.isOpt with
    | false => rw [loop_none ha, loop_none ha]
    | true =>
      cases items with
      | nil => cases ha
      | cons i rest =>
        simp only [List.length_cons] at hn hm
        cases hi : i.isOpt with
        | true =>
          cases i with
          | opt s t =>
            rw [argLoop, argLoop, if_pos ha, if_pos ha]
            cases h : consumeOptional p ns s t rest with
            | error e => rfl
            | ok x =>
              obtain ⟨ns', ex, rest'⟩ := x
              have := consumeOptional_length h
              exact argLoop_fuel p n m _ _ _ _ (by omega) (by omega)
          | _ => cases hi
        | false =>
          have ha' : rest.any ArgItem.isOpt = true := by simpa [hi] using ha
          rw [loop_plain hi ha', loop_plain hi ha']
          split
          · rename_i hl
            simp only [List.length_cons] at hl
            exact argLoop_fuel p n m _ _ _ _ (by omega) (by omega)
          · have := (List.dropWhile_suffix (fun i : ArgItem => !i.isOpt) (l := rest)).length_le
            exact argLoop_fuel p n m _ _ _ _ (by omega) (by omega)

theorem argAll_of {p : ArgParser} {n : Nat} {ns : ArgSpace} {open_ : Bool} {extras : List Str} {items : List ArgItem}
    (h : items.length < n) : argFinal (argLoop p n ns open_ extras items) = argAll p ns open_ extras items := by
  unfold argAll
  rw [argLoop_fuel p n (items.length + 1) _ _ _ _ h (by omega)]

theorem all_opt {p : ArgParser} {ns : ArgSpace} {open_ : Bool} {extras : List Str} {s : Str} {t : OptTuple}
    {rest : List ArgItem} : argAll p ns open_ extras (.opt s t :: rest) = match consumeOptional p ns s t rest with
      | .error e => .error e
      | .ok (ns, ex, rest) => argAll p ns open_ (extras ++ ex) rest := by
  rw [argAll, argLoop, if_pos (by simp [ArgItem.isOpt])]
  cases h : consumeOptional p ns s t rest with
  | error e => rfl
  | ok x =>
    obtain ⟨ns', ex, rest'⟩ := x
    have := consumeOptional_length h
    exact argAll_of (by simp only [List.length_cons]; omega)

theorem all_none {p : ArgParser} {ns : ArgSpace} {open_ : Bool} {extras : List Str} {items : List ArgItem}
    (h : items.any ArgItem.isOpt = false) : argAll p ns open_ extras items =
      argFinal (.ok ((consumePositionals p ns open_ items).1,
        extras ++ (consumePositionals p ns open_ items).2.map ArgItem.text)) := by
  rw [argAll, loop_none h]

theorem match_plain {s : Str} {rest : List ArgItem} (h : rest.head? ≠ some .dashes) :
    matchOptional (.plain s :: rest) = ([s], rest) := by
  unfold matchOptional
  have : spanDashes rest = ([], rest) := by
    cases rest with
    | nil => rfl
    | cons i rest =>
      cases i with
      | dashes => exact absurd rfl h
      | _ => rfl
  simp [spanDashes, this]

theorem erase_plain {s : Str} (h : s ≠ c! "--") : [s].erase (c! "--") = [s] := by
  rw [List.erase_cons]
  simp [h]

/-- The file. -/
theorem all_file {p : ArgParser} {ns : ArgSpace} {extras : List Str} {s : Str} {rest : List ArgItem} (hs : s ≠ c! "--")
    (h : rest.head? ≠ some .dashes) :
    argAll p ns true extras (.plain s :: rest) = argAll p { ns with path := s } false extras rest := by
  have hc : consumePositionals p ns true (.plain s :: rest) = ({ ns with path := s }, rest) := by
    unfold consumePositionals
    rw [if_pos rfl, match_plain h]
    simp only [erase_plain hs]
    rfl
  cases ha : rest.any ArgItem.isOpt with
  | false =>
    rw [all_none (by simp [ArgItem.isOpt, ha]), all_none ha, hc]
    rfl
  | true =>
    rw [argAll, loop_plain rfl ha, hc, if_pos (by simp)]
    exact argAll_of (by simp)

/-- Another file. -/
theorem all_second {p : ArgParser} {ns : ArgSpace} {extras : List Str} {i : ArgItem} {rest : List ArgItem}
    (hi : i.isOpt = false) :
    argAll p ns false extras (i :: rest) = argAll p ns false (extras ++ [i.text]) rest := by
  have hc : ∀ items, consumePositionals p ns false items = (ns, items) := fun _ => rfl
  cases ha : rest.any ArgItem.isOpt with
  | false =>
    rw [all_none (by simp [hi, ha]), all_none ha, hc, hc]
    simp
  | true =>
    rw [argAll, loop_plain hi ha, hc, if_neg (by simp)]
    have hd := (List.dropWhile_suffix (fun i : ArgItem => !i.isOpt) (l := rest)).length_le
    rw [argAll_of (by simp only [List.length_cons]; omega)]
    cases rest with
    | nil => cases ha
    | cons j rest =>
      cases hj : j.isOpt with
      | true => simp [hj]
      | false =>
        have ha' : rest.any ArgItem.isOpt = true := by simpa [hj] using ha
        have he : argAll p ns false (extras ++ [i.text]) (j :: rest) =
            argFinal (argLoop p (rest.length + 1 + 1) ns false (extras ++ [i.text]) (j :: rest)) := rfl
        rw [he, loop_plain hj ha', hc, if_neg (by simp)]
        have hd := (List.dropWhile_suffix (fun i : ArgItem => !i.isOpt) (l := rest)).length_le
        rw [argAll_of (by omega)]
        simp [hj]

/-! ## The words -/

/-- A word and what was found in it. -/
def itemOf (w : Str) : Option OptTuple → ArgItem
  | none => .plain w
  | some t => .opt w t

theorem classify_cons {p : ArgParser} {w : Str} {ws : List Str} {items : List ArgItem} (hw : w ≠ c! "--")
    (h : classify p (w :: ws) = .ok items) : ∃ t items', parseOptional p w = .ok t ∧ classify p ws = .ok items' ∧
      items = itemOf w t :: items' := by
  rw [classify, if_neg hw] at h
  cases hp : parseOptional p w with
  | error e => rw [hp] at h; cases h
  | ok t =>
    rw [hp] at h
    cases hc : classify p ws with
    | error e => rw [hc] at h; cases h
    | ok items' =>
      rw [hc] at h
      cases h
      refine ⟨t, items', rfl, rfl, ?_⟩
      cases t <;> rfl

theorem classify_dashes {p : ArgParser} {ws : List Str} : classify p (c! "--" :: ws) = .ok (.dashes :: ws.map .plain) := by
  rw [classify, if_pos rfl]

theorem classify_head {p : ArgParser} {ws : List Str} {items : List ArgItem} (h : classify p ws = .ok items)
    (hh : ws.head? ≠ some (c! "--")) : items.head? ≠ some .dashes := by
  cases ws with
  | nil => cases h; simp
  | cons w ws =>
    obtain ⟨t, items', -, -, rfl⟩ := classify_cons (by simpa using hh) h
    cases t <;> simp [itemOf]

/-- Every word is read, unless one is ambiguous. -/
theorem classify_ok {p : ArgParser} (hp : TidyParser p) : ∀ {ws : List Str},
    (∀ w ∈ beforeDashes ws, ¬ WordIs p w .ambiguous) → ∃ items, classify p ws = .ok items
  | [], _ => ⟨_, rfl⟩
  | w :: ws, h => by
    by_cases hw : w = c! "--"
    · subst hw
      exact ⟨_, classify_dashes⟩
    · have hb : beforeDashes (w :: ws) = w :: beforeDashes ws := by
        unfold beforeDashes
        rw [List.takeWhile_cons, if_pos (by simpa using hw)]
      rw [hb] at h
      obtain ⟨items, hi⟩ := classify_ok hp fun w' hw' => h w' (List.mem_cons_of_mem _ hw')
      obtain ⟨k, hk⟩ := word_exists p w
      have hpk := parse_word hp hk
      rw [classify, if_neg hw, hi]
      cases hpp : parseOptional p w with
      | ok t => exact ⟨_, rfl⟩
      | error e =>
        rw [hpp] at hpk
        cases hpk
        exact absurd hk (h w (List.mem_cons_self ..))

theorem classify_refused {p : ArgParser} (hp : TidyParser p) : ∀ {ws : List Str},
    (∃ w ∈ beforeDashes ws, WordIs p w .ambiguous) → classify p ws = .error .refused
  | [], h => by
    obtain ⟨w, hw, -⟩ := h
    cases hw
  | w :: ws, h => by
    by_cases hw : w = c! "--"
    · subst hw
      obtain ⟨w, hw, -⟩ := h
      simp [beforeDashes] at hw
    · have hb : beforeDashes (w :: ws) = w :: beforeDashes ws := by
        unfold beforeDashes
        rw [List.takeWhile_cons, if_pos (by simpa using hw)]
      rw [hb] at h
      obtain ⟨k, hk⟩ := word_exists p w
      have hpk := parse_word hp hk
      rw [classify, if_neg hw]
      cases hpp : parseOptional p w with
      | error e =>
        rw [hpp] at hpk
        cases hpk
        rfl
      | ok t =>
        obtain ⟨w', hw', ha⟩ := h
        rcases List.mem_cons.1 hw' with rfl | hw'
        · have := parse_word hp ha
          rw [hpp] at this
          cases this
        · rw [classify_refused hp ⟨w', hw', ha⟩]

/-! ## Along the line -/

/-- Where the loop stands. -/
structure LoopAt (p : ArgParser) (g : Given) (ns : ArgSpace) (open_ : Bool) (ex : List Str) : Prop where
  path : ns.path = g.file.getD p.default
  stored : ns.stored = g.stored
  flags : ns.flags = g.flags
  still : open_ = g.file.isNone
  extra : ex = [] ↔ g.extra = false

theorem LoopAt.finish {p : ArgParser} {g : Given} {ns : ArgSpace} {open_ : Bool} {ex : List Str}
    (h : LoopAt p g ns open_ ex) : argFinal (.ok (ns, ex)) = g.finish p := by
  obtain ⟨path, stored, flags⟩ := ns
  have h1 := h.path
  have h2 := h.stored
  have h3 := h.flags
  dsimp only at h1 h2 h3
  unfold Given.finish
  cases ex with
  | nil => rw [h.extra.1 rfl, if_neg (by simp), h1, h2, h3]; rfl
  | cons x ex =>
    have : g.extra = true := by
      cases hg : g.extra with
      | true => rfl
      | false => exact absurd (h.extra.2 hg) (by simp)
    rw [this, if_pos rfl]
    rfl

theorem LoopAt.more {p : ArgParser} {g : Given} {ns : ArgSpace} {open_ : Bool} {ex : List Str} (h : LoopAt p g ns open_ ex)
    (x : Str) : LoopAt p { g with extra := true } ns open_ (ex ++ [x]) :=
  ⟨h.path, h.stored, h.flags, h.still, by simp⟩

/-- Options without values, one after the other. -/
theorem LoopAt.actions {p : ArgParser} {open_ : Bool} {ex : List Str} : ∀ {acts : List OptAct} {g : Given} {ns : ArgSpace},
    LoopAt p g ns open_ ex → (∀ a ∈ acts, ∀ d, a ≠ .unique d) →
    (g.set acts = none → takeActions ns (acts.map (·, [])) = .error .help) ∧
    ∀ g', g.set acts = some g' → ∃ ns', takeActions ns (acts.map (·, [])) = .ok ns' ∧ LoopAt p g' ns' open_ ex ∧ g'.extra = g.extra
  | [], g, ns, h, _ => ⟨(nomatch ·), fun g' hg => by cases hg; exact ⟨ns, rfl, h, rfl⟩⟩
  | .help :: acts, g, ns, h, _ => ⟨fun _ => rfl, fun g' hg => by cases hg⟩
  | .unique d :: acts, g, ns, h, hu => absurd rfl (hu _ (List.mem_cons_self ..) d)
  | .flag d :: acts, g, ns, h, hu => by
    have := LoopAt.actions (acts := acts) (g := { g with flags := g.flags ++ [d] }) (ns := { ns with flags := ns.flags ++ [d] })
      ⟨h.path, h.stored, by simp [h.flags], h.still, h.extra⟩ fun a ha => hu a (List.mem_cons_of_mem _ ha)
    exact this

theorem no_opts (ws : List Str) : (ws.map ArgItem.plain).any ArgItem.isOpt = false := by
  induction ws with
  | nil => rfl
  | cons w ws ih => simp [ArgItem.isOpt]

theorem span_plain (ws : List Str) : spanDashes (ws.map ArgItem.plain) = ([], ws.map ArgItem.plain) := by
  cases ws <;> rfl

theorem text_plain (ws : List Str) : (ws.map ArgItem.plain).map ArgItem.text = ws := by
  induction ws with
  | nil => rfl
  | cons w ws ih => simpa [ArgItem.text] using ih

theorem explicit_unique {p : ArgParser} {rest : List ArgItem} {d : Str} {short : Bool} {sep v : Str} :
    matchExplicit p rest (.unique d) short sep v = .ok ([(.unique d, [v])], [], rest) := by
  cases v <;> rfl

/-- An option given for the first time. -/
theorem LoopAt.store {p : ArgParser} {g : Given} {ns : ArgSpace} {open_ : Bool} {ex : List Str} (h : LoopAt p g ns open_ ex)
    {d v : Str} (hd : d ∉ g.stored.map (·.1)) :
    takeActions ns [(.unique d, [v])] = .ok { ns with stored := (d, v) :: ns.stored } := by
  have : (ns.stored.lookup d).isSome = false := by
    rw [Bool.eq_false_iff, h.stored]
    exact fun hl => hd (lookup_isSome.1 hl)
  simp [takeActions, takeAction, this]

theorem LoopAt.stored_next {p : ArgParser} {g : Given} {ns : ArgSpace} {open_ : Bool} {ex : List Str} (h : LoopAt p g ns open_ ex)
    (d v : Str) : LoopAt p { g with stored := (d, v) :: g.stored } { ns with stored := (d, v) :: ns.stored } open_ ex :=
  ⟨h.path, by simp [h.stored], h.flags, h.still, h.extra⟩

/-- The loop goes along the line. -/
theorem goes_loop {p : ArgParser} (hp : TidyParser p) {g : Given} {ws : List Str} {e : ArgEnd} (h : LineGoes p g ws e) :
    ∀ {items : List ArgItem} {ns : ArgSpace} {open_ : Bool} {ex : List Str}, classify p ws = .ok items →
      LoopAt p g ns open_ ex → argAll p ns open_ ex items = e := by
  induction h with
  | @nil g =>
    intro items ns open_ ex hc hs
    cases hc
    rw [all_none rfl]
    refine Eq.trans ?_ hs.finish
    have h1 := hs.path
    have h2 := hs.still
    obtain ⟨path, stored, flags⟩ := ns
    unfold consumePositionals
    split
    · rename_i ho
      rw [ho] at h2
      have : g.file = none := by simpa using h2.symm
      dsimp only at h1
      rw [h1, this]
      simp [matchOptional, spanDashes]
    · simp
  | @file g w ws e hw hk hf hd hl ih =>
    intro items ns open_ ex hc hs
    obtain ⟨t, items', h1, h2, rfl⟩ := classify_cons hw hc
    have := parse_word hp hk
    rw [h1] at this
    cases this
    have ho : open_ = true := by rw [hs.still, hf]; rfl
    subst ho
    rw [itemOf, all_file hw (classify_head h2 hd)]
    exact ih h2 ⟨rfl, hs.stored, hs.flags, rfl, hs.extra⟩
  | @fileDashes g w ws hw hk hf =>
    intro items ns open_ ex hc hs
    obtain ⟨t, items', h1, h2, rfl⟩ := classify_cons hw hc
    have := parse_word hp hk
    rw [h1] at this
    cases this
    have ho : open_ = true := by rw [hs.still, hf]; rfl
    subst ho
    rw [classify_dashes] at h2
    cases h2
    rw [all_none (by simp [itemOf, ArgItem.isOpt])]
    have hcp : consumePositionals p ns true (itemOf w none :: .dashes :: ws.map .plain) = ({ ns with path := w }, ws.map .plain) := by
      unfold consumePositionals
      rw [if_pos rfl]
      have : matchOptional (itemOf w none :: .dashes :: ws.map .plain) = ([w, c! "--"], ws.map .plain) := by
        simp [matchOptional, itemOf, spanDashes, span_plain]
      rw [this]
      have : [w, c! "--"].erase (c! "--") = [w] := by
        rw [List.erase_cons, if_neg (by simpa using hw)]; simp
      simp only [this]
      rfl
    rw [hcp, text_plain]
    refine LoopAt.finish (open_ := false) ⟨rfl, hs.stored, hs.flags, rfl, ?_⟩
    simp [hs.extra]
  | @dashes g ws hf =>
    intro items ns open_ ex hc hs
    rw [classify_dashes] at hc
    cases hc
    have ho : open_ = true := by rw [hs.still, hf]; rfl
    subst ho
    rw [all_none (by simp [ArgItem.isOpt])]
    cases ws with
    | nil =>
      have hcp : consumePositionals p ns true (.dashes :: ([] : List Str).map .plain) = ({ ns with path := p.default }, []) := by
        rfl
      rw [hcp]
      refine LoopAt.finish (open_ := true) ⟨rfl, hs.stored, hs.flags, rfl, ?_⟩
      simp [hs.extra]
    | cons w ws =>
      have hcp : consumePositionals p ns true (.dashes :: (w :: ws).map .plain) = ({ ns with path := w }, ws.map .plain) := by
        unfold consumePositionals
        rw [if_pos rfl]
        have : matchOptional (.dashes :: (w :: ws).map .plain) = ([c! "--", w], ws.map .plain) := by
          simp [matchOptional, spanDashes, span_plain]
        rw [this]
        have : [c! "--", w].erase (c! "--") = [w] := by
          rw [List.erase_cons, if_pos (by simp)]
        simp only [this]
        rfl
      rw [hcp, text_plain]
      refine LoopAt.finish (open_ := false) ⟨rfl, hs.stored, hs.flags, rfl, ?_⟩
      cases ws <;> simp [hs.extra]
  | @lateDashes g ws hf =>
    intro items ns open_ ex hc hs
    rw [classify_dashes] at hc
    cases hc
    have ho : open_ = false := by rw [hs.still]; cases hgf : g.file with
      | none => exact absurd hgf hf
      | some x => rfl
    subst ho
    rw [all_second rfl, all_none (no_opts ws)]
    have : ex ++ [ArgItem.dashes.text] ++ (consumePositionals p ns false (ws.map .plain)).2.map ArgItem.text ≠ [] := by simp
    generalize ex ++ [ArgItem.dashes.text] ++ (consumePositionals p ns false (ws.map .plain)).2.map ArgItem.text = l at this
    cases l with
    | nil => exact absurd rfl this
    | cons x l => rfl
  | @second g w ws e hw hk hf hl ih =>
    intro items ns open_ ex hc hs
    obtain ⟨t, items', h1, h2, rfl⟩ := classify_cons hw hc
    have := parse_word hp hk
    rw [h1] at this
    cases this
    have ho : open_ = false := by rw [hs.still]; cases hgf : g.file with
      | none => exact absurd hgf hf
      | some x => rfl
    subst ho
    rw [all_second rfl]
    exact ih h2 (hs.more _)
  | @unknown g w ws e hw hk hl ih =>
    intro items ns open_ ex hc hs
    obtain ⟨t, items', h1, h2, rfl⟩ := classify_cons hw hc
    have := parse_word hp hk
    rw [h1] at this
    cases this
    rw [itemOf, all_opt]
    exact ih h2 (hs.more _)
  | @lettersWrong g w ws acts hw hk =>
    intro items ns open_ ex hc hs
    obtain ⟨t, items', h1, h2, rfl⟩ := classify_cons hw hc
    have := parse_word hp hk
    rw [h1] at this
    cases this with
    | letters ha hg hu =>
      have hg := hg items'
      rw [itemOf, all_opt, consumeOptional_some ha]
      revert hg
      generalize optMatch p _ _ items' = m
      intro hg
      cases hg
      rfl
  | @lettersHelp g w ws acts e hw hk he hn =>
    intro items ns open_ ex hc hs
    obtain ⟨t, items', h1, h2, rfl⟩ := classify_cons hw hc
    have := parse_word hp hk
    rw [h1] at this
    cases this with
    | letters ha hg hu =>
      have hg := hg items'
      rw [itemOf, all_opt, consumeOptional_some ha]
      have hact := (hs.actions hu).1 hn
      revert hg
      generalize optMatch p _ _ items' = m
      intro hg
      cases hg with
      | wrong => exact absurd rfl he
      | fine => simp only [hact]
      | unknown x => simp only [hact]
  | @letters g g' w ws acts e o hw hk he hn hl ih =>
    intro items ns open_ ex hc hs
    obtain ⟨t, items', h1, h2, rfl⟩ := classify_cons hw hc
    have := parse_word hp hk
    rw [h1] at this
    cases this with
    | letters ha hg hu =>
      have hg := hg items'
      rw [itemOf, all_opt, consumeOptional_some ha]
      obtain ⟨ns', hact, hs', -⟩ := (hs.actions hu).2 g' hn
      revert hg
      generalize optMatch p _ _ items' = m
      intro hg
      cases hg with
      | wrong => exact absurd rfl he
      | fine =>
        simp only [hact]
        exact ih h2 ⟨hs'.path, hs'.stored, hs'.flags, hs'.still, by simpa using hs'.extra⟩
      | unknown x =>
        simp only [hact]
        exact ih h2 ⟨hs'.path, hs'.stored, hs'.flags, hs'.still, by simp⟩
  | @help g w ws hw hk =>
    intro items ns open_ ex hc hs
    obtain ⟨t, items', h1, h2, rfl⟩ := classify_cons hw hc
    have := parse_word hp hk
    rw [h1] at this
    cases this
    rw [itemOf, all_opt, consumeOptional_some rfl]
    rfl
  | @flag g w ws d o hw hk hl ih =>
    intro items ns open_ ex hc hs
    obtain ⟨t, items', h1, h2, rfl⟩ := classify_cons hw hc
    have := parse_word hp hk
    rw [h1] at this
    cases this
    rw [itemOf, all_opt, consumeOptional_some rfl]
    exact ih h2 ⟨hs.path, hs.stored, by simp [hs.flags], hs.still, by simpa using hs.extra⟩
  | @ignored g w v ws a hw hk hu =>
    intro items ns open_ ex hc hs
    obtain ⟨t, items', h1, h2, rfl⟩ := classify_cons hw hc
    have := parse_word hp hk
    rw [h1] at this
    cases this
    rw [itemOf, all_opt, consumeOptional_some rfl]
    unfold optMatch
    dsimp only [Option.map, Option.getD]
    rw [explicit_eq hu]
  | @again g w d v ws hw hk hm =>
    intro items ns open_ ex hc hs
    obtain ⟨t, items', h1, h2, rfl⟩ := classify_cons hw hc
    have := parse_word hp hk
    rw [h1] at this
    have hlk : (ns.stored.lookup d).isSome = true := by rw [hs.stored]; exact lookup_isSome.2 hm
    have htake : ∀ x, takeActions ns [(.unique d, [x])] = .error .refused := by
      intro x
      rw [takeActions, takeAction]
      simp [hlk]
    cases this
    rw [itemOf, all_opt, consumeOptional_some rfl]
    cases v with
    | some v =>
      rw [optMatch]
      dsimp only [Option.map]
      rw [explicit_unique]
      simp only [htake]
    | none =>
      rw [optMatch]
      dsimp only [Option.map]
      have hf : matchFollowing (.unique d) items' = .error .refused ∨
          ∃ x r, matchFollowing (.unique d) items' = .ok ([(.unique d, [x])], [], r) := by
        unfold matchFollowing
        dsimp only
        split
        · exact .inr ⟨_, _, rfl⟩
        · exact .inl rfl
      rcases hf with hf | ⟨x, r, hf⟩
      · rw [hf]
      · rw [hf]
        simp only [htake]
  | @value g w d v ws o hw hk hm hl ih =>
    intro items ns open_ ex hc hs
    obtain ⟨t, items', h1, h2, rfl⟩ := classify_cons hw hc
    have := parse_word hp hk
    rw [h1] at this
    cases this
    rw [itemOf, all_opt, consumeOptional_some rfl, optMatch]
    dsimp only [Option.map]
    rw [explicit_unique]
    simp only [hs.store hm, List.append_nil]
    exact ih h2 (hs.stored_next _ _)
  | @valueNext g w d v ws o hw hk hm hv hkv hl ih =>
    intro items ns open_ ex hc hs
    obtain ⟨t, items', h1, h2, rfl⟩ := classify_cons hw hc
    have := parse_word hp hk
    rw [h1] at this
    cases this
    obtain ⟨t', items'', h3, h4, rfl⟩ := classify_cons hv h2
    have := parse_word hp hkv
    rw [h3] at this
    cases this
    simp only [itemOf]
    rw [all_opt, consumeOptional_some rfl, optMatch]
    dsimp only [Option.map, matchFollowing]
    simp only [hs.store hm, List.append_nil]
    exact ih h4 (hs.stored_next _ _)
  | @valueMissing g w d ws hw hk hv =>
    intro items ns open_ ex hc hs
    obtain ⟨t, items', h1, h2, rfl⟩ := classify_cons hw hc
    have := parse_word hp hk
    rw [h1] at this
    cases this
    rw [itemOf, all_opt, consumeOptional_some rfl, optMatch]
    dsimp only [Option.map]
    have : matchFollowing (.unique d) items' = .error .refused := by
      cases ws with
      | nil => cases h2; rfl
      | cons x ws =>
        by_cases hx : x = c! "--"
        · subst hx
          rw [classify_dashes] at h2
          cases h2
          rfl
        · obtain ⟨t', items'', h3, h4, rfl⟩ := classify_cons hx h2
          have hnp := (hv x rfl).resolve_left hx
          obtain ⟨k, hkx⟩ := word_exists p x
          have hpx := parse_word hp hkx
          rw [h3] at hpx
          cases t' with
          | some t' => rfl
          | none =>
            cases hpx
            exact absurd hkx hnp
    rw [this]

/-! ## Every line goes somewhere -/

theorem line_exists {p : ArgParser} : ∀ (n : Nat) (ws : List Str) (g : Given), ws.length ≤ n →
    (∀ w ∈ beforeDashes ws, ¬ WordIs p w .ambiguous) → ∃ e, LineGoes p g ws e
  | _, [], g, _, _ => ⟨_, .nil⟩
  | n + 1, w :: ws, g, hn, ha => by
    simp only [List.length_cons] at hn
    by_cases hw : w = c! "--"
    · subst hw
      cases hf : g.file with
      | none => exact ⟨_, .dashes hf⟩
      | some f => exact ⟨_, .lateDashes (by simp [hf])⟩
    · have hb : beforeDashes (w :: ws) = w :: beforeDashes ws := by
        unfold beforeDashes
        rw [List.takeWhile_cons, if_pos (by simpa using hw)]
      rw [hb] at ha
      have hall : ∀ g, ∃ e, LineGoes p g ws e := fun g => line_exists n ws g (by omega) fun w' hw' =>
        ha w' (List.mem_cons_of_mem _ hw')
      obtain ⟨k, hk⟩ := word_exists p w
      cases k with
      | ambiguous => exact absurd hk (ha w (List.mem_cons_self ..))
      | plain =>
        cases hf : g.file with
        | some f =>
          obtain ⟨e, he⟩ := hall { g with extra := true }
          exact ⟨_, .second hw hk (by simp [hf]) he⟩
        | none =>
          by_cases hh : ws.head? = some (c! "--")
          · obtain ⟨ws', rfl⟩ : ∃ ws', ws = c! "--" :: ws' := by
              cases ws with
              | nil => cases hh
              | cons x ws => simp at hh; exact ⟨ws, by rw [hh]⟩
            exact ⟨_, .fileDashes hw hk hf⟩
          · obtain ⟨e, he⟩ := hall { g with file := some w }
            exact ⟨_, .file hw hk hf hh he⟩
      | unknown =>
        obtain ⟨e, he⟩ := hall { g with extra := true }
        exact ⟨_, .unknown hw hk he⟩
      | letters acts e =>
        by_cases hwr : e = .wrong
        · subst hwr
          exact ⟨_, .lettersWrong hw hk⟩
        · cases hset : g.set acts with
          | none => exact ⟨_, .lettersHelp hw hk hwr hset⟩
          | some g' =>
            obtain ⟨o, ho⟩ := hall { g' with extra := g'.extra || e = .unknown }
            exact ⟨_, .letters hw hk hwr hset ho⟩
      | option a v =>
        cases a with
        | help =>
          cases v with
          | none => exact ⟨_, .help hw hk⟩
          | some v => exact ⟨_, .ignored hw hk (by simp)⟩
        | flag d =>
          cases v with
          | none =>
            obtain ⟨e, he⟩ := hall { g with flags := g.flags ++ [d] }
            exact ⟨_, .flag hw hk he⟩
          | some v => exact ⟨_, .ignored hw hk (by simp)⟩
        | unique d =>
          by_cases hd : d ∈ g.stored.map (·.1)
          · exact ⟨_, .again hw hk hd⟩
          · cases v with
            | some v =>
              obtain ⟨e, he⟩ := hall { g with stored := (d, v) :: g.stored }
              exact ⟨_, .value hw hk hd he⟩
            | none =>
              by_cases hv : ∀ v ∈ ws.head?, v = c! "--" ∨ ¬ WordIs p v .plain
              · exact ⟨_, .valueMissing hw hk hv⟩
              · cases ws with
                | nil => exact absurd (by simp) hv
                | cons x ws =>
                  have hx : x ≠ c! "--" := fun h => hv (by simp [h])
                  have hxk : WordIs p x .plain := by
                    apply Classical.byContradiction
                    intro h
                    exact hv (by simp [h])
                  have hb : beforeDashes (x :: ws) = x :: beforeDashes ws := by
                    unfold beforeDashes
                    rw [List.takeWhile_cons, if_pos (by simpa using hx)]
                  rw [hb] at ha
                  simp only [List.length_cons] at hn
                  obtain ⟨e, he⟩ := line_exists n ws { g with stored := (d, x) :: g.stored } (by omega) fun w' hw' =>
                    ha w' (List.mem_cons_of_mem _ (List.mem_cons_of_mem _ hw'))
                  exact ⟨_, .valueNext hw hk hd hx hxk he⟩

/-! ## All together -/

theorem parseArgs_eq {p : ArgParser} {ws : List Str} {items : List ArgItem} (h : classify p ws = .ok items) :
    parseArgs p ws = argAll p ⟨p.default, [], []⟩ true [] items := by
  unfold parseArgs argAll
  rw [h]
  dsimp only
  unfold argFinal
  rfl

theorem commandLine_parse {p : ArgParser} (hp : TidyParser p) {ws : List Str} {e : ArgEnd} (h : CommandLine p ws e) :
    parseArgs p ws = e := by
  cases h with
  | ambiguous h =>
    unfold parseArgs
    rw [classify_refused hp h]
  | read h hl =>
    obtain ⟨items, hi⟩ := classify_ok hp h
    rw [parseArgs_eq hi]
    exact goes_loop hp hl hi ⟨rfl, rfl, rfl, rfl, by simp⟩

theorem commandLine_exists (p : ArgParser) (ws : List Str) : ∃ e, CommandLine p ws e := by
  by_cases h : ∃ w ∈ beforeDashes ws, WordIs p w .ambiguous
  · exact ⟨_, .ambiguous h⟩
  · have h : ∀ w ∈ beforeDashes ws, ¬ WordIs p w .ambiguous := fun w hw ha => h ⟨w, hw, ha⟩
    obtain ⟨e, he⟩ := line_exists ws.length ws ⟨none, [], [], false⟩ (Nat.le_refl _) h
    exact ⟨_, .read h he⟩

/-! ## Accepted lines -/

theorem letters_unique {p : ArgParser} (hp : TidyParser p) {s : Str} {acts acts' : List OptAct} {e e' : LettersEnd}
    (h : Letters p s acts e) (h' : Letters p s acts' e') : acts = acts' ∧ e = e' := by
  have key : ∀ {c a}, (['-', c], a) ∈ p.opts → c ≠ '=' ∧ c ≠ '-' := by
    intro c a hm
    have hc : c ≠ '-' := by rintro rfl; exact hp.notDashes a hm
    exact ⟨(hp.short hc hm).2.1, hc⟩
  induction h generalizing acts' e' with
  | done => cases h'; exact ⟨rfl, rfl⟩
  | wrong hc =>
    cases h' with
    | wrong => exact ⟨rfl, rfl⟩
    | unknown h1 h2 => exact absurd hc (by simp [h1, h2])
    | more h1 => exact absurd hc (by simp [key h1])
  | unknown h1 h2 h3 =>
    cases h' with
    | wrong hc => exact absurd hc (by simp [h1, h2])
    | unknown => exact ⟨rfl, rfl⟩
    | more h => exact absurd h (h3 _)
  | more h1 _ ih =>
    cases h' with
    | wrong hc => exact absurd hc (by simp [key h1])
    | unknown _ _ h3 => exact absurd h1 (h3 _)
    | more h1' h2' =>
      obtain ⟨rfl, rfl⟩ := ih h2'
      have := (hp.find_iff.2 h1).symm.trans (hp.find_iff.2 h1')
      cases this
      exact ⟨rfl, rfl⟩

theorem parsed_option {p : ArgParser} {w : Str} {a : OptAct} {v : Option Str} {r : Except ArgStop (Option OptTuple)}
    (h : ParsedAs p w (.option a v) r) : ∃ name, r = .ok (some ⟨some a, name, v.map fun _ => c! "=", v⟩) := by
  cases h
  exact ⟨_, rfl⟩

/-- A word is one thing only. -/
theorem word_unique {p : ArgParser} (hp : TidyParser p) {w : Str} {k k' : Word} (h : WordIs p w k) (h' : WordIs p w k') :
    k = k' := by
  have a := parse_word hp h
  have b := parse_word hp h'
  have hlo : ∀ {acts e a v}, WordIs p w (.letters acts e) → WordIs p w (.option a v) → False := by
    intro acts e a v h1 h2
    cases h1 with
    | letters hw _ hc _ =>
      cases h2 with
      | option hl =>
        obtain ⟨-, -, ⟨s, hs⟩, -, -⟩ := longWord_split hl
        rw [hw] at hs
        simp only [List.cons.injEq, true_and] at hs
        exact hc hs.1
  have hll : ∀ {acts e acts' e'}, WordIs p w (.letters acts e) → WordIs p w (.letters acts' e') →
      Word.letters acts e = .letters acts' e' := by
    intro acts e acts' e' h1 h2
    cases h1 with
    | letters hw hm _ hl =>
      cases h2 with
      | letters hw' hm' _ hl' =>
        rw [hw] at hw'
        simp only [List.cons.injEq, true_and] at hw'
        obtain ⟨rfl, rfl⟩ := hw'
        obtain ⟨rfl, rfl⟩ := letters_unique hp hl hl'
        have := (hp.find_iff.2 hm).symm.trans (hp.find_iff.2 hm')
        cases this
        rfl
  have hoo : ∀ {a v a' v'}, k = .option a v → k' = .option a' v' → k = k' := by
    intro x v x' v' e1 e2
    rw [e1] at a
    rw [e2] at b
    obtain ⟨n, hn⟩ := parsed_option a
    obtain ⟨n', hn'⟩ := parsed_option b
    rw [hn] at hn'
    injection hn' with h
    injection h with h
    injection h with h1 _ _ h4
    cases h1
    rw [e1, e2, h4]
  generalize parseOptional p w = r at a b
  cases a with
  | letters ha hg hu =>
    cases b with
    | unknown => simp at ha
    | option => exact (hlo h h').elim
    | letters => exact hll h h'
  | option =>
    generalize hk' : k' = k'' at b
    generalize hr : Except.ok _ = r at b
    cases b with
    | option => exact hk' ▸ hoo rfl hk'
    | letters => exact (hlo (hk' ▸ h') h).elim
    | plain => cases hr
    | ambiguous => cases hr
    | unknown => cases hr
  | plain => cases b; rfl
  | ambiguous => cases b; rfl
  | unknown =>
    cases b with
    | unknown => rfl
    | letters ha => simp at ha

theorem before_cons {w : Str} {ws : List Str} (hw : w ≠ c! "--") : beforeDashes (w :: ws) = w :: beforeDashes ws := by
  unfold beforeDashes
  rw [List.takeWhile_cons, if_pos (by simpa using hw)]

theorem before_dashes {ws : List Str} : beforeDashes (c! "--" :: ws) = [] := by
  unfold beforeDashes
  rw [List.takeWhile_cons, if_neg (by simp)]

theorem set_given : ∀ {acts : List OptAct} {g g' : Given}, g.set acts = some g' → g'.file = g.file ∧ g'.stored = g.stored ∧
    g'.extra = g.extra ∧ (∀ a ∈ acts, ∃ d, a = .flag d) ∧ ∀ d, d ∈ g'.flags ↔ d ∈ g.flags ∨ .flag d ∈ acts
  | [], g, g', h => by cases h; simp
  | .help :: acts, g, g', h => by cases h
  | .unique _ :: acts, g, g', h => by cases h
  | .flag d :: acts, g, g', h => by
    obtain ⟨h1, h2, h3, h4, h5⟩ := set_given (acts := acts) h
    refine ⟨h1, h2, h3, ?_, ?_⟩
    · intro a ha
      rcases List.mem_cons.1 ha with rfl | ha
      · exact ⟨_, rfl⟩
      · exact h4 a ha
    · intro d'
      rw [h5]
      simp only [List.mem_append, List.mem_cons, OptAct.flag.injEq, List.not_mem_nil, or_false]
      constructor
      · rintro ((h | h) | h)
        · exact .inl h
        · exact .inr (.inl h)
        · exact .inr (.inr h)
      · rintro (h | h | h)
        · exact .inl (.inl h)
        · exact .inl (.inr h)
        · exact .inr h

/-- What holds of an accepted line. -/
structure AcceptedLine (p : ArgParser) (g : Given) (ws : List Str) (ns : ArgSpace) : Prop where
  noExtra : g.extra = false
  words : ∀ w ∈ beforeDashes ws, FineWord p w
  once : ∀ w ∈ beforeDashes ws, ∀ d v, WordIs p w (.option (.unique d) v) → d ∉ g.stored.map (·.1)
  pairs : (beforeDashes ws).Pairwise fun w w' => ∀ d v v', ¬ (WordIs p w (.option (.unique d) v) ∧ WordIs p w' (.option (.unique d) v'))
  flags : ∀ d, d ∈ ns.flags ↔ d ∈ g.flags ∨ ∃ w ∈ beforeDashes ws, GivesFlag p w d
  stored : ∀ d v, (d, v) ∈ ns.stored ↔ (d, v) ∈ g.stored ∨ GivesValue p (beforeDashes ws) d v
  path : ns.path = g.file.getD p.default ∨ g.file = none ∧ ns.path ∈ ws

theorem value_cons {p : ArgParser} (hp : TidyParser p) {w : Str} {k : Word} (hk : WordIs p w k) (hu : ∀ d v, k ≠ .option (.unique d) v)
    {ws : List Str} {d v : Str} : GivesValue p (w :: ws) d v ↔ GivesValue p ws d v := by
  constructor
  · rintro ⟨a, x, b, h⟩
    rcases h with ⟨e, h⟩ | ⟨e, h⟩
    · cases a with
      | nil => injection e with e1 e2; subst e1; exact absurd (word_unique hp hk h) (hu _ _)
      | cons y a => injection e with e1 e2; exact ⟨a, x, b, .inl ⟨e2, h⟩⟩
    · cases a with
      | nil => injection e with e1 e2; subst e1; exact absurd (word_unique hp hk h) (hu _ _)
      | cons y a => injection e with e1 e2; exact ⟨a, x, b, .inr ⟨e2, h⟩⟩
  · rintro ⟨a, x, b, h⟩
    exact ⟨w :: a, x, b, by simpa using h⟩

/-- The next word, which is no option that may be given once. -/
theorem AcceptedLine.step {p : ArgParser} (hp : TidyParser p) {g g' : Given} {w : Str} {ws : List Str} {ns : ArgSpace} {k : Word}
    (h : AcceptedLine p g' ws ns) (hw : w ≠ c! "--") (hk : WordIs p w k) (hu : ∀ d v, k ≠ .option (.unique d) v)
    (hfine : FineWord p w) (he : g'.extra = false → g.extra = false) (hs : g'.stored = g.stored)
    (hf : ∀ d, d ∈ g'.flags ↔ d ∈ g.flags ∨ GivesFlag p w d)
    (hpath : (g'.file = g.file) ∨ (g.file = none ∧ g'.file = some w)) : AcceptedLine p g (w :: ws) ns where
  noExtra := he h.noExtra
  words := by
    rw [before_cons hw]
    intro w' hw'
    rcases List.mem_cons.1 hw' with rfl | hw'
    · exact hfine
    · exact h.words _ hw'
  once := by
    rw [before_cons hw]
    intro w' hw' d v hwk
    rcases List.mem_cons.1 hw' with rfl | hw'
    · exact absurd (word_unique hp hk hwk) (hu _ _)
    · rw [← hs]; exact h.once _ hw' d v hwk
  pairs := by
    rw [before_cons hw]
    refine List.pairwise_cons.2 ⟨?_, h.pairs⟩
    rintro w' - d v v' ⟨h1, -⟩
    exact hu _ _ (word_unique hp hk h1)
  flags := by
    intro d
    rw [before_cons hw, h.flags, hf]
    simp only [List.mem_cons, exists_eq_or_imp, or_assoc]
  stored := by
    intro d v
    rw [before_cons hw, h.stored, hs, value_cons hp hk hu]
  path := by
    rcases hpath with hf | ⟨h1, h2⟩
    · rcases h.path with hh | ⟨h3, h4⟩
      · left; rw [hh, hf]
      · right; exact ⟨hf ▸ h3, List.mem_cons_of_mem _ h4⟩
    · rcases h.path with hh | ⟨h3, h4⟩
      · right
        refine ⟨h1, ?_⟩
        rw [hh, h2]
        exact List.mem_cons_self ..
      · rw [h2] at h3; cases h3

/-- At the end of the options. -/
theorem AcceptedLine.stop {p : ArgParser} {g g' : Given} {ws : List Str} {ns : ArgSpace} (hb : beforeDashes ws = [])
    (h : g'.finish p = .ok ns) (he : g'.extra = false → g.extra = false) (hs : g'.stored = g.stored) (hf : g'.flags = g.flags)
    (hpath : (g'.file = g.file) ∨ (g.file = none ∧ ∀ x, g'.file = some x → x ∈ ws)) : AcceptedLine p g ws ns := by
  unfold Given.finish at h
  split at h
  · cases h
  · rename_i hx
    cases h
    refine ⟨he (by simpa using hx), ?_, ?_, ?_, ?_, ?_, ?_⟩
    · rw [hb]; intro w hw; cases hw
    · rw [hb]; intro w hw; cases hw
    · rw [hb]; exact .nil
    · intro d; rw [hb]; simp [hf]
    · intro d v
      rw [hb]
      simp only [hs]
      constructor
      · exact .inl
      · rintro (h | ⟨a, w, b, ⟨e, -⟩ | ⟨e, -⟩⟩)
        · exact h
        · simp at e
        · simp at e
    · rcases hpath with h | ⟨h1, h2⟩
      · left; rw [h]
      · cases hgf : g'.file with
        | none => left; rw [h1]
        | some x => right; exact ⟨h1, h2 x hgf⟩

theorem flag_only {p : ArgParser} (hp : TidyParser p) {w : Str} {k : Word} (hk : WordIs p w k)
    (h1 : ∀ d, k ≠ .option (.flag d) none) (h2 : ∀ acts, k ≠ .letters acts .fine) (d : Str) : ¬ GivesFlag p w d := by
  rintro (h | ⟨acts, h, -⟩)
  · exact h1 _ (word_unique hp hk h)
  · exact h2 _ (word_unique hp hk h)

theorem goes_accepted {p : ArgParser} (hp : TidyParser p) {g : Given} {ws : List Str} {e : ArgEnd} (h : LineGoes p g ws e) :
    ∀ {ns : ArgSpace}, e = .ok ns → AcceptedLine p g ws ns := by
  induction h with
  | @nil g => intro ns h; exact .stop (g' := g) rfl h id rfl rfl (.inl rfl)
  | @file g w ws e hw hk hf hd hl ih =>
    intro ns h
    refine (ih h).step hp hw hk (by simp) (.plain hk) id rfl (fun d => ?_) (.inr ⟨hf, rfl⟩)
    simp [flag_only hp hk]
  | @fileDashes g w ws hw hk hf =>
    intro ns h
    have : AcceptedLine p { g with file := some w } (c! "--" :: ws) ns :=
      .stop before_dashes h (by simp; exact fun h _ => h) rfl rfl (.inl rfl)
    refine this.step hp hw hk (by simp) (.plain hk) id rfl (fun d => ?_) (.inr ⟨hf, rfl⟩)
    simp [flag_only hp hk]
  | @dashes g ws hf =>
    intro ns h
    refine .stop before_dashes h (by simp; exact fun h _ => h) rfl rfl (.inr ⟨hf, ?_⟩)
    intro x hx
    exact List.mem_cons_of_mem _ (List.mem_of_mem_head? hx)
  | lateDashes => intro ns h; cases h
  | second _ _ _ _ ih => intro ns h; exact absurd (ih h).noExtra (by simp)
  | unknown _ _ _ ih => intro ns h; exact absurd (ih h).noExtra (by simp)
  | lettersWrong => intro ns h; cases h
  | lettersHelp => intro ns h; cases h
  | @letters g g' w ws acts e o hw hk he hset hl ih =>
    intro ns h
    have hacc := ih h
    obtain ⟨h1, h2, h3, h4, h5⟩ := set_given hset
    have hfine : e = .fine := by
      have := hacc.noExtra
      cases e with
      | fine => rfl
      | wrong => exact absurd rfl he
      | unknown => simp at this
    subst hfine
    refine hacc.step hp hw hk (by simp) (.letters hk h4) ?_ h2 (fun d => ?_) (.inl h1)
    · intro h; rw [← h3]; simpa using h
    · dsimp only
      rw [h5]
      refine or_congr_right ⟨fun h => .inr ⟨_, hk, h⟩, ?_⟩
      rintro (h | ⟨acts', h, hm⟩)
      · cases word_unique hp hk h
      · cases word_unique hp hk h
        exact hm
  | help => intro ns h; cases h
  | @flag g w ws d o hw hk hl ih =>
    intro ns h
    refine (ih h).step hp hw hk (by simp) (.flag hk) id rfl (fun d' => ?_) (.inl rfl)
    simp only [List.mem_append, List.mem_singleton]
    refine or_congr_right ⟨fun h => .inl (h ▸ hk), ?_⟩
    rintro (h | ⟨acts', h, hm⟩)
    · cases word_unique hp hk h; rfl
    · cases word_unique hp hk h
  | ignored => intro ns h; cases h
  | again => intro ns h; cases h
  | @value g w d v ws o hw hk hm hl ih =>
    intro ns h
    have hacc := ih h
    refine ⟨hacc.noExtra, ?_, ?_, ?_, ?_, ?_, ?_⟩
    · rw [before_cons hw]
      intro w' hw'
      rcases List.mem_cons.1 hw' with rfl | hw'
      · exact .unique hk
      · exact hacc.words _ hw'
    · rw [before_cons hw]
      intro w' hw' d' v' hwk
      rcases List.mem_cons.1 hw' with rfl | hw'
      · cases word_unique hp hk hwk
        exact hm
      · have := hacc.once _ hw' d' v' hwk
        simp only [List.map_cons, List.mem_cons, not_or] at this
        exact this.2
    · rw [before_cons hw]
      refine List.pairwise_cons.2 ⟨?_, hacc.pairs⟩
      rintro w' hw' d' v1 v2 ⟨h1, h2⟩
      cases word_unique hp hk h1
      have := hacc.once _ hw' _ _ h2
      simp at this
    · intro d'
      rw [before_cons hw, hacc.flags]
      simp [flag_only hp hk]
    · intro d' v'
      rw [before_cons hw, hacc.stored]
      simp only [List.mem_cons, Prod.mk.injEq]
      constructor
      · rintro ((⟨rfl, rfl⟩ | h) | ⟨a, x, b, h⟩)
        · exact .inr ⟨[], w, _, .inl ⟨rfl, hk⟩⟩
        · exact .inl h
        · exact .inr ⟨w :: a, x, b, by simpa using h⟩
      · rintro (h | ⟨a, x, b, ⟨e, h⟩ | ⟨e, h⟩⟩)
        · exact .inl (.inr h)
        · cases a with
          | nil =>
            injection e with e1 e2
            subst e1
            cases word_unique hp hk h
            exact .inl (.inl ⟨rfl, rfl⟩)
          | cons y a => injection e with e1 e2; exact .inr ⟨a, x, b, .inl ⟨e2, h⟩⟩
        · cases a with
          | nil =>
            injection e with e1 e2
            subst e1
            cases word_unique hp hk h
          | cons y a => injection e with e1 e2; exact .inr ⟨a, x, b, .inr ⟨e2, h⟩⟩
    · rcases hacc.path with h | ⟨h1, h2⟩
      · exact .inl h
      · exact .inr ⟨h1, List.mem_cons_of_mem _ h2⟩
  | @valueNext g w d v ws o hw hk hm hv hkv hl ih =>
    intro ns h
    have hacc := ih h
    refine ⟨hacc.noExtra, ?_, ?_, ?_, ?_, ?_, ?_⟩
    · rw [before_cons hw, before_cons hv]
      intro w' hw'
      rcases List.mem_cons.1 hw' with rfl | hw'
      · exact .unique hk
      · rcases List.mem_cons.1 hw' with rfl | hw'
        · exact .plain hkv
        · exact hacc.words _ hw'
    · rw [before_cons hw, before_cons hv]
      intro w' hw' d' v' hwk
      rcases List.mem_cons.1 hw' with rfl | hw'
      · cases word_unique hp hk hwk
        exact hm
      · rcases List.mem_cons.1 hw' with rfl | hw'
        · cases word_unique hp hkv hwk
        · have := hacc.once _ hw' d' v' hwk
          simp only [List.map_cons, List.mem_cons, not_or] at this
          exact this.2
    · rw [before_cons hw, before_cons hv]
      refine List.pairwise_cons.2 ⟨?_, List.pairwise_cons.2 ⟨?_, hacc.pairs⟩⟩
      · rintro w' hw' d' v1 v2 ⟨h1, h2⟩
        cases word_unique hp hk h1
        rcases List.mem_cons.1 hw' with rfl | hw'
        · cases word_unique hp hkv h2
        · have := hacc.once _ hw' _ _ h2
          simp at this
      · rintro w' hw' d' v1 v2 ⟨h1, h2⟩
        cases word_unique hp hkv h1
    · intro d'
      rw [before_cons hw, before_cons hv, hacc.flags]
      simp [flag_only hp hk, flag_only hp hkv]
    · intro d' v'
      rw [before_cons hw, before_cons hv, hacc.stored]
      simp only [List.mem_cons, Prod.mk.injEq]
      constructor
      · rintro ((⟨rfl, rfl⟩ | h) | ⟨a, x, b, h⟩)
        · exact .inr ⟨[], w, _, .inr ⟨rfl, hk⟩⟩
        · exact .inl h
        · exact .inr ⟨w :: v :: a, x, b, by simpa using h⟩
      · rintro (h | ⟨a, x, b, ⟨e, h⟩ | ⟨e, h⟩⟩)
        · exact .inl (.inr h)
        · cases a with
          | nil =>
            injection e with e1 e2
            subst e1
            cases word_unique hp hk h
          | cons y a =>
            injection e with e1 e2
            right
            exact (value_cons hp hkv (by simp)).1 ⟨a, x, b, .inl ⟨e2, h⟩⟩
        · cases a with
          | nil =>
            simp only [List.nil_append, List.cons.injEq] at e
            exact .inl (.inl ⟨by obtain ⟨rfl, -, -⟩ := e; cases word_unique hp hk h; rfl, e.2.1.symm⟩)
          | cons y a =>
            injection e with e1 e2
            right
            exact (value_cons hp hkv (by simp)).1 ⟨a, x, b, .inr ⟨e2, h⟩⟩
    · rcases hacc.path with h | ⟨h1, h2⟩
      · exact .inl h
      · exact .inr ⟨h1, List.mem_cons_of_mem _ (List.mem_cons_of_mem _ h2)⟩
  | valueMissing => intro ns h; cases h

end ALint
