import Verif.Spec.AppSays
import Verif.Props.Calls
import Verif.Props.Varfun

/-!
# Parts of conditions: actions in the old style, white space around, the priority of a `Gosub`
-/

namespace ALint
open ALint.Spec ALint.Props
open V (tokens tokensAll)

/-! ## An action in the old style -/

theorem joinItems_merged (vs : List V) : joinItems (strjoin vs) = joinItems vs := by
  induction vs with
  | nil => rfl
  | cons v vs ih =>
    cases v with
    | str s =>
      rw [strjoin]
      split
      · rename_i t r h
        rw [joinItems_two]
        exact joinItems_congr _ (by rw [← h, ih])
      · exact joinItems_congr _ ih
    | _ => exact joinItems_congr _ ih

theorem squash_join {vs : List V} (h : ∀ v ∈ vs, Normal v) : squash vs = join vs := by
  have e : join (strjoin vs) = join vs := by unfold join; rw [joinItems_merged]
  unfold squash
  split
  · rename_i v hv
    rw [hv] at e
    rw [← e]
    have ht : v.isStr = true ∨ v.truthy = true := by
      have : ∀ u ∈ strjoin vs, u.isStr = true ∨ u ∈ vs := by
        clear hv e h
        induction vs with
        | nil => simp [strjoin]
        | cons x xs ih =>
          intro u hu
          cases x with
          | str s =>
            rw [strjoin] at hu
            split at hu
            · rename_i t r hr
              rcases List.mem_cons.1 hu with rfl | hu
              · exact .inl rfl
              · rcases ih u (by rw [hr]; simp [hu]) with h | h
                · exact .inl h
                · exact .inr (by simp [h])
            · rcases List.mem_cons.1 hu with rfl | hu
              · exact .inl rfl
              · rcases ih u hu with h | h
                · exact .inl h
                · exact .inr (by simp [h])
          | _ =>
            rw [strjoin.eq_3 _ _ (by simp)] at hu
            rcases List.mem_cons.1 hu with rfl | hu
            · exact .inr (by simp)
            · rcases ih u hu with h | h
              · exact .inl h
              · exact .inr (by simp [h])
      rcases this v (by simp [hv]) with hs | hm
      · exact .inl hs
      · rcases normal_cases (h v hm) with ⟨s, rfl⟩ | ⟨k, n, s, l, rfl⟩ | ⟨items, rfl, hc, hp, h2⟩
        · exact .inl rfl
        · exact .inr rfl
        · obtain ⟨k, n, s, l, ha⟩ := squashed_lst_atom hp hc h2
          refine .inr ?_
          have := List.ne_nil_of_mem ha
          simpa [V.truthy] using this
    rcases ht with ht | ht
    · cases v with
      | str s => cases s <;> rfl
      | _ => simp [V.isStr] at ht
    · simp only [join, joinItems, ht, if_true]
      cases v <;> rfl
  · exact e

theorem sepLoop_many (d : Char) (rm : Bool) (vs : List V) (i : Nat) (ts : List V) (st : SepSt) (start : Nat)
    (cur : List V) (hs : start ≤ i) (hd : vs.drop i = ts) :
    sepLoop d rm (.many vs) i ts st start cur = prefixHead (cur ++ (vs.drop start).take (i - start)) (sepT d rm st ts) := by
  induction ts generalizing i st start cur with
  | nil => simp [sepLoop, sepT, prefixHead, Arg.slice]
  | cons t ts ih =>
    have hd' : vs.drop (i + 1) = ts := by
      rw [← List.drop_drop, hd]; rfl
    rw [sepLoop, sepT]
    split <;> rename_i ha <;> rw [ha]
    · rw [ih (i + 1) _ start cur (by omega) hd', prefixHead_consHead _ _ _ (sepT_ne _ _ _ _),
        take_succ_drop _ _ _ hs t ts hd, List.append_assoc]
    · rw [ih (i + 1) _ (i + 1) _ (by omega) hd']
      simp [Arg.slice]
    · rw [ih (i + 1) _ (i + 1) [] (by omega) hd']
      show _ :: prefixHead ([] ++ _) _ = _
      rw [Nat.sub_self, List.take_zero, List.append_nil, prefixHead_nil]
      simp only [prefixHead, List.append_nil, Arg.slice]

theorem separate_many (d : Char) (rm : Bool) (vs : List V) :
    separateArgs d rm (.many vs) = (sepT d rm .init vs).map squash := by
  unfold separateArgs
  rw [show Arg.iter (.many vs) = vs from rfl, sepLoop_many d rm vs 0 vs .init 0 [] (by omega) rfl]
  simp [prefixHead_nil]

theorem split_state {d : Char} {st : SepSt} {t : V} (h : (sepStep d false st t).2 = .split) :
    st = .init ∧ (sepStep d false st t).1 = .init := by
  obtain ⟨b, p, q, s⟩ := st
  cases t with
  | str s =>
    revert h
    simp only [sepStep]
    repeat' split
    all_goals simp
    rename_i h1 _ _ _ _ _ _ h
    simp at h1
    simp [SepSt.init, h, h1]
  | _ => simp [sepStep] at h

/-- The first piece and the rest. -/
theorem sepT_rest {d : Char} {ts g : List V} {gs : List (List V)} (h : sepT d false .init ts = g :: gs) (hg : gs ≠ []) :
    sepRun d false .init g = .init ∧ sepT d false .init g = [g] ∧ ∃ rest, sepT d false .init rest = gs := by
  have hb := sepT_bound d .init ts [g] gs (by simp) hg (by rw [h]; rfl)
  obtain ⟨h1, h2⟩ := split_state hb
  have hts : ts = g ++ .str [d] :: sepBy (.str [d]) gs := by
    rw [← sepBy_sepT d .init ts, h, sepBy_cons_ne _ _ _ hg]
  have ha := sepT_at d .init g (.str [d]) (sepBy (.str [d]) gs) hb
  have hb' : (sepStep d false (sepRun d false .init g) (.str [d])).1 = .init := h2
  rw [hb', ← hts, h] at ha
  have hsg := sepBy_sepT d .init g
  cases hx : sepT d false .init g with
  | nil => exact absurd hx (sepT_ne _ _ _ _)
  | cons x xs =>
    rw [hx] at ha hsg
    simp only [List.cons_append, List.cons.injEq] at ha
    obtain ⟨rfl, ha⟩ := ha
    cases xs with
    | nil => exact ⟨h1, rfl, _, ha.symm⟩
    | cons y ys =>
      rw [sepBy_cons_ne _ _ _ (by simp)] at hsg
      have := congrArg List.length hsg
      simp at this

theorem join_char {g : List V} (h : ∀ t ∈ g, isTok t = true) {c : Char} (he : join g = tk c) : g = [tk c] := by
  have := tokens_join h
  rw [he] at this
  simpa [tk, tokens] using this.symm

theorem sepT_joined {gs : List (List V)} {ts : List V} (hk : ∀ t ∈ ts, isTok t = true) (h : sepT ',' false .init ts = gs) :
    sepT ',' true .init (gs.map join) = [(gs.map join).filter fun v => v ≠ tk '"' ∧ v ≠ tk '\\'] := by
  induction gs generalizing ts with
  | nil => exact absurd h (sepT_ne _ _ _ _)
  | cons g gs ih =>
    have hgk : ∀ g' ∈ g :: gs, ∀ t ∈ g', isTok t = true := fun g' hg' t ht => hk t (by
      rw [← sepBy_sepT ',' .init ts, h]; exact sepBy_mem _ hg' ht)
    have hg := hgk g (by simp)
    have nc : ∀ {s : Str}, join g = .str s → s ≠ c! "," := by
      rintro s hs rfl
      have := join_char hg (c := ',') hs
      subst this
      cases ts with
      | nil => simp [sepT] at h
      | cons t ts =>
        have ht : t = tk ',' := by
          have := sepBy_sepT ',' .init (t :: ts)
          rw [h] at this
          cases gs <;> simp [sepBy] at this <;> exact this.1.symm
        subst ht
        simp [sepT, sepStep, tk, SepSt.init] at h
    by_cases hgs : gs = []
    · subst hgs
      simp only [List.map_cons, List.map_nil]
      cases hj : join g with
      | str s =>
        have nc := nc hj
        simp only [sepT]
        by_cases h1 : s = c! "\""
        · subst h1; rfl
        by_cases h2 : s = c! "\\"
        · subst h2; rfl
        have : (sepStep ',' true .init (.str s)).2 = .keep := by
          simp only [sepStep]
          repeat' split
          all_goals simp_all
        rw [this]
        simp [consHead, tk, h1, h2]
      | _ => simp [sepT, sepStep, consHead, tk]
    · obtain ⟨h1, h2, rest, h3⟩ := sepT_rest h hgs
      have hrk : ∀ t ∈ rest, isTok t = true := by
        intro t ht
        have hts := sepBy_sepT ',' .init ts
        rw [h, sepBy_cons_ne _ _ _ hgs, ← h3, sepBy_sepT] at hts
        exact hk t (by rw [← hts]; simp [ht])
      have ih := ih hrk h3
      rw [List.map_cons, sepT]
      have key : sepStep ',' true .init (join g) = (.init, .keep) ∧ join g ≠ tk '"' ∧ join g ≠ tk '\\' := by
        have no : ∀ c, sepRun ',' false .init [tk c] ≠ .init → join g ≠ tk c := by
          intro c hc he
          rw [join_char hg he] at h1
          exact hc h1
        have n1 := no '[' (by decide)
        have n2 := no '(' (by decide)
        have n3 := no '"' (by decide)
        have n4 := no '\\' (by decide)
        refine ⟨?_, n3, n4⟩
        cases hj : join g with
        | str s =>
          have nc := nc hj
          rw [hj] at n1 n2 n3 n4
          simp only [tk, ne_eq, V.str.injEq] at n1 n2 n3 n4
          simp only [sepStep]
          repeat' split
          all_goals simp_all [SepSt.init]
        | _ => rfl
      rw [key.1]
      simp only
      rw [ih]
      simp [consHead, key.2]

/-- The arguments of an action in the old style. -/
theorem old_args {data : V} {c : List V} {parts : List (List V)} (hp : parts ≠ []) (h : Pieces ',' data.tokens (c :: parts)) :
    separateArgs ',' true (.many (parts.map join)) = [join ((parts.map join).filter fun v => v ≠ tk '"' ∧ v ≠ tk '\\')] := by
  have hk := tokens_isTok data
  have e : sepT ',' false .init data.tokens = c :: parts := by
    rw [← (separateArgs_tokens ',' false data).1]
    exact pieces_unique (pieces_sep ',' (by decide) data) h
  obtain ⟨_, _, rest, h3⟩ := sepT_rest e hp
  have hts := sepBy_sepT ',' .init data.tokens
  rw [e, sepBy_cons_ne _ _ _ hp, ← h3, sepBy_sepT] at hts
  rw [separate_many, sepT_joined (fun t ht => hk t (by rw [← hts]; simp [ht])) h3]
  simp only [List.map_cons, List.map_nil]
  rw [squash_join]
  intro v hv
  obtain ⟨g, hg, rfl⟩ := List.mem_map.1 (List.mem_filter.1 hv).1
  exact tok_normal fun t ht => hk t (pieces_mem h (p := g) (by simp [hg]) ht)

/-! ## White space around a condition -/

theorem trimEnds_eq (items : List V) : trimEnds items = stripItems items := by
  have key : ∀ l : List V, offBlank l = V.dropBlank l := by
    intro l
    cases l with
    | nil => rfl
    | cons v vs => cases v <;> simp [V.dropBlank, V.blankStr, offBlank]
  simp only [trimEnds, key, stripItems]

theorem join_compact {items : List V} (hc : Compact items) (hp : ∀ v ∈ items, isPiece v = true) : joinItems items = items := by
  rw [joinItems_strjoin items hp, strjoin_compact_id hc hp]

theorem compact_infix {A B C : List V} (h : Compact (A ++ B ++ C)) : Compact B := by
  have h1 : Compact (B ++ C) := by
    rw [List.append_assoc] at h
    induction A with
    | nil => exact h
    | cons a A ih =>
      apply ih
      rcases hl : A ++ (B ++ C) with _ | ⟨b, l⟩
      · trivial
      · rw [List.cons_append, hl] at h
        exact h.2.2
  clear h
  induction B with
  | nil => trivial
  | cons b B ih =>
    cases B with
    | nil =>
      cases C with
      | nil => exact h1
      | cons c C => exact h1.1
    | cons b' B => exact ⟨h1.1, h1.2.1, ih h1.2.2⟩

theorem trimmed_lst {items : List V} (hc : Compact items) (hp : ∀ v ∈ items, isPiece v = true) (h2 : 2 ≤ items.length) :
    (V.lst items).strip = .ok (join (trimEnds items)) := by
  obtain ⟨r, hr, _, _, _, _⟩ := strip_lst h2 hc
  have hs : (V.lst items).strip = if (stripItems items).length = items.length then .ok (.lst items)
      else match stripItems items with
        | [v] => .ok v
        | new => .ok (.lst new) := by
    rw [V.strip]; rfl
  rw [trimEnds_eq]
  obtain ⟨x, mid, y, rfl⟩ := two_items h2
  have hin : ∃ A C, x :: mid ++ [y] = A ++ stripItems (x :: mid ++ [y]) ++ C := by
    rw [stripItems_eq]
    cases hx : x.blankStr <;> cases hy : y.blankStr
    · exact ⟨[], [], by simp⟩
    · exact ⟨[], [y], by simp⟩
    · exact ⟨[x], [], by simp⟩
    · exact ⟨[x], [y], by simp⟩
  obtain ⟨A, C, hin⟩ := hin
  have hcs : Compact (stripItems (x :: mid ++ [y])) := by
    rw [hin] at hc; exact compact_infix hc
  have hj := join_compact hcs fun v hv => hp v (by
    rw [hin]
    exact List.mem_append.2 (.inl (List.mem_append.2 (.inr hv))))
  have hne : stripItems (x :: mid ++ [y]) ≠ [] := by
    obtain ⟨k, n, s, l, ha⟩ := squashed_lst_atom hp hc h2
    obtain ⟨u, hu, hau⟩ := mem_tokensAll ha
    have hpu := hp u hu
    have : u.blankStr = false := by
      cases u with
      | str s =>
        simp [tokens] at hau
      | _ => rfl
    obtain ⟨A', B', he⟩ := List.append_of_mem hu
    exact List.ne_nil_of_mem ((mem_stripItems h2 u).2 ⟨A', B', he, .inl this⟩)
  rw [hs]
  unfold join
  rw [hj]
  split
  · rename_i hl
    have hA : A = [] ∧ C = [] := by
      have := congrArg List.length hin
      simp only [List.length_append] at this hl
      constructor <;> apply List.length_eq_zero_iff.1 <;> omega
    rw [hA.1, hA.2, List.nil_append, List.append_nil] at hin
    rw [← hin]
    cases mid <;> rfl
  · cases hst : stripItems (x :: mid ++ [y]) with
    | nil => exact absurd hst hne
    | cons a l => cases l <;> rfl

theorem trimmed_iff {v r : V} (hv : Normal v) : v.strip = .ok r ↔ CondTrimmed v.tokens r := by
  have back : ∀ {toks : List V} {r : V}, CondTrimmed toks r → ∀ {v : V}, Normal v → v.tokens = toks → v.strip = .ok r := by
    intro toks r h v hv ht
    cases h with
    | text =>
      rename_i s
      rw [normal_determined hv (normal_str s) ht]
      rfl
    | «variable» h =>
      rename_i k n s l
      rw [normal_determined hv (normal_atom k n s l) (by rw [ht]; simp [tokens]), V.strip, if_pos h]
    | mixed hc hp h2 =>
      rename_i items
      have : Normal (.lst items) := ⟨items, hp, by
        unfold join
        rw [join_compact hc hp]
        match items, h2 with
        | _ :: _ :: _, _ => rfl⟩
      rw [normal_determined hv this (by rw [ht, tokens])]
      exact trimmed_lst hc hp h2
  constructor
  · intro h
    rcases normal_cases hv with ⟨s, rfl⟩ | ⟨k, n, s, l, rfl⟩ | ⟨items, rfl, hc, hp, h2⟩
    · simp only [V.strip, Except.ok.injEq] at h
      subst h
      exact .text
    · rw [V.strip] at h
      split at h
      · rename_i ht
        simp only [Except.ok.injEq] at h
        subst h
        rw [tokens]
        exact .variable ht
      · cases h
    · rw [trimmed_lst hc hp h2] at h
      simp only [Except.ok.injEq] at h
      subst h
      rw [tokens]
      exact .mixed hc hp h2
  · exact fun h => back h hv rfl

/-- What the checks make of a condition. -/
theorem cond_facts {v r : V} (hv : Squashed v) (hr : v.strip = .ok r) :
    (r = .str [] ↔ BlankToks v.tokens) ∧ (condConst r = true ↔ ¬ BlankToks v.tokens ∧ Constant v.tokens) := by
  rcases hv with hs | ⟨k, n, s, l, rfl⟩ | ⟨items, rfl, hp, hc, h2⟩
  · obtain ⟨r', h1, h2, h3, _⟩ := cond_strip (v := v) (.inl hs) (by
      intro k n s l hm
      cases v with
      | str t => simp [tokens] at hm
      | _ => simp [V.isStr] at hs)
    rw [hr] at h1
    cases h1
    exact ⟨h2, h3⟩
  · rw [V.strip] at hr
    split at hr
    · simp only [Except.ok.injEq] at hr
      subst hr
      have hm : V.atom k n s l ∈ (V.atom k n s l).tokens := by rw [V.tokens]; simp
      refine ⟨⟨fun h => (by cases h), fun h => absurd h (not_blank_atom hm)⟩, ?_⟩
      constructor
      · intro h
        rw [condConst, V.tokens] at h
        simp [V.isStr] at h
      · rintro ⟨_, pre, c, post, he, _⟩
        rw [V.tokens] at he
        cases pre <;> simp at he
    · cases hr
  · obtain ⟨r', hr', hne, htok, hrs, _⟩ := strip_lst h2 hc
    rw [hr] at hr'
    cases hr'
    obtain ⟨k, n, s, l, hat⟩ := squashed_lst_atom hp hc h2
    have hT : (V.lst items).tokens = V.tokensAll items := by rw [V.tokens]
    have hnb : ¬ BlankToks (V.lst items).tokens := by rw [hT]; exact not_blank_atom hat
    have hpr : ∀ u ∈ stripItems items, isPiece u = true ∧ u ∈ items := by
      intro u hu
      obtain ⟨A, B, rfl, _⟩ := (mem_stripItems h2 u).1 hu
      exact ⟨hp u (by simp), by simp⟩
    refine ⟨⟨fun h => absurd h hne, fun h => absurd h hnb⟩, ?_⟩
    rw [hT, ← constant_items hp hc h2, ← htok]
    have hany : r.isStr = true → r.tokens.any V.isStr = true := by
      intro h
      obtain ⟨u, hu, hus⟩ := List.any_eq_true.1 (hrs h)
      have := str_token (hpr u hu).1 (compact_ne hc u (hpr u hu).2)
      rw [hus] at this
      obtain ⟨t, ht, hts⟩ := List.any_eq_true.1 this
      rw [htok]
      exact List.any_eq_true.2 ⟨t, tokensAll_mem hu ht, hts⟩
    rw [hT] at hnb
    unfold condConst
    constructor
    · intro h
      simp only [Bool.and_eq_true, Bool.or_eq_true] at h
      exact ⟨hnb, h.2.elim hany id⟩
    · rintro ⟨_, h⟩
      simp [hne, h]

/-! ## The beginning of a text -/

theorem cut_front {p : V} {front rest : List V} (ht : p.tokens = front ++ rest) (hne : front ≠ []) :
    Cut front (p.getSlice 0 front.length) := by
  have hk : ∀ t ∈ front, isTok t = true := fun t h => tokens_isTok p t (by rw [ht]; simp [h])
  have hd : (p.tokens.drop 0).take (front.length - 0) = front := by rw [ht]; simp
  by_cases hs : p.isStr = true
  · obtain ⟨s, rfl⟩ : ∃ s, p = .str s := by cases p <;> simp_all [V.isStr]
    have : front = (s.take front.length).map tk := by
      conv => lhs; rw [← hd]
      rw [List.map_take]
      simp only [V.tokens, List.drop_zero, Nat.sub_zero]
      rfl
    conv => arg 1; rw [this]
    have e : (V.str s).getSlice 0 front.length = strV (s.take front.length) := by simp [V.getSlice, strV]
    rw [e]
    exact .text
  · have e : p.getSlice 0 front.length = (match strjoin front with | [x] => .one x | l => .many l) := by
      rw [V.getSlice.eq_2 _ _ _ (by rintro s rfl; simp [V.isStr] at hs), hd]
      rfl
    rw [e]
    rcases cut_of front hk with ⟨h0, _⟩ | ⟨s, _, h1, h3⟩ | ⟨k, n, s, l, h1, h3⟩ | ⟨it, h1, h3, h4, h5, h6⟩
    · exact absurd h0 hne
    · rw [h3, h1]; exact .text
    · rw [h3, h1]; exact .variable
    · rw [h1]
      match it, h6 with
      | a :: b :: r, _ => rw [h3]; exact .mixed h4 h5 (by simp)

end ALint
