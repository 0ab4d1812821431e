import Verif.Proofs.Jumps
import Verif.Proofs.Separate
import Verif.Proofs.Brackets

/-!
# The parts of jumps are texts
-/

namespace ALint
open ALint.Spec

theorem strjoin_text (vs : List V) (h : ∀ v ∈ vs, isText v = true) : ∀ v ∈ strjoin vs, isText v = true := by
  induction vs with
  | nil => simp [strjoin]
  | cons v vs ih =>
    have ih := ih fun u hu => h u (by simp [hu])
    have hv := h v (by simp)
    cases v with
    | str s =>
      rw [strjoin]
      split
      · rename_i hj
        intro u hu
        rcases List.mem_cons.1 hu with rfl | hu
        · rfl
        · exact ih u (by rw [hj]; simp [hu])
      · intro u hu
        rcases List.mem_cons.1 hu with rfl | hu
        · rfl
        · exact ih u hu
    | _ =>
      simp only [strjoin]
      intro u hu
      rcases List.mem_cons.1 hu with rfl | hu
      · exact hv
      · exact ih u hu

theorem squash_text (g : List V) (h : ∀ v ∈ g, isText v = true) : isText (squash g) = true := by
  have ht := strjoin_text g h
  unfold squash
  split
  · rename_i v hv; exact ht v (by simp [hv])
  · exact join_text _ ht

/-- An argument made of texts. -/
def textArg : Arg → Prop
  | .one _ => True
  | .many vs => ∀ v ∈ vs, isText v = true

theorem separate_texts (d : Char) (rm : Bool) {a : Arg} (ha : textArg a) : ∀ p ∈ separateArgs d rm a, isText p = true := by
  cases a with
  | one v => exact (separateArgs_tokens d rm v).2
  | many vs =>
    intro p hp
    rw [separateArgs, List.mem_map] at hp
    obtain ⟨g, hg, rfl⟩ := hp
    refine squash_text g (sepLoop_all d rm (.many vs) (fun u => isText u = true) ?_ _ _ _ _ [] (by simp) g hg)
    intro i j u hu
    simp only [Arg.slice] at hu
    exact ha u (List.mem_of_mem_drop (List.mem_of_mem_take hu))

/-- Context and extension of a jump: missing or a text. -/
def JumpText (j : Jump) : Prop := (j.context = .none ∨ isText j.context = true) ∧ (j.exten = .none ∨ isText j.exten = true)

theorem padJump_text {args : List V} (h : ∀ a ∈ args, isText a = true) {j : Jump} (hj : padJump args = .ok j) : JumpText j := by
  unfold padJump at hj
  split at hj
  · cases hj; exact ⟨.inl rfl, .inl rfl⟩
  · cases hj; exact ⟨.inl rfl, .inl rfl⟩
  · cases hj; exact ⟨.inl rfl, .inr (h _ (by simp))⟩
  · cases hj; exact ⟨.inr (h _ (by simp)), .inr (h _ (by simp))⟩
  · cases hj

theorem gosubDest_text {w : Where} {name : Str} {warn : Bool} {args : List V} (h : ∀ a ∈ args, isText a = true) {j : Jump}
    (hj : (gosubDest w name warn args).val = .ok j) : JumpText j := by
  unfold gosubDest at hj
  split at hj
  · cases hj
  · obtain ⟨_, _, h2, _⟩ := Tr.bind_ok hj
    cases h2; exact ⟨.inl rfl, .inl rfl⟩
  · obtain ⟨_, _, h2, _⟩ := Tr.bind_ok hj
    cases h2; exact ⟨.inl rfl, .inr (h _ (by simp))⟩
  · obtain ⟨_, _, h2, _⟩ := Tr.bind_ok hj
    cases h2; exact ⟨.inr (h _ (by simp)), .inr (h _ (by simp))⟩
  · obtain ⟨_, _, h2, _⟩ := Tr.bind_ok hj
    obtain ⟨_, _, h3, _⟩ := Tr.bind_ok h2
    cases h3; exact ⟨.inr (h _ (by simp)), .inr (h _ (by simp))⟩

theorem jumpArgs_text {w : Where} {name : Str} {data : V} {args : List V} (h : (jumpArgs w name data).val = .ok args) :
    ∀ a ∈ args, isText a = true := by
  unfold jumpArgs at h
  obtain ⟨_, _, h2, _⟩ := Tr.bind_ok h
  obtain ⟨_, _, h3, _⟩ := Tr.bind_ok h2
  cases h3
  exact (separateArgs_tokens ',' false data).2

theorem ifParts_text {w : Where} {name : Str} {data : V} {p : V × Arg × V} (h : (ifParts w name data).val = .ok p) :
    textArg p.2.1 := by
  unfold ifParts at h
  split at h
  · obtain ⟨_, _, h2, _⟩ := Tr.bind_ok h
    cases h2
    unfold ifActions
    split <;> trivial
  · split at h
    · cases h
    · rename_i cond rest hs
      obtain ⟨_, _, h2, _⟩ := Tr.bind_ok h
      cases h2
      intro v hv
      exact (separateArgs_tokens ',' false data).2 v (by rw [hs]; simp [hv])

theorem condSplit_text {w : Where} {name : Str} {data : V} {p : V × Arg × V} (h : (condSplit w name data).val = .ok p) :
    ∀ a ∈ actions p.2, textArg a := by
  unfold condSplit at h
  obtain ⟨q, h1, h2, _⟩ := Tr.bind_ok h
  obtain ⟨_, _, h3, _⟩ := Tr.bind_ok h2
  cases h3
  unfold ifSplit at h1
  obtain ⟨r, h4, h5, _⟩ := Tr.bind_ok h1
  obtain ⟨_, _, h6, _⟩ := Tr.bind_ok h5
  obtain ⟨_, _, h7, _⟩ := Tr.bind_ok h6
  cases h7
  intro a ha
  unfold actions at ha
  have := (List.mem_filter.1 ha).1
  simp only [List.mem_cons, List.not_mem_nil, or_false] at this
  rcases this with rfl | rfl
  · exact ifParts_text h4
  · trivial

theorem mapM_ok {α β : Type} {f : α → Tr β} {l : List α} {bs : List β} (h : (Tr.mapM f l).val = .ok bs) :
    ∀ b ∈ bs, ∃ a ∈ l, (f a).val = .ok b := by
  induction l generalizing bs with
  | nil => cases h; simp
  | cons a l ih =>
    obtain ⟨b, h1, h2, _⟩ := Tr.bind_ok h
    obtain ⟨bs', h3, h4, _⟩ := Tr.bind_ok h2
    cases h4
    intro x hx
    rcases List.mem_cons.1 hx with rfl | hx
    · exact ⟨a, by simp, h1⟩
    · obtain ⟨y, hy, h⟩ := ih h3 x hx
      exact ⟨y, by simp [hy], h⟩

theorem callApp_text {env : FEnv} {inner : Option Str → Arg → Tr (Option Str)} {sp : Option Str} {w : Where} {app : AppInfo}
    {data : V} {r : Option Str × List Jump} (h : (callApp env inner sp w app data).val = .ok r) : ∀ j ∈ r.2, JumpText j := by
  unfold callApp at h
  split at h
  · obtain ⟨_, _, h2, _⟩ := Tr.bind_ok h; cases h2; simp
  · obtain ⟨_, _, h2, _⟩ := Tr.bind_ok h; cases h2; simp
  · obtain ⟨_, _, h2, _⟩ := Tr.bind_ok h
    obtain ⟨_, _, h3, _⟩ := Tr.bind_ok h2; cases h3; simp
  · obtain ⟨_, _, h2, _⟩ := Tr.bind_ok h; cases h2; simp
  · obtain ⟨args, h1, h2, _⟩ := Tr.bind_ok h
    obtain ⟨j, h3, h4, _⟩ := Tr.bind_ok h2
    cases h4
    intro j' hj
    rw [List.mem_singleton] at hj
    subst hj
    exact padJump_text (jumpArgs_text h1) h3
  · obtain ⟨p, h1, h2, _⟩ := Tr.bind_ok h
    obtain ⟨js, h3, h4, _⟩ := Tr.bind_ok h2
    cases h4
    intro j hj
    obtain ⟨a, ha, h5⟩ := mapM_ok h3 j hj
    exact padJump_text (separate_texts ',' true (condSplit_text h1 a ha)) h5
  · obtain ⟨_, _, h2, _⟩ := Tr.bind_ok h; cases h2; simp
  · obtain ⟨args, h1, h2, _⟩ := Tr.bind_ok h
    obtain ⟨j, h3, h4, _⟩ := Tr.bind_ok h2
    cases h4
    intro j' hj
    rw [List.mem_singleton] at hj
    subst hj
    exact gosubDest_text (jumpArgs_text h1) h3
  · obtain ⟨p, h1, h2, _⟩ := Tr.bind_ok h
    obtain ⟨js, h3, h4, _⟩ := Tr.bind_ok h2
    cases h4
    intro j hj
    obtain ⟨a, ha, h5⟩ := mapM_ok h3 j hj
    exact gosubDest_text (separate_texts ',' true (condSplit_text h1 a ha)) h5
  · obtain ⟨_, _, h2, _⟩ := Tr.bind_ok h
    obtain ⟨_, _, h3, _⟩ := Tr.bind_ok h2; cases h3; simp

theorem runApp_text {env : AEnv} {depth : Nat} {sp : Option Str} {w : Where} {raw : Arg} {r : Option Str × List Jump}
    (h : (runApp env depth sp w raw).val = .ok r) : ∀ j ∈ r.2, JumpText j := by
  cases depth with
  | zero => cases h
  | succ depth =>
    rw [runApp] at h
    obtain ⟨o, _, h2, _⟩ := Tr.bind_ok h
    cases o with
    | none => cases h2; simp
    | some q =>
      obtain ⟨_, _, h3, _⟩ := Tr.bind_ok h2
      obtain ⟨_, _, h4, _⟩ := Tr.bind_ok h3
      exact callApp_text h4

theorem zips_mem_right {α β : Type} {R : α → β → Prop} {as : List α} {bs : List β} (h : Zips R as bs) :
    ∀ b ∈ bs, ∃ a ∈ as, R a b := by
  induction h with
  | nil => simp
  | cons h1 _ ih =>
    intro b hb
    rcases List.mem_cons.1 hb with rfl | hb
    · exact ⟨_, by simp, h1⟩
    · obtain ⟨a, ha, hr⟩ := ih b hb
      exact ⟨a, by simp [ha], hr⟩

/-- Context and extension of a recorded destination are texts. -/
theorem dests_text {env : DEnv} {sp : Option Str} {st : DState} {es : List Elem}
    (h : (feed (dialplanStep env) (.init sp) es).val = .ok st) :
    ∀ d ∈ st.dp.dests, isText d.context = true ∧ isText d.exten = true := by
  obtain ⟨l, hj⟩ := read_jumps h
  intro d hd
  rw [hj.dests, List.mem_flatten] at hd
  obtain ⟨ds, hds, hd⟩ := hd
  obtain ⟨x, hx, rfl⟩ := List.mem_map.1 hds
  obtain ⟨js, ⟨sp1, sp2, hr⟩, hz⟩ := hj.jumps x hx
  obtain ⟨j, hjm, hc⟩ := zips_mem_right hz d hd
  obtain ⟨t1, t2⟩ := runApp_text hr j hjm
  constructor
  · by_cases hm : Missing j.context
    · rw [hc.sameContext hm]; rfl
    · rw [hc.context hm]
      rcases t1 with t1 | t1
      · exact absurd (.inl t1) hm
      · exact t1
  · by_cases hm : Missing j.exten
    · rw [hc.here hm]; rfl
    · rcases hc.either with he | ⟨s, he⟩
      · rw [he]
        rcases t2 with t2 | t2
        · exact absurd (.inl t2) hm
        · exact t2
      · rw [he]; rfl

end ALint
