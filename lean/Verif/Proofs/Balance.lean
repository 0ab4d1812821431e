import Verif.Proofs.Var

namespace ALint
open ALint.Spec

theorem bal_append {a b : List V} (ha : Bal a) (hb : Bal b) : Bal (a ++ b) := by
  induction ha with
  | nil => exact hb
  | plain h _ ih => exact .plain h ih
  | bracket h hi _ _ ih =>
    simp only [List.cons_append, List.append_assoc]
    exact .bracket h hi ih
  | quoted h hb' _ ih =>
    simp only [List.cons_append, List.append_assoc]
    exact .quoted h hb' ih

/-- What may follow when some brackets or a quote are open (innermost first). -/
def Closes : BalStack → List V → Prop
  | [], l => Bal l
  | s :: st, l => ∃ a b, Closes st b ∧
      ((∃ o c, (o, c) ∈ brackets ∧ s = [o] ∧ Bal a ∧ l = a ++ .str [c] :: b) ∨
        (∃ q, q ∈ ['"', '\''] ∧ s = [q] ∧ V.str [q] ∉ a ∧ l = a ++ .str [q] :: b))

def topQuote (st : BalStack) : Prop := st.head? = some (c! "\"") ∨ st.head? = some (c! "'")

instance (st : BalStack) : Decidable (topQuote st) := inferInstanceAs (Decidable (_ ∨ _))

theorem brackets_ne_quote {o c : Char} (h : (o, c) ∈ brackets) :
    o ≠ '"' ∧ o ≠ '\'' ∧ c ≠ '"' ∧ c ≠ '\'' := by
  simp [brackets] at h
  rcases h with ⟨rfl, rfl⟩ | ⟨rfl, rfl⟩ | ⟨rfl, rfl⟩ <;> decide

theorem closes_prepend {st : BalStack} {p b : List V} (hq : ¬ topQuote st) (hp : Bal p)
    (h : Closes st b) : Closes st (p ++ b) := by
  cases st with
  | nil => exact bal_append hp h
  | cons s st =>
    obtain ⟨a, b', h1, h2⟩ := h
    rcases h2 with ⟨o, c, h3, h4, h5, rfl⟩ | ⟨q, h3, rfl, _⟩
    · exact ⟨p ++ a, b', h1, .inl ⟨o, c, h3, h4, bal_append hp h5, by simp⟩⟩
    · exfalso; apply hq; simp [topQuote] at h3 ⊢; exact h3

/-! steps -/

theorem step_quote (st : BalStack) (q : Char) (hq : q ∈ ['"', '\'']) :
    balStep st (.str [q]) = if st.head? = some [q] then some st.tail
      else if topQuote st then some st else some ([q] :: st) := by
  simp at hq
  rcases hq with rfl | rfl
  · simp only [balStep, if_true, topQuote]
    by_cases h1 : st.head? = some ['"'] <;> by_cases h2 : st.head? = some ['\''] <;> simp [h1, h2]
  · simp only [balStep, if_true, topQuote]
    by_cases h1 : st.head? = some ['"'] <;> by_cases h2 : st.head? = some ['\''] <;> simp [h1, h2]

theorem step_open (st : BalStack) (o c : Char) (h : (o, c) ∈ brackets) :
    balStep st (.str [o]) = if topQuote st then some st else some ([o] :: st) := by
  simp [brackets] at h
  rcases h with ⟨rfl, rfl⟩ | ⟨rfl, rfl⟩ | ⟨rfl, rfl⟩ <;>
    by_cases h1 : st.head? = some ['"'] <;> by_cases h2 : st.head? = some ['\''] <;>
    simp [balStep, contains, topQuote, h1, h2]

theorem step_close (st : BalStack) (o c : Char) (h : (o, c) ∈ brackets) :
    balStep st (.str [c]) = if topQuote st then some st
      else if st.head? = some [o] then some st.tail else none := by
  simp [brackets] at h
  rcases h with ⟨rfl, rfl⟩ | ⟨rfl, rfl⟩ | ⟨rfl, rfl⟩ <;>
    by_cases h1 : st.head? = some ['"'] <;> by_cases h2 : st.head? = some ['\''] <;>
    simp [balStep, contains, topQuote, h1, h2]

theorem step_plain (st : BalStack) (t : V) (ht : isTok t = true) (h : isPlain t) :
    balStep st t = some st := by
  cases t with
  | str s =>
    match s, ht with
    | [c], _ =>
      simp [isPlain] at h
      simp [balStep, contains, h]
    | [], ht => simp [isTok] at ht
    | _ :: _ :: _, ht => simp [isTok] at ht
  | _ => rfl

theorem not_plain {t : V} (h : ¬ isPlain t) :
    ∃ c ∈ ['(', ')', '{', '}', '[', ']', '"', '\''], t = V.str [c] :=
  Classical.byContradiction fun hn => h (fun c hc e => hn ⟨c, hc, e⟩)

theorem balRun_cons (st : BalStack) (t : V) (l : List V) :
    balRun st (t :: l) = (balStep st t).bind fun st' => balRun st' l := by
  simp only [balRun]
  cases balStep st t <;> rfl

/-- Inside quotes everything is skipped up to the closing quote. -/
theorem balRun_quoted (st : BalStack) (q : Char) (hq : q ∈ ['"', '\'']) (body rest : List V)
    (ht : ∀ t ∈ body, isTok t = true) (hb : V.str [q] ∉ body) :
    balRun ([q] :: st) (body ++ rest) = balRun ([q] :: st) rest := by
  have htop : topQuote ([q] :: st) := by simp [topQuote] at hq ⊢; exact hq
  induction body with
  | nil => rfl
  | cons t body ih =>
    simp at hb
    rw [List.cons_append, balRun_cons]
    have : balStep ([q] :: st) t = some ([q] :: st) := by
      by_cases hp : isPlain t
      · exact step_plain _ t (ht t (by simp)) hp
      · obtain ⟨c, hc, rfl⟩ := not_plain hp
        by_cases hq' : c ∈ ['"', '\'']
        · rw [step_quote _ c hq']
          have : ¬ ([q] :: st).head? = some [c] := by simp; intro h; exact hb.1 (by rw [h])
          rw [if_neg this, if_pos htop]
        · have : (∃ d, (c, d) ∈ brackets) ∨ ∃ d, (d, c) ∈ brackets := by
            simp at hc hq'
            simp [brackets]
            rcases hc with rfl | rfl | rfl | rfl | rfl | rfl | rfl | rfl <;> simp at hq' ⊢
          rcases this with ⟨d, hd⟩ | ⟨d, hd⟩
          · rw [step_open _ c d hd, if_pos htop]
          · rw [step_close _ d c hd, if_pos htop]
    rw [this]
    exact ih (fun t' ht' => ht t' (by simp [ht'])) hb.2

/-- Balanced text leaves the stack as it was. -/
theorem balRun_bal {a : List V} (ha : Bal a) (ht : ∀ t ∈ a, isTok t = true) :
    ∀ (st : BalStack) (rest : List V), ¬ topQuote st → balRun st (a ++ rest) = balRun st rest := by
  induction ha with
  | nil => intro st rest _; rfl
  | @plain t r h _ ih =>
    intro st rest hq
    rw [List.cons_append, balRun_cons, step_plain st t (ht t (by simp)) h]
    exact ih (fun t' ht' => ht t' (by simp [ht'])) st rest hq
  | @bracket o c inner r h hi hr ih1 ih2 =>
    intro st rest hq
    obtain ⟨n1, n2, n3, n4⟩ := brackets_ne_quote h
    simp only [List.cons_append, List.append_assoc]
    rw [balRun_cons, step_open _ o c h, if_neg hq]
    simp only [Option.bind_some]
    have hq' : ¬ topQuote ([o] :: st) := by simp [topQuote, n1, n2]
    rw [ih1 (fun t ht' => ht t (by simp [ht'])) _ _ hq', balRun_cons, step_close _ o c h, if_neg hq']
    simp only [List.head?_cons, if_true, List.tail_cons, Option.bind_some]
    exact ih2 (fun t ht' => ht t (by simp [ht'])) st rest hq
  | @quoted q body r h hb hr ih =>
    intro st rest hq
    simp only [List.cons_append, List.append_assoc]
    rw [balRun_cons, step_quote _ q h]
    have : ¬ st.head? = some [q] := by
      intro e; apply hq; simp [topQuote] at h ⊢; rw [e]; simpa using h
    rw [if_neg this, if_neg hq]
    simp only [Option.bind_some]
    rw [balRun_quoted st q h body _ (fun t ht' => ht t (by simp [ht'])) hb, balRun_cons, step_quote _ q h]
    simp only [List.head?_cons, if_true, List.tail_cons, Option.bind_some]
    exact ih (fun t ht' => ht t (by simp [ht'])) st rest hq

theorem closes_of_run (l : List V) (ht : ∀ t ∈ l, isTok t = true) :
    ∀ st, balRun st l = some [] → Closes st l := by
  induction l with
  | nil =>
    intro st h
    simp [balRun] at h
    subst h
    exact .nil
  | cons t l ih =>
    intro st h
    have ih' := ih (fun t' ht' => ht t' (by simp [ht']))
    rw [balRun_cons] at h
    by_cases hp : isPlain t
    · rw [step_plain st t (ht t (by simp)) hp] at h
      have h1 := ih' st h
      by_cases hq : topQuote st
      · cases st with
        | nil => simp [topQuote] at hq
        | cons s st =>
          obtain ⟨a, b, h2, h3⟩ := h1
          rcases h3 with ⟨o, c, h4, rfl, _⟩ | ⟨q, h4, rfl, h5, rfl⟩
          · obtain ⟨n1, n2, _⟩ := brackets_ne_quote h4
            exfalso; simp [topQuote, n1, n2] at hq
          · refine ⟨t :: a, b, h2, .inr ⟨q, h4, rfl, ?_, rfl⟩⟩
            simp
            refine ⟨?_, h5⟩
            rintro rfl
            simp [isPlain] at hp h4
            rcases h4 with rfl | rfl <;> simp at hp
      · exact closes_prepend (p := [t]) hq (.plain hp .nil) h1
    · obtain ⟨x, hx, rfl⟩ := not_plain hp
      -- in quotes
      by_cases hq : topQuote st
      · cases st with
        | nil => simp [topQuote] at hq
        | cons s st =>
          have hs : ∃ q ∈ ['"', '\''], s = [q] := by simpa [topQuote] using hq
          obtain ⟨q, hq4, rfl⟩ := hs
          by_cases hxq : x = q
          · subst hxq
            rw [step_quote _ x hq4] at h
            simp only [List.head?_cons, if_true, List.tail_cons, Option.bind_some] at h
            exact ⟨[], l, ih' st h, .inr ⟨x, hq4, rfl, by simp, rfl⟩⟩
          · have hstep : balStep ([q] :: st) (V.str [x]) = some ([q] :: st) := by
              by_cases hq' : x ∈ ['"', '\'']
              · rw [step_quote _ x hq', if_neg (by simp; exact Ne.symm hxq), if_pos hq]
              · have : (∃ d, (x, d) ∈ brackets) ∨ ∃ d, (d, x) ∈ brackets := by
                  simp at hx hq'
                  simp [brackets]
                  rcases hx with rfl | rfl | rfl | rfl | rfl | rfl | rfl | rfl <;> simp at hq' ⊢
                rcases this with ⟨d, hd⟩ | ⟨d, hd⟩
                · rw [step_open _ x d hd, if_pos hq]
                · rw [step_close _ d x hd, if_pos hq]
            rw [hstep] at h
            obtain ⟨a, b, h2, h3⟩ := ih' _ h
            rcases h3 with ⟨o, c, h4, h5, _⟩ | ⟨q2, h4, h5, h6, rfl⟩
            · obtain ⟨n1, n2, _⟩ := brackets_ne_quote h4
              exfalso
              simp at h5 hq4
              rcases hq4 with rfl | rfl
              · exact n1 h5.symm
              · exact n2 h5.symm
            · simp at h5; subst h5
              refine ⟨V.str [x] :: a, b, h2, .inr ⟨q, h4, rfl, ?_, rfl⟩⟩
              simp
              exact ⟨Ne.symm hxq, h6⟩
      · by_cases hq' : x ∈ ['"', '\'']
        · rw [step_quote _ x hq'] at h
          have : ¬ st.head? = some [x] := by
            intro e; apply hq; simp [topQuote] at hq' ⊢; rw [e]; simpa using hq'
          rw [if_neg this, if_neg hq] at h
          obtain ⟨a, b, h2, h3⟩ := ih' _ h
          rcases h3 with ⟨o, c, h4, h5, _⟩ | ⟨q2, h4, h5, h6, rfl⟩
          · obtain ⟨n1, n2, _⟩ := brackets_ne_quote h4
            exfalso
            simp at h5 hq'
            rcases hq' with rfl | rfl
            · exact n1 h5.symm
            · exact n2 h5.symm
          · simp at h5; subst h5
            have := closes_prepend (p := V.str [x] :: a ++ [V.str [x]]) hq (.quoted h4 h6 .nil) h2
            simpa using this
        · have hb : (∃ d, (x, d) ∈ brackets) ∨ ∃ d, (d, x) ∈ brackets := by
            simp at hx hq'
            simp [brackets]
            rcases hx with rfl | rfl | rfl | rfl | rfl | rfl | rfl | rfl <;> simp at hq' ⊢
          rcases hb with ⟨d, hd⟩ | ⟨d, hd⟩
          · rw [step_open _ x d hd, if_neg hq] at h
            obtain ⟨a, b, h2, h3⟩ := ih' _ h
            rcases h3 with ⟨o, c, h4, h5, h6, rfl⟩ | ⟨q2, h4, h5, _⟩
            · simp at h5; subst h5
              have := closes_prepend (p := V.str [x] :: a ++ [V.str [c]]) hq (.bracket h4 h6 .nil) h2
              simpa using this
            · simp at h5; subst h5; exact absurd h4 hq'
          · rw [step_close _ d x hd, if_neg hq] at h
            by_cases hh : st.head? = some [d]
            · rw [if_pos hh] at h
              cases st with
              | nil => simp at hh
              | cons s st =>
                simp at hh; subst hh
                exact ⟨[], l, ih' _ h, .inl ⟨d, x, hd, rfl, .nil, rfl⟩⟩
            · rw [if_neg hh] at h; simp at h

theorem balanced_iff (l : List V) (ht : ∀ t ∈ l, isTok t = true) : balanced l = true ↔ Bal l := by
  simp only [balanced, beq_iff_eq]
  constructor
  · intro h; exact closes_of_run l ht [] h
  · intro h
    have := balRun_bal h ht [] [] (by simp [topQuote])
    simp only [List.append_nil] at this
    rw [this]; rfl

end ALint
