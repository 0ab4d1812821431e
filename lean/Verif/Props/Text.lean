import Verif.Proofs.Text

/-!
# C77: well-formed substitutions are understood as written, silently
-/

namespace ALint.Props
open ALint ALint.Spec

/-- C77: text in order is taken for what it means; every variable and function in it is
recorded as used, in order, and nothing is reported. -/
theorem C77_understood (env : FEnv) (w : Where) (t : Txt) (h : GoodTxt env false t) :
    parseVariables env w t.write = ⟨t.used env w, .ok (join t.meaning)⟩ := by
  obtain ⟨l, e1, e2⟩ := items_good env w false t h [] [] (by simp) (by simp)
  rw [List.nil_append, List.append_nil] at e1
  refine parse_of_items e1 ?_
  rw [e2, joinItems_empty]
  have key : ∀ l : List V, joinItems (l ++ [V.str []]) = joinItems l := by
    intro l
    induction l with
    | nil => rfl
    | cons x xs ih => exact joinItems_congr x ih
  exact key _

/-- C77: so there is no message. -/
theorem C77_silent (env : FEnv) (w : Where) (t : Txt) (h : GoodTxt env false t) (m : Msg) :
    Ev.msg m ∉ (parseVariables env w t.write).ev := by
  rw [C77_understood env w t h]
  clear h
  induction t with
  | nil => simp [Txt.used]
  | text s r ih => exact ih
  | var n r ih => simpa [Txt.used] using ih
  | sub n s l r ih => simpa [Txt.used] using ih
  | call f a r iha ih => simp only [Txt.used, List.mem_append, List.mem_cons] at *; simp [iha, ih]
  | expr e r ihe ih => simp only [Txt.used, List.mem_append] at *; simp [ihe, ih]

/-- C77: what is read prints as the text that was written, provided the numbers have no
leading zeros. -/
theorem C77_printed (env : FEnv) (w : Where) (t : Txt) (h : GoodTxt env false t) (h2 : CanonNumbers t.write)
    (h3 : NoOddSubst t.write) : (join t.meaning).toStr = .ok t.write := by
  refine C33_roundtrip_partial env w t.write (join t.meaning) (by rw [C77_understood env w t h]) ?_ h2 h3
  intro m hm
  exact absurd hm (C77_silent env w t h m)

/-- For the example: `LEN` only. -/
private def env1 : FEnv where
  lower := fun s => s.map Char.toLower
  funcs := fun s => if s = c! "len" then some ⟨c! "LEN", c! "func_strings", .plain⟩ else none

private def demoTxt : Txt := .text (c! "Hi {") (.sub (c! "NAME") (c! "-3") (some (c! "2")) (.text (c! " ")
  (.expr (.var (c! "A") (.text (c! " + [x] ") (.call (c! "LEN") (.text (c! "x(y)") (.var (c! "B") .nil)) .nil))) .nil)))

example : demoTxt.write = c! "Hi {${NAME:-3:2} $[${A} + [x] ${LEN(x(y)${B})}]" := by decide

private theorem demoTxt_good : GoodTxt env1 false demoTxt := by
  have lev : Level '{' '}' (c! " + [x] ") ∧ Level '[' ']' (c! " + [x] ") := by
    refine ⟨.none (by decide) (by decide), ?_⟩
    exact .append (a := c! " + ") (.none (by decide) (by decide)) (.append (a := '[' :: (c! "x" ++ [']'])) (b := c! " ")
      (.wrap (by decide) (.none (by decide) (by decide))) (.none (by decide) (by decide)))
  refine ⟨by decide, by simp, ⟨by decide, by decide⟩, ⟨c! "3", .inr rfl, by decide, by decide⟩, ?_, by decide,
    by decide, by simp, ?_, trivial⟩
  · intro x hx
    cases hx
    exact ⟨⟨c! "2", .inl rfl, by decide, by decide⟩, by decide, by decide⟩
  · refine ⟨⟨by decide, by decide⟩, by decide, fun _ => lev, ⟨by decide, by decide⟩, ⟨_, rfl⟩, ?_,
      ⟨by decide, fun _ => ⟨.none (by decide) (by decide), .none (by decide) (by decide)⟩, ⟨by decide, by decide⟩, trivial⟩, trivial⟩
    exact (C38_balance _).1 (by decide)

example (w : Where) : (parseVariables env1 w (c! "Hi {${NAME:-3:2} $[${A} + [x] ${LEN(x(y)${B})}]")).ev =
    [.var (c! "NAME") w, .var (c! "A") w, .var (c! "B") w, .func (c! "len")] :=
  congrArg Tr.ev (C77_understood env1 w demoTxt demoTxt_good)

end ALint.Props
