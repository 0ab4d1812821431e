import Verif.Spec.File
import Verif.Proofs.Reader

namespace ALint
open ALint.Spec

theorem endsWith_iff (t data : Str) : endsWith t data = true ↔ ∃ s, data = s ++ t := by
  simp only [endsWith, List.isPrefixOf_iff_prefix, List.reverse_prefix]
  constructor
  · rintro ⟨s, rfl⟩; exact ⟨s, rfl⟩
  · rintro ⟨s, rfl⟩; exact ⟨s, rfl⟩

theorem crlf_iff (data : Str) : endsWith (c! "\r\n") data = true ↔ CrLf data := endsWith_iff _ _
theorem lf_iff (data : Str) : endsWith (c! "\n") data = true ↔ Lf data := endsWith_iff _ _

theorem startsDos_eq (data : Str) :
    startsDos data = (endsWith (c! "\r\n") data || !endsWith (c! "\n") data) := by
  rw [Bool.eq_iff_iff]
  simp only [startsDos, decide_eq_true_eq, Bool.or_eq_true, Bool.not_eq_true', crlf_iff]
  rw [← Bool.not_eq_true, lf_iff]

theorem formatMsg_eq (dos : Bool) (w : Where) (data : Str) :
    formatMsg dos w data =
      if dos then
        if endsWith (c! "\n") data && !endsWith (c! "\r\n") data then [⟨.W_FILE_DOS_BARELF, w, [], none⟩] else []
      else
        if endsWith (c! "\r\n") data then [⟨.W_FILE_UNIX_CRLF, w, [], none⟩] else [] := by
  simp only [formatMsg, ← crlf_iff, ← lf_iff]
  cases dos <;> cases endsWith (c! "\r\n") data <;> cases endsWith (c! "\n") data <;> rfl

theorem eofMsg_eq (dos : Bool) (w : Where) (data : Str) (name : Str) :
    eofMsg dos w data = ffPopMsgs ⟨name, dos, endsWith (c! "\n") data, w⟩ := by
  simp only [eofMsg, ffPopMsgs, ← lf_iff]
  cases dos <;> cases endsWith (c! "\n") data <;> rfl

/-- The messages for popping all of `js`. -/
def popAll (js : List FInfo) : List Msg := js.flatMap ffPopMsgs

theorem popFileinfo_none (js : List FInfo) : popFileinfo none js = (popAll js, []) := by
  induction js with
  | nil => rfl
  | cons i is ih => simp [popFileinfo, ih, popAll]

theorem popFileinfo_some (f : Str) (js : List FInfo) (e : FInfo) (anc : List FInfo)
    (hj : ∀ j ∈ js, j.name ≠ f) (he : e.name = f) :
    popFileinfo (some f) (js ++ e :: anc) = (popAll js, e :: anc) := by
  induction js with
  | nil => simp [popFileinfo, he, popAll]
  | cons i is ih =>
    have hi := hj i (by simp)
    simp only [List.cons_append, popFileinfo, Option.some.injEq, hi, if_false]
    rw [ih (fun j hj' => hj j (by simp [hj']))]
    simp [popAll]

theorem ffEnter_known (f : Str) (js : List FInfo) (e : FInfo) (anc : List FInfo) (w : Where)
    (hw : w.filename = f) (hj : ∀ j ∈ js, j.name ≠ f) (he : e.name = f) :
    ffEnter (js ++ e :: anc) w = (popAll js, some e, anc) := by
  subst hw
  cases js with
  | nil => simp [ffEnter, he, popAll]
  | cons i is =>
    have hi := hj i (by simp)
    simp only [List.cons_append, ffEnter, hi, if_false]
    rw [if_pos (by simp [he])]
    rw [show i :: (is ++ e :: anc) = (i :: is) ++ e :: anc from rfl,
      popFileinfo_some _ _ e anc hj he]

theorem ffEnter_new (anc : List FInfo) (w : Where) (h : ∀ j ∈ anc, j.name ≠ w.filename) :
    ffEnter anc w = ([], none, anc) := by
  cases anc with
  | nil => rfl
  | cons i is =>
    have hi := h i (by simp)
    simp only [ffEnter, hi, if_false]
    rw [if_neg]
    simp only [List.any_eq_true, decide_eq_true_eq, not_exists, not_and]
    exact fun j hj => h j hj

theorem ffStage_known (text : Where → Str) (f : Str) (js : List FInfo) (e : FInfo) (anc : List FInfo)
    (w : Where) (hw : w.filename = f) (hj : ∀ j ∈ js, j.name ≠ f) (he : e.name = f) :
    (ffStage (js ++ e :: anc) w (text w)).1 =
        ⟨f, e.isDos, endsWith (c! "\n") (text w), w⟩ :: anc ∧
      (ffStage (js ++ e :: anc) w (text w)).2.1 = popAll js ++ formatMsg e.isDos w (text w) := by
  simp only [ffStage, ffEnter_known f js e anc w hw hj he, formatMsg_eq, hw, and_self]

theorem ffStage_new (text : Where → Str) (anc : List FInfo)
    (w : Where) (h : ∀ j ∈ anc, j.name ≠ w.filename) :
    (ffStage anc w (text w)).1 =
        ⟨w.filename, startsDos (text w), endsWith (c! "\n") (text w), w⟩ :: anc ∧
      (ffStage anc w (text w)).2.1 = formatMsg (startsDos (text w)) w (text w) := by
  simp only [ffStage, ffEnter_new anc w h, formatMsg_eq, startsDos_eq, List.nil_append, and_self]

/-- No file of the tree has the name of one of its ancestors or of `anc`. -/
def NoRepeat (anc : List Str) : Items → Prop
  | .nil => True
  | .line _ rest => NoRepeat anc rest
  | .incl _ p sub rest => p ∉ anc ∧ NoRepeat (p :: anc) sub ∧ NoRepeat anc rest

theorem ffRun_append (text : Where → Str) (st : List FInfo) (a b : List Where) :
    ffRun text st (a ++ b) =
      ((ffRun text (ffRun text st a).1 b).1, (ffRun text st a).2 ++ (ffRun text (ffRun text st a).1 b).2) := by
  induction a generalizing st with
  | nil => rfl
  | cons w ws ih => simp [ffRun, ih]

theorem ffRun_tree (text : Where → Str) {fs : FS} {inc} {f n ls t} (h : Expand fs inc f n ls t) :
    ∀ (anc : List FInfo), NoRepeat (f :: anc.map FInfo.name) t → f ∉ anc.map FInfo.name →
    (∀ (d : Bool) (w : Where) (js : List FInfo), (∀ j ∈ js, j.name ∉ f :: anc.map FInfo.name) →
      ∃ js', (ffRun text (js ++ ⟨f, d, endsWith (c! "\n") (text w), w⟩ :: anc) t.flatten).1 = js' ++ anc ∧
        (∀ j ∈ js', j.name ∉ anc.map FInfo.name) ∧
        (ffRun text (js ++ ⟨f, d, endsWith (c! "\n") (text w), w⟩ :: anc) t.flatten).2 ++ popAll js' =
          popAll js ++ t.formats text (some (d, w))) ∧
    (∃ js', (ffRun text anc t.flatten).1 = js' ++ anc ∧
        (∀ j ∈ js', j.name ∉ anc.map FInfo.name) ∧
        (ffRun text anc t.flatten).2 ++ popAll js' = t.formats text none) := by
  induction h with
  | @nil f n =>
    intro anc _ hf
    refine ⟨fun d w js hj => ⟨js ++ [⟨f, d, endsWith (c! "\n") (text w), w⟩], by simp [Items.flatten, ffRun], ?_, ?_⟩,
      [], rfl, by simp, rfl⟩
    · intro j hj'
      rcases List.mem_append.1 hj' with hj' | hj'
      · exact fun h => hj j hj' (List.mem_cons_of_mem _ h)
      · simp at hj'; subst hj'; exact hf
    · simp [Items.flatten, ffRun, Items.formats, popAll, eofMsg_eq d w (text w) f]
  | @line f n l ls t hp _ ih =>
    intro anc hr hf
    have ih' := ih anc hr hf
    have hnew : ∀ j ∈ anc, j.name ≠ (⟨f, (n : Int) + 1, l⟩ : Where).filename := by
      intro j hj he
      exact hf (by rw [← show j.name = f from he]; exact List.mem_map_of_mem hj)
    constructor
    · intro d w js hj
      have hs := ffStage_known text f js ⟨f, d, endsWith (c! "\n") (text w), w⟩ anc
        ⟨f, (n : Int) + 1, l⟩ rfl (fun j hj' he => hj j hj' (by rw [he]; simp)) rfl
      obtain ⟨js', h1, h2, h3⟩ := ih'.1 d ⟨f, (n : Int) + 1, l⟩ [] (by simp)
      refine ⟨js', ?_, h2, ?_⟩
      · simp only [Items.flatten, ffRun, hs.1]; exact h1
      · simp only [Items.flatten, ffRun, hs.1, hs.2, Items.formats, Option.map_some, Option.getD_some]
        have h3' := h3
        simp only [List.nil_append, show popAll [] = [] from rfl] at h3'
        rw [List.append_assoc, h3']
        simp
    · have hs := ffStage_new text anc ⟨f, (n : Int) + 1, l⟩ hnew
      obtain ⟨js', h1, h2, h3⟩ := ih'.1 (startsDos (text ⟨f, (n : Int) + 1, l⟩)) ⟨f, (n : Int) + 1, l⟩ [] (by simp)
      refine ⟨js', ?_, h2, ?_⟩
      · simp only [Items.flatten, ffRun, hs.1]; exact h1
      · simp only [Items.flatten, ffRun, hs.1, hs.2, Items.formats, Option.map_none, Option.getD_none]
        have h3' := h3
        simp only [List.nil_append, show popAll [] = [] from rfl] at h3'
        rw [List.append_assoc, h3']
  | @incl f n l ls p c sub t hp _ _ ih1 ih2 =>
    intro anc hr hf
    obtain ⟨hr1, hr2, hr3⟩ := hr
    have hnew : ∀ j ∈ anc, j.name ≠ (⟨f, (n : Int) + 1, l⟩ : Where).filename := by
      intro j hj he
      exact hf (by rw [← show j.name = f from he]; exact List.mem_map_of_mem hj)
    have body : ∀ (d : Bool), ∃ js',
        (ffRun text (⟨f, d, endsWith (c! "\n") (text ⟨f, (n : Int) + 1, l⟩), ⟨f, (n : Int) + 1, l⟩⟩ :: anc)
          (sub.flatten ++ t.flatten)).1 = js' ++ anc ∧
        (∀ j ∈ js', j.name ∉ anc.map FInfo.name) ∧
        (ffRun text (⟨f, d, endsWith (c! "\n") (text ⟨f, (n : Int) + 1, l⟩), ⟨f, (n : Int) + 1, l⟩⟩ :: anc)
          (sub.flatten ++ t.flatten)).2 ++ popAll js' =
          sub.formats text none ++ t.formats text (some (d, ⟨f, (n : Int) + 1, l⟩)) := by
      intro d
      obtain ⟨js1, a1, a2, a3⟩ := (ih1 (⟨f, d, endsWith (c! "\n") (text ⟨f, (n : Int) + 1, l⟩),
        ⟨f, (n : Int) + 1, l⟩⟩ :: anc) hr2 hr1).2
      obtain ⟨js2, b1, b2, b3⟩ := (ih2 anc hr3 hf).1 d ⟨f, (n : Int) + 1, l⟩ js1 a2
      refine ⟨js2, ?_, b2, ?_⟩
      · rw [ffRun_append, a1]; exact b1
      · rw [ffRun_append, a1]
        simp only
        rw [List.append_assoc, b3, ← List.append_assoc, a3]
    constructor
    · intro d w js hj
      have hs := ffStage_known text f js ⟨f, d, endsWith (c! "\n") (text w), w⟩ anc
        ⟨f, (n : Int) + 1, l⟩ rfl (fun j hj' he => hj j hj' (by rw [he]; simp)) rfl
      obtain ⟨js', h1, h2, h3⟩ := body d
      refine ⟨js', ?_, h2, ?_⟩
      · simp only [Items.flatten, ffRun, hs.1]; exact h1
      · simp only [Items.flatten, ffRun, hs.1, hs.2, Items.formats, Option.map_some, Option.getD_some]
        rw [List.append_assoc, h3]
        simp
    · have hs := ffStage_new text anc ⟨f, (n : Int) + 1, l⟩ hnew
      obtain ⟨js', h1, h2, h3⟩ := body (startsDos (text ⟨f, (n : Int) + 1, l⟩))
      refine ⟨js', ?_, h2, ?_⟩
      · simp only [Items.flatten, ffRun, hs.1]; exact h1
      · simp only [Items.flatten, ffRun, hs.1, hs.2, Items.formats, Option.map_none, Option.getD_none]
        rw [List.append_assoc, h3]

/-- In a finite expansion no file occurs below itself. -/
theorem noRepeat_of_expand {fs : FS} {inc} {f n ls t} (h : Expand fs inc f n ls t) :
    ∀ (anc : List Str),
      (∀ q, linePulls fs inc f n ls q → ∀ a ∈ anc, PullsPlus fs inc a q) → NoRepeat anc t := by
  induction h with
  | nil => intro _ _; trivial
  | @line f n l ls t hp _ ih =>
    intro anc ha
    refine ih anc ?_
    rintro q ⟨i, l', hl, c, hc⟩
    exact ha q ⟨i + 1, l', by simpa using hl, c, by rw [← hc]; congr 2; omega⟩
  | @incl f n l ls p c sub t hp hs ht ih1 ih2 =>
    intro anc ha
    have hpl : linePulls fs inc f n (l :: ls) p := ⟨0, l, by simp, c, by simpa using hp⟩
    have hacc := acc_of_expand (pulls_fs hp) hs
    have hcont : ∀ q, linePulls fs inc p 0 (physLines c) q → Pulls fs inc p q := by
      rintro q ⟨i, l', hl, c', hc⟩
      exact ⟨c, pulls_fs hp, i, l', hl, c', by simpa using hc⟩
    refine ⟨?_, ih1 (p :: anc) ?_, ih2 anc ?_⟩
    · intro hpa
      exact acc_no_cycle hacc (ha p hpl p hpa)
    · intro q hq a haa
      rcases List.mem_cons.1 haa with rfl | haa
      · exact .one (hcont q hq)
      · have h1 := ha p hpl a haa
        have trans : ∀ {a b c}, PullsPlus fs inc a b → PullsPlus fs inc b c → PullsPlus fs inc a c := by
          intro a b c h1 h2
          induction h1 with
          | one h => exact .more h h2
          | more h _ ih => exact .more h (ih h2)
        exact trans h1 (.one (hcont q hq))
    · rintro q ⟨i, l', hl, c', hc⟩
      exact ha q ⟨i + 1, l', by simpa using hl, c', by rw [← hc]; congr 2; omega⟩

theorem formats_append_own (text : Where → Str) (t : Items) (d : Bool) (w : Where) :
    (t.own.flatMap (fun w => formatMsg d w (text w)) ++
      eofMsg d ((w :: t.own).getLast (by simp)) (text ((w :: t.own).getLast (by simp)))).Sublist
      (t.formats text (some (d, w))) := by
  induction t generalizing w with
  | nil => simp [Items.own, Items.formats]
  | line w' rest ih =>
    simp only [Items.own, List.flatMap_cons, Items.formats, Option.map_some, Option.getD_some,
      List.append_assoc, List.getLast_cons_cons]
    exact List.Sublist.append (List.Sublist.refl _) (ih w')
  | incl w' p sub rest _ ih =>
    simp only [Items.own, List.flatMap_cons, Items.formats, Option.map_some, Option.getD_some,
      List.append_assoc, List.getLast_cons_cons]
    exact List.Sublist.append (List.Sublist.refl _)
      ((ih w').trans (List.sublist_append_right _ _))

end ALint
