import Verif.Spec.Relocate
import Verif.Proofs.Wording
import Verif.Proofs.Splice
import Verif.Proofs.LineLog

/-!
# A dialplan in another directory (proofs)

Both checks are compared after the names of the files in the directory are replaced by their names
within it, tagged so that no two names become equal.
-/

namespace ALint.Proofs
open ALint Spec

/-! ## Other names of files -/

def reFi (φ : Where → Where) (r : Str → Str) (i : FInfo) : FInfo := ⟨r i.name, i.isDos, i.hasLf, φ i.last⟩

section
variable {φ : Where → Where} {r : Str → Str}

theorem popMsgs_re (i : FInfo) : ffPopMsgs (reFi φ r i) = (ffPopMsgs i).map (reM φ) := by
  unfold ffPopMsgs
  have e1 : (reFi φ r i).isDos = i.isDos := rfl
  have e2 : (reFi φ r i).hasLf = i.hasLf := rfl
  rw [e1, e2]
  split
  · rfl
  · split <;> rfl

theorem pop_re (hp : Places φ r) (stop : Option Str) : ∀ st : List FInfo, popFileinfo (stop.map r) (st.map (reFi φ r)) =
    ((popFileinfo stop st).1.map (reM φ), (popFileinfo stop st).2.map (reFi φ r))
  | [] => rfl
  | i :: st => by
    have hf : some (reFi φ r i).name = stop.map r ↔ some i.name = stop := by
      cases stop with
      | none => simp
      | some s => simp only [Option.map_some, Option.some.injEq]; exact ⟨hp.inj _ _, fun h => congrArg r h⟩
    simp only [List.map_cons, popFileinfo, hf, pop_re hp stop st, popMsgs_re]
    split
    · rfl
    · simp

theorem enter_re (hp : Places φ r) (st : List FInfo) (w : Where) : ffEnter (st.map (reFi φ r)) (φ w) =
    ((ffEnter st w).1.map (reM φ), (ffEnter st w).2.1.map (reFi φ r), (ffEnter st w).2.2.map (reFi φ r)) := by
  cases st with
  | nil => rfl
  | cons i is =>
    have hpop := pop_re hp (some w.filename) (i :: is)
    have hf : ∀ j : FInfo, (reFi φ r j).name = r w.filename ↔ j.name = w.filename := fun j =>
      ⟨hp.inj _ _, fun h => congrArg r h⟩
    have ha : ((i :: is).map (reFi φ r)).any (fun j => j.name = r w.filename) = (i :: is).any fun j => j.name = w.filename := by
      rw [List.any_map]
      congr 1
      funext j
      exact decide_eq_decide.2 (hf j)
    unfold ffEnter
    rw [hp.file]
    simp only [List.map_cons] at ha hpop ⊢
    rw [ha]
    simp only [hf]
    split
    · rfl
    · split
      · simp only [Option.map_some] at hpop
        rw [hpop]
        dsimp only
        cases (popFileinfo (some w.filename) (i :: is)).2 <;> rfl
      · rfl

theorem ffStage_re (hp : Places φ r) (st : List FInfo) (w : Where) (d : Str) : ffStage (st.map (reFi φ r)) (φ w) d =
    ((ffStage st w d).1.map (reFi φ r), (ffStage st w d).2.1.map (reM φ), (ffStage st w d).2.2) := by
  have key : ∀ (p q s : Bool), (if p then if q then [(⟨.W_FILE_DOS_BARELF, φ w, [], none⟩ : Msg)] else []
      else if s then [⟨.W_FILE_UNIX_CRLF, φ w, [], none⟩] else []) = (if p then
        if q then [(⟨.W_FILE_DOS_BARELF, w, [], none⟩ : Msg)] else []
      else if s then [⟨.W_FILE_UNIX_CRLF, w, [], none⟩] else []).map (reM φ) := by
    intro p q s
    cases p <;> cases q <;> cases s <;> rfl
  unfold ffStage
  rw [enter_re hp]
  dsimp only
  rw [List.map_append, ← key, List.map_cons, hp.file]
  cases (ffEnter st w).2.1 <;> rfl

theorem ffEnd_re (hp : Places φ r) (st : List FInfo) : ffEnd (st.map (reFi φ r)) = (ffEnd st).map (reM φ) := by
  unfold ffEnd
  have := pop_re hp none st
  simp only [Option.map_none] at this
  rw [this]

theorem encoding_re (hl : ∀ w, (φ w).line = w.line) (w : Where) :
    encodingStage (φ w) = ((encodingStage w).1.map (reM φ), (encodingStage w).2) := by
  unfold encodingStage
  rw [hl]
  cases utf8Decode w.line with
  | some s => rfl
  | none => rfl

theorem ctrl_re (w : Where) (d : Str) : ctrlStage (φ w) d = (ctrlStage w d).map (reM φ) := by
  unfold ctrlStage; split <;> rfl

theorem fileStage_re (hp : Places φ r) (hl : ∀ w, (φ w).line = w.line) (st : List FInfo) (w : Where) :
    fileStage (st.map (reFi φ r)) (φ w) = ((fileStage st w).1.map (reM φ), (fileStage st w).2.map fun p => (p.1.map (reFi φ r), p.2)) := by
  unfold fileStage
  rw [encoding_re hl]
  dsimp only
  cases (encodingStage w).2 with
  | error e => rfl
  | ok d =>
    have h2 : commentStage (φ w) (ffStage st w d).2.2 =
        ((commentStage w (ffStage st w d).2.2).1.map (reM φ), (commentStage w (ffStage st w d).2.2).2) := by
      have h3 := commentStage_at w w (ffStage st w d).2.2
      have h4 := congrArg Prod.fst h3
      dsimp only at h4
      rw [commentStage_at w (φ w)]
      refine Prod.ext ?_ rfl
      dsimp only
      conv => rhs; rw [h4]
      rw [List.map_map]
      congr 1
      funext m
      simp only [Function.comp, reM, Option.map_map]
      rfl
    simp only [ffStage_re hp, ctrl_re, h2, List.map_append]
    rfl

end

/-! ## A line elsewhere -/

/-- What is made of a line, at another place. -/
def outAt (w : Where) : LineOut → LineOut
  | .elem e => .elem (reE (fun _ => w) e)
  | .pp .nothing => .pp .nothing
  | .pp (.open_ _ must name) => .pp (.open_ (pathJoin (dirname w.filename) name) must name)

theorem parserStage_to (w w' : Where) (data c : Str) :
    parserStage w' data c = ((parserStage w data c).1.map (reM fun _ => w'), outAt w' (parserStage w data c).2) := by
  unfold parserStage
  cases readLine data with
  | some r => dsimp only; rw [mkElem_at _ w w']; rfl
  | none =>
    dsimp only
    split
    · unfold preprocessor
      dsimp only
      split
      · refine Prod.ext ?_ rfl; dsimp only; rw [List.map_append]; congr 1; split <;> rfl
      · split
        · refine Prod.ext ?_ rfl; dsimp only; rw [List.map_append]; congr 1; split <;> rfl
        · split
          · refine Prod.ext ?_ rfl; dsimp only; rw [List.map_append]; congr 1; split <;> rfl
          · split
            · refine Prod.ext ?_ rfl; dsimp only; rw [List.map_append]; congr 1; split <;> rfl
            · split
              · refine Prod.ext ?_ rfl
                dsimp only
                simp only [List.map_append]
                congr 1
                congr 1
                · congr 1 <;> split <;> rfl
                · split <;> rfl
              · refine Prod.ext ?_ rfl
                dsimp only
                simp only [List.map_append]
                congr 1
                · congr 1 <;> split <;> rfl
                · split <;> rfl
    · rfl

theorem pathJoin_nil (name : Str) : pathJoin (dirname []) name = name := (pathFrom_eq (.here (by simp))).symm

/-! ## Directories -/

theorem slashes_first : ∀ s : Str, ∃ sl d, s = sl ++ d ∧ d.head? ≠ some '/' ∧ ∀ c ∈ sl, c = '/'
  | [] => ⟨[], [], rfl, by simp, by simp⟩
  | c :: s => by
    by_cases hc : c = '/'
    · obtain ⟨sl, d, e, h1, h2⟩ := slashes_first s
      exact ⟨c :: sl, d, by simp [e], h1, by simpa [hc] using h2⟩
    · exact ⟨[], c :: s, rfl, by simpa using hc, by simp⟩

/-- A path that is not from the root has a directory and a name. -/
theorem relative_cases {x : Str} (hx : RelativeName x) : '/' ∉ x ∨ ∃ dir slashes base, x = dir ++ slashes ++ base ∧ dir ≠ [] ∧
    dir.getLast? ≠ some '/' ∧ slashes ≠ [] ∧ (∀ c ∈ slashes, c = '/') ∧ '/' ∉ base := by
  by_cases h : '/' ∈ x
  · right
    obtain ⟨hd, base, e, hb⟩ : ∃ hd base, x = hd ++ '/' :: base ∧ '/' ∉ base := by
      have hr : '/' ∈ x.reverse := by simpa using h
      obtain ⟨a, b, e, ha⟩ := List.eq_append_cons_of_mem hr
      refine ⟨b.reverse, a.reverse, ?_, by simpa using ha⟩
      have := congrArg List.reverse e
      simpa using this
    obtain ⟨dir, sl, e2, hdir, hsl⟩ : ∃ dir sl, hd = dir ++ sl ∧ dir.getLast? ≠ some '/' ∧ ∀ c ∈ sl, c = '/' := by
      obtain ⟨sl, d, e, h1, h2⟩ := slashes_first hd.reverse
      refine ⟨d.reverse, sl.reverse, ?_, by simpa using h1, by simpa using h2⟩
      have := congrArg List.reverse e
      simpa using this
    subst e2
    refine ⟨dir, sl ++ ['/'], base, by simp [e], ?_, hdir, by simp, ?_, hb⟩
    · rintro rfl
      subst e
      cases sl with
      | nil => simp [RelativeName] at hx
      | cons c sl => simp [RelativeName] at hx; exact hx (hsl c (by simp))
    · intro c hc
      rcases List.mem_append.1 hc with hc | hc
      · exact hsl c hc
      · simpa using hc
  · exact .inl h

theorem prefix_last {pre : Str} (h : DirPrefix pre) (x name : Str) (hx : '/' ∉ x) (hn : RelativeName name) :
    pathJoin (dirname (pre ++ x)) name = pre ++ name := by
  refine (pathFrom_eq ?_).symm
  cases h with
  | here => exact .here (by simpa using hx)
  | root h0 hs => exact .root _ x hn rfl h0 hs hx
  | @dir d h0 hl =>
    have : PathFrom (d ++ ['/'] ++ x) name (d ++ '/' :: name) :=
      .beside d ['/'] x hn rfl h0 hl (by simp) (by simp) hx
    simpa using this

/-- The path of an included file, within the directory. -/
theorem path_within {x name : Str} (hx : RelativeName x) (hn : RelativeName name) : ∃ y, RelativeName y ∧
    ∀ pre, DirPrefix pre → pathJoin (dirname (pre ++ x)) name = pre ++ y := by
  rcases relative_cases hx with h | ⟨dir, slashes, base, e, h0, hl, hs0, hs, hb⟩
  · exact ⟨name, hn, fun pre hp => prefix_last hp x name h hn⟩
  · refine ⟨dir ++ '/' :: name, ?_, fun pre _ => ?_⟩
    · subst e
      cases dir with
      | nil => exact absurd rfl h0
      | cons c d => simpa [RelativeName] using hx
    · subst e
      have hl' : (pre ++ dir).getLast? ≠ some '/' := by
        rw [List.getLast?_append]
        cases h : dir.getLast? with
        | none => simp at h; exact absurd h h0
        | some c => rw [h] at hl; simpa using hl
      have : PathFrom (pre ++ (dir ++ slashes ++ base)) name (pre ++ dir ++ '/' :: name) :=
        .beside (pre ++ dir) slashes base hn (by simp) (by simp [h0]) hl' hs0 hs hb
      rw [← pathFrom_eq this]
      simp

/-! ## Tags -/

/-- A name within the directory, or any other one. -/
def tagged (pre f : Str) : Str :=
  if pre.isPrefixOf f && (f.drop pre.length).head? != some '/' then '-' :: f.drop pre.length else '+' :: f

def tagW (pre : Str) (w : Where) : Where := ⟨tagged pre w.filename, w.lineno, w.line⟩

theorem within_iff (pre f : Str) : (pre.isPrefixOf f && (f.drop pre.length).head? != some '/') = true ↔
    ∃ x, f = pre ++ x ∧ RelativeName x := by
  simp only [Bool.and_eq_true, List.isPrefixOf_iff_prefix, bne_iff_ne, ne_eq]
  constructor
  · rintro ⟨⟨x, rfl⟩, h⟩
    exact ⟨x, rfl, by simpa [RelativeName] using h⟩
  · rintro ⟨x, rfl, h⟩
    exact ⟨⟨x, rfl⟩, by simpa [RelativeName] using h⟩

theorem tagged_within {pre x : Str} (hx : RelativeName x) : tagged pre (pre ++ x) = '-' :: x := by
  unfold tagged
  rw [if_pos ((within_iff _ _).2 ⟨x, rfl, hx⟩)]
  simp

theorem tagged_cases (pre f : Str) : (∃ x, f = pre ++ x ∧ RelativeName x ∧ tagged pre f = '-' :: x) ∨ tagged pre f = '+' :: f ∧
    ∀ pre', relocated pre pre' f = f := by
  by_cases h : (pre.isPrefixOf f && (f.drop pre.length).head? != some '/') = true
  · left
    obtain ⟨x, rfl, hx⟩ := (within_iff _ _).1 h
    exact ⟨x, rfl, hx, tagged_within hx⟩
  · right
    refine ⟨?_, fun pre' => ?_⟩
    · unfold tagged; rw [if_neg h]
    · unfold relocated; rw [if_neg h]

theorem tagP (pre : Str) : Places (tagW pre) (tagged pre) := by
  refine ⟨fun _ => rfl, fun a b h => ?_⟩
  rcases tagged_cases pre a with ⟨x, rfl, _, e⟩ | ⟨e, _⟩ <;> rcases tagged_cases pre b with ⟨y, rfl, _, e'⟩ | ⟨e', _⟩ <;>
    rw [e, e'] at h <;> simp at h
  · rw [h]
  · exact h

theorem relocated_of_tags {pre pre' f f' : Str} (h : tagged pre' f' = tagged pre f) : f' = relocated pre pre' f := by
  rcases tagged_cases pre f with ⟨x, rfl, hx, e⟩ | ⟨e, e2⟩ <;> rcases tagged_cases pre' f' with ⟨y, rfl, _, e'⟩ | ⟨e', _⟩ <;>
    rw [e, e'] at h <;> simp at h
  · subst h
    unfold relocated
    rw [if_pos ((within_iff _ _).2 ⟨_, rfl, hx⟩)]
    simp
  · rw [e2]; exact h

/-! ## Included names -/

theorem fileStage_ok {st : List FInfo} {w : Where} {ff : List FInfo} {data c : Str} (h : (fileStage st w).2 = .ok (ff, data, c)) :
    ∃ text, (encodingStage w).2 = .ok text ∧ (commentStage w (ffStage [] w text).2.2).2 = (data, c) := by
  unfold fileStage at h
  cases he : (encodingStage w).2 with
  | error e => simp [he] at h
  | ok text =>
    refine ⟨text, rfl, ?_⟩
    simp only [he] at h
    simp only [Except.ok.injEq, Prod.mk.injEq] at h
    exact h.2

/-- A directive without NUL in the name of its file. -/
theorem includesName_of {st : List FInfo} {w : Where} {ff : List FInfo} {data c path name : Str} {must : Bool}
    (h1 : (fileStage st w).2 = .ok (ff, data, c)) (h2 : (parserStage w data c).2 = .pp (.open_ path must name)) (h0 : '\x00' ∉ name) :
    IncludesName w.line name := by
  have e1 : (fileStage [] (⟨[], 1, w.line⟩ : Where)).2.map (fun p => p.2) = .ok (data, c) := by
    obtain ⟨text, a, b⟩ := fileStage_ok h1
    have a' : (encodingStage (⟨[], 1, w.line⟩ : Where)).2 = .ok text := by
      rw [encoding_re (φ := fun u => ⟨[], 1, u.line⟩) (fun _ => rfl) w]; exact a
    unfold fileStage
    simp only [a']
    have b' := commentStage_at w (⟨[], 1, w.line⟩ : Where) (ffStage [] w text).2.2
    have b2 : (commentStage (⟨[], 1, w.line⟩ : Where) (ffStage [] w text).2.2).2 = (data, c) := by rw [b']; exact b
    simp only [Except.map]
    exact congrArg Except.ok b2
  generalize hw : (⟨[], 1, w.line⟩ : Where) = v at e1
  have hl : v.line = w.line := by rw [← hw]
  have hn : v.filename = [] := by rw [← hw]
  have e2 := congrArg Prod.snd (parserStage_to w v data c)
  dsimp only at e2
  rw [h2, outAt, hn, pathJoin_nil] at e2
  cases e3 : (fileStage [] v).2 with
  | error e => rw [e3] at e1; cases e1
  | ok p =>
    rw [e3] at e1
    obtain ⟨ff0, p⟩ := p
    simp only [Except.map, Except.ok.injEq] at e1
    subst e1
    obtain ⟨text, a, b⟩ := fileStage_ok e3
    have hm : ∃ ms, lineModel (fun _ => none) v = some (ms, .file name) := by
      unfold lineModel
      rw [a]
      dsimp only
      rw [b]
      unfold readModel
      dsimp only
      rw [e2]
      dsimp only
      rw [if_neg h0]
      exact ⟨_, rfl⟩
    obtain ⟨ms, hm⟩ := hm
    have ht := lineTells_exists hm
    dsimp only at ht
    generalize hg : Gives.file name = g at ht
    cases ht with
    | mk d1 d2 d3 _ _ _ _ hr =>
      subst hg
      cases hr with
      | «include» i1 i2 i3 i4 i5 i6 i7 i8 =>
        have := pathFrom_eq i7
        rw [hn, pathJoin_nil] at this
        subst this
        exact ⟨_, _, _, _, _, _, _, _, _, _, hl ▸ d1, d2, d3, i1, i2, i3, i4, i5, i6⟩

/-! ## Everything read -/

section
variable {fs fs' : FS} {pre pre' : Str}

/-- A line whose directive, if it is one, does not include by a path from the root. -/
def Portable (l : Bytes) : Prop := ∀ name, IncludesName l name → RelativeName name

/-- Corresponding files being read. -/
inductive FrMoved (pre pre' : Str) : Frame → Frame → Prop
  | mk {x : Str} {idx : Nat} {rest : List Bytes} : RelativeName x → (∀ l ∈ rest, Portable l) →
      FrMoved pre pre' ⟨pre ++ x, idx, rest⟩ ⟨pre' ++ x, idx, rest⟩

/-- Corresponding lines. -/
inductive WMoved (pre pre' : Str) : Where → Where → Prop
  | mk {x : Str} {i : Int} {l : Bytes} : RelativeName x → Portable l → WMoved pre pre' ⟨pre ++ x, i, l⟩ ⟨pre' ++ x, i, l⟩

theorem WMoved.tag {w w' : Where} (h : WMoved pre pre' w w') : tagW pre' w' = tagW pre w := by
  cases h with
  | mk hx _ => simp only [tagW, tagged_within hx]

theorem nextLine_moved {a b : List Frame} (h : Zips (FrMoved pre pre') a b) :
    (nextLine a = none ∧ nextLine b = none) ∨ ∃ w w' fr fr', nextLine a = some (w, fr) ∧ nextLine b = some (w', fr') ∧
      WMoved pre pre' w w' ∧ Zips (FrMoved pre pre') fr fr' := by
  induction h with
  | nil => exact .inl ⟨rfl, rfl⟩
  | cons hf hs ih =>
    cases hf with
    | @mk x idx rest hx hp =>
      cases rest with
      | nil => exact ih
      | cons l ls =>
        exact .inr ⟨_, _, _, _, rfl, rfl, .mk hx (hp l (by simp)), .cons (.mk hx fun m hm => hp m (by simp [hm])) hs⟩

/-- The same is issued, apart from the places, and the outcomes correspond. -/
structure MovedRes {α β : Type} (pre pre' : Str) (R : α → β → Prop) (x : Res α) (y : Res β) : Prop where
  log : y.log.map (reM (tagW pre')) = x.log.map (reM (tagW pre))
  val : (∃ e, x.val = .error e ∧ y.val = .error e) ∨ ∃ a b, x.val = .ok a ∧ y.val = .ok b ∧ R a b

namespace MovedRes
variable {α β α' β' : Type} {R : α → β → Prop} {R' : α' → β' → Prop}

theorem pure {a : α} {b : β} (h : R a b) : MovedRes pre pre' R (.pure a) (.pure b) := ⟨rfl, .inr ⟨a, b, rfl, rfl, h⟩⟩
theorem raise (e : Exc) : MovedRes pre pre' R (.raise e) (.raise e) := ⟨rfl, .inl ⟨e, rfl, rfl⟩⟩

theorem bind {x : Res α} {y : Res β} {f : α → Res α'} {k : β → Res β'} (h : MovedRes pre pre' R x y)
    (hf : ∀ a b, R a b → MovedRes pre pre' R' (f a) (k b)) : MovedRes pre pre' R' (.bind x f) (.bind y k) := by
  obtain ⟨h1, h2⟩ := h
  rcases h2 with ⟨e, e1, e2⟩ | ⟨a, b, e1, e2, hr⟩
  · unfold Res.bind
    rw [e1, e2]
    exact ⟨h1, .inl ⟨e, rfl, rfl⟩⟩
  · obtain ⟨h3, h4⟩ := hf a b hr
    unfold Res.bind
    rw [e1, e2]
    exact ⟨by simp only [List.map_append, h1, h3], h4⟩

theorem emitAll {a b : List Msg} (ha : All a (Fine Anywhere)) (hb : All b (Fine Anywhere))
    (h : b.map (reM (tagW pre')) = a.map (reM (tagW pre))) : MovedRes pre pre' (fun _ _ => True) (.emitAll a) (.emitAll b) := by
  rw [emitAll_eq ha, emitAll_eq hb]
  exact ⟨h, .inr ⟨(), (), rfl, rfl, trivial⟩⟩

theorem of_bares {g g' : α → α} {x y z : Res α} (hx : Bares (tagW pre) g x z) (hy : Bares (tagW pre') g' y z) :
    MovedRes pre pre' (fun a b => g' b = g a) x y := by
  have h := hx.symm.trans hy
  simp only [Res.mk.injEq] at h
  refine ⟨h.1.symm, ?_⟩
  have h2 := h.2
  cases ex : x.val with
  | error e =>
    rw [ex] at h2
    cases ey : y.val with
    | error e' => rw [ey] at h2; cases h2; exact .inl ⟨_, rfl, rfl⟩
    | ok b => rw [ey] at h2; cases h2
  | ok a =>
    rw [ex] at h2
    cases ey : y.val with
    | error e' => rw [ey] at h2; cases h2
    | ok b =>
      rw [ey] at h2
      simp only [Except.map, Except.ok.injEq] at h2
      exact .inr ⟨_, _, rfl, rfl, h2.symm⟩

end MovedRes

abbrev FfMoved (pre pre' : Str) (a b : List FInfo) : Prop :=
  b.map (reFi (tagW pre') (tagged pre')) = a.map (reFi (tagW pre) (tagged pre))

theorem fileStage_moved {a b : List FInfo} (h : FfMoved pre pre' a b) {w w' : Where} (hw : WMoved pre pre' w w') :
    (fileStage b w').1.map (reM (tagW pre')) = (fileStage a w).1.map (reM (tagW pre)) ∧
    ((∃ e, (fileStage a w).2 = .error e ∧ (fileStage b w').2 = .error e) ∨
      ∃ ff ff' data c, (fileStage a w).2 = .ok (ff, data, c) ∧ (fileStage b w').2 = .ok (ff', data, c) ∧ FfMoved pre pre' ff ff') := by
  have h1 := fileStage_re (tagP pre) (fun _ => rfl) a w
  have h2 := fileStage_re (tagP pre') (fun _ => rfl) b w'
  rw [hw.tag, h, h1] at h2
  simp only [Prod.mk.injEq] at h2
  refine ⟨h2.1.symm, ?_⟩
  have h3 := h2.2
  cases ex : (fileStage a w).2 with
  | error e =>
    rw [ex] at h3
    cases ey : (fileStage b w').2 with
    | error e' => rw [ey] at h3; cases h3; exact .inl ⟨_, rfl, rfl⟩
    | ok q => rw [ey] at h3; cases h3
  | ok p =>
    rw [ex] at h3
    cases ey : (fileStage b w').2 with
    | error e' => rw [ey] at h3; cases h3
    | ok q =>
      rw [ey] at h3
      obtain ⟨ff, data, c⟩ := p
      obtain ⟨ff', data', c'⟩ := q
      simp only [Except.map, Except.ok.injEq, Prod.mk.injEq] at h3
      obtain ⟨e1, rfl, rfl⟩ := h3
      exact .inr ⟨_, _, _, _, rfl, rfl, e1.symm⟩

theorem openFrame_moved (h : MovedTo fs fs' pre pre') {x : Str} (hx : RelativeName x) {content : Bytes} (hc : fs (pre ++ x) = some content) :
    FrMoved pre pre' (openFrame (pre ++ x) content) (openFrame (pre' ++ x) content) :=
  .mk hx fun l hl name => h.portable x content l name hx hc hl

theorem nul_any (s : Str) : (s.any fun c => decide (c.toNat = 0)) = true ↔ '\x00' ∈ s := by
  rw [List.any_eq_true]
  constructor
  · rintro ⟨c, hc, h⟩
    have : c = '\x00' := Char.toNat_inj.1 (by simpa using h)
    exact this ▸ hc
  · intro h
    exact ⟨_, h, by decide⟩

theorem runPP_moved (h : MovedTo fs fs' pre pre') {w w' : Where} (hw : WMoved pre pre' w w') {a b : List Frame}
    (hz : Zips (FrMoved pre pre') a b) (must : Bool) (name : Str) (hn : '\x00' ∉ name → IncludesName w.line name) :
    (runPP fs' w' b (.open_ (pathJoin (dirname w'.filename) name) must name)).1.map (reM (tagW pre')) =
      (runPP fs w a (.open_ (pathJoin (dirname w.filename) name) must name)).1.map (reM (tagW pre)) ∧
    ((∃ e, (runPP fs w a (.open_ (pathJoin (dirname w.filename) name) must name)).2 = .error e ∧
        (runPP fs' w' b (.open_ (pathJoin (dirname w'.filename) name) must name)).2 = .error e) ∨
      ∃ fr fr', (runPP fs w a (.open_ (pathJoin (dirname w.filename) name) must name)).2 = .ok fr ∧
        (runPP fs' w' b (.open_ (pathJoin (dirname w'.filename) name) must name)).2 = .ok fr' ∧ Zips (FrMoved pre pre') fr fr') := by
  have ht := hw.tag
  by_cases h0 : '\x00' ∈ name
  · have key : ∀ q, ((pathJoin q name).any fun c => decide (c.toNat = 0)) = true := by
      intro q
      rw [nul_any]
      unfold pathJoin
      split
      · exact h0
      · split <;> simp [h0]
    simp only [runPP, key, if_true]
    exact ⟨rfl, .inl ⟨_, rfl, rfl⟩⟩
  · have hnm := hn h0
    cases hw with
    | @mk x i l hx hp =>
      obtain ⟨y, hy, hj⟩ := path_within hx (hp name hnm)
      rw [hj pre h.old, hj pre' h.new]
      have hnul : ((pre' ++ y).any fun c => decide (c.toNat = 0)) = (pre ++ y).any fun c => decide (c.toNat = 0) := by
        rw [Bool.eq_iff_iff, nul_any, nul_any]
        simp [h.oldClean, h.newClean]
      unfold runPP
      dsimp only
      rw [hnul, h.files y hy]
      split
      · exact ⟨rfl, .inl ⟨_, rfl, rfl⟩⟩
      · cases e : fs (pre ++ y) with
        | none =>
          refine ⟨?_, .inr ⟨_, _, rfl, rfl, hz⟩⟩
          dsimp only
          split
          · simp only [List.map_cons, List.map_nil, reM, ht]; rfl
          · rfl
        | some c => exact ⟨rfl, .inr ⟨_, _, rfl, rfl, .cons (openFrame_moved h hy e) hz⟩⟩

theorem atPlace {w w' : Where} (ht : tagW pre' w' = tagW pre w) (data c : Str) :
    (parserStage w' data c).1.map (reM (tagW pre')) = (parserStage w data c).1.map (reM (tagW pre)) := by
  have h1 := congrArg Prod.fst (parserStage_to w w' data c)
  have h2 := congrArg Prod.fst (parserStage_to w w data c)
  dsimp only at h1 h2
  rw [h1]
  conv => rhs; rw [h2]
  simp only [List.map_map]
  congr 1
  funext m
  simp only [Function.comp, reM, ht, Option.map_map]
  congr 1
  cases m.previous <;> simp [ht]

theorem reE_place {w w' : Where} (ht : tagW pre' w' = tagW pre w) (e : Elem) :
    reE (tagW pre') (reE (fun _ => w') e) = reE (tagW pre) (reE (fun _ => w) e) := by
  cases e <;> simp [reE, reC, reV, ht]

theorem lineStep_moved (h : MovedTo fs fs' pre pre') {ff ff' : List FInfo} (hff : FfMoved pre pre' ff ff') {a b : List Frame}
    (hfr : Zips (FrMoved pre pre') a b) {w w' : Where} (hw : WMoved pre pre' w w') :
    (lineStep fs' ff' b w').1.map (reM (tagW pre')) = (lineStep fs ff a w).1.map (reM (tagW pre)) ∧
    ((∃ e, (lineStep fs ff a w).2 = .error e ∧ (lineStep fs' ff' b w').2 = .error e) ∨
      ∃ r r' oe oe', (lineStep fs ff a w).2 = .ok (r, oe) ∧ (lineStep fs' ff' b w').2 = .ok (r', oe') ∧
        Zips (FrMoved pre pre') r.frames r'.frames ∧ FfMoved pre pre' r.ff r'.ff ∧
        oe'.map (reE (tagW pre')) = oe.map (reE (tagW pre))) := by
  obtain ⟨h1, h2⟩ := fileStage_moved hff hw
  unfold lineStep
  dsimp only
  rcases h2 with ⟨e, e1, e2⟩ | ⟨g, g', data, c, e1, e2, hg⟩
  · rw [e1, e2]
    exact ⟨h1, .inl ⟨e, rfl, rfl⟩⟩
  · rw [e1, e2]
    dsimp only
    have h3 := atPlace hw.tag data c
    have h4 := congrArg Prod.snd (parserStage_to w w' data c)
    have h5 := congrArg Prod.snd (parserStage_to w w data c)
    dsimp only at h4 h5
    cases e3 : (parserStage w data c).2 with
    | elem e =>
      rw [e3, outAt] at h4 h5
      rw [h4]
      dsimp only
      simp only [List.map_append, h1, h3, true_and]
      refine .inr ⟨_, _, _, _, rfl, rfl, hfr, hg, ?_⟩
      simp only [LineOut.elem.injEq] at h5
      conv => rhs; rw [h5]
      simp only [Option.map_some, reE_place hw.tag]
    | pp p =>
      cases p with
      | nothing =>
        rw [e3, outAt] at h4
        rw [h4]
        simp only [runPP, List.map_append, h1, h3]
        exact ⟨rfl, .inr ⟨_, _, _, _, rfl, rfl, hfr, hg, rfl⟩⟩
      | open_ path must name =>
        rw [e3, outAt] at h4 h5
        simp only [LineOut.pp.injEq, PP.open_.injEq, and_true] at h5
        have hn := includesName_of e1 e3
        subst h5
        obtain ⟨h5, h6⟩ := runPP_moved h hw hfr must name hn
        rw [h4]
        dsimp only
        rcases h6 with ⟨e, e5, e6⟩ | ⟨fr, fr', e5, e6, hz⟩
        · rw [e5, e6]
          simp only [List.map_append, h1, h3, h5, true_and]
          exact .inl ⟨e, rfl, rfl⟩
        · rw [e5, e6]
          simp only [List.map_append, h1, h3, h5, true_and]
          exact .inr ⟨_, _, _, _, rfl, rfl, hz, hg, rfl⟩

/-! ## The pipeline -/

/-- Corresponding states. -/
structure PsMoved (pre pre' : Str) (s s' : PState DState) : Prop where
  frames : Zips (FrMoved pre pre') s.frames s'.frames
  ff : FfMoved pre pre' s.ff s'.ff
  vsw : s'.vsw.map (reVsw (tagW pre') (tagged pre')) = s.vsw.map (reVsw (tagW pre) (tagged pre))
  agg : reSt (tagW pre') s'.agg = reSt (tagW pre) s.agg

theorem feed_moved (env : DEnv) {s s' : DState} (hs : reSt (tagW pre') s' = reSt (tagW pre) s)
    {es es' : List Elem} (he : es'.map (reE (tagW pre')) = es.map (reE (tagW pre))) :
    MovedRes pre pre' (fun a b => reSt (tagW pre') b = reSt (tagW pre) a) (feed (dialplanStep env) s es) (feed (dialplanStep env) s' es') := by
  have h1 := feed_bare (φ := tagW pre) (dialplanStep_bare env) es s
  have h2 := feed_bare (φ := tagW pre') (dialplanStep_bare env) es' s'
  rw [hs, he] at h2
  exact .of_bares h1 h2

theorem pipeStep_moved (h : MovedTo fs fs' pre pre') (env : DEnv) {s s' : PState DState} (hs : PsMoved pre pre' s s') :
    (pipeStep fs (dialplanStep env) s = none ∧ pipeStep fs' (dialplanStep env) s' = none) ∨
    ∃ x y, pipeStep fs (dialplanStep env) s = some x ∧ pipeStep fs' (dialplanStep env) s' = some y ∧
      MovedRes pre pre' (PsMoved pre pre') x y := by
  unfold pipeStep
  rcases nextLine_moved hs.frames with ⟨e1, e2⟩ | ⟨w, w', fr, fr', e1, e2, hw, hfr⟩
  · rw [e1, e2]; exact .inl ⟨rfl, rfl⟩
  · rw [e1, e2]
    refine .inr ⟨_, _, rfl, rfl, ?_⟩
    obtain ⟨h1, h2⟩ := lineStep_moved h hs.ff hfr hw
    have f1 := (fine_lineStep (S := Anywhere) (ff := s.ff) (fun _ _ => trivial) (w := w) trivial fs fr).1
    have f2 := (fine_lineStep (S := Anywhere) (ff := s'.ff) (fun _ _ => trivial) (w := w') trivial fs' fr').1
    dsimp only
    refine .bind (.emitAll f1 f2 h1) fun _ _ _ => ?_
    rcases h2 with ⟨e, e3, e4⟩ | ⟨r, r', oe, oe', e3, e4, hz, hff, ho⟩
    · rw [e3, e4]; exact .raise e
    · rw [e3, e4]
      cases oe with
      | none =>
        cases oe' with
        | some e' => cases ho
        | none => exact .pure ⟨hz, hff, hs.vsw, hs.agg⟩
      | some e =>
        cases oe' with
        | none => cases ho
        | some e' =>
          simp only [Option.map_some, Option.some.injEq] at ho
          have v1 := vswStep_bare (tagP pre) s.vsw e
          have v2 := vswStep_bare (tagP pre') s'.vsw e'
          rw [ho, hs.vsw, v1] at v2
          simp only [Prod.mk.injEq] at v2
          obtain ⟨v3, v4, v5⟩ := v2
          have g1 := (fine_vswStep (S := Anywhere) (st := s.vsw) (fun _ _ _ _ => trivial) (e := e) trivial).1
          have g2 := (fine_vswStep (S := Anywhere) (st := s'.vsw) (fun _ _ _ _ => trivial) (e := e') trivial).1
          dsimp only
          refine .bind (.emitAll g1 g2 v5.symm) fun _ _ _ => ?_
          exact .bind (feed_moved env hs.agg v4.symm) fun a b hab => .pure ⟨hz, hff, v3.symm, hab⟩

theorem pipeEnd_moved (env : DEnv) {s s' : PState DState} (h : PsMoved pre pre' s s') :
    MovedRes pre pre' (fun a b => reSt (tagW pre') b = reSt (tagW pre) a) (pipeEnd (dialplanStep env) s) (pipeEnd (dialplanStep env) s') := by
  unfold pipeEnd
  have f1 := fine_ffEnd (S := Anywhere) (st := s.ff) (fun _ _ => trivial)
  have f2 := fine_ffEnd (S := Anywhere) (st := s'.ff) (fun _ _ => trivial)
  have hend : (ffEnd s'.ff).map (reM (tagW pre')) = (ffEnd s.ff).map (reM (tagW pre)) := by
    rw [← ffEnd_re (tagP pre), ← ffEnd_re (tagP pre'), h.ff]
  refine .bind (.emitAll f1 f2 hend) fun _ _ _ => ?_
  have v1 := vswEndFrom_bare (φ := tagW pre) (r := tagged pre) s.vsw true
  have v2 := vswEndFrom_bare (φ := tagW pre') (r := tagged pre') s'.vsw true
  rw [h.vsw, v1] at v2
  simp only [Prod.mk.injEq] at v2
  have g1 := (fine_vswEnd (S := Anywhere) (st := s.vsw) (fun _ _ _ _ => trivial)).1
  have g2 := (fine_vswEnd (S := Anywhere) (st := s'.vsw) (fun _ _ _ _ => trivial)).1
  dsimp only
  refine .bind (.emitAll g1 g2 v2.2.symm) fun _ _ _ => ?_
  exact feed_moved env h.agg v2.1.symm

/-- Corresponding outcomes of reading a file. -/
def EndMoved (pre pre' : Str) (a b : Option DState) : Prop := b.map (reSt (tagW pre')) = a.map (reSt (tagW pre))

theorem pipeRun_moved (h : MovedTo fs fs' pre pre') (env : DEnv) : ∀ (n : Nat) {s s' : PState DState}, PsMoved pre pre' s s' →
    MovedRes pre pre' (EndMoved pre pre') (pipeRun fs (dialplanStep env) n s) (pipeRun fs' (dialplanStep env) n s')
  | 0, s, s', _ => .pure rfl
  | n + 1, s, s', hs => by
    unfold pipeRun
    rcases pipeStep_moved h env hs with ⟨e1, e2⟩ | ⟨x, y, e1, e2, hx⟩
    · rw [e1, e2]
      exact .bind (pipeEnd_moved env hs) fun a b hab => .pure (by simp [EndMoved, hab])
    · rw [e1, e2]
      exact .bind hx fun a b hab => pipeRun_moved h env n hab

theorem check_moved (h : MovedTo fs fs' pre pre') (env : DEnv) (sp : Option Str) (n : Nat) {x : Str} (hx : RelativeName x)
    {content : Bytes} (hc : fs (pre ++ x) = some content) :
    MovedRes pre pre' (EndMoved pre pre') (checkDialplan fs env sp n (pre ++ x) content) (checkDialplan fs' env sp n (pre' ++ x) content) := by
  unfold checkDialplan
  refine .bind (pipeRun_moved h env n
    ⟨.cons (openFrame_moved h hx hc) .nil, rfl, rfl, rfl⟩) fun a b hab => ?_
  cases a with
  | none =>
    cases b with
    | none => exact .pure rfl
    | some b => cases hab
  | some a =>
    cases b with
    | none => cases hab
    | some b =>
      simp only [EndMoved, Option.map_some, Option.some.injEq] at hab
      have hdp : reDp (tagW pre') b.dp = reDp (tagW pre) a.dp := congrArg DState.dp hab
      have hds : b.dp.dests.map (reDest (tagW pre')) = a.dp.dests.map (reDest (tagW pre)) := congrArg Dialplan.dests hdp
      have h1 := onComplete_bare (φ := tagW pre) (fun _ => rfl) a.dp
      have h2 := onComplete_bare (φ := tagW pre') (fun _ => rfl) b.dp
      have h3 := walkDests_bare (φ := tagW pre) a.dp env.depth a.dp.dests
      have h4 := walkDests_bare (φ := tagW pre') b.dp env.depth b.dp.dests
      rw [hdp] at h2
      rw [hdp, hds] at h4
      dsimp only
      refine .bind (.of_bares h1 h2) fun _ _ _ => ?_
      exact .bind (.of_bares h3 h4) fun _ _ _ => .pure (by simp [EndMoved, hab])

end

end ALint.Proofs
