import Verif.Spec.Annotate
import Verif.Proofs.Odbc
import Verif.Proofs.Str

/-!
# Lemmas about func_odbc-annotate
-/

namespace ALint
open Spec

theorem stripsTo_iff (s t : Str) : StripsTo s t ↔ stripP isSpace s = t := by
  constructor
  · rintro ⟨⟨a, b, rfl, ha, hb⟩, he⟩
    unfold stripP
    by_cases ht : t = []
    · subst ht
      have : rstripP isSpace (a ++ [] ++ b) = [] := by
        have := rstripP_append isSpace [] (a ++ b) (by
          intro c hc
          rcases List.mem_append.1 hc with h | h
          · exact ha c h
          · exact hb c h) (by simp)
        simpa using this
      rw [this]; rfl
    · rw [rstripP_append isSpace (a ++ t) b hb]
      · exact lstripP_append isSpace a t ha fun c hc => he c (.inl hc)
      · intro c hc
        refine he c (.inr ?_)
        rw [List.getLast?_append] at hc
        cases h : t.getLast? with
        | none => exact absurd (List.getLast?_eq_none_iff.1 h) ht
        | some d => simpa [h] using hc
  · rintro rfl
    obtain ⟨post, h1, h2, h3⟩ := rstripP_spec isSpace s
    obtain ⟨pre, g1, g2, g3⟩ := lstripP_spec isSpace (rstripP isSpace s)
    unfold stripP
    refine ⟨⟨pre, post, ?_, g2, h2⟩, ?_⟩
    · rw [← g1, ← h1]
    · rintro c (hc | hc)
      · exact g3 c hc
      · refine h3 c ?_
        rw [g1, List.getLast?_append, hc]
        rfl

theorem orText_none (o : Option Str) : orText o none = filled o := by
  cases o with
  | none => rfl
  | some s => cases s <;> rfl

theorem columnNames_ok : ∀ (items : List SqlItem) (cs : List Str), columnNames items = .ok cs ↔
    (∀ i ∈ items, i.hasAlias = true) ∧ cs = items.map fun i => columnName i.alias_ i.text
  | [], cs => by
    rw [columnNames]
    constructor
    · intro h; cases h; exact ⟨by simp, rfl⟩
    · rintro ⟨_, rfl⟩; rfl
  | t :: ts, cs => by
    have ih := columnNames_ok ts
    rw [columnNames]
    by_cases ht : t.hasAlias = true
    · rw [if_pos ht, orText_none]
      cases hr : columnNames ts with
      | error e =>
        have : ¬ ∀ i ∈ ts, i.hasAlias = true := fun h => by
          have := (ih _).2 ⟨h, rfl⟩
          rw [hr] at this; cases this
        constructor
        · intro h; cases h
        · rintro ⟨h, _⟩; exact absurd (fun i hi => h i (by simp [hi])) this
      | ok ds =>
        obtain ⟨h1, h2⟩ := (ih ds).1 hr
        subst h2
        constructor
        · intro h
          refine ⟨by simp only [List.mem_cons, forall_eq_or_imp]; exact ⟨ht, h1⟩, ?_⟩
          simp only [Except.map, Except.ok.injEq] at h
          rw [← h]; rfl
        · rintro ⟨_, rfl⟩; rfl
    · rw [if_neg ht]
      constructor
      · intro h; cases h
      · rintro ⟨h, _⟩; exact absurd (h t (by simp)) ht

theorem columnNames_error : ∀ (items : List SqlItem) (e : Exc), columnNames items = .error e ↔
    e = .attributeError ∧ ∃ i ∈ items, i.hasAlias = false
  | [], e => by simp [columnNames]
  | t :: ts, e => by
    have ih := columnNames_error ts
    rw [columnNames]
    by_cases ht : t.hasAlias = true
    · rw [if_pos ht]
      have h2 : (columnNames ts).map (((orText t.alias_ none).getD t.text) :: ·) = .error e ↔ columnNames ts = .error e := by
        cases columnNames ts <;> simp [Except.map]
      rw [h2, ih]
      simp [ht]
    · rw [if_neg ht]
      constructor
      · intro h
        cases h
        exact ⟨rfl, t, by simp, by simpa using ht⟩
      · rintro ⟨rfl, _⟩; rfl

/-- The columns of the token after `SELECT`. -/
def kindItems : SqlKind → Except Exc (List SqlItem)
  | .one a t => .ok [⟨true, a, t⟩]
  | .many items => .ok items
  | .other => .error .typeError

/-- All cases of a statement. -/
theorem tokens_cases (tokens : List SqlToken) :
    (tokens = []) ∨ (∃ t ts, tokens = t :: ts ∧ t.isSelect = false) ∨
    ((tokens.head?.any (·.isSelect)) = true ∧
      (((tokens.length < 3 ∨ ∃ t, tokens[1]? = some t ∧ t.isSpace = false) ∧ identifiersOf tokens = .error .assertionError) ∨
       ((∃ t, tokens[1]? = some t ∧ t.isSpace = true) ∧ (tokens.length = 4 ∨ ∃ t, tokens[4]? = some t ∧ t.isFrom = false) ∧
          identifiersOf tokens = .error .notImplementedError) ∨
       (∃ what, Selects tokens what ∧ identifiersOf tokens = kindItems what.kind))) := by
  match tokens with
  | [] => exact .inl rfl
  | t :: ts =>
    cases hs : t.isSelect with
    | false => exact .inr (.inl ⟨t, ts, rfl, hs⟩)
    | true =>
      refine .inr (.inr ⟨by simp [hs], ?_⟩)
      match ts with
      | [] => exact .inl ⟨.inl (by simp), rfl⟩
      | [_] => exact .inl ⟨.inl (by simp), rfl⟩
      | sp :: w :: rest =>
        cases hp : sp.isSpace with
        | false => exact .inl ⟨.inr ⟨sp, rfl, hp⟩, by simp [identifiersOf, hp]⟩
        | true =>
          right
          match rest with
          | [] => exact .inr ⟨w, ⟨t, sp, [], rfl, hs, hp, .inl rfl⟩, by
              cases hk : w.kind <;> simp [identifiersOf, hp, kindItems, hk]⟩
          | [x] => exact .inl ⟨⟨sp, rfl, hp⟩, .inl rfl, by simp [identifiersOf, hp]⟩
          | x :: f :: more =>
            cases hf : f.isFrom with
            | false => exact .inl ⟨⟨sp, rfl, hp⟩, .inr ⟨f, rfl, hf⟩, by simp [identifiersOf, hp, hf]⟩
            | true => exact .inr ⟨w, ⟨t, sp, _, rfl, hs, hp, .inr ⟨x, f, more, rfl, hf⟩⟩, by
                cases hk : w.kind <;> simp [identifiersOf, hp, hf, kindItems, hk]⟩

theorem selects_identifiers {tokens : List SqlToken} {what : SqlToken} (h : Selects tokens what) :
    (∃ t ts, tokens = t :: ts ∧ t.isSelect = true) ∧ identifiersOf tokens = kindItems what.kind := by
  obtain ⟨sel, space, rest, rfl, h1, h2, h3⟩ := h
  refine ⟨⟨sel, _, rfl, h1⟩, ?_⟩
  rcases h3 with rfl | ⟨x, f, more, rfl, hf⟩
  · cases hk : what.kind <;> simp [identifiersOf, h2, kindItems, hk]
  · cases hk : what.kind <;> simp [identifiersOf, h2, hf, kindItems, hk]

theorem selectColumns_select {sql : SqlParse} {query : Str} {tokens : List SqlToken}
    (hp : sql.parse query = [tokens]) (hs : (tokens.head?.any (·.isSelect)) = true) :
    selectColumns sql query = match identifiersOf tokens with
      | .error e => .error e
      | .ok items => (columnNames items).map some := by
  unfold selectColumns
  rw [hp]
  cases tokens with
  | nil => simp at hs
  | cons t ts =>
    have : t.isSelect = true := by simpa using hs
    simp only [this, if_true]
    rfl

theorem selectColumns_plain {sql : SqlParse} {query : Str} {t : SqlToken} {ts : List SqlToken}
    (hp : sql.parse query = [t :: ts]) (hs : t.isSelect = false) : selectColumns sql query = .ok none := by
  unfold selectColumns
  rw [hp]
  simp [hs]

theorem selects_head {tokens : List SqlToken} {what : SqlToken} (h : Selects tokens what) :
    (tokens.head?.any (·.isSelect)) = true := by
  obtain ⟨sel, space, rest, rfl, h1, _⟩ := h
  simpa using h1

theorem columnsOf_sound {sql : SqlParse} {query : Str} {cs : List Str} (h : ColumnsOf sql query cs) :
    ∃ o, selectColumns sql query = .ok o ∧ o.getD [] = cs := by
  cases h with
  | noSelect t ts h1 h2 => exact ⟨none, selectColumns_plain h1 h2, rfl⟩
  | one tokens what a text h1 h2 h3 =>
    refine ⟨some [columnName a text], ?_, rfl⟩
    rw [selectColumns_select h1 (selects_head h2), (selects_identifiers h2).2, h3]
    simp only [kindItems]
    rw [(columnNames_ok [⟨true, a, text⟩] [columnName a text]).2 ⟨by simp, rfl⟩]
    rfl
  | many tokens what items h1 h2 h3 h4 =>
    refine ⟨some _, ?_, rfl⟩
    rw [selectColumns_select h1 (selects_head h2), (selects_identifiers h2).2, h3]
    simp only [kindItems]
    rw [(columnNames_ok items _).2 ⟨h4, rfl⟩]
    rfl

theorem columnsFail_sound {sql : SqlParse} {query : Str} {e : Exc} (h : ColumnsFail sql query e) :
    selectColumns sql query = .error e := by
  cases h with
  | single h1 =>
    unfold selectColumns
    match hp : sql.parse query with
    | [] => rfl
    | [x] => rw [hp] at h1; simp at h1
    | _ :: _ :: _ => rfl
  | empty h1 => unfold selectColumns; rw [h1]
  | short tokens h1 h2 h3 =>
    rw [selectColumns_select h1 h2]
    have : identifiersOf tokens = .error .assertionError := by
      match tokens, h3 with
      | [], _ => rfl
      | [_], _ => rfl
      | [_, _], _ => rfl
      | a :: b :: w :: rest, h3 =>
        have hb : b.isSpace = false := by
          rcases h3 with h3 | ⟨t, h3, h4⟩
          · simp only [List.length_cons] at h3; omega
          · simp at h3; rw [h3]; exact h4
        simp [identifiersOf, hb]
    rw [this]
  | keyword tokens h1 h2 h3 h4 =>
    rw [selectColumns_select h1 h2]
    have : identifiersOf tokens = .error .notImplementedError := by
      obtain ⟨t, h3, h5⟩ := h3
      match tokens, h3, h4 with
      | [_], h3, _ => simp at h3
      | [_, _], _, h4 => simp at h4
      | [_, _, _], _, h4 => simp at h4
      | [a, b, w, x], h3, _ =>
        simp at h3
        simp [identifiersOf, h3, h5]
      | a :: b :: w :: x :: f :: more, h3, h4 =>
        simp at h3
        have hf : f.isFrom = false := by
          rcases h4 with h4 | ⟨t, h6, h7⟩
          · simp at h4
          · simp at h6; rw [h6]; exact h7
        simp [identifiersOf, h3, h5, hf]
    rw [this]
  | kind tokens what h1 h2 h3 =>
    rw [selectColumns_select h1 (selects_head h2), (selects_identifiers h2).2, h3]
    rfl
  | item tokens what items h1 h2 h3 h4 =>
    rw [selectColumns_select h1 (selects_head h2), (selects_identifiers h2).2, h3]
    simp only [kindItems]
    rw [(columnNames_error items _).2 ⟨rfl, h4⟩]
    rfl

/-- Either the columns are given, or there is a reason why not. -/
theorem columns_total (sql : SqlParse) (query : Str) :
    (∃ cs, ColumnsOf sql query cs) ∨ ∃ e, ColumnsFail sql query e := by
  match hp : sql.parse query with
  | [] => exact .inr ⟨_, .single (by simp [hp])⟩
  | _ :: _ :: _ => exact .inr ⟨_, .single (by simp [hp])⟩
  | [tokens] =>
    rcases tokens_cases tokens with rfl | ⟨t, ts, rfl, h⟩ | ⟨h, ⟨h1, _⟩ | ⟨h1, h2, _⟩ | ⟨what, h1, _⟩⟩
    · exact .inr ⟨_, .empty hp⟩
    · exact .inl ⟨_, .noSelect t ts hp h⟩
    · exact .inr ⟨_, .short tokens hp h h1⟩
    · exact .inr ⟨_, .keyword tokens hp h h1 h2⟩
    · cases hk : what.kind with
      | one a t => exact .inl ⟨_, .one tokens what a t hp h1 hk⟩
      | other => exact .inr ⟨_, .kind tokens what hp h1 hk⟩
      | many items =>
        by_cases hi : ∀ i ∈ items, i.hasAlias = true
        · exact .inl ⟨_, .many tokens what items hp h1 hk hi⟩
        · refine .inr ⟨_, .item tokens what items hp h1 hk ?_⟩
          simpa using hi

theorem columnsOf_iff (sql : SqlParse) (query : Str) (cs : List Str) :
    ColumnsOf sql query cs ↔ ∃ o, selectColumns sql query = .ok o ∧ o.getD [] = cs := by
  refine ⟨columnsOf_sound, fun ⟨o, h1, h2⟩ => ?_⟩
  rcases columns_total sql query with ⟨ds, h⟩ | ⟨e, h⟩
  · obtain ⟨o', h3, h4⟩ := columnsOf_sound h
    rw [h1] at h3
    cases h3
    rw [← h2, h4]
    exact h
  · rw [columnsFail_sound h] at h1; cases h1

theorem columnsFail_iff (sql : SqlParse) (query : Str) (e : Exc) :
    ColumnsFail sql query e ↔ selectColumns sql query = .error e := by
  refine ⟨columnsFail_sound, fun h1 => ?_⟩
  rcases columns_total sql query with ⟨ds, h⟩ | ⟨e', h⟩
  · obtain ⟨o', h3, h4⟩ := columnsOf_sound h
    rw [h1] at h3; cases h3
  · have := columnsFail_sound h
    rw [h1] at this
    cases this
    exact h

/-! ## Printing -/

theorem Shown.then_none {a : Shown} (h : a.2 = none) (b : Shown) : a.then b = (a.1 ++ b.1, b.2) := by
  unfold Shown.then; rw [h]

theorem Shown.then_some {a : Shown} {e : CmdEnd} (h : a.2 = some e) (b : Shown) : a.then b = (a.1, some e) := by
  unfold Shown.then; rw [h]

theorem columnLines_eq (cs : List Str) : ∀ n, columnLines n cs =
    (cs.zipIdx (n + 1)).map fun p => c! "-- " ++ (if p.2 < 10 then c! " " else []) ++ natStr p.2 ++ c! ". " ++ p.1 := by
  induction cs with
  | nil => intro n; rfl
  | cons c cs ih =>
    intro n
    rw [columnLines, ih, List.zipIdx_cons, List.map_cons]
    congr 1
    unfold padTwo
    split <;> simp

theorem suffix_semi (t : Str) : [';'] <:+ t ↔ t.getLast? = some ';' := by
  constructor
  · rintro ⟨a, rfl⟩; simp
  · intro h
    obtain ⟨a, rfl⟩ := List.getLast?_eq_some_iff.1 h
    exact ⟨a, rfl⟩

/-- The statement as printed. -/
def withSemi (t : Str) : Str := if t.getLast? = some ';' then t else t ++ [';']

theorem withSemi_iff (f text : Str) :
    (text = f ∧ [';'] <:+ text ∨ ¬ [';'] <:+ f ∧ text = f ++ [';']) ↔ text = withSemi f := by
  rw [suffix_semi, suffix_semi]
  unfold withSemi
  split
  · rename_i h
    constructor
    · rintro (⟨h1, _⟩ | ⟨h1, _⟩)
      · exact h1
      · exact absurd h h1
    · rintro rfl; exact .inl ⟨rfl, h⟩
  · rename_i h
    constructor
    · rintro (⟨rfl, h1⟩ | ⟨_, h1⟩)
      · exact absurd h1 h
      · exact h1
    · intro h1; exact .inr ⟨h, h1⟩

theorem showQuery_some (sql : SqlParse) (q : Str × Str) :
    showQuery (some sql) q =
      (if q.1 = c! "read" then
        match selectColumns sql q.2 with
        | .error e => ([c! "-- FUNCTION TYPE: " ++ q.1], some (.raised e))
        | .ok (some (c :: cs)) =>
          ([c! "-- FUNCTION TYPE: " ++ q.1, c! "-- COLUMNS:"] ++ columnLines 0 (c :: cs) ++ [withSemi (sql.format q.2)], none)
        | .ok _ => ([c! "-- FUNCTION TYPE: " ++ q.1, withSemi (sql.format q.2)], none)
      else ([c! "-- FUNCTION TYPE: " ++ q.1, withSemi (sql.format q.2)], none)) := by
  unfold showQuery
  by_cases h : q.1 = c! "read"
  · simp only [h, if_true]
    cases hc : selectColumns sql q.2 with
    | error e => rfl
    | ok o =>
      match o with
      | none => rfl
      | some [] => rfl
      | some (c :: cs) => simp [Shown.then, withSemi]
  · simp only [h, if_false]
    rfl

theorem statement_iff (sql : SqlParse) (type query : Str) (lines : List Str) :
    StatementShown sql type query lines ↔ showQuery (some sql) (type, query) = (lines, none) := by
  rw [showQuery_some]
  constructor
  · intro h
    cases h with
    | plain text h1 h2 =>
      rw [(withSemi_iff ..).1 h2]
      by_cases ht : type = c! "read"
      · obtain ⟨o, g1, g2⟩ := (columnsOf_iff ..).1 (h1 ht)
        simp only [ht, if_true, g1]
        match o, g2 with
        | none, _ => rfl
        | some [], _ => rfl
      · simp [ht]
    | columns text c cs h1 h2 h3 =>
      rw [(withSemi_iff ..).1 h3]
      obtain ⟨o, g1, g2⟩ := (columnsOf_iff ..).1 h2
      simp only [h1, if_true, g1]
      match o, g2 with
      | some _, rfl => simp only [columnLines_eq]
  · intro h
    by_cases ht : type = c! "read"
    · simp only [ht, if_true] at h
      match hc : selectColumns sql query with
      | .error e => rw [hc] at h; simp at h
      | .ok none =>
        rw [hc] at h
        simp only [Prod.mk.injEq, and_true] at h
        rw [← h, ← ht]
        exact .plain _ (fun _ => (columnsOf_iff ..).2 ⟨_, hc, rfl⟩) ((withSemi_iff ..).2 rfl)
      | .ok (some []) =>
        rw [hc] at h
        simp only [Prod.mk.injEq, and_true] at h
        rw [← h, ← ht]
        exact .plain _ (fun _ => (columnsOf_iff ..).2 ⟨_, hc, rfl⟩) ((withSemi_iff ..).2 rfl)
      | .ok (some (c :: cs)) =>
        rw [hc] at h
        simp only [Prod.mk.injEq, and_true, columnLines_eq] at h
        rw [← h, ← ht]
        exact .columns _ c cs ht ((columnsOf_iff ..).2 ⟨_, hc, rfl⟩) ((withSemi_iff ..).2 rfl)
    · simp only [ht, if_false, Prod.mk.injEq, and_true] at h
      rw [← h]
      exact .plain _ (fun h => absurd h ht) ((withSemi_iff ..).2 rfl)

theorem statement_stops (sql : Option SqlParse) (type query : Str) (lines : List Str) (e : CmdEnd) :
    showQuery sql (type, query) = (lines, some e) ↔ lines = [c! "-- FUNCTION TYPE: " ++ type] ∧
      (sql = none ∧ e = .stopped .importError ∨
        ∃ p x, sql = some p ∧ type = c! "read" ∧ ColumnsFail p query x ∧ e = .raised x) := by
  cases sql with
  | none =>
    unfold showQuery
    simp [Shown.then, eq_comm]
  | some p =>
    rw [showQuery_some]
    by_cases ht : type = c! "read"
    · simp only [ht, if_true]
      match hc : selectColumns p query with
      | .error x =>
        simp only [columnsFail_iff]
        constructor
        · intro h
          simp only [Prod.mk.injEq, Option.some.injEq] at h
          exact ⟨h.1.symm, .inr ⟨p, x, rfl, trivial, hc, h.2.symm⟩⟩
        · rintro ⟨rfl, ⟨h, _⟩ | ⟨p', x', h1, _, h2, rfl⟩⟩
          · cases h
          · cases h1
            rw [hc] at h2
            cases h2; rfl
      | .ok none =>
        constructor
        · intro h; simp at h
        · rintro ⟨_, ⟨h, _⟩ | ⟨p', x', h1, _, h2, rfl⟩⟩
          · cases h
          · cases h1
            rw [columnsFail_iff, hc] at h2; cases h2
      | .ok (some []) =>
        constructor
        · intro h; simp at h
        · rintro ⟨_, ⟨h, _⟩ | ⟨p', x', h1, _, h2, rfl⟩⟩
          · cases h
          · cases h1
            rw [columnsFail_iff, hc] at h2; cases h2
      | .ok (some (c :: cs)) =>
        constructor
        · intro h; simp at h
        · rintro ⟨_, ⟨h, _⟩ | ⟨p', x', h1, _, h2, rfl⟩⟩
          · cases h
          · cases h1
            rw [columnsFail_iff, hc] at h2; cases h2
    · simp [ht]

/-! ## Sections -/

theorem queryFrom_eq (key : Str) (o : Option Str) : queryFrom key o =
    ((filled o).map fun t => (key, stripP isSpace t)).toList := by
  match o with
  | none => rfl
  | some [] => rfl
  | some (c :: cs) => rfl

theorem filled_orText (x y : Option Str) : filled (orText x y) = (filled x).or (filled y) := by
  match x with
  | none => rfl
  | some [] => rfl
  | some (c :: cs) => rfl

theorem statementOf_one (s : CtxE × List VarE) (k : Str) : statementOf s [k] = filled (settingOf s.2 k) := by
  unfold statementOf
  rw [List.findSome?_cons]
  cases filled (settingOf s.2 k) <;> rfl

theorem statementOf_two (s : CtxE × List VarE) (k l : Str) :
    statementOf s [k, l] = (filled (settingOf s.2 k)).or (filled (settingOf s.2 l)) := by
  unfold statementOf
  rw [List.findSome?_cons]
  cases filled (settingOf s.2 k) with
  | some x => rfl
  | none => exact statementOf_one s l

/-- The statement of a type to show. -/
def typeQueries (s : CtxE × List VarE) (type : Str) (settings : List Str) : List (Str × Str) :=
  ((statementOf s settings).map fun t => (type, stripP isSpace t)).toList

theorem odbcFn_queries (s : CtxE × List VarE) : (odbcFn s).queries =
    typeQueries s (c! "insert") [c! "insertsql"] ++ typeQueries s (c! "read") [c! "readsql", c! "read"] ++
      typeQueries s (c! "write") [c! "writesql", c! "write"] := by
  unfold OdbcFn.queries typeQueries
  rw [odbcFn_get s (by decide), odbcFn_get s (by decide), odbcFn_get s (by decide), odbcFn_get s (by decide),
    odbcFn_get s (by decide), queryFrom_eq, queryFrom_eq, queryFrom_eq, filled_orText, filled_orText,
    statementOf_one, statementOf_two, statementOf_two]

theorem showQueries_append (sql : Option SqlParse) (a b : List (Str × Str)) :
    showQueries sql (a ++ b) = (showQueries sql a).then (showQueries sql b) := by
  induction a with
  | nil => rfl
  | cons q qs ih =>
    rw [List.cons_append, showQueries, showQueries, ih]
    cases h : (showQuery sql q).2 with
    | some e => rw [Shown.then_some h, Shown.then_some h, Shown.then_some rfl]
    | none =>
      rw [Shown.then_none h, Shown.then_none h]
      cases h2 : (showQueries sql qs).2 with
      | some e => rw [Shown.then_some h2, Shown.then_some rfl]
      | none => rw [Shown.then_none h2, Shown.then_none rfl, List.append_assoc]

theorem showQueries_one (sql : Option SqlParse) (q : Str × Str) : showQueries sql [q] = showQuery sql q := by
  rw [showQueries, showQueries]
  cases h : (showQuery sql q).2 with
  | some e => rw [Shown.then_some h, ← h]
  | none => rw [Shown.then_none h, List.append_nil, ← h]

theorem typeShown_iff (sql : Option SqlParse) (s : CtxE × List VarE) (type : Str) (settings : List Str) (lines : List Str) :
    TypeShown sql s type settings lines ↔ showQueries sql (typeQueries s type settings) = (lines, none) := by
  unfold typeQueries
  constructor
  · intro h
    cases h with
    | absent h => rw [h]; rfl
    | present p text query _ h1 h2 h3 h4 =>
      rw [h1, h2]
      simp only [Option.map_some, Option.toList_some, showQueries_one]
      rw [(stripsTo_iff ..).1 h3]
      exact (statement_iff ..).1 h4
  · intro h
    cases hs : statementOf s settings with
    | none =>
      rw [hs] at h
      have : lines = [] := by simpa [showQueries, eq_comm] using h
      rw [this]; exact .absent hs
    | some text =>
      rw [hs] at h
      simp only [Option.map_some, Option.toList_some, showQueries_one] at h
      cases sql with
      | none => simp [showQuery, Shown.then] at h
      | some p => exact .present p text _ lines rfl hs ((stripsTo_iff ..).2 rfl) ((statement_iff ..).2 h)

theorem typeStops_iff (sql : Option SqlParse) (s : CtxE × List VarE) (type : Str) (settings : List Str) (lines : List Str)
    (e : CmdEnd) : showQueries sql (typeQueries s type settings) = (lines, some e) ↔
      lines = [c! "-- FUNCTION TYPE: " ++ type] ∧ TypeStops sql s type settings e := by
  unfold typeQueries
  cases hs : statementOf s settings with
  | none =>
    simp only [Option.map_none, Option.toList_none, showQueries]
    constructor
    · intro h; simp at h
    · rintro ⟨_, h⟩
      cases h with
      | noParser text h => rw [hs] at h; cases h
      | columns p text query e h => rw [hs] at h; cases h
  | some text =>
    simp only [Option.map_some, Option.toList_some, showQueries_one]
    rw [statement_stops]
    refine and_congr_right fun _ => ?_
    constructor
    · rintro (⟨h1, rfl⟩ | ⟨p, x, h1, h2, h3, rfl⟩)
      · exact .noParser text hs h1
      · exact .columns p text _ x hs h1 ((stripsTo_iff ..).2 rfl) h2 h3
    · intro h
      cases h with
      | noParser t h1 h2 => exact .inl ⟨h2, rfl⟩
      | columns p t q x h1 h2 h3 h4 h5 =>
        rw [hs] at h1
        cases h1
        rw [(stripsTo_iff ..).1 h3]
        exact .inr ⟨p, x, h2, h4, h5, rfl⟩

theorem type_total (sql : Option SqlParse) (s : CtxE × List VarE) (type : Str) (settings : List Str) :
    (∃ l, showQueries sql (typeQueries s type settings) = (l, none) ∧ TypeShown sql s type settings l) ∨
    (∃ e, showQueries sql (typeQueries s type settings) = ([c! "-- FUNCTION TYPE: " ++ type], some e) ∧
      TypeStops sql s type settings e) := by
  match h : showQueries sql (typeQueries s type settings) with
  | (l, none) => exact .inl ⟨l, rfl, (typeShown_iff ..).2 h⟩
  | (l, some e) =>
    obtain ⟨h1, h2⟩ := (typeStops_iff ..).1 h
    subst h1
    exact .inr ⟨e, rfl, h2⟩

theorem showFunction_eq (sql : Option SqlParse) (s : CtxE × List VarE) : showFunction sql (odbcFn s) =
    Shown.then ([c! "-- " ++ odbcName s, c! "-- ."], none)
      ((((showQueries sql (typeQueries s (c! "insert") [c! "insertsql"])).then
        (showQueries sql (typeQueries s (c! "read") [c! "readsql", c! "read"]))).then
        (showQueries sql (typeQueries s (c! "write") [c! "writesql", c! "write"]))).then ([[]], none)) := by
  unfold showFunction
  rw [odbcFn_name, odbcFn_queries, showQueries_append, showQueries_append]

theorem sectionShown_sound {sql : Option SqlParse} {s : CtxE × List VarE} {lines : List Str}
    (h : SectionShown sql s lines) : showFunction sql (odbcFn s) = (lines, none) := by
  cases h with
  | mk i r w h1 h2 h3 =>
    rw [showFunction_eq, (typeShown_iff ..).1 h1, (typeShown_iff ..).1 h2, (typeShown_iff ..).1 h3]
    simp [Shown.then]

theorem sectionStops_sound {sql : Option SqlParse} {s : CtxE × List VarE} {lines : List Str} {e : CmdEnd}
    (h : SectionStops sql s lines e) : showFunction sql (odbcFn s) = (lines, some e) := by
  cases h with
  | insert _ h1 =>
    rw [showFunction_eq, (typeStops_iff ..).2 ⟨rfl, h1⟩]
    simp [Shown.then]
  | read i _ h1 h2 =>
    rw [showFunction_eq, (typeShown_iff ..).1 h1, (typeStops_iff ..).2 ⟨rfl, h2⟩]
    simp [Shown.then]
  | write i r _ h1 h2 h3 =>
    rw [showFunction_eq, (typeShown_iff ..).1 h1, (typeShown_iff ..).1 h2, (typeStops_iff ..).2 ⟨rfl, h3⟩]
    simp [Shown.then]

theorem section_total (sql : Option SqlParse) (s : CtxE × List VarE) :
    (∃ l, SectionShown sql s l) ∨ ∃ l e, SectionStops sql s l e := by
  rcases type_total sql s (c! "insert") [c! "insertsql"] with ⟨i, _, h1⟩ | ⟨e, _, h1⟩
  · rcases type_total sql s (c! "read") [c! "readsql", c! "read"] with ⟨r, _, h2⟩ | ⟨e, _, h2⟩
    · rcases type_total sql s (c! "write") [c! "writesql", c! "write"] with ⟨w, _, h3⟩ | ⟨e, _, h3⟩
      · exact .inl ⟨_, .mk i r w h1 h2 h3⟩
      · exact .inr ⟨_, e, .write i r e h1 h2 h3⟩
    · exact .inr ⟨_, e, .read i e h1 h2⟩
  · exact .inr ⟨_, e, .insert e h1⟩

theorem finalize_bad {env : FEnv} {s : CtxE × List VarE} (h : BadName s) :
    ((odbcFn s).finalize env).val = .error .valueError := by
  unfold OdbcFn.finalize
  rw [odbcFn_sql, odbcFn_name]
  have : (odbcName s).any (fun c => c.toNat = 0) = true := by
    obtain ⟨_, c, hc, h0⟩ := h
    exact List.any_eq_true.2 ⟨c, hc, by simpa using h0⟩
  simp only [h.1, decide_true, if_true, this]
  rfl

theorem finalize_good {env : FEnv} {s : CtxE × List VarE} (h : ¬ BadName s) :
    ∃ env', ((odbcFn s).finalize env).val = .ok env' := by
  unfold OdbcFn.finalize
  rw [odbcFn_sql, odbcFn_name]
  by_cases hd : DefinesOdbc s
  · have : ¬ (odbcName s).any (fun c => c.toNat = 0) = true := by
      intro hc
      obtain ⟨c, hc, h0⟩ := List.any_eq_true.1 hc
      exact h ⟨hd, c, hc, by simpa using h0⟩
    simp only [hd, decide_true, if_true, this, if_false, Bool.false_eq_true]
    exact ⟨_, rfl⟩
  · simp only [hd, decide_false, Bool.false_eq_true, if_false]
    exact ⟨_, rfl⟩

theorem sectionsShown_sound {sql : Option SqlParse} {ss : List (CtxE × List VarE)} {lines : List Str} {e : CmdEnd}
    (h : SectionsShown sql ss lines e) : ∀ env, (annotateAll sql env (ss.map odbcFn)).2 = (lines, e) := by
  induction h with
  | all => intro env; rfl
  | name s ss h =>
    intro env
    rw [List.map_cons, annotateAll]
    simp only [finalize_bad h]
  | stops s ss part e h1 h2 =>
    intro env
    obtain ⟨env', h3⟩ := finalize_good (env := env) h1
    rw [List.map_cons, annotateAll]
    simp only [h3, sectionStops_sound h2]
  | shown s ss block rest e h1 h2 _ ih =>
    intro env
    obtain ⟨env', h3⟩ := finalize_good (env := env) h1
    rw [List.map_cons, annotateAll]
    simp only [h3, sectionShown_sound h2, ih env']

open Classical in
theorem sections_total (sql : Option SqlParse) (ss : List (CtxE × List VarE)) : ∃ l e, SectionsShown sql ss l e := by
  induction ss with
  | nil => exact ⟨_, _, .all⟩
  | cons s ss ih =>
    by_cases hb : BadName s
    · exact ⟨_, _, .name s ss hb⟩
    · rcases section_total sql s with ⟨l, h⟩ | ⟨l, e, h⟩
      · obtain ⟨rest, e, hr⟩ := ih
        exact ⟨_, e, .shown s ss l rest e hb h hr⟩
      · exact ⟨l, e, .stops s ss l e hb h⟩

theorem annotateAll_iff (sql : Option SqlParse) (env : FEnv) (ss : List (CtxE × List VarE)) (lines : List Str) (e : CmdEnd) :
    SectionsShown sql ss lines e ↔ (annotateAll sql env (ss.map odbcFn)).2 = (lines, e) := by
  refine ⟨fun h => sectionsShown_sound h env, fun h => ?_⟩
  obtain ⟨l, e', h'⟩ := sections_total sql ss
  have := sectionsShown_sound h' env
  rw [h] at this
  cases this
  exact h'

end ALint
