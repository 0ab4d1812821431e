import Verif.Model.Message
import Verif.Proofs.Str

/-!
# C19-C21: muting, exit status, recording
-/

namespace ALint.Props
open ALint

/-! ## C19 ALINT_IGNORE -/

/-- For every value of the variable, written as comma separated tokens. -/
theorem C19_muted_iff (toks : List Str) (hne : toks ≠ []) (hc : ∀ t ∈ toks, ',' ∉ t) (name : Str) :
    classMuted (joinWith ',' toks) name = true ↔
      ∃ t ∈ toks, t ≠ [] ∧ (t = name ∨ ∃ p s, t = p ++ ['_'] ∧ name = t ++ s) := by
  simp only [classMuted, ignoreTokens, splitAll_joinWith ',' toks hne hc]
  have hlast : ∀ t : Str, (t.getLast? == some '_') = true ↔ ∃ p, t = p ++ ['_'] := by
    intro t
    simp only [beq_iff_eq, List.getLast?_eq_some_iff]
  have hpre : ∀ t : Str, t.isPrefixOf name = true ↔ ∃ s, name = t ++ s := by
    intro t
    rw [List.isPrefixOf_iff_prefix]
    constructor
    · rintro ⟨s, h⟩; exact ⟨s, h.symm⟩
    · rintro ⟨s, h⟩; exact ⟨s, h.symm⟩
  constructor
  · intro h
    split at h
    · simp only [List.any_eq_true, List.mem_filter, Bool.or_eq_true, Bool.and_eq_true, hlast, hpre,
        Bool.not_eq_true', List.isEmpty_eq_false_iff, beq_iff_eq] at h
      obtain ⟨t, ⟨h1, h2⟩, h3 | ⟨⟨p, h3⟩, s, h4⟩⟩ := h
      · exact ⟨t, h1, h2, .inl h3.symm⟩
      · exact ⟨t, h1, h2, .inr ⟨p, s, h3, h4⟩⟩
    · simp at h
  · rintro ⟨t, h1, h2, h3⟩
    have hp : t.isPrefixOf name = true := by
      rw [hpre]
      rcases h3 with h3 | ⟨p, s, _, h4⟩
      · exact ⟨[], by simp [h3]⟩
      · exact ⟨s, h4⟩
    have hm : t ∈ toks.filter (fun t => !t.isEmpty) := by simp [h1, h2]
    rw [if_pos (List.any_eq_true.2 ⟨t, hm, hp⟩)]
    rw [List.any_eq_true]
    refine ⟨t, hm, ?_⟩
    rcases h3 with h3 | ⟨p, s, h4, _⟩
    · simp [h3]
    · simp only [Bool.or_eq_true, Bool.and_eq_true]
      exact .inr ⟨(hlast t).2 ⟨p, h4⟩, hp⟩

example : classMuted (c! "H_,E_APP_MISSING") (MK.name .E_APP_MISSING) = true :=
  (C19_muted_iff [c! "H_", c! "E_APP_MISSING"] (by simp) (by decide) _).2
    ⟨c! "E_APP_MISSING", by decide, by decide, .inl rfl⟩
/-- `E_APP` without a trailing underscore mutes nothing that merely starts so. -/
example : classMuted (c! "E_APP") (MK.name .E_APP_MISSING) = false := by decide

/-- Every value of the variable can be written that way. -/
theorem C19_covers_every_value (env : Str) :
    ∃ toks : List Str, toks ≠ [] ∧ (∀ t ∈ toks, ',' ∉ t) ∧ env = joinWith ',' toks :=
  ⟨splitAll ',' env, splitAll_ne_nil _ _, splitAll_mem _ _, (joinWith_splitAll _ _).symm⟩

/-! ## C21 recording -/

/-- A step in the life of the message manager. -/
inductive MgOp where
  | issue (m : Msg)
  | reset

def MgOp.run (env : Str) (allMuted : Bool) (mg : Manager) : MgOp → Manager
  | .issue m => (mg.onMessage env allMuted m).1
  | .reset => mg.reset

/-- The messages issued since the last reset. -/
def sinceReset : List MgOp → List Msg
  | [] => []
  | .issue m :: ops => if ops.any (fun | .reset => true | _ => false) then sinceReset ops
      else m :: sinceReset ops
  | .reset :: ops => sinceReset ops

/-- What is recorded for a type. -/
def recorded (mg : Manager) (k : MK) : List Msg := (mg.raised.lookup k.name).getD []

theorem lookup_addRaised (n : Str) (m : Msg) (l : List (Str × List Msg)) (x : Str) :
    ((addRaised n m l).lookup x).getD [] =
      if x = n then (l.lookup x).getD [] ++ [m] else (l.lookup x).getD [] := by
  induction l with
  | nil =>
    simp only [addRaised, List.lookup]
    by_cases h : x = n
    · simp [h]
    · simp [h, beq_eq_false_iff_ne.2 h]
  | cons kv l ih =>
    obtain ⟨k, ms⟩ := kv
    simp only [addRaised]
    split
    · rename_i hk; subst hk
      by_cases h : x = k
      · subst h; simp [List.lookup]
      · simp [List.lookup, beq_eq_false_iff_ne.2 h, h]
    · rename_i hk
      by_cases hx : x = k
      · subst hx
        simp [List.lookup, hk]
      · simp only [List.lookup, beq_eq_false_iff_ne.2 hx, ih]

theorem onMessage_raised (env : Str) (b : Bool) (mg : Manager) (m : Msg) :
    (mg.onMessage env b m).1.raised = addRaised m.kind.name m mg.raised := by
  simp only [Manager.onMessage]
  split
  · rfl
  · split <;> rfl

theorem MK.name_inj (a b : MK) (h : a.name = b.name) : a = b := by
  have key : ∀ a ∈ MK.all, ∀ b ∈ MK.all, a.name = b.name → a = b := by decide +kernel
  have hall : ∀ a : MK, a ∈ MK.all := by intro a; cases a <;> decide
  exact key a (hall a) b (hall b) h

/-- After any history, the messages recorded for a type are the issued ones of that
type since the last reset, each once, in issue order, muted or not. -/
theorem C21_recorded (env : Str) (allMuted : Bool) (ops : List MgOp) (mg : Manager)
    (h0 : mg.raised = []) (k : MK) :
    recorded (ops.foldl (MgOp.run env allMuted) mg) k =
      (sinceReset ops).filter (fun m => m.kind == k) := by
  have gen : ∀ (ops : List MgOp) (mg : Manager),
      recorded (ops.foldl (MgOp.run env allMuted) mg) k =
        (if ops.any (fun | .reset => true | _ => false) then [] else recorded mg k) ++
          (sinceReset ops).filter (fun m => m.kind == k) := by
    intro ops
    induction ops with
    | nil => intro mg; simp [sinceReset]
    | cons op ops ih =>
      intro mg
      rw [List.foldl_cons, ih]
      cases op with
      | reset =>
        simp [sinceReset, MgOp.run, Manager.reset, recorded]
      | issue m =>
        simp only [List.any_cons, Bool.false_or, sinceReset]
        split
        · rfl
        · rw [List.filter_cons]
          simp only [MgOp.run, recorded, onMessage_raised, lookup_addRaised]
          by_cases hk : m.kind = k
          · subst hk; simp
          · have : ¬ k.name = m.kind.name := fun h => hk (MK.name_inj _ _ h).symm
            simp [hk, this]
  rw [gen]
  simp [recorded, h0]

/-- Resetting does not touch what was printed. -/
theorem C21_reset_keeps_printed (mg : Manager) :
    mg.reset.printed = mg.printed ∧ ∀ k, recorded mg.reset k = [] :=
  ⟨rfl, fun _ => rfl⟩

example : recorded (List.foldl (MgOp.run [] false) Manager.init
    [.issue ⟨.W_WSH_BOL, ⟨c! "a", 1, []⟩, [], none⟩, .reset,
     .issue ⟨.W_WSH_EOL, ⟨c! "a", 2, []⟩, [], none⟩]) .W_WSH_BOL = [] :=
  C21_recorded [] false _ Manager.init rfl .W_WSH_BOL

/-! ## C20 exit status -/

/-- The manager after issuing the messages one after the other. -/
def issueAll (env : Str) (mg : Manager) (ms : List Msg) : Manager :=
  ms.foldl (fun mg m => (mg.onMessage env false m).1) mg

def GoodKeys (l : List (Str × List Msg)) : Prop :=
  ∀ kv ∈ l, kv.2 ≠ [] ∧ ∀ m ∈ kv.2, m.kind.name = kv.1

theorem addRaised_good (m : Msg) (l : List (Str × List Msg)) (h : GoodKeys l) :
    GoodKeys (addRaised m.kind.name m l) := by
  induction l with
  | nil => intro kv hkv; simp [addRaised] at hkv; subst hkv; simp
  | cons kv l ih =>
    obtain ⟨k, ms⟩ := kv
    have h1 := h (k, ms) (by simp)
    have h2 := ih (fun kv hkv => h kv (by simp [hkv]))
    simp only [addRaised]
    split
    · rename_i hk
      intro kv hkv
      rcases List.mem_cons.1 hkv with rfl | hkv
      · refine ⟨by simp, fun x hx => ?_⟩
        rcases List.mem_append.1 hx with hx | hx
        · exact h1.2 x hx
        · simp at hx; subst hx; exact hk.symm
      · exact h kv (by simp [hkv])
    · intro kv hkv
      rcases List.mem_cons.1 hkv with rfl | hkv
      · exact h1
      · exact h2 kv hkv

theorem addRaised_mem (n : Str) (m : Msg) (l : List (Str × List Msg)) (x : Msg) :
    (∃ kv ∈ addRaised n m l, x ∈ kv.2) ↔ x = m ∨ ∃ kv ∈ l, x ∈ kv.2 := by
  induction l with
  | nil => simp [addRaised]
  | cons kv l ih =>
    obtain ⟨k, ms⟩ := kv
    simp only [addRaised]
    split
    · simp only [List.mem_cons, exists_eq_or_imp, List.mem_append, List.not_mem_nil, or_false]
      constructor
      · rintro ((h | h) | h)
        · exact .inr (.inl h)
        · exact .inl h
        · exact .inr (.inr h)
      · rintro (h | h | h)
        · exact .inl (.inr h)
        · exact .inl (.inl h)
        · exact .inr h
    · simp only [List.mem_cons, exists_eq_or_imp, ih]
      constructor
      · rintro (h | h | h)
        · exact .inr (.inl h)
        · exact .inl h
        · exact .inr (.inr h)
      · rintro (h | h | h)
        · exact .inr (.inl h)
        · exact .inl h
        · exact .inr (.inr h)

theorem issueAll_raised (env : Str) (ms : List Msg) (mg : Manager) (h : GoodKeys mg.raised) :
    GoodKeys (issueAll env mg ms).raised ∧
      ∀ x, (∃ kv ∈ (issueAll env mg ms).raised, x ∈ kv.2) ↔ x ∈ ms ∨ ∃ kv ∈ mg.raised, x ∈ kv.2 := by
  induction ms generalizing mg with
  | nil => exact ⟨h, by simp [issueAll]⟩
  | cons m ms ih =>
    have h' : GoodKeys (mg.onMessage env false m).1.raised := by
      rw [onMessage_raised]; exact addRaised_good m _ h
    obtain ⟨h1, h2⟩ := ih _ h'
    refine ⟨h1, fun x => ?_⟩
    have := h2 x
    rw [onMessage_raised, addRaised_mem] at this
    simp only [issueAll, List.foldl_cons] at this ⊢
    rw [this]
    simp only [List.mem_cons]
    constructor
    · rintro (h | h | h)
      · exact .inl (.inr h)
      · exact .inl (.inl h)
      · exact .inr h
    · rintro ((h | h) | h)
      · exact .inr (.inl h)
      · exact .inl h
      · exact .inr (.inr h)

/-- For a run that issued the messages `ms` and reached the end: the status is 1
iff one of them is of an unmuted type, and 0 otherwise. -/
theorem C20_exit_status (env : Str) (ms : List Msg) :
    ((issueAll env Manager.init ms).exitStatus env = 1 ↔
      ∃ m ∈ ms, classMuted env m.kind.name = false) ∧
    ((issueAll env Manager.init ms).exitStatus env = 0 ↔
      ∀ m ∈ ms, classMuted env m.kind.name = true) := by
  obtain ⟨hg, hm⟩ := issueAll_raised env ms Manager.init (by intro kv h; simp [Manager.init] at h)
  have hm' : ∀ x, (∃ kv ∈ (issueAll env Manager.init ms).raised, x ∈ kv.2) ↔ x ∈ ms := by
    intro x; rw [hm x]; simp [Manager.init]
  have key : (issueAll env Manager.init ms).raised.any (fun kv => match kv.2 with
      | [] => false
      | m :: _ => !classMuted env m.kind.name) = true ↔
        ∃ m ∈ ms, classMuted env m.kind.name = false := by
    rw [List.any_eq_true]
    constructor
    · rintro ⟨kv, hkv, h⟩
      split at h
      · simp at h
      · rename_i m rest he
        exact ⟨m, (hm' m).1 ⟨kv, hkv, by simp [he]⟩, by simpa using h⟩
    · rintro ⟨m, h1, h2⟩
      obtain ⟨kv, hkv, hx⟩ := (hm' m).2 h1
      refine ⟨kv, hkv, ?_⟩
      obtain ⟨_, hn⟩ := hg kv hkv
      split
      · rename_i he; rw [he] at hx; simp at hx
      · rename_i m' rest he
        have e1 := hn m' (by simp [he])
        have e2 := hn m hx
        rw [e1, ← e2, h2]; rfl
  have key0 : (∀ m ∈ ms, classMuted env m.kind.name = true) ↔
      ¬ ∃ m ∈ ms, classMuted env m.kind.name = false := by
    constructor
    · rintro h ⟨m, h1, h2⟩; rw [h m h1] at h2; simp at h2
    · intro h m hm
      cases hc : classMuted env m.kind.name with
      | true => rfl
      | false => exact absurd ⟨m, hm, hc⟩ h
  rw [key0]
  simp only [Manager.exitStatus]
  split
  · rename_i h; have := key.1 h; simp [this]
  · rename_i h
    have := fun h' => h (key.2 h')
    exact ⟨⟨fun h => by simp at h, fun h => absurd h this⟩, ⟨fun _ => this, fun _ => rfl⟩⟩

/-- If no message fails to format (a failing one aborts the run), then status 1
means exactly that something was written to the standard error output. -/
theorem C20_exit_status_iff_output (env : Str) (ms : List Msg)
    (hok : ∀ m ∈ ms, ∃ t, m.render = .ok t) :
    (issueAll env Manager.init ms).exitStatus env = 1 ↔
      (issueAll env Manager.init ms).printed ≠ [] := by
  rw [(C20_exit_status env ms).1]
  have gen : ∀ (ms : List Msg) (mg : Manager), (∀ m ∈ ms, ∃ t, m.render = .ok t) →
      ((issueAll env mg ms).printed ≠ [] ↔
        mg.printed ≠ [] ∨ ∃ m ∈ ms, classMuted env m.kind.name = false) := by
    intro ms
    induction ms with
    | nil => intro mg _; simp [issueAll]
    | cons m ms ih =>
      intro mg hok
      obtain ⟨t, ht⟩ := hok m (by simp)
      have := ih (mg.onMessage env false m).1 (fun m h => hok m (by simp [h]))
      simp only [issueAll, List.foldl_cons] at this ⊢
      rw [this]
      simp only [Manager.onMessage, ht, Bool.false_or]
      cases hc : classMuted env m.kind.name with
      | true => simp [hc]
      | false => simp [hc]
  rw [gen ms Manager.init hok]
  simp [Manager.init]

example : (issueAll (c! "W_") Manager.init [⟨.W_WSH_BOL, ⟨c! "a", 1, []⟩, [], none⟩]).exitStatus (c! "W_")
    = 0 := (C20_exit_status _ _).2.2 (by decide)
example : ∃ t, (⟨.W_WSH_BOL, ⟨c! "a", 1, []⟩, [], none⟩ : Msg).render = .ok t := ⟨_, rfl⟩

end ALint.Props
