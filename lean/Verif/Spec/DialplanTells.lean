import Verif.Spec.AppSays
import Verif.Spec.DialplanLog
import Verif.Spec.Completion

/-!
# What is said about a dialplan, applications included (specification)

The same as `dialplanSays`, without reference to how the program goes through an application:
what there is to say about an application is `LineSays` (C93).  With it come the uses of
variables, functions and applications, and the destinations of the jumps.
-/

namespace ALint.Spec
open ALint

/-- A line got a number and was kept. -/
def KeepsLine (s s' : Sofar) : Prop := ∃ n, s'.lines = s.lines ++ [n] ∧ n.kept = true

/-- The destinations of the jumps of a step; a line that is not kept has none. -/
structure DestsOf (s s' : Sofar) (name x : Str) (w : Where) (js : List Jump) (ds : List Dest) : Prop where
  kept : KeepsLine s s' → Zips (CompletedAs name x w) js ds
  not : ¬ KeepsLine s s' → ds = []

/-- The priority is `n` or a number. -/
def NextOrNumber (prio : Str) : Prop := prio = c! "n" ∨ isDigitS prio = true

/-- What is said about an `exten` or `same` line: messages, what came before the next line,
uses, destinations. -/
inductive ExtenTells (env : AEnv) (s : Sofar) (name : Str) (v : VarE) : List Msg → Sofar → List Ev → List Dest → Prop
  | hint : (readingOf v).prio = c! "hint" → ExtenTells env s name v [mkMsg .I_NOTIMPL_HINT v.at_ []] s [] []
  | badPrio : (readingOf v).prio ≠ c! "hint" → ¬ NextOrNumber (readingOf v).prio →
      ExtenTells env s name v [mkMsg .E_DP_PRIO_INVALID v.at_ [(c! "prio", strV (readingOf v).prio)]] s [] []
  /-- First the application is looked at, whatever becomes of the line. -/
  | noExten {evs : List Ev} {sp : Option Str} {js : List Jump} : NextOrNumber (readingOf v).prio →
      LineSays env v.at_ s.spelling (.str (readingOf v).app) evs sp js →
      (readingOf v).exten = none → s.steps name = [] →
      ExtenTells env s name v (evMsgs evs ++ [mkMsg .E_DP_PAT_MISSING v.at_ []]) { s with spelling := sp } (evUses evs) []
  | step {evs : List Ev} {sp : Option Str} {js : List Jump} {raw : Str} {pat : Pattern.Values} {ms : List Msg} {s' : Sofar}
      {ds : List Dest} : NextOrNumber (readingOf v).prio →
      LineSays env v.at_ s.spelling (.str (readingOf v).app) evs sp js →
      extenFor s name (readingOf v).exten = some (raw, pat) →
      stepSays { s with spelling := sp } name raw pat (prioOf (readingOf v).prio) (readingOf v).label (readingOf v).app
        v.comment v.at_ = (ms, s') →
      DestsOf s s' name (Pattern.exampleOf pat) v.at_ js ds →
      ExtenTells env s name v (evMsgs evs ++ (canonSays v.at_ ((readingOf v).exten.bind extenOf) ++ ms)) s' (evUses evs) ds

/-- What is said about a line in a context. -/
inductive BodyTells (env : AEnv) (s : Sofar) (name : Str) (v : VarE) : List Msg → Sofar → List Ev → List Dest → Prop
  | step {ms : List Msg} {s' : Sofar} {us : List Ev} {ds : List Dest} : v.key = c! "exten" ∨ v.key = c! "same" →
      ExtenTells env s name v ms s' us ds → BodyTells env s name v (arrowSays v ++ ms) s' us ds
  | included : v.key = c! "include" → BodyTells env s name v (arrowSays v) s [] []
  | switch : v.key = c! "switch" → BodyTells env s name v (arrowSays v ++ [mkMsg .I_NOTIMPL_SWITCH v.at_ []]) s [] []
  | ignorepat : v.key = c! "ignorepat" →
      BodyTells env s name v (arrowSays v ++ [mkMsg .I_NOTIMPL_IGNOREPAT v.at_ []]) s [] []
  | other : v.key ∉ [c! "exten", c! "same", c! "include", c! "switch", c! "ignorepat"] →
      BodyTells env s name v [mkMsg .E_CONF_KEY_INVALID v.at_ [(c! "key", strV v.key)]] s [] []

/-- What is said about an element. -/
inductive ElemTells (env : AEnv) (s : Sofar) : Elem → List Msg → Sofar → List Ev → List Dest → Prop
  | blank (b : Bool) (w : Where) : ElemTells env s (.empty b w) [] s [] []
  | header (c : CtxE) : (c.name = c! "general" → s.general = none) →
      ElemTells env s (.ctx c) (headerSays s c).1 (headerSays s c).2 [] []
  | orphan (v : VarE) : s.header = none → ElemTells env s (.var v) [mkMsg .E_CONF_CTX_MISSING v.at_ []] s [] []
  | setting (v : VarE) (name : Str) : s.header = some name → special name = true → ElemTells env s (.var v) [] s [] []
  | body (v : VarE) (name : Str) {ms : List Msg} {s' : Sofar} {us : List Ev} {ds : List Dest} : s.header = some name →
      special name = false → BodyTells env s name v ms s' us ds → ElemTells env s (.var v) ms s' us ds

/-- What is said about the elements in order. -/
inductive DialplanTells (env : AEnv) : Sofar → List Elem → List Msg → Sofar → List Ev → List Dest → Prop
  | nil {s : Sofar} : DialplanTells env s [] [] s [] []
  | cons {s s' s'' : Sofar} {e : Elem} {es : List Elem} {ms ms' : List Msg} {us us' : List Ev} {ds ds' : List Dest} :
      ElemTells env s e ms s' us ds → DialplanTells env s' es ms' s'' us' ds' →
      DialplanTells env s (e :: es) (ms ++ ms') s'' (us ++ us') (ds ++ ds')

end ALint.Spec
