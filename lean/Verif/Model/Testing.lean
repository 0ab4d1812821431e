import Verif.Model.Message
import Verif.Py.Sort

/-!
# Model of `asterisklint/alinttest.py`: the tests of a user of the library

`unittest` itself is not modelled: of it we take that `setUp`, the test and `tearDown` are run in this
order for each test, and that `_outcome` tells whether the test method has raised an exception.
-/

namespace ALint

/-! ## `ignoreLinted` -/

/-- `_IgnoreLinted`, alinttest.py:199-225. -/
structure Ignoring where
  equals : List Str
  starts : List Str
deriving DecidableEq

/-- One value, alinttest.py:204-216 (values that are no texts are left out). -/
def ignoreValue (ig : Ignoring) (value : Str) : Except Exc Ignoring :=
  match splitAll '*' value with
  | [p] => .ok { ig with equals := ig.equals ++ [p] }
  | [p, []] => .ok { ig with starts := ig.starts ++ [p] }
  | _ => .error .valueError

/-- `_IgnoreLinted.__init__`, alinttest.py:200-219. -/
def Ignoring.of (values : List Str) : Except Exc Ignoring := values.foldlM ignoreValue ⟨[], []⟩

/-- `_IgnoreLinted.__call__`, alinttest.py:222-225. -/
def Ignoring.test (ig : Ignoring) (name : Str) : Bool :=
  ig.equals.contains name || ig.starts.any (·.isPrefixOf name)

/-! ## `ALintTestCase` -/

/-- `counts`, alinttest.py:58. -/
def raisedCounts (raised : List (Str × List Msg)) : List (Str × Nat) := raised.map fun kv => (kv.1, kv.2.length)

/-- `d[name] += n` for a `defaultdict(int)`.  Code: alinttest.py:60. -/
def addCount (name : Str) (n : Nat) : List (Str × Nat) → List (Str × Nat)
  | [] => [(name, n)]
  | (k, v) :: rest => if k = name then (k, v + n) :: rest else (k, v) :: addCount name n rest

/-- The loop of alinttest.py:59-60. -/
def addCounts (counts linted : List (Str × Nat)) : List (Str × Nat) :=
  counts.foldl (fun l kv => addCount kv.1 kv.2 l) linted

/-- `a == b` for dictionaries.  Code: alinttest.py:82-84. -/
def sameDict (a b : List (Str × Nat)) : Bool := a.length == b.length && a.all (fun kv => b.lookup kv.1 == some kv.2)

/-- The manager and `self.linted_counts`.  Code: alinttest.py:32-34. -/
structure TestState where
  mg : Manager
  linted : List (Str × Nat)

/-- The counts without those to be ignored, alinttest.py:77-81. -/
def dropIgnored : Option Ignoring → List (Str × Nat) → List (Str × Nat)
  | none, counts => counts
  | some ig, counts => counts.filter fun kv => !ig.test kv.1

/-- `assertLinted`, alinttest.py:56-84; the second component tells whether it holds. -/
def assertLinted (ig : Option Ignoring) (expected : List (Str × Nat)) (s : TestState) : TestState × Bool :=
  let counts := raisedCounts s.mg.raised
  (⟨s.mg.reset, addCounts counts s.linted⟩, sameDict (dropIgnored ig counts) expected)

/-- What a test method does.  Methods of subclasses of `ALintTestCase`, alinttest.py:31-102. -/
inductive TStep where
  /-- code of the library issues a message -/
  | issue (m : Msg)
  /-- `self.assertLinted(expected)` -/
  | check (expected : List (Str × Nat))
  /-- an exception, as from any other assertion that fails -/
  | raise

/-- The test method; the second component tells whether it comes to its end.
Run by `unittest`, with alinttest.py:56-84. -/
def runSteps (env : Str) (ig : Option Ignoring) : List TStep → TestState → TestState × Bool
  | [], s => (s, true)
  | .issue m :: rest, s =>
    match s.mg.onMessage env true m with
    | (mg, .error _) => ({ s with mg := mg }, false)
    | (mg, .ok _) => runSteps env ig rest { s with mg := mg }
  | .check e :: rest, s =>
    match assertLinted ig e s with
    | (s, true) => runSteps env ig rest s
    | (s, false) => (s, false)
  | .raise :: _, s => (s, false)

/-- A test: `ignoreLinted` on its class and on its method, `expectedFailure`, and the method.
Code: alinttest.py:44-46, 65-74, 231-246. -/
structure ATest where
  classIgnore : Option Ignoring
  ignore : Option Ignoring
  failing : Bool
  steps : List TStep

/-- Which one is used, alinttest.py:65-74. -/
def ATest.ignoring (t : ATest) : Option Ignoring :=
  match t.classIgnore with
  | some i => some i
  | none => t.ignore

/-- A test with `setUp`, alinttest.py:32-34, and `tearDown`, alinttest.py:36-54. -/
def runTest (env : Str) (t : ATest) (mg : Manager) : TestState × Bool :=
  match runSteps env t.ignoring t.steps ⟨mg, []⟩ with
  | (s, false) => ({ s with mg := s.mg.reset }, t.failing)
  | (s, true) =>
    let r := assertLinted t.ignoring [] s
    ({ r.1 with mg := r.1.mg.reset }, !t.failing && r.2)

/-- All tests: their results, and `linted_counts` of `ALintTestResult`, alinttest.py:106-115. -/
def runTests (env : Str) : List ATest → Manager → List (Str × Nat) → List Bool × List (Str × Nat)
  | [], _, linted => ([], linted)
  | t :: ts, mg, linted =>
    let r := runTest env t mg
    let rest := runTests env ts r.1.mg (addCounts r.1.linted linted)
    (r.2 :: rest.1, rest.2)

/-- `print_untested`, alinttest.py:130-139; `defined` is `MessageDefManager.types`. -/
def untested (defined : List Str) (linted : List (Str × Nat)) : List Str :=
  sortBy strLt (defined.filter fun n => !(linted.map (·.1)).contains n)

/-! ## `GenerateTestCases` -/

/-- `d[name] = v`.  Code: alinttest.py:165-188. -/
def setKey {α : Type} (name : Str) (v : α) : List (Str × α) → List (Str × α)
  | [] => [(name, v)]
  | (k, w) :: rest => if k = name then (k, v) :: rest else (k, w) :: setKey name v rest

/-- The name of a generated test, alinttest.py:178-182. -/
def testName (args : List Str) : Str := c! "test_" ++ joinWith '_' args

/-- The methods of a class with `GenerateTestCases`, alinttest.py:175-188.  An argument is given by
its `str`; `call args` is the method that calls the function with these arguments. Documentation
strings are left out. -/
def generateTests {α : Type} (call : List Str → α) (own : List (Str × α)) (argslist : List (List Str)) : List (Str × α) :=
  argslist.foldl (fun d args => setKey (testName args) (call args) d) own

end ALint
