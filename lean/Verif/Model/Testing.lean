import Verif.Model.Api
import Verif.Model.Collect
import Verif.Py.Order

/-!
# `testing.py`, and the commands `test` and `validate-config` of `cli.py`
-/

namespace Fixit
open Py

/-! ## `_dedent` -/

/-- A line of nothing but spaces and tabs (also the empty line) (testing.py:20). -/
def isBlankLine (l : PStr) : Bool := l.all (fun c => c == ' ' || c == '\t')

/-- The spaces and tabs a line begins with (testing.py:20). -/
def indentOf (l : PStr) : PStr := l.takeWhile (fun c => c == ' ' || c == '\t')

/-- The longest common beginning (testing.py:20). -/
def commonPrefix : PStr → PStr → PStr
  | c :: cs, d :: ds => if c = d then c :: commonPrefix cs ds else []
  | _, _ => []

/-- The margin of `textwrap.dedent`: the longest common beginning of the indents of the lines that are not blank (testing.py:20). -/
def marginOf : List PStr → Option PStr
  | [] => none
  | l :: ls =>
    if isBlankLine l then marginOf ls
    else match marginOf ls with
      | none => some (indentOf l)
      | some m => some (commonPrefix (indentOf l) m)

/-- `textwrap.dedent(text)` (standard library): blank lines become empty, the others lose the margin (testing.py:20). -/
def textwrapDedent (text : PStr) : PStr :=
  let lines := splitOn '\n' text
  let n := ((marginOf lines).getD []).length
  join ['\n'] (lines.map (fun l => if isBlankLine l then [] else l.drop n))

/-- `re.sub(r"\A\n", "", src)`, testing.py:19. -/
def dropFirstNewline : PStr → PStr
  | '\n' :: cs => cs
  | cs => cs

/-- `_dedent`, testing.py:18-20. -/
def dedent (src : PStr) : PStr := textwrapDedent (dropFirstNewline src)

/-! ## One test case -/

/-- `Invalid`, ftypes.py:63-68. -/
structure Invalid where
  code : PStr
  range : Option CodeRange := none
  message : Option PStr := none
  replacement : Option PStr := none

/-- `Valid` (ftypes.py:71-73) or `Invalid`. -/
inductive Case where
  | valid (code : PStr)
  | invalid (c : Invalid)

/-- Which assertion failed, and with what. The texts `unittest` makes of two values that are not equal are left out (testing.py:81-114). -/
inductive Mismatch where
  /-- an `assert` statement -/
  | bare
  /-- `Expected zero reports for this "valid" test case. Instead, found:` and the reports -/
  | reports (found : List LintViolation)
  /-- `Expected a report for this "invalid" test case but …` and the code as written -/
  | silent (code : PStr)
  | range (expected found : CodeRange)
  | message (expected found : PStr)
  | text (expected found : PStr)
  | diff (expected found : PStr)

/-- What a test raises: a failed assertion, or another exception (testing.py:68-114). -/
inductive Failure where
  | assertion (m : Mismatch)
  | raised (e : Err)

/-- What running a test case depends on besides linting (testing.py:68-114). -/
structure Bench (C : Type) where
  /-- `Path.cwd()` -/
  cwd : Path
  /-- `Config(path=path)` -/
  config : Path → C
  /-- `str.encode()` -/
  encode : PStr → Except Err Bytes
  /-- `bytes.decode()` -/
  decode : Bytes → Except Err PStr
  /-- what libCST raises when a node is replaced by `None` -/
  noneNode : Err

/-- An expression that may raise, in a test (testing.py:68-114). -/
def attempt {α : Type} : Except Err α → Except Failure α
  | .ok a => .ok a
  | .error e => .error (.raised e)

/-- `self.assert…` (testing.py:82, 90, 100, 103, 109, 114). -/
def check (b : Bool) (m : Mismatch) : Except Failure Unit := if b then .ok () else .error (.assertion m)

section
variable {C : Type} (env : Env C) (bench : Bench C)

/-- `list(runner.collect_violations([rule], config))`, testing.py:79. -/
def collectAll (path : Path) (m : Node) (rule : RuleInst) (w : World) : Except Failure (List LintViolation) :=
  match Gen.drain () (collectViolations env path m [rule] (bench.config path) false) w with
  | (vs, .returned _, _) => .ok vs
  | (_, .raised e, _) => .error (.raised e)
  | (_, .suspended, _) => .error (.assertion .bare)

/-- testing.py:73-75. -/
def Case.path (bench : Bench C) : Case → Path
  | .valid _ => bench.cwd ++ [py "valid.py"]
  | .invalid _ => bench.cwd ++ [py "invalid.py"]

/-- `test_case.code` (testing.py:77). -/
def Case.code : Case → PStr
  | .valid c => c
  | .invalid i => i.code

/-- The loop over the reports, testing.py:98-103. -/
def checkReports (t : Invalid) : List LintViolation → Except Failure Unit
  | [] => .ok ()
  | v :: vs => do
    (match t.range with
      | some r => check (decide (r = v.base.range)) (.range r v.base.range)
      | none => .ok ())
    (match t.message with
      | some s => check (decide (s = v.base.message)) (.message s v.base.message)
      | none => .ok ())
    checkReports t vs

/-- The text after applying all the fixes, testing.py:107-108. -/
def fixedText (m : Node) (reports : List LintViolation) : Except Err PStr := do
  let m' ← applyReplacements m (reports.map LintViolation.fix)
  bench.decode (← env.bytes m')

/-- `diff_violation(path, runner.module, report)`, testing.py:113, with whatever replacement the report has. -/
def diffAgain (path : Path) (m : Node) (v : LintViolation) : Except Err PStr :=
  match v.base.replacement with
  | some r => diffViolation env path m v.base.node r
  | none => .error bench.noneNode

/-- The check of the one diff, testing.py:111-114. -/
def checkDiff (path : Path) (m : Node) : List LintViolation → Except Failure Unit
  | [v] => do
    let d ← attempt (diffAgain env bench path m v)
    check (decide (d = v.diff)) (.diff d v.diff)
  | _ => .ok ()

/-- testing.py:105-114: a replacement that is absent or empty is not looked at. -/
def checkReplacement (t : Invalid) (path : Path) (m : Node) (reports : List LintViolation) : Except Failure Unit :=
  match t.replacement with
  | some (c :: cs) => do
    let text ← attempt (fixedText env bench m reports)
    check (decide (dedent (c :: cs) = text)) (.text (dedent (c :: cs)) text)
    checkDiff env bench path m reports
  | _ => .ok ()

/-- `LintRuleTestCase._test_method`, testing.py:68-114. -/
def testMethod (w : World) (t : Case) (rule : RuleInst) : Except Failure Unit := do
  let path := t.path bench
  let source ← attempt (bench.encode (dedent t.code))
  let m ← attempt (env.parse source)
  let reports ← collectAll env bench path m rule w
  match t with
  | .valid _ => check reports.isEmpty (.reports reports)
  | .invalid i => do
    check (!reports.isEmpty) (.silent i.code)
    checkReports i reports
    checkReplacement env bench i path m reports

/-! ## Test suites -/

/-- An entry of `VALID` or `INVALID`: a string, or a `Valid`/`Invalid` (testing.py:127-142). -/
inductive Entry where
  | text (code : PStr)
  | full (t : Case)

/-- A rule class, as testing sees it (testing.py:117-142). -/
structure RuleClass where
  /-- `type(rule).__name__` -/
  name : PStr
  valid : List Entry
  invalid : List Entry
  /-- `type(rule)()` -/
  make : Except Err RuleInst

/-- testing.py:129-133. -/
def Entry.asValid : Entry → Case
  | .text s => .valid s
  | .full t => t

/-- testing.py:137-141. -/
def Entry.asInvalid : Entry → Case
  | .text s => .invalid { code := s }
  | .full t => t

/-- `str(n)` of a number that is not negative (testing.py:128, 136). -/
def decimal (n : Nat) : PStr := (toString n).toList

/-- `for idx, entry in enumerate(...): tcs[f"{stem}{idx}"] = ...`, testing.py:127-142. -/
def enumerateCases (stem : PStr) (conv : Entry → Case) : Nat → List Entry → List (PStr × Case) → List (PStr × Case)
  | _, [], d => d
  | n, e :: es, d => enumerateCases stem conv (n + 1) es (dictSet (stem ++ decimal n) (conv e) d)

/-- `gen_test_methods_for_rule`, testing.py:117-148: `test_methods`. -/
def genTestMethods (r : RuleClass) : List (PStr × Case) :=
  dictUpdate (enumerateCases (py "test_VALID_") Entry.asValid 0 r.valid []) (enumerateCases (py "test_INVALID_") Entry.asInvalid 0 r.invalid [])

/-- A test of a suite: the class, the method and what running it does (a new rule object for each, testing.py:180-182). -/
structure Test where
  cls : PStr
  method : PStr
  run : World → Except Failure Unit

/-- testing.py:173-185. -/
def testOf (r : RuleClass) (e : PStr × Case) : Test where
  cls := r.name
  method := e.1
  run w := do
    let rule ← attempt r.make
    testMethod env bench w e.2 rule

/-- `generate_lint_rule_test_cases`, testing.py:165-190, one test class per rule, and `loader.loadTestsFromTestCase`, which takes the methods whose names begin with
"test" in the order of their names. -/
def testsOf (r : RuleClass) : List Test := (sortBy (keyLt Prod.fst) (genTestMethods r)).map (testOf env bench r)

/-- `module_attrs[test_case_class.__name__] = test_case_class`, testing.py:219-221: the classes of a module, by name. -/
def addToModule (attrs : List (PStr × RuleClass)) (rules : List RuleClass) : List (PStr × RuleClass) :=
  dictUpdate attrs (rules.map (fun r => (r.name, r)))

/-- How one test came out (cli.py:300-301). -/
def passed (t : Test) (w : World) : Bool :=
  match t.run w with
  | .ok _ => true
  | .error _ => false

/-- How the command ends (cli.py:284-302). -/
inductive TestEnding where
  | exit (code : Nat)
  | raised (e : Err)
  deriving DecidableEq

/-- `runner.run(test_suite)` and the exit code, cli.py:299-302. -/
def runSuite (tests : List Test) (w : World) : TestEnding := .exit (if tests.all (fun t => passed t w) then 0 else 1)

/-- `[parse_rule(rule, Path.cwd().resolve()) for rule in rules]`, cli.py:288. -/
def parseArguments (cwd : Path) : List PStr → Except Err (List QualifiedRule)
  | [] => .ok []
  | r :: rs => do
    let q ← parseRule r cwd
    return q :: (← parseArguments cwd rs)

/-- `Config(enable=qual_rules, disable=[], python_version=None)`, cli.py:289-291. -/
def testConfig {V : Type} (cwd : Path) (quals : List QualifiedRule) : Config V where
  path := cwd
  root := cwd
  rootImport := .off
  enable := quals
  disable := []
  options := []
  pyver := none
  formatter := none
  outputFormat := .fixit
  outputTemplate := .str []

/-- `fixit test`, cli.py:284-302: the tests that are run, and the exit code. `describe` says what a rule class contains; the text the runner prints is left out. -/
def testCommand {K V M : Type} [DecidableEq K] (cenv : CollectEnv K V M) (order : List K → List K) (describe : K → RuleClass) (args : List PStr)
    (sysPath : List PStr) (mods : M) (w : World) : List Test × TestEnding :=
  match parseArguments bench.cwd args with
  | .error e => ([], .raised e)
  | .ok quals =>
    match (collectRules cenv order (testConfig bench.cwd quals) sysPath mods).1 with
    | .error e => ([], .raised e)
    | .ok c => (c.rules.flatMap (fun k => testsOf env bench (describe k)), runSuite (c.rules.flatMap (fun k => testsOf env bench (describe k))) w)

end
end Fixit
