import Verif.Py.Gen
import Verif.Model.Rule
import Verif.Model.Config
import Verif.Model.Tree

/-!
# `engine.py`: `LintRunner.collect_violations`
-/

namespace Fixit
open Py

/-- `FileContent`, ftypes.py:42. -/
abbrev Bytes := List UInt8

/-- `Metrics`, ftypes.py:49: a dictionary from names to numbers (`defaultdict(lambda: 0)`). -/
abbrev Metrics := List (PStr × Nat)

/-- `d.get(key, 0)` (engine.py:56, 79, 112). -/
def metric (k : PStr) : Metrics → Nat
  | [] => 0
  | (k', v) :: rest => if k' = k then v else metric k rest

/-- What happens outside the interpreter (engine.py:121, api.py:179, 215). -/
inductive Event where
  /-- a file was opened for writing and so truncated -/
  | opened (p : Path)
  /-- bytes were written to an opened file -/
  | wrote (p : Path) (b : Bytes)
  /-- bytes were written to standard output -/
  | stdout (b : Bytes)
  /-- the metrics hook was called -/
  | hook (μ : Metrics)

/-- The world: the contents of the file system (`none`: no such file) and everything that happened so far (api.py:172, 179, 207, 215). -/
structure World where
  files : Path → Option Bytes
  log : List Event

/-- A rule object: its identity and name (`LintRule.name`) (rule.py:98-102, 114-115). -/
structure RuleInst where
  id : Nat
  name : PStr
  deriving DecidableEq

/-- `LintViolation`, ftypes.py:255-274: what the rule recorded, and the diff. Nodes are named by their identity. -/
structure LintViolation where
  base : Violation Nat Repl
  diff : PStr

/-- The violation as seen by `apply_replacements` (engine.py:129). -/
def LintViolation.fix (v : LintViolation) : Fix := ⟨v.base.node, v.base.replacement⟩

/-- `bool(violation.replacement)`, engine.py:111 and `LintViolation.autofixable`, ftypes.py:269-274. -/
def LintViolation.autofixable (v : LintViolation) : Bool := v.fix.usable.isSome

/-- What linting depends on outside the modelled code. `C` are configurations.
Everything that may read files is given the current contents of the file system (engine.py:55, 100-103, api.py:122, 143, config.py:558-594). -/
structure Env (C : Type) where
  /-- `path.resolve()` (assumed not to raise) -/
  resolve : Path → Path
  /-- `generate_config(path, options=options)` -/
  config : (Path → Option Bytes) → Path → Except Err C
  /-- `collect_rules(config)` -/
  collect : (Path → Option Bytes) → C → Except Err (List RuleInst)
  /-- `parse_module(source)` -/
  parse : Bytes → Except Err Node
  /-- metadata and `wrapper.visit_batched(rules)`, engine.py:81-103: the violations each rule recorded and the durations measured -/
  visit : (Path → Option Bytes) → C → Node → List RuleInst → Except Err ((RuleInst → List (Violation Nat Repl)) × Metrics)
  /-- `unified_diff(orig, change, path.name, n=1)` -/
  unifiedDiff : PStr → PStr → Path → Except Err PStr
  /-- what the metrics hook raises, if anything -/
  hookRaises : Metrics → Option Err
  /-- `config.formatter` -/
  formatter : C → Option PStr
  /-- `FORMAT_STYLES` without the `None` entry, by class registration order, format.py:20-34: `format` of each style -/
  styles : List (PStr × (Node → Path → Except Err Bytes))
  /-- `module.bytes` (format.py:36-40) -/
  bytes : Node → Except Err Bytes
  /-- what `read_bytes` raises for an existing file, if anything -/
  readRaises : Path → Option Err
  /-- what opening for writing raises, if anything -/
  openRaises : Path → Option Err
  /-- what writing raises, if anything, and how many bytes got through before -/
  writeRaises : Path → Bytes → Option (Nat × Err)
  /-- `sys.stdin.buffer.read()` -/
  stdin : Except Err Bytes
  /-- what writing to standard output raises, if anything -/
  stdoutRaises : Bytes → Option Err

section
variable {C : Type} (env : Env C)

/-- `f"Count.{rule.name}"`, engine.py:106. -/
def countKey (n : PStr) : PStr := py "Count." ++ n
/-- `f"FixCount.{rule.name}"`, engine.py:107. -/
def fixCountKey (n : PStr) : PStr := py "FixCount." ++ n
/-- engine.py:118. -/
def totalKey : PStr := py "Count.Total"

/-- `diff_violation`, engine.py:31-48. -/
def diffViolation (path : Path) (m : Node) (node : Nat) (r : Repl) : Except Err PStr := do
  let (orig, change) ← diffTexts m node r
  env.unifiedDiff orig change path

/-- The inner loop, engine.py:108-116, for the rule named `name`; `count` and `self.metrics` are carried along. -/
def violationLoop (path : Path) (m : Node) (name : PStr) : List (Violation Nat Repl) → Nat × Metrics → Gen World LintViolation Unit (Nat × Metrics)
  | [], st => .ret st
  | v :: vs, (n, μ) =>
    match (⟨v.node, v.replacement⟩ : Fix).usable with
    | some r =>
      match diffViolation env path m v.node r with
      | .error e => .raise e
      | .ok d => .yield ⟨v, d⟩ (fun _ => violationLoop path m name vs (n + 1, dictSet (fixCountKey name) (metric (fixCountKey name) μ + 1) μ))
    | none => .yield ⟨v, []⟩ (fun _ => violationLoop path m name vs (n + 1, μ))

/-- The outer loop, engine.py:105-116; `recorded` is `rule._violations`. -/
def ruleLoop (path : Path) (m : Node) (recorded : RuleInst → List (Violation Nat Repl)) :
    List RuleInst → Nat × Metrics → Gen World LintViolation Unit (Nat × Metrics)
  | [], st => .ret st
  | r :: rs, (n, μ) =>
    (violationLoop env path m r.name (recorded r) (n, dictSet (fixCountKey r.name) 0 (dictSet (countKey r.name) (recorded r).length μ))).bind
      (fun st => ruleLoop path m recorded rs st)

/-- `metrics_hook(self.metrics)`, engine.py:120-121. -/
def callHook {Y S : Type} (hook : Bool) (μ : Metrics) : Gen World Y S Unit :=
  if hook then .act (fun w => { w with log := w.log ++ [.hook μ] }) (fun _ => match env.hookRaises μ with | some e => .raise e | none => .ret ())
  else .ret ()

/-- `LintRunner.collect_violations`, engine.py:58-123. `hook` says whether a metrics hook was given. -/
def collectViolations (path : Path) (m : Node) (rules : List RuleInst) (cfg : C) (hook : Bool) : Gen World LintViolation Unit Nat :=
  .look (fun w =>
    (Gen.ofExcept (env.visit w.files cfg m rules)).bind (fun (recorded, durations) =>
      (ruleLoop env path m recorded rules (0, durations)).bind (fun (n, μ) =>
        (callHook env hook (dictSet totalKey n μ)).bind (fun _ => .ret n))))

end
end Fixit
