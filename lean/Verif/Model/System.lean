import Verif.Model.Api
import Verif.Model.Collect

/-!
# The parts put together

`Env` (Model/Engine) leaves open how a configuration is found, which rules it selects and what the rules record. Here those three are the models of `config.py` and
`rule.py`, so that only the code outside the repository, and the visitors of the individual rules, stay open.
-/

namespace Fixit
open Py

/-- A call `self.report(node, message, position=…, replacement=…)` in a visitor of a rule, rule.py:219-226. -/
structure ReportCall where
  node : Nat
  message : Option PStr := none
  position : PositionArg := .none
  replacement : Option Repl := none

/-- What the visitors of the rules do in `wrapper.visit_batched(rules)`, engine.py:103: the calls of `report` in the order they are made, then what they raise
themselves, if anything; and the durations measured. -/
structure Visiting where
  calls : List (RuleInst × ReportCall)
  raised : Option Err
  durations : Metrics

/-- What the whole program depends on outside the modelled code. Classes are named by numbers; `V` are Python versions, `M` the state of the import system (the libraries and files behind api.py:97-150, config.py:202-272, 558-594, engine.py:52-143). -/
structure Outside (V M : Type) where
  /-- the engine's environment; its `config`, `collect`, `visit` and `formatter` are not used -/
  base : Env (Config V)
  /-- `path.is_dir()` -/
  isDir : Path → Bool
  /-- `path.resolve()` of the path of a configuration file: symbolic links are followed -/
  real : Path → Path := id
  /-- `tomllib.loads(text)` of a file's content -/
  toml : Bytes → Except Err Dict
  /-- `FileNotFoundError` -/
  missing : Err
  cfg : CfgEnv V
  /-- the iteration order of the sets in `merge_configs` -/
  configOrder : List QualifiedRule → List QualifiedRule
  /-- the import system and the rule classes, given the files -/
  rules : (Path → Option Bytes) → CollectEnv Nat V M
  /-- the iteration order of the sets in `collect_rules` -/
  ruleOrder : List Nat → List Nat
  sysPath : List PStr
  mods : M
  /-- `type(rule).__name__` -/
  className : Nat → PStr
  /-- `MESSAGE` -/
  classMessage : Nat → Option PStr
  unicode : Unicode
  /-- the comments of a module, and where a node is in it -/
  tree : Node → ModuleTree
  pos : Node → Nat → Pos
  /-- `PositionProvider` -/
  range : Node → Nat → CodeRange
  /-- the visitors of the rules -/
  visitors : (Path → Option Bytes) → Config V → Node → List RuleInst → Visiting

section
variable {V M : Type} (o : Outside V M)

/-- The rule object of a class: `R()`, config.py:270, with the name of rule.py:98-102. -/
def Outside.inst (k : Nat) : RuleInst := ⟨k, ruleName (o.className k)⟩

/-- `path.is_dir()`, `path.is_file()` and `path.resolve()` (config.py:290, 299, 322). -/
def Outside.fs (files : Path → Option Bytes) : FS := ⟨o.isDir, fun p => (files p).isSome, o.real⟩

/-- Reading a configuration file, config.py:323. -/
def Outside.load (files : Path → Option Bytes) (p : Path) : Except Err Dict :=
  match files p with
  | none => .error o.missing
  | some b => o.toml b

/-- The calls of `report` on the rules of a module; `st` are the `_violations` so far. The `ValueError` of a report without a message ends the visit (rule.py:219-265, engine.py:103). -/
def Outside.runCalls (m : Node) : List (RuleInst × ReportCall) → (RuleInst → List (Violation Nat Repl)) → Except Err (RuleInst → List (Violation Nat Repl))
  | [], st => .ok st
  | (r, c) :: cs, st =>
    match report o.unicode (nodeComments (o.tree m) (o.pos m c.node)) (o.range m c.node) ⟨r.name, o.classMessage r.id, st r⟩ c.node c.message c.position c.replacement with
    | none => .error .value
    | some s => Outside.runCalls m cs (fun r' => if r' = r then s.violations else st r')

/-- `wrapper.visit_batched(rules)`, engine.py:81-103: rule objects are new, so their `_violations` are empty (rule.py:99). -/
def Outside.visit (files : Path → Option Bytes) (cfg : Config V) (m : Node) (rules : List RuleInst) :
    Except Err ((RuleInst → List (Violation Nat Repl)) × Metrics) :=
  match o.runCalls m (o.visitors files cfg m rules).calls (fun _ => []) with
  | .error e => .error e
  | .ok st => match (o.visitors files cfg m rules).raised with
    | some e => .error e
    | none => .ok (st, (o.visitors files cfg m rules).durations)

/-- `generate_config(path, options=options)`, api.py:208 and config.py:558-594. -/
def Outside.config (options : Option Options) (files : Path → Option Bytes) (path : Path) : Except Err (Config V) :=
  generateConfig o.cfg o.configOrder (o.fs files) (o.load files) path none options

/-- `collect_rules(config)`, api.py:122 and config.py:202-272; the import system starts from the same state each time. -/
def Outside.collect (files : Path → Option Bytes) (cfg : Config V) : Except Err (List RuleInst) :=
  (collectRules (o.rules files) o.ruleOrder cfg o.sysPath o.mods).1.map (fun c => c.rules.map o.inst)

/-- The environment of the engine (api.py:97-219). -/
def Outside.env (options : Option Options) : Env (Config V) :=
  { o.base with
    config := o.config options
    collect := o.collect
    visit := o.visit
    formatter := fun cfg => cfg.formatter }

end
end Fixit
