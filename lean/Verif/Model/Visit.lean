import Verif.Model.Cst
import Verif.Model.Engine
import Verif.Model.Rules.Classes
import Verif.Model.Rules.Strings
import Verif.Model.Rules.Scopes

/-!
# Visiting a module with several rules at once

libCST's batched visitor (`MetadataWrapper.visit_batched`, `libcst/_batched_visitor.py`), which `engine.py` calls, walks over the tree once; at each node it calls the
`visit_…` methods of all rules, in the order of the rules, then visits the children in the order of the source text, then calls the `leave_…` methods. libCST is a
dependency; this is its documented behaviour.

A tree here is a rose tree of nodes. Each node has an identity (a number) and a label: its kind, and what the modelled rules look at when they are at it. The
children of a node are its children in libCST; white space and commas, which no rule visits, can be left out.
-/

namespace Cst
open Py Fixit

/-- `ImportAlias`: its node, `name` (a `Name` or an `Attribute`) and `asname` (rules/deprecated_abc_import.py:190-194, upgrade/deprecated_import.py:90-114). -/
structure ImportName where
  id : Nat
  name : Expr
  asname : Option Expr

/-- What a node is, for the rules (the nodes with a visitor method in rules/*.py and upgrade/*.py, for example rules/no_redundant_arguments_super.py:118-139). -/
inductive Label where
  | module
  /-- `ClassDef`: the name and its node, and the bases, each with the node of its `value` -/
  | classDef (name : PStr) (nameId : Nat) (bases : List (Nat × Arg))
  /-- `FunctionDef` -/
  | funcDef (isAsync : Bool)
  | annotation
  | subscript
  | simpleString (text : PStr)
  | name (s : PStr)
  | call (func : Expr) (args : List Arg)
  /-- `ImportFrom`: the number of leading dots, the module if there is one, the names, or `none` for `*` -/
  | importFrom (dots : Nat) (module : Option Expr) (names : Option (List ImportName))
  | importAlias (a : ImportName)
  | exceptHandler
  | other (type : PStr)

/-- `type(node).__name__` (rule.py:267-281). -/
def Label.typeName : Label → PStr
  | .module => py "Module"
  | .classDef _ _ _ => py "ClassDef"
  | .funcDef _ => py "FunctionDef"
  | .annotation => py "Annotation"
  | .subscript => py "Subscript"
  | .simpleString _ => py "SimpleString"
  | .name _ => py "Name"
  | .call _ _ => py "Call"
  | .importFrom _ _ _ => py "ImportFrom"
  | .importAlias _ => py "ImportAlias"
  | .exceptHandler => py "ExceptHandler"
  | .other t => t

/-- `isinstance(node, cst.ExceptHandler)` (rules/deprecated_abc_import.py:168-180). -/
def Label.isExcept : Label → Bool
  | .exceptHandler => true
  | _ => false

/-- A syntax tree (engine.py:100-103). -/
inductive Syn where
  | node (id : Nat) (label : Label) (kids : List Syn)

/-- The node's identity (engine.py:100-103). -/
def Syn.id : Syn → Nat | .node i _ _ => i
/-- The node's label (engine.py:100-103). -/
def Syn.label : Syn → Label | .node _ l _ => l
/-- `node.children` (engine.py:100-103). -/
def Syn.kids : Syn → List Syn | .node _ _ ks => ks

/-- One step of the walk (engine.py:103, rule.py:267-281). -/
inductive Ev where
  | visit (id : Nat) (label : Label)
  | leave (id : Nat) (label : Label)

/-- The method called: `visit_ClassDef`, `leave_Call`, … (rule.py:267-281). -/
def Ev.method : Ev → PStr
  | .visit _ l => py "visit_" ++ l.typeName
  | .leave _ l => py "leave_" ++ l.typeName

mutual
/-- The walk over a tree (engine.py:103). -/
def Syn.events : Syn → List Ev
  | .node i l ks => .visit i l :: (Syn.eventsAll ks ++ [.leave i l])
/-- The walk over some trees, one after another (engine.py:103). -/
def Syn.eventsAll : List Syn → List Ev
  | [] => []
  | k :: ks => k.events ++ Syn.eventsAll ks
end

/-- What a rule says about a node: a replacement for it (rule.py:219-265). -/
inductive Change where
  /-- `node.with_changes(args=…)` -/
  | args (as : List Arg)
  /-- `node.with_changes(value=…)` of a name -/
  | rename (s : PStr)
  /-- `alias.with_changes(name=…, asname=…)` -/
  | alias (name : Expr) (asname : Option Expr)
  /-- `node.with_changes(module=…)` -/
  | fromModule (m : Expr)
  /-- `node.with_changes(bases=…)` -/
  | bases (bs : List Arg)
  /-- another expression -/
  | expr (e : Expr)
  /-- `node.with_changes(body=…)` of a module -/
  | body (stmts : List Syn)
  /-- another f-string -/
  | fstring (n : FNode)
  /-- another function definition -/
  | method (m : Method)
  /-- `node.with_changes(annotation=…)` -/
  | annotation (a : Ann)
  /-- `node.with_changes(bases=…, decorators=…)` of a class -/
  | classHead (bases : List Arg) (decorators : List Expr)
  /-- `node.with_changes(body=…)` of a class -/
  | lines (ls : List Line)
  /-- `node.with_changes(decorator=…)` -/
  | decorator (e : Expr)

/-- `self.report(node, message, replacement=…)` (rule.py:219-265). -/
structure Rep where
  node : Nat
  message : Option PStr := none
  change : Option Change := none

/-- The metadata that rules can change: the sets of `FullyQualifiedNameProvider`, by node, in the order `pop` would take the names. They are made once for a module and
`get_metadata` gives every rule the same set (engine.py:91-102). -/
abbrev Store := Nat → List PStr

/-- A rule: what it remembers, its visitor methods, and what they do (rule.py:267-281). -/
structure VRule where
  State : Type
  init : State
  methods : List PStr
  on : Store → State → Ev → Except Err (Store × State × List Rep)

/-- One step of the walk for one rule: only methods that the rule defines are called (`LintRule.get_visitors`, rule.py:267-281). -/
def VRule.step (r : VRule) (e : Ev) (st : Store) (s : r.State) : Except Err (Store × r.State × List Rep) :=
  if e.method ∈ r.methods then r.on st s e else .ok (st, s, [])

/-- A walk for one rule (engine.py:103). -/
def VRule.steps (r : VRule) : List Ev → Store → r.State → Except Err (Store × r.State × List Rep)
  | [], st, s => .ok (st, s, [])
  | e :: es, st, s =>
    match r.step e st s with
    | .error x => .error x
    | .ok (st, s, out) => match VRule.steps r es st s with
      | .error x => .error x
      | .ok (st, s, out') => .ok (st, s, out ++ out')

/-- A rule alone on a module (engine.py:103). -/
def VRule.alone (r : VRule) (meta_ : Store) (t : Syn) : Except Err (List Rep) :=
  (r.steps t.events meta_ r.init).map (fun x => x.2.2)

/-- What several rules remember (engine.py:103). -/
def States : List VRule → Type
  | [] => Unit
  | r :: rs => r.State × States rs

/-- New rule objects, rule.py:98-102. -/
def States.init : (rs : List VRule) → States rs
  | [] => ()
  | r :: rs => (r.init, States.init rs)

/-- One step of the walk for several rules in order, numbered from `i` (engine.py:103). -/
def batchStep : (rs : List VRule) → Nat → Ev → Store → States rs → Except Err (Store × States rs × List (Nat × Rep))
  | [], _, _, st, s => .ok (st, s, [])
  | r :: rs, i, e, st, (s, ss) =>
    match r.step e st s with
    | .error x => .error x
    | .ok (st, s, out) => match batchStep rs (i + 1) e st ss with
      | .error x => .error x
      | .ok (st, ss, out') => .ok (st, (s, ss), out.map (fun o => (i, o)) ++ out')

/-- A walk for several rules (engine.py:103). -/
def batchSteps (rs : List VRule) : List Ev → Store → States rs → Except Err (Store × States rs × List (Nat × Rep))
  | [], st, s => .ok (st, s, [])
  | e :: es, st, s =>
    match batchStep rs 0 e st s with
    | .error x => .error x
    | .ok (st, s, out) => match batchSteps rs es st s with
      | .error x => .error x
      | .ok (st, s, out') => .ok (st, s, out ++ out')

/-- `wrapper.visit_batched(rules)`, engine.py:100-103: the calls of `report`, each with the number of the rule. -/
def visitBatched (rs : List VRule) (meta_ : Store) (t : Syn) : Except Err (List (Nat × Rep)) :=
  (batchSteps rs t.events meta_ (States.init rs)).map (fun x => x.2.2)

/-- The names under which `_visit_hook` is entered, in order: `f"{type(self).__name__}.{name}"`, rule.py:267-281. `rs` are the class names and methods of the rules. -/
def hookNames (rs : List (PStr × List PStr)) (evs : List Ev) : List PStr :=
  evs.flatMap (fun e => rs.filterMap (fun r => if e.method ∈ r.2 then some (r.1 ++ py "." ++ e.method) else none))

/-- `self.metrics[f"Duration.{name}"] += duration_us`, engine.py:71-79; `clock` is how long the calls take. -/
def durations : List PStr → List Nat → Metrics → Metrics
  | n :: ns, d :: ds, μ => durations ns ds (dictSet (py "Duration." ++ n) (metric (py "Duration." ++ n) μ + d) μ)
  | _, _, μ => μ

end Cst
