import Verif.Model.Testing

/-!
# `add_lint_rule_tests_to_module` of `testing.py`
-/

namespace Fixit
open Py

/-- An element of the collection `rules`: an instance of a rule class, or anything else, a class among others (testing.py:157-159). -/
inductive Given where
  | instance (r : RuleClass)
  | other

/-- `gen_all_test_methods`, testing.py:151-162: the rules tests are made for. -/
def ruleInstances : List Given → List RuleClass
  | [] => []
  | .instance r :: gs => r :: ruleInstances gs
  | .other :: gs => ruleInstances gs

/-- A class made by `type(rule_name, (LintRuleTestCase,), …)`, testing.py:187: the rule it was made for, and its `__module__`. -/
structure TestClass where
  rule : RuleClass
  module : PStr

/-- `generate_lint_rule_test_cases`, testing.py:165-190. A class has the `__module__` of the code that calls `type`. -/
def generateClasses (given : List Given) : List TestClass := (ruleInstances given).map (fun r => ⟨r, py "fixit.testing"⟩)

/-- The value of an attribute of a module: the class made for a rule, by its place in the list of classes made, a string, or anything else (testing.py:221, 227). -/
inductive AttrValue where
  | testClass (i : Nat)
  | str (s : PStr)
  | other
  deriving DecidableEq

/-- testing.py:220-221, from the `i`-th class on. -/
def addClasses : Nat → List TestClass → List (PStr × AttrValue) → List (PStr × AttrValue)
  | _, [], attrs => attrs
  | i, c :: cs, attrs => addClasses (i + 1) cs (dictSet c.rule.name (.testClass i) attrs)

/-- What a call leaves behind: the attributes of the module, the classes made, and whether it returned (testing.py:193-230). -/
structure Added where
  attrs : List (PStr × AttrValue)
  classes : List TestClass
  result : Except Failure Unit

/-- `module_attrs.get("__package__")` (testing.py:226-227). -/
def packageOf (attrs : List (PStr × AttrValue)) : Option AttrValue := (attrs.find? (fun e => e.1 = py "__package__")).map (·.2)

/-- `add_lint_rule_tests_to_module`, testing.py:193-230. -/
def addLintRuleTests (attrs : List (PStr × AttrValue)) (given : List Given) : Added :=
  let classes := generateClasses given
  let attrs' := addClasses 0 classes attrs
  match packageOf attrs' with
  | none => ⟨attrs', classes, .ok ()⟩
  | some (.str s) => ⟨attrs', classes.map (fun c => { c with module := s }), .ok ()⟩
  | some _ => ⟨attrs', classes, .error (.assertion .bare)⟩

end Fixit
