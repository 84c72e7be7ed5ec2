import Verif.Model.Rules.Stateful
import Verif.Model.Rules.Extra

/-!
# The bundled rules as visitors

The functions of the other modules say what a rule does at one node. Here they become the visitor methods of the rules in `rules/` and `rules/extra/`, with their messages.
-/

namespace Cst
open Py Fixit Spec

/-- What the rules see of the module: for the node with a number, what it is as an expression, class, function and so on, and what libCST's metadata say about it (the
arguments of the visitor methods and `get_metadata`, for example rules/cls_in_classmethod.py:223-290). For a node of another kind the values are of no meaning. -/
structure Looks where
  /-- the module -/
  root : Syn
  /-- the node as an expression -/
  expr : Nat → Expr
  /-- the types in the handlers of a `try` -/
  handlers : Nat → List (Option Expr)
  /-- the test of an `if` -/
  test : Nat → Expr
  /-- the f-string -/
  fstring : Nat → FNode
  /-- the operands, when the operator is `%` -/
  percent : Nat → Option (Expr × Expr)
  /-- the decorators of a class, with their nodes -/
  decorators : Nat → List (Nat × Expr)
  /-- the statements in a class -/
  lines : Nat → List Line
  /-- the annotation -/
  annotation : Nat → Ann
  /-- the function definition, whether there is scope metadata, the scopes around it, and a new node -/
  method : Nat → Method
  hasScope : Nat → Bool
  around : Nat → List ScopeFrame
  fresh : Nat → Nat
  /-- the text of a comment -/
  comment : Nat → PStr
  /-- `QualifiedNameProvider` and `ScopeProvider` -/
  qual : Nat → List PStr
  names : Nat → PStr → List QName
  isinstance : Nat → IsinstanceOracle
  /-- the `or` operations among a node, its left operand, the left operand of that, and so on, as long as they are `or` operations -/
  spine : Nat → List Nat
  isClassmethod : Expr → Bool
  isDataclass : Expr → Bool
  isNamedTuple : Nat → Bool
  scope : Nat → Except Err (Option (PStr → Bool))
  optionalKnown : Nat → Bool
  /-- `module.code_for_node`, `get_full_name_for_node` and `SimpleString.evaluated_value` (text or bytes), also decoded; `cst.parse_expression` -/
  code : Expr → PStr
  fullName : Expr → Option PStr
  value : PStr → Except Err (PStr ⊕ Bytes)
  decoded : PStr → Except Err PStr
  parse : PStr → Option Expr

/-- A rule that remembers nothing (for example rules/no_static_if_condition.py:150-152). -/
def VRule.each (methods : List PStr) (f : Ev → Except Err (List Rep)) : VRule :=
  ⟨Unit, (), methods, fun st s e => (f e).map (fun out => (st, s, out))⟩

/-- The node of a step (rule.py:267-281). -/
def Ev.node : Ev → Nat | .visit i _ => i | .leave i _ => i
/-- The label of the node of a step (rule.py:267-281). -/
def Ev.label : Ev → Label | .visit _ l => l | .leave _ l => l

/-- `self.report(node, message, replacement=…)` as a method decided (for example rules/rewrite_to_literal.py:151-155); `x` is what it raises when it raises. -/
def reported {α : Type} (x : Err) (change : α → Change) (i : Nat) (message : Option PStr) : Report α → Except Err (List Rep)
  | .silent => .ok []
  | .warn => .ok [{ node := i, message := message }]
  | .fix a => .ok [{ node := i, message := message, change := some (change a) }]
  | .crash => .error x

/-- A rule about expressions with one visitor method (for example rules/compare_primitives_by_equal.py:58-68). -/
def exprRule (L : Looks) (method : PStr) (message : Expr → Option PStr) (f : Nat → Expr → Report Expr) : VRule :=
  .each [method] (fun e => reported .index .expr e.node (message (L.expr e.node)) (f e.node (L.expr e.node)))

/-- The name of what is called, `cst.ensure_type(node.func, cst.Name).value` (rules/rewrite_to_literal.py:90). -/
def calledName (e : Expr) : PStr :=
  match e.core with
  | .call f _ => match f.core with | .name s => s | _ => []
  | _ => []

/-- `UNNECESSARY_LAMBDA.format(…)` (rules/no_redundant_lambda.py:13-16, 73-83). -/
def lambdaMessage (L : Looks) (e : Expr) : PStr :=
  match e.core with
  | .lam _ body => py "The lambda that is wrapping " ++ (L.fullName body).getD (py "function") ++ py " is redundant. It can unwrapped safely and used purely."
  | _ => []

/-- `UNNECESSARY_LIST_COMPREHENSION.format(…)` (rules/no_redundant_list_comprehension.py:12-15). -/
def shortCircuitMessage (e : Expr) : PStr :=
  py "Unnecessary list comprehension - " ++ calledName e ++ py " can take a generator, and is likely to short-circuit, so constructing a list is probably wasteful."

/-- `UNNECESSARY_GENERATOR` or `UNNECESSARY_LIST_COMPREHENSION` (rules/rewrite_to_comprehension.py:14-21, 109-116). -/
def comprehensionMessage (e : Expr) : PStr :=
  match e.core with
  | .call _ [.mk _ _ v] => match v.core with
    | .genExp _ _ => py "It's unnecessary to use " ++ calledName e ++ py " around a generator expression, since there are equivalent comprehensions for this type."
    | _ => py "It's unnecessary to use a list comprehension inside a call to " ++ calledName e ++ py " since there are equivalent comprehensions for this type"
  | _ => []

/-- `UNNCESSARY_CALL` or `UNNECESSARY_LITERAL` (rules/rewrite_to_literal.py:14-22, 95-107). -/
def literalMessage (e : Expr) : PStr :=
  match e.core with
  | .call _ [] => py "It's slower to call " ++ calledName e ++ py "() than using the empty literal, because the name " ++ calledName e ++
      py " must be looked up in the global scope in case it has been rebound."
  | _ => py "It's unnecessary to use a list or tuple within a call to " ++ calledName e ++ py " since there is literal syntax for this type"

/-- `str.format` with keyword arguments, for templates whose fields are plain names (rules/deprecated_unittest_asserts.py:92). `field`: the name read so far, inside braces. -/
def formatNamed (values : List (PStr × PStr)) : Option PStr → PStr → PStr
  | _, [] => []
  | none, c :: cs => if c = '{' then formatNamed values (some []) cs else c :: formatNamed values none cs
  | some name, c :: cs => if c = '}' then (values.lookup name).getD [] ++ formatNamed values none cs else formatNamed values (some (name ++ [c])) cs

/-- `MESSAGE` (rules/deprecated_unittest_asserts.py:19). -/
def deprecatedTemplate : PStr := py "{deprecated} is deprecated, use {replacement} instead"

/-- `self.MESSAGE.format(deprecated=…, replacement=…)` (rules/deprecated_unittest_asserts.py:19, 92). -/
def assertMessage (e : Expr) : PStr :=
  match e.core with
  | .call f _ => match f.core with
    | .attr _ a => formatNamed [(py "deprecated", a), (py "replacement", ((deprecatedAsserts.find? (fun d => d.1 = a)).map (·.2)).getD [])] none deprecatedTemplate
    | _ => []
  | _ => []

/-- `CollapseIsinstanceChecks` (rules/chained_instance_check.py:96-138): the state is `seen_boolean_operations`, to which `unwrap` adds. -/
def isinstanceRule (L : Looks) : VRule :=
  ⟨List Nat, [], [py "visit_BooleanOperation"], fun st seen e =>
    if e.node ∈ seen then .ok (st, seen, [])
    else (reported .index .expr e.node none (collapseIsinstance (L.isinstance e.node) (L.expr e.node))).map (fun out => (st, seen ++ L.spine e.node, out))⟩

/-- `NoInheritFromObject` (rules/no_inherit_from_object.py:48-62). -/
def objectRule : VRule :=
  .each [py "visit_ClassDef"] (fun e => match e.label with
    | .classDef _ _ bases => match withoutObject (bases.map (·.2)) with
      | some new => .ok [{ node := e.node, change := some (.bases new) }]
      | none => .ok []
    | _ => .ok [])

/-- `NoNamedTuple` (rules/no_namedtuple.py:171-184). -/
def namedTupleRule (L : Looks) : VRule :=
  .each [py "leave_ClassDef"] (fun e => match e.label with
    | .classDef _ _ bases => match dropNamedTuple L.isNamedTuple bases ((L.decorators e.node).map (·.2)) with
      | some (new, ds) => .ok [{ node := e.node, change := some (.classHead (new.map (·.2)) ds) }]
      | none => .ok []
    | _ => .ok [])

/-- `SortedAttributes` (rules/sorted_attributes_rule.py:80-119). -/
def sortedRule (L : Looks) : VRule :=
  .each [py "visit_ClassDef"] (fun e => match sortAttributes (L.lines e.node) with
    | .error x => .error x
    | .ok none => .ok []
    | .ok (some new) => .ok [{ node := e.node, change := some (.lines new) }])

/-- `ExplicitFrozenDataclass` (rules/extra/explicit_frozen_dataclass.py:230-263). -/
def frozenRule (L : Looks) : VRule :=
  .each [py "visit_ClassDef"] (fun e => .ok ((frozenReports L.isDataclass ((L.decorators e.node).map (·.2))).filterMap (fun r =>
    ((L.decorators e.node)[r.1]?).map (fun d => { node := d.1, change := some (.decorator r.2) }))))

/-- What the second visitor method of `UseFstring` raises: what `evaluated_value` raises (rules/use_fstring.py:223-227). -/
def evaluationError (L : Looks) (left : Expr) : Err :=
  match left.core with
  | .str text => match L.value text with
    | .error x => x
    | .ok _ => .value
  | _ => .value

/-- What `UseFstring` does on visiting a node (rules/use_fstring.py:149-228). -/
def fstringMethod (L : Looks) (e : Ev) : Except Err (List Rep) :=
  if e.method = py "visit_Call" then reported .value .fstring e.node none (useFstringCall (L.expr e.node))
  else if e.method = py "visit_BinaryOperation" then
    match L.percent e.node with
    | some (left, right) => reported (evaluationError L left) .fstring e.node none (useFstring L.code (fun t => (L.value t).toOption) Sum.isLeft left right)
    | none => .ok []
  else .ok []

/-- `UseFstring` (rules/use_fstring.py:149-228). -/
def fstringRule (L : Looks) : VRule := .each [py "visit_Module", py "visit_Call", py "visit_BinaryOperation"] (fstringMethod L)

/-- The rules in rules/ and rules/extra/ (rules/__init__.py:1-8). -/
inductive Bundled where
  | avoidOrInExcept | collapseIsinstanceChecks | useClsInClassmethod | comparePrimitivesByEqual | compareSingletonPrimitivesByIs | deprecatedABCImport | deprecatedUnittestAsserts
  | noAssertTrueForComparisons | noInheritFromObject | noNamedTuple | noRedundantArgumentsSuper | noRedundantFString | noRedundantLambda | noRedundantListComprehension
  | noStaticIfCondition | noStringTypeAnnotation | replaceUnionWithOptional | rewriteToComprehension | rewriteToLiteral | sortedAttributes | useAssertIn | useAssertIsNotNone
  | useAsyncSleepInAsyncDef | useFstring | useTypesFromTyping | explicitFrozenDataclass | useLintFixmeComment
deriving DecidableEq, Repr

/-- `MESSAGE` of the class, if it has one (rules/avoid_or_in_except.py:70-74 and the same attribute in the other files). -/
def Bundled.message : Bundled → Option PStr
  | .avoidOrInExcept => some (py "Avoid using 'or' in an except block. For example:'except ValueError or TypeError' only catches 'ValueError'. Instead, use parentheses, 'except (ValueError, TypeError)'")
  | .collapseIsinstanceChecks => some (py "Multiple isinstance calls with the same target but different types can be collapsed into a single call with a tuple of types.")
  | .useClsInClassmethod => some (py "When using @classmethod, the first argument must be `cls`.")
  | .comparePrimitivesByEqual => some (py "Don't use `is` or `is not` to compare primitives, as they compare references. Use == or != instead.")
  | .compareSingletonPrimitivesByIs => some (py "Comparisons to singleton primitives should not be done with == or !=, as they check equality rather than identity. Use `is` or `is not` instead.")
  | .deprecatedABCImport => some (py "ABCs must be imported from collections.abc")
  | .deprecatedUnittestAsserts => some deprecatedTemplate
  | .noAssertTrueForComparisons => some (py "\"assertTrue\" does not compare its arguments, use \"assertEqual\" or other appropriate functions.")
  | .noInheritFromObject => some (py "Inheriting from object is a no-op.  'class Foo:' is just fine =)")
  | .noNamedTuple => some (py "Instead of NamedTuple, consider using the @dataclass decorator from dataclasses instead for simplicity, efficiency and consistency.")
  | .noRedundantArgumentsSuper => some (py "Do not use arguments when calling super for the parent class. See https://www.python.org/dev/peps/pep-3135/")
  | .noRedundantFString => some (py "f-string doesn't have placeholders, remove redundant f-string.")
  | .noRedundantLambda => none
  | .noRedundantListComprehension => none
  | .noStaticIfCondition => some (py "Your if condition appears to evaluate to a static value (e.g. `or True`, `and False`). Please double check this logic and if it is actually temporary debug code.")
  | .noStringTypeAnnotation => some (py "String type hints are no longer necessary in Python, use the type identifier directly.")
  | .replaceUnionWithOptional => some (py "`Optional[T]` is preferred over `Union[T, None]` or `Union[None, T]`. Learn more: https://docs.python.org/3/library/typing.html#typing.Optional")
  | .rewriteToComprehension => none
  | .rewriteToLiteral => none
  | .sortedAttributes => some (py "It appears you are using the @sorted-attributes directive and the class variables are unsorted. See the lint autofix suggestion.")
  | .useAssertIn => some (py "Use assertIn/assertNotIn instead of assertTrue/assertFalse for inclusion check.\nSee https://docs.python.org/3/library/unittest.html#unittest.TestCase.assertIn)")
  | .useAssertIsNotNone => some (py "\"assertTrue\" and \"assertFalse\" are deprecated. Use \"assertIsNotNone\" and \"assertIsNone\" instead.\nSee https://docs.python.org/3.8/library/unittest.html#deprecated-aliases")
  | .useAsyncSleepInAsyncDef => some (py "Use asyncio.sleep in async function")
  | .useFstring => some (py "Do not use printf style formatting or .format(). Use f-string instead to be more readable and efficient. See https://www.python.org/dev/peps/pep-0498/")
  | .useTypesFromTyping => none
  | .explicitFrozenDataclass => some (py "When using dataclasses, explicitly specify a frozen keyword argument. Example: `@dataclass(frozen=True)` or `@dataclass(frozen=False)`. Docs: https://docs.python.org/3/library/dataclasses.html")
  | .useLintFixmeComment => some (py "noqa is deprecated. Use `lint-fixme` or `lint-ignore` instead.")

/-- The visitor methods of each rule (rules/avoid_or_in_except.py:97-102 and the other files). -/
def bundled (L : Looks) : Bundled → VRule
  | .avoidOrInExcept => .each [py "visit_Try"] (fun e => .ok (if avoidOrInExcept (L.handlers e.node) then [{ node := e.node }] else []))
  | .collapseIsinstanceChecks => isinstanceRule L
  | .useClsInClassmethod => .each [py "visit_FunctionDef"] (fun e =>
      reported .value .method e.node none (useCls L.isClassmethod (L.hasScope e.node) (L.around e.node) (L.fresh e.node) (L.method e.node)))
  | .comparePrimitivesByEqual => exprRule L (py "visit_Comparison") (fun _ => none) (fun _ => comparePrimitivesByEqual)
  | .compareSingletonPrimitivesByIs => exprRule L (py "visit_Comparison") (fun _ => none) (fun i => compareSingletonByIs (L.names i))
  | .deprecatedABCImport => abcRule L.root
  | .deprecatedUnittestAsserts => exprRule L (py "visit_Call") (fun e => some (assertMessage e)) (fun _ => deprecatedUnittestAsserts)
  | .noAssertTrueForComparisons => exprRule L (py "visit_Call") (fun _ => none) (fun _ => noAssertTrueForComparisons)
  | .noInheritFromObject => objectRule
  | .noNamedTuple => namedTupleRule L
  | .noRedundantArgumentsSuper => superRule
  | .noRedundantFString => .each [py "visit_FormattedString"] (fun e => match noRedundantFString (L.fstring e.node) with
      | some new => .ok [{ node := e.node, change := some (.expr (.str new)) }]
      | none => .ok [])
  | .noRedundantLambda => exprRule L (py "visit_Lambda") (fun e => some (lambdaMessage L e)) (fun _ => noRedundantLambda)
  | .noRedundantListComprehension => exprRule L (py "visit_Call") (fun e => some (shortCircuitMessage e)) (fun _ => noRedundantListComprehension)
  | .noStaticIfCondition => .each [py "visit_If"] (fun e => reported .value .expr e.node none (noStaticIfCondition (L.test e.node)))
  | .noStringTypeAnnotation => quotedRule L.qual L.decoded L.parse
  | .replaceUnionWithOptional => .each [py "leave_Annotation"] (fun e => reported .value .annotation e.node none (replaceUnion (L.optionalKnown e.node) (L.annotation e.node)))
  | .rewriteToComprehension => exprRule L (py "visit_Call") (fun e => some (comprehensionMessage e)) (fun _ => rewriteToComprehension)
  | .rewriteToLiteral => exprRule L (py "visit_Call") (fun e => some (literalMessage e)) (fun _ => rewriteToLiteral)
  | .sortedAttributes => sortedRule L
  | .useAssertIn => exprRule L (py "visit_Call") (fun _ => none) (fun _ => useAssertIn)
  | .useAssertIsNotNone => exprRule L (py "visit_Call") (fun _ => none) (fun _ => useAssertIsNotNone)
  | .useAsyncSleepInAsyncDef => asyncSleepRule L.qual (py "Use asyncio.sleep in async function")
  | .useFstring => fstringRule L
  | .useTypesFromTyping => typingRule L.qual L.scope
  | .explicitFrozenDataclass => frozenRule L
  | .useLintFixmeComment => .each [py "visit_Comment"] (fun e => .ok (if noqaComment (L.comment e.node) then [{ node := e.node }] else []))

end Cst
