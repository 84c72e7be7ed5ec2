import Verif.Model.Cst

/-!
# The bundled rules about expressions

One function per rule: what the rule does when libCST visits one node. The rules that remember something between nodes, and the rules about
statements, are in `Stateful`, `Classes`, `Strings`, `Scopes` and `Extra` beside this file.
-/

namespace Cst
open Py

/-- What a rule does with a node: nothing, `self.report(node)`, `self.report(node, replacement=…)`, or the visit method raises (rule.py:219-265). -/
inductive Report (α : Type) where
  | silent
  | warn
  | fix (replacement : α)
  | crash

/-! ## NoStaticIfCondition -/

/-- `NoStaticIfCondition._extract_static_bool` (rules/no_static_if_condition.py:117-148). -/
def extractStaticBool : Expr → Option Bool
  | .paren e => extractStaticBool e
  | .call _ _ => none
  | .not e =>
    match extractStaticBool e with
    | none => none
    | some b => some (!b)
  | .name s => if s = py "True" then some true else if s = py "False" then some false else none
  | .bool op l r =>
    match op with
    | .or => if extractStaticBool r = some true ∨ extractStaticBool l = some true then some true else none
    | .and => if extractStaticBool r = some false ∨ extractStaticBool l = some false then some false else none
  | _ => none

/-- `NoStaticIfCondition.visit_If` (rules/no_static_if_condition.py:150-152), on the test of the `if`. -/
def noStaticIfCondition (test : Expr) : Report Expr := if (extractStaticBool test).isSome then .warn else .silent

/-! ## CollapseIsinstanceChecks -/

/-- `CollapseIsinstanceChecks.unwrap` (rules/chained_instance_check.py:131-138). For `seen_boolean_operations`, which keeps
the left part of a chain from being looked at again on its own, see `isinstanceRule` in Bundled. -/
def unwrapOr : Expr → List Expr
  | .paren e =>
    match e.core with
    | .bool .or _ _ => unwrapOr e
    | _ => [.paren e]
  | .bool .or l r => unwrapOr l ++ [r]
  | e => [e]

/-- What the rule asks of libCST: whether two subtrees are equal (`deep_equals`, which also compares white space) and whether a call is a
call of the builtin `isinstance` (`QualifiedNameProvider.has_name`) (rules/chained_instance_check.py:140-168). -/
structure IsinstanceOracle where
  deepEquals : Expr → Expr → Bool
  isBuiltin : Expr → Bool

/-- An operand of the collapsed chain: an expression kept as it is, or the place of a target, by its position in `targets` (rules/chained_instance_check.py:140-168). -/
inductive Operand where
  | keep (e : Expr)
  | target (i : Nat)

/-- A two-argument `isinstance` call whose second argument is not a tuple: its target and its type
(rules/chained_instance_check.py:149-156). Stars and keywords are not looked at. -/
def isinstanceCall (o : IsinstanceOracle) (e : Expr) : Option (Expr × Expr) :=
  match e.core with
  | .call _ [a, b] =>
    match b.value.core with
    | .tuple _ => none
    | _ => if o.isBuiltin e then some (a.value, b.value) else none
  | _ => none

/-- The first known target equal to this one (rules/chained_instance_check.py:158-164). -/
def findTarget (o : IsinstanceOracle) (t : Expr) (targets : List (Expr × List Expr)) : Option Nat :=
  targets.findIdx? (fun p => o.deepEquals t p.1)

/-- `CollapseIsinstanceChecks.collect_targets` (rules/chained_instance_check.py:140-168); `targets` is the dict, in insertion order. -/
def collectTargets (o : IsinstanceOracle) : List Expr → List Operand × List (Expr × List Expr) → List Operand × List (Expr × List Expr)
  | [], acc => acc
  | e :: es, (operands, targets) =>
    match isinstanceCall o e with
    | some (t, ty) =>
      match findTarget o t targets with
      | some i => collectTargets o es (operands, targets.modify i (fun p => (p.1, p.2 ++ [ty])))
      | none => collectTargets o es (operands ++ [.target targets.length], targets ++ [(t, [ty])])
    | none => collectTargets o es (operands ++ [.keep e], targets)

/-- `isinstance(target, type)` or `isinstance(target, (type, …))` (rules/chained_instance_check.py:113-119). A new tuple node has
parentheses. -/
def newIsinstance (p : Expr × List Expr) : Expr :=
  .call (.name (py "isinstance")) [.pos p.1, .pos (match p.2 with | [ty] => ty | tys => .paren (.tuple (tys.map .plain)))]

/-- An operand written out (rules/chained_instance_check.py:112-119). -/
def Operand.expr (targets : List (Expr × List Expr)) : Operand → Expr
  | .keep e => e
  | .target i => match targets[i]? with | some p => newIsinstance p | none => .name []

/-- `a or b or …`, grouped to the left (rules/chained_instance_check.py:121-126). -/
def joinOr : List Expr → Option Expr
  | [] => none
  | e :: es => some (es.foldl (fun l r => .bool .or l r) e)

/-- `CollapseIsinstanceChecks.visit_BooleanOperation` (rules/chained_instance_check.py:100-129) on a node that is not the left part of a
chain already seen. The replacement is a new node: it does not have the parentheses of the old one. -/
def collapseIsinstance (o : IsinstanceOracle) (node : Expr) : Report Expr :=
  match node.core with
  | .bool _ _ _ =>
    let stack := unwrapOr node
    let r := collectTargets o stack ([], [])
    if r.1.length = stack.length then .silent
    else match joinOr (r.1.map (Operand.expr r.2)) with
      | some e => .fix e
      | none => .silent
  | _ => .silent

/-! ## ComparePrimitivesByEqual -/

/-- `isinstance(node, (cst.BaseNumber, cst.BaseString))` (rules/compare_primitives_by_equal.py:56). -/
def isPrimitive (e : Expr) : Bool :=
  match e.core with
  | .num _ => true
  | .str _ => true
  | .fstr _ => true
  | .other k _ => k == py "ConcatenatedString"
  | _ => false

/-- `isinstance(operator, (cst.Is, cst.IsNot))` (rules/compare_primitives_by_equal.py:58-68). -/
def CompOp.isIdentity : CompOp → Bool
  | .is => true
  | .isNot => true
  | _ => false

/-- The loop of `ComparePrimitivesByEqual.visit_Comparison` (rules/compare_primitives_by_equal.py:58-68): is there a link to report? -/
def hasPrimitiveIdentity (prev : Expr) : List Target → Bool
  | [] => false
  | .mk op c :: ts => (op.isIdentity && (isPrimitive prev || isPrimitive c)) || hasPrimitiveIdentity c ts

/-- The operator that `replace_operators` puts (rules/compare_primitives_by_equal.py:79-89). -/
def toEquality : CompOp → CompOp
  | .is => .eq
  | _ => .ne

/-- `ComparePrimitivesByEqual.replace_operators` (rules/compare_primitives_by_equal.py:70-95). -/
def replaceOperators (prev : Expr) : List Target → List Target
  | [] => []
  | .mk op c :: ts =>
    (if op.isIdentity then if isPrimitive prev || isPrimitive c then .mk (toEquality op) c else .mk op c else .mk op c)
      :: replaceOperators c ts

/-- `ComparePrimitivesByEqual.visit_Comparison` (rules/compare_primitives_by_equal.py:58-68). -/
def comparePrimitivesByEqual (node : Expr) : Report Expr :=
  match node.core with
  | .comp l ts => if hasPrimitiveIdentity l ts then .fix (node.withCore fun _ => .comp l (replaceOperators l ts)) else .silent
  | _ => .silent

/-! ## CompareSingletonPrimitivesByIs -/

/-- A qualified name of a name, and whether its source is "builtin" (rules/compare_singleton_primitives_by_is.py:81-89). -/
abbrev QName := PStr × Bool

/-- `QUALIFIED_SINGLETON_PRIMITIVES` (rules/compare_singleton_primitives_by_is.py:74-79). -/
def singletonNames : List QName := [(py "builtins.True", true), (py "builtins.False", true), (py "builtins.None", true)]

/-- `is_singleton` (rules/compare_singleton_primitives_by_is.py:81-89); `quals` is what `QualifiedNameProvider` has for a name. The set
comparison is `<`: a proper subset. -/
def isSingleton (quals : PStr → List QName) (e : Expr) : Bool :=
  match e.core with
  | .name s => !(quals s).isEmpty && (quals s).all (singletonNames.contains ·) && !(singletonNames.all ((quals s).contains ·))
  | _ => false

/-- `isinstance(operator, (cst.Equal, cst.NotEqual))` (rules/compare_singleton_primitives_by_is.py:91-108). -/
def CompOp.isEquality : CompOp → Bool
  | .eq => true
  | .ne => true
  | _ => false

/-- `alter_operator` (rules/compare_singleton_primitives_by_is.py:115-128). -/
def toIdentity : CompOp → CompOp
  | .ne => .isNot
  | _ => .is

/-- The loop of `CompareSingletonPrimitivesByIs.visit_Comparison` (rules/compare_singleton_primitives_by_is.py:91-108): `needs_report`
and `altered_comparisons`. -/
def alterComparisons (quals : PStr → List QName) (left : Expr) : List Target → Bool × List Target
  | [] => (false, [])
  | .mk op c :: ts =>
    let rest := alterComparisons quals c ts
    if op.isEquality && (isSingleton quals left || isSingleton quals c) then (true, .mk (toIdentity op) c :: rest.2)
    else (rest.1, .mk op c :: rest.2)

/-- `CompareSingletonPrimitivesByIs.visit_Comparison` (rules/compare_singleton_primitives_by_is.py:91-113). -/
def compareSingletonByIs (quals : PStr → List QName) (node : Expr) : Report Expr :=
  match node.core with
  | .comp l ts =>
    if (alterComparisons quals l ts).1 then .fix (node.withCore fun _ => .comp l (alterComparisons quals l ts).2) else .silent
  | _ => .silent

/-! ## NoRedundantLambda -/

/-- `_is_simple_parameter_spec` (rules/no_redundant_lambda.py:48-57). -/
def isSimpleParams (p : Params) : Bool :=
  if p.starKwarg || p.kwonly > 0 || p.posonly > 0 || p.starArg then false else p.params.all (fun q => !q.2)

/-- `args=[m.Arg(value=m.Name(p), star="", keyword=None) for p in params]` (rules/no_redundant_lambda.py:64-71). -/
def argsArePlainNames : List PStr → List Arg → Bool
  | [], [] => true
  | p :: ps, .mk .none none v :: as => v.isName p && argsArePlainNames ps as
  | _, _ => false

/-- `NoRedundantLambda.visit_Lambda` (rules/no_redundant_lambda.py:59-83). -/
def noRedundantLambda (node : Expr) : Report Expr :=
  match node.core with
  | .lam ps body =>
    match body.core with
    | .call f args => if isSimpleParams ps && argsArePlainNames (ps.params.map (·.1)) args then .fix f else .silent
    | _ => .silent
  | _ => .silent

/-! ## NoRedundantListComprehension -/

/-- `NoRedundantListComprehension.visit_Call` (rules/no_redundant_list_comprehension.py:45-66). The generator expression gets no
parentheses; star and keyword of the argument stay. -/
def noRedundantListComprehension (node : Expr) : Report Expr :=
  match node.core with
  | .call f [.mk st kw v] =>
    match v.core with
    | .listComp elt cs =>
      if f.isName (py "all") || f.isName (py "any") then .fix (node.withCore fun _ => .call f [.mk st kw (.genExp elt cs)]) else .silent
    | _ => .silent
  | _ => .silent

/-! ## RewriteToLiteral -/

/-- The elements of a list or tuple display (rules/rewrite_to_literal.py:71-155). -/
def displayElems (e : Expr) : Option (List Elem) :=
  match e.core with
  | .list es => some es
  | .tuple es => some es
  | _ => none

/-- An element of `pairs_matcher` (rules/rewrite_to_literal.py:83-86): a plain element that is a two-element display; the two elements
may be starred. `DictElement(val.elements[0].value, val.elements[1].value)` (105-122). -/
def pairElem : Elem → Option DictElem
  | .starred _ => none
  | .plain e =>
    match displayElems e with
    | some [a, b] => some (.pair a.value b.value)
    | _ => none

/-- All the elements are pairs (rules/rewrite_to_literal.py:83-86). -/
def pairElems : List Elem → Option (List DictElem)
  | [] => some []
  | e :: es =>
    match pairElem e with
    | none => none
    | some p => (pairElems es).map (p :: ·)

/-- `RewriteToLiteral.visit_Call` (rules/rewrite_to_literal.py:71-155). `deep_replace(node, new)` gives `new`; new tuples have
parentheses. Star and keyword of the argument are not looked at. -/
def rewriteToLiteral (node : Expr) : Report Expr :=
  match node.core with
  | .call f [] =>
    if f.isName (py "tuple") then .fix (.paren (.tuple []))
    else if f.isName (py "list") then .fix (.list [])
    else if f.isName (py "dict") then .fix (.dict [])
    else .silent
  | .call f [.mk _ _ v] =>
    match displayElems v with
    | none => .silent
    | some es =>
      if f.isName (py "tuple") then .fix (.paren (.tuple es))
      else if f.isName (py "list") then .fix (.list es)
      else if f.isName (py "set") then .fix (if es.isEmpty then .call (.name (py "set")) [] else .set es)
      else if f.isName (py "dict") then
        match pairElems es with
        | some ps => .fix (.dict ps)
        | none => .silent
      else .silent
  | _ => .silent

/-! ## RewriteToComprehension -/

/-- The element and the clauses of a generator expression or a list comprehension (rules/rewrite_to_comprehension.py:99-149). -/
def compParts (e : Expr) : Option (Expr × List Clause) :=
  match e.core with
  | .genExp elt cs => some (elt, cs)
  | .listComp elt cs => some (elt, cs)
  | _ => none

/-- `RewriteToComprehension.visit_Call` (rules/rewrite_to_comprehension.py:99-149). The matcher for the element of a `dict` is
`m.Tuple(m.DoNotCare(), m.DoNotCare())`, whose two arguments are `elements` and `lpar`: it accepts any tuple, and
`elt.elements[1]` raises for a short one. -/
def rewriteToComprehension (node : Expr) : Report Expr :=
  match node.core with
  | .call f [.mk _ _ v] =>
    match compParts v with
    | none => .silent
    | some (elt, cs) =>
      if f.isName (py "list") then .fix (.listComp elt cs)
      else if f.isName (py "set") then .fix (.setComp elt cs)
      else if f.isName (py "dict") then
        match displayElems elt with
        | some (a :: b :: _) => .fix (.dictComp a.value b.value cs)
        | some _ => .crash
        | none => .silent
      else .silent
  | _ => .silent

/-! ## The unittest rules -/

/-- `m.Attribute(value=m.Name("self"), attr=m.Name(method))` (rules/use_assert_in.py:67-171). -/
def isSelfMethod (method : PStr) (f : Expr) : Bool :=
  match f.core with
  | .attr v a => v.isName (py "self") && a == method
  | _ => false

/-- `cst.Attribute(value=cst.Name("self"), attr=cst.Name(method))` (rules/use_assert_in.py:67-171). -/
def selfMethod (method : PStr) : Expr := .attr (.name (py "self")) method

/-- `replacements` (rules/deprecated_unittest_asserts.py:72-80). -/
def deprecatedAsserts : List (PStr × PStr) :=
  [(py "assertEquals", py "assertEqual"), (py "assertNotEquals", py "assertNotEqual"),
   (py "assertAlmostEquals", py "assertAlmostEqual"), (py "assertNotAlmostEquals", py "assertNotAlmostEqual"),
   (py "assertRegexpMatches", py "assertRegex"), (py "assertNotRegexpMatches", py "assertNotRegex"),
   (py "assertRaisesRegexp", py "assertRaisesRegex")]

/-- `node.func.with_deep_changes(old_node=node.func.attr, value=…)` (rules/deprecated_unittest_asserts.py:81-95). -/
def renameMethod (method : PStr) (f : Expr) : Expr :=
  f.withCore fun c => match c with | .attr v _ => .attr v method | c => c

/-- The loop over `replacements` (rules/deprecated_unittest_asserts.py:81-95). -/
def findDeprecated (f : Expr) : List (PStr × PStr) → Option PStr
  | [] => none
  | (old, new) :: rest => if isSelfMethod old f then some new else findDeprecated f rest

/-- `DeprecatedUnittestAsserts.visit_Call` (rules/deprecated_unittest_asserts.py:71-95). -/
def deprecatedUnittestAsserts (node : Expr) : Report Expr :=
  match node.core with
  | .call f args =>
    match findDeprecated f deprecatedAsserts with
    | some new => .fix (node.withCore fun _ => .call (renameMethod new f) args)
    | none => .silent
  | _ => .silent

/-- The kinds of second argument the rule looks for (rules/no_assert_true_for_comparison.py:66-79). -/
def isLiteralLike (e : Expr) : Bool :=
  match e.core with
  | .num _ => true
  | .tuple _ => true
  | .list _ => true
  | .set _ => true
  | .dict _ => true
  | .name s => s == py "None" || s == py "True" || s == py "False"
  | _ => false

/-- `NoAssertTrueForComparisons.visit_Call` (rules/no_assert_true_for_comparison.py:58-117). -/
def noAssertTrueForComparisons (node : Expr) : Report Expr :=
  match node.core with
  | .call f [a, b] =>
    if isSelfMethod (py "assertTrue") f && isLiteralLike b.value then
      if b.value.isName (py "True") then .fix (node.withCore fun _ => .call f [a])
      else if b.value.isName (py "None") then .fix (node.withCore fun _ => .call (renameMethod (py "assertIsNone") f) [a])
      else if b.value.isName (py "False") then .fix (node.withCore fun _ => .call (renameMethod (py "assertFalse") f) [a])
      else .fix (node.withCore fun _ => .call (renameMethod (py "assertEqual") f) [a, b])
    else .silent
  | _ => .silent

/-- A comparison with one link and that operator: its two sides (rules/use_assert_in.py:67-171). -/
def singleLink (op : CompOp) (e : Expr) : Option (Expr × Expr) :=
  match e.core with
  | .comp l [.mk o r] => if o = op then some (l, r) else none
  | _ => none

/-- The inner expression of `not …` (rules/use_assert_in.py:67-171). -/
def negated (e : Expr) : Option Expr :=
  match e.core with
  | .not x => some x
  | _ => none

/-- `UseAssertIn.visit_Call` (rules/use_assert_in.py:67-171). Star and keyword of the argument are not looked at. -/
def useAssertIn (node : Expr) : Report Expr :=
  match node.core with
  | .call f [a] =>
    let isTrue := isSelfMethod (py "assertTrue") f
    let isFalse := isSelfMethod (py "assertFalse") f
    match (if isTrue then singleLink .isIn a.value else none) with
    | some (x, y) => .fix (node.withCore fun _ => .call (selfMethod (py "assertIn")) [.pos x, .pos y])
    | none =>
      match (if isTrue then (negated a.value).bind (singleLink .isIn) else none).or
          ((if isTrue then singleLink .notIn a.value else none).or (if isFalse then singleLink .isIn a.value else none)) with
      | some (x, y) => .fix (node.withCore fun _ => .call (selfMethod (py "assertNotIn")) [.pos x, .pos y])
      | none => .silent
  | _ => .silent

/-- `x is None` (`false`) or `x is not None` (`true`), as the matcher of `UseAssertIsNotNone` sees it
(rules/use_assert_is_not_none.py:88-94). -/
def noneCheck (e : Expr) : Option (Expr × Bool) :=
  match e.core with
  | .comp l [.mk .is r] => if r.isName (py "None") then some (l, false) else none
  | .comp l [.mk .isNot r] => if r.isName (py "None") then some (l, true) else none
  | _ => none

/-- The argument as a check for `None`, possibly under one `not`: the expression, whether there is a `not`, whether it is `is not`
(rules/use_assert_is_not_none.py:104-135). -/
def noneArgument (e : Expr) : Option (Expr × Bool × Bool) :=
  match noneCheck e with
  | some (x, isNot) => some (x, false, isNot)
  | none => ((negated e).bind noneCheck).map fun p => (p.1, true, p.2)

/-- `UseAssertIsNotNone.visit_Call` (rules/use_assert_is_not_none.py:87-159). -/
def useAssertIsNotNone (node : Expr) : Report Expr :=
  match node.core with
  | .call f [a] =>
    if isSelfMethod (py "assertTrue") f || isSelfMethod (py "assertFalse") f then
      match noneArgument a.value with
      | some (x, hasNot, isNot) =>
        let negations := (if isSelfMethod (py "assertFalse") f then 1 else 0) + (if hasNot then 1 else 0) + (if isNot then 1 else 0)
        .fix (node.withCore fun _ =>
          .call (selfMethod (if negations % 2 = 0 then py "assertIsNone" else py "assertIsNotNone")) [.pos x])
      | none => .silent
    else .silent
  | _ => .silent

end Cst
