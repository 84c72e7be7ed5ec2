import Verif.Py.Str

/-!
# Expressions as libCST represents them

The part of libCST's expression nodes (`libcst/_nodes/expression.py`) that the bundled rules look at. libCST is a dependency, not part of
the repository; this is its documented data model. What is dropped: white space, commas and comments inside an expression; numbers and
string literals keep their source text only. Every expression kind that no modelled rule inspects is `other`, with its kind and its
subexpressions.

In libCST the parentheses around an expression are stored in the expression's own node (`lpar`/`rpar`), and a matcher such as
`m.Name("True")` ignores them. Here a pair of parentheses is `paren`; a libCST node is a maximal chain of `paren` with what is inside,
and `core` is what a matcher looks at.
-/

namespace Cst
open Py

/-- `Arg.star` (`""`, `"*"` or `"**"`) (rules/no_redundant_lambda.py:64-71). -/
inductive Star where
  | none | one | two
deriving DecidableEq, Repr

/-- `BooleanOperation.operator` (rules/chained_instance_check.py:100-138). -/
inductive BoolOp where
  | or | and
deriving DecidableEq, Repr

/-- `ComparisonTarget.operator` (rules/compare_primitives_by_equal.py:58-95, rules/use_assert_in.py:67-171). -/
inductive CompOp where
  | lt | le | gt | ge | eq | ne | is | isNot | isIn | notIn
deriving DecidableEq, Repr

/-- `Parameters` of a lambda: the plain parameters with "has a default", and whether there are positional-only parameters, keyword-only
parameters, a `*` or `*args` (`star_arg`), a `**kwargs` (`star_kwarg`). The default expressions themselves are dropped (rules/no_redundant_lambda.py:48-57). -/
structure Params where
  params : List (PStr × Bool)
  posonly : Nat := 0
  kwonly : Nat := 0
  starArg : Bool := false
  starKwarg : Bool := false
deriving DecidableEq, Repr

mutual
/-- An expression (the expressions that the rules in rules/*.py match, for example rules/no_static_if_condition.py:117-148). -/
inductive Expr where
  | name (s : PStr)
  /-- `Integer`, `Float`, `Imaginary` -/
  | num (text : PStr)
  /-- `SimpleString` -/
  | str (text : PStr)
  /-- `FormattedString` -/
  | fstr (parts : List FPart)
  | attr (value : Expr) (a : PStr)
  | call (func : Expr) (args : List Arg)
  | lam (params : Params) (body : Expr)
  | bool (op : BoolOp) (left right : Expr)
  /-- `UnaryOperation` with `Not` -/
  | not (e : Expr)
  | comp (left : Expr) (targets : List Target)
  | tuple (es : List Elem)
  | list (es : List Elem)
  | set (es : List Elem)
  | dict (es : List DictElem)
  | genExp (elt : Expr) (clauses : List Clause)
  | listComp (elt : Expr) (clauses : List Clause)
  | setComp (elt : Expr) (clauses : List Clause)
  | dictComp (key value : Expr) (clauses : List Clause)
  | await (e : Expr)
  | other (kind : PStr) (kids : List Expr)
  | paren (e : Expr)

/-- A piece of an f-string: literal text, or an expression with what follows it up to the closing brace (rules/no_redundant_fstring.py:52-64, rules/use_fstring.py:181-217). -/
inductive FPart where
  | text (s : PStr)
  | expr (e : Expr) (spec : PStr)

/-- `Arg`: the star, the keyword, the value (rules/rewrite_to_literal.py:71-155). -/
inductive Arg where
  | mk (star : Star) (keyword : Option PStr) (value : Expr)

/-- `ComparisonTarget`: an operator and what comes after it (rules/compare_primitives_by_equal.py:58-68). -/
inductive Target where
  | mk (op : CompOp) (comparator : Expr)

/-- `Element` or `StarredElement` (rules/rewrite_to_literal.py:71-155). -/
inductive Elem where
  | plain (e : Expr)
  | starred (e : Expr)

/-- `DictElement` or `StarredDictElement` (rules/rewrite_to_literal.py:71-155). -/
inductive DictElem where
  | pair (k v : Expr)
  | starred (e : Expr)

/-- `CompFor`: one `[async] for target in iter if … if …`; `for_in.inner_for_in` is the next clause of the list (rules/rewrite_to_comprehension.py:99-149). -/
inductive Clause where
  | mk (isAsync : Bool) (target : Expr) (iter : Expr) (ifs : List Expr)
end

/-- `Expr` is not empty (a default value, of no meaning; used nowhere in rules/*.py). -/
instance : Inhabited Expr := ⟨.name []⟩

/-- The node without its own parentheses: what a matcher compares (as `m.matches` does, for example rules/no_redundant_lambda.py:59-83). -/
def Expr.core : Expr → Expr
  | .paren e => e.core
  | e => e

/-- `node.with_changes(…)`: a new node of the same kind keeps the parentheses of the old one (rules/compare_primitives_by_equal.py:70-95). -/
def Expr.withCore (f : Expr → Expr) : Expr → Expr
  | .paren e => .paren (e.withCore f)
  | e => f e

/-- `arg.star` (rules/no_redundant_lambda.py:64-71). -/
def Arg.star : Arg → Star | .mk s _ _ => s
/-- `arg.keyword` (rules/no_redundant_lambda.py:64-71). -/
def Arg.keyword : Arg → Option PStr | .mk _ k _ => k
/-- `arg.value` (rules/rewrite_to_literal.py:71-155). -/
def Arg.value : Arg → Expr | .mk _ _ v => v
/-- `cst.Arg(value)` (rules/use_assert_in.py:67-171). -/
def Arg.pos (v : Expr) : Arg := .mk .none none v

/-- `target.operator` (rules/compare_primitives_by_equal.py:58-68). -/
def Target.op : Target → CompOp | .mk o _ => o
/-- `target.comparator` (rules/compare_primitives_by_equal.py:58-68). -/
def Target.comparator : Target → Expr | .mk _ c => c

/-- `element.value`, star or not (rules/use_fstring.py:189-193). -/
def Elem.value : Elem → Expr | .plain e => e | .starred e => e
/-- `isinstance(element, cst.StarredElement)` (rules/rewrite_to_literal.py:83-86). -/
def Elem.isStarred : Elem → Bool | .plain _ => false | .starred _ => true

/-- `for_in.asynchronous is not None` (rules/rewrite_to_comprehension.py:99-149). -/
def Clause.isAsync : Clause → Bool | .mk a _ _ _ => a

/-- `m.Name(s)` (rules/rewrite_to_literal.py:71-155, rules/replace_union_with_optional.py:95). -/
def Expr.isName (s : PStr) (e : Expr) : Bool :=
  match e.core with
  | .name t => t == s
  | _ => false

end Cst
