import Verif.Spec.PyEval

/-!
# Vocabulary for the properties of the bundled rules

What the statements about the rules need besides the evaluator: how an `if` tests its condition, and the documented behaviour of the
builtins and of `unittest` that a rewrite relies on, as assumptions on an interpretation.
-/

namespace Cst
open Py

/-- How a condition (of `if`, `while`, `not`, …) is tested: `not`, `and` and `or` are control flow, and each operand is tested at most
once. -/
def evalCond (I : Interp) (ρ : I.Locals) : Expr → Run I.St I.Exc Bool
  | .paren e => evalCond I ρ e
  | .not e => (evalCond I ρ e).bind fun b => Run.pure (!b)
  | .bool .or l r => (evalCond I ρ l).bind fun b => if b then Run.pure true else evalCond I ρ r
  | .bool .and l r => (evalCond I ρ l).bind fun b => if b then evalCond I ρ r else Run.pure false
  | e => (eval I ρ e).bind I.truth

/-- The truth values of the constants. -/
structure ConstTruth (I : Interp) : Prop where
  true : I.truth I.true = Run.pure true
  false : I.truth I.false = Run.pure false

/-- The condition `e` cannot come out other than `b`, for a reason visible in its text: it is the constant `b`, the negation of such a
condition, or an `or` (`and`) with an operand that is always true (always false). -/
inductive Forced : Expr → Bool → Prop where
  | true : Forced (.name (py "True")) true
  | false : Forced (.name (py "False")) false
  | paren {e b} : Forced e b → Forced (.paren e) b
  | not {e b} : Forced e b → Forced (.not e) (!b)
  | orLeft {l r} : Forced l true → Forced (.bool .or l r) true
  | orRight {l r} : Forced r true → Forced (.bool .or l r) true
  | andLeft {l r} : Forced l false → Forced (.bool .and l r) false
  | andRight {l r} : Forced r false → Forced (.bool .and l r) false

/-- The condition never comes out as anything but `b`, whatever the program, the variables and the state. -/
def AlwaysIs (e : Expr) (b : Bool) : Prop :=
  ∀ (I : Interp), ConstTruth I → ∀ (ρ : I.Locals) (s s' : I.St) (r : Bool), evalCond I ρ e s = (.ok r, s') → r = b

end Cst

namespace Cst
open Py

/-- The expression has the value `v`, in every state and without any effect. -/
def Evaluates (I : Interp) (ρ : I.Locals) (e : Expr) (v : I.Val) : Prop := eval I ρ e = Run.pure v

/-- What the documentation says of the builtin `isinstance`: it answers a Boolean, and for a tuple of types it answers whether one of
them fits. `inst` is "is an instance of", `tup` makes a tuple object. -/
structure IsinstanceLaws (I : Interp) (isin : I.Val) (inst : I.Val → I.Val → Bool) (tup : List I.Val → I.Val) : Prop where
  tuple : ∀ vs, I.tuple vs = Run.pure (tup vs)
  call : ∀ x t, I.call isin [x, t] [] = Run.pure (I.ofBool (inst x t))
  any : ∀ x ts, inst x (tup ts) = ts.any (inst x)

/-- The operands of a chain of `or`: `a or b or (c or d)` has `a`, `b` and `c or d`. Parentheses around the left part do not matter. -/
inductive Operands : Expr → List Expr → Prop where
  | leaf {e} : (∀ l r, e.core ≠ .bool .or l r) → Operands e [e]
  | or {e l r es} : e.core = .bool .or l r → Operands l es → Operands e (es ++ [r])

end Cst

namespace Cst
open Py

/-- What counts as a check that can be collapsed: given by `call`, the target and the type of an operand that is one. The types checked
for `t` in a chain, in order. -/
def typesFor (call : Expr → Option (Expr × Expr)) (eqv : Expr → Expr → Bool) (t : Expr) (es : List Expr) : List Expr :=
  es.filterMap fun e => match call e with | some (t', ty) => if eqv t' t then some ty else none | none => none

/-- The targets of the checks in a chain, in order. -/
def targetsOf (call : Expr → Option (Expr × Expr)) (es : List Expr) : List Expr := es.filterMap fun e => (call e).map (·.1)

/-- The chain with the checks of each target gathered at its first check; `seen` are the targets met before. -/
def gathered (call : Expr → Option (Expr × Expr)) (eqv : Expr → Expr → Bool) (build : Expr → List Expr → Expr) : List Expr → List Expr → List Expr
  | _, [] => []
  | seen, e :: es =>
    match call e with
    | none => e :: gathered call eqv build seen es
    | some (t, _) =>
      if seen.any (eqv t) then gathered call eqv build seen es
      else build t (typesFor call eqv t (e :: es)) :: gathered call eqv build (seen ++ [t]) es

end Cst

namespace Cst
open Py

/-- The links of a comparison `l op₁ c₁ op₂ c₂ …`: `(l, op₁, c₁)`, `(c₁, op₂, c₂)`, … -/
def linksOf : Expr → List (CompOp × Expr) → List (Expr × CompOp × Expr)
  | _, [] => []
  | l, (op, c) :: rest => (l, op, c) :: linksOf c rest

/-- The operators and comparators of a comparison. -/
def Target.both : Target → CompOp × Expr
  | .mk op c => (op, c)

/-- The links of a comparison expression. -/
def Expr.links (e : Expr) : List (Expr × CompOp × Expr) :=
  match e.core with
  | .comp l ts => linksOf l (ts.map Target.both)
  | _ => []

/-- The source text of a number or a string. -/
inductive PrimitiveLiteral : Expr → Prop where
  | num {e t} : e.core = .num t → PrimitiveLiteral e
  | str {e t} : e.core = .str t → PrimitiveLiteral e
  | fstr {e ps} : e.core = .fstr ps → PrimitiveLiteral e
  | concat {e es} : e.core = .other (py "ConcatenatedString") es → PrimitiveLiteral e

/-- `None`, `True` or `False`. -/
inductive SingletonLiteral : Expr → Prop where
  | none {e} : e.core = .name (py "None") → SingletonLiteral e
  | true {e} : e.core = .name (py "True") → SingletonLiteral e
  | false {e} : e.core = .name (py "False") → SingletonLiteral e

/-- `is` for `==` and `is not` for `!=`, and the other way round. -/
inductive Swap : CompOp → CompOp → Prop where
  | is : Swap .is .eq
  | isNot : Swap .isNot .ne

/-- How a link changes when `changes` holds of it. -/
inductive LinkChange (changes : Expr → CompOp → Expr → Prop) (swap : CompOp → CompOp → Prop) : Expr × CompOp × Expr → Expr × CompOp × Expr → Prop where
  | same {l op r} : ¬ changes l op r → LinkChange changes swap (l, op, r) (l, op, r)
  | swap {l op op' r} : changes l op r → swap op op' → LinkChange changes swap (l, op, r) (l, op', r)

/-- Pairwise. -/
inductive LinkChanges (changes : Expr → CompOp → Expr → Prop) (swap : CompOp → CompOp → Prop) :
    List (Expr × CompOp × Expr) → List (Expr × CompOp × Expr) → Prop where
  | nil : LinkChanges changes swap [] []
  | cons {a b as bs} : LinkChange changes swap a b → LinkChanges changes swap as bs → LinkChanges changes swap (a :: as) (b :: bs)

/-- The keywords `None`, `True` and `False` denote the builtins, and nothing else does. -/
structure KeywordScopes (quals : PStr → List (PStr × Bool)) : Prop where
  keyword : ∀ s, s = py "None" ∨ s = py "True" ∨ s = py "False" → quals s = [(py "builtins." ++ s, true)]
  only : ∀ s q, q ∈ quals s → q = (py "builtins.None", true) ∨ q = (py "builtins.True", true) ∨ q = (py "builtins.False", true) →
    s = py "None" ∨ s = py "True" ∨ s = py "False"

/-- Between these two values, `==` and `!=` say what `is` and `is not` say. -/
def EqualityIsIdentity (I : Interp) (a b : I.Val) : Prop :=
  I.rich .eq a b = Run.pure (I.ofBool (I.same a b)) ∧ I.rich .ne a b = Run.pure (I.ofBool (!I.same a b))

end Cst

namespace Cst
open Py

/-- `lambda a, b, c: …`: nothing but plain parameters without defaults. -/
structure PlainParams (p : Params) : Prop where
  posonly : p.posonly = 0
  kwonly : p.kwonly = 0
  starArg : p.starArg = false
  starKwarg : p.starKwarg = false
  noDefaults : ∀ q ∈ p.params, q.2 = false

/-- The names of the plain parameters. -/
def Params.idents (p : Params) : List PStr := p.params.map (·.1)

/-- `…(a, b, c)`: exactly these names as plain positional arguments, in this order. -/
inductive PassesAll : List PStr → List Arg → Prop where
  | nil : PassesAll [] []
  | cons {p ps v as} : v.core = .name p → PassesAll ps as → PassesAll (p :: ps) (.mk .none none v :: as)

/-- `lambda ps: f(ps)`. -/
def ForwardsTo (node f : Expr) : Prop :=
  ∃ ps body args, node.core = .lam ps body ∧ PlainParams ps ∧ body.core = .call f args ∧ PassesAll ps.idents args

/-- The parameters of a lambda that Python accepts: different names, none of them a keyword. -/
structure LegalParams (p : Params) : Prop where
  nodup : p.idents.Nodup
  keyword : ∀ s ∈ p.idents, s ≠ py "None" ∧ s ≠ py "True" ∧ s ≠ py "False"

/-- What calling a lambda does: evaluating `lambda ps: body` makes an object, and calling that with as many positional arguments as there
are parameters evaluates the body with the parameters bound to the arguments. -/
def LambdaLaw (I : Interp) (ρ : I.Locals) (ps : Params) (body : Expr) : Prop :=
  ∀ s fv s' vs, eval I ρ (.lam ps body) s = (.ok fv, s') →
    vs.length = ps.params.length → I.call fv vs [] = eval I (ps.idents.zip vs ++ ρ) body

end Cst

namespace Cst
open Py

/-- How `any` (`stop = true`) and `all` (`stop = false`) go through an iteration: they ask for one item after the other, test it, and
answer `stop` at the first item whose truth is `stop`; if there is none, the other Boolean. -/
def Flow.quantify {S E V : Type} (stop : Bool) (truth : V → Run S E Bool) : Flow S E V → Run S E Bool
  | .done => Run.pure (!stop)
  | .raise e => Run.raise e
  | .yield v r => (truth v).bind fun b => if b = stop then Run.pure stop else r.quantify stop truth
  | .act f k => fun s => (k s).quantify stop truth (f s)

/-- The builtin `f` is `any` (`stop = true`) or `all` (`stop = false`), as far as lists and the generator expression
`(elt for … )` are concerned. -/
structure QuantifierLaws (I : Interp) (stop : Bool) (f : I.Val) (ρ : I.Locals) (elt : Expr) (cs : List Clause) : Prop where
  list : ∀ vs, ((I.list vs).bind fun l => I.call f [l] []) = ((Flow.ofList vs).quantify stop I.truth).bind fun b => Run.pure (I.ofBool b)
  gen : ((eval I ρ (.genExp elt cs)).bind fun g => I.call f [g] []) =
    (evalFirst I ρ cs).bind fun fl => ((fl.each fun ρ' => .just (eval I ρ' elt)).quantify stop I.truth).bind fun b => Run.pure (I.ofBool b)

/-- The expression has an `await`, or an `async for`, of its own. -/
def isAsyncComp (elt : Expr) (cs : List Clause) : Bool := elt.awaits || awaitsClauses cs

end Cst

namespace Cst
open Py

/-- `[…]` or `(…)`, a display with these items. -/
def Display (e : Expr) (es : List Elem) : Prop := e.core = .list es ∨ e.core = .tuple es

/-- `f` is the plain name `s`. -/
def Named (f : Expr) (s : PStr) : Prop := f.core = .name s

/-- Items that are two-item displays, `(k, v)` or `[k, v]`, and the dict items `k: v` made of them. A star inside the pair is lost. -/
inductive PairItems : List Elem → List DictElem → Prop where
  | nil : PairItems [] []
  | cons {e a b es ps} : Display e [a, b] → PairItems es ps → PairItems (.plain e :: es) (.pair a.value b.value :: ps)

/-- The call on the left can be written as the expression on the right. -/
inductive LiteralFor : Expr → Expr → Prop where
  | tuple0 {n f} : n.core = .call f [] → Named f (py "tuple") → LiteralFor n (.paren (.tuple []))
  | list0 {n f} : n.core = .call f [] → Named f (py "list") → LiteralFor n (.list [])
  | dict0 {n f} : n.core = .call f [] → Named f (py "dict") → LiteralFor n (.dict [])
  | tuple {n f st kw v es} : n.core = .call f [.mk st kw v] → Named f (py "tuple") → Display v es → LiteralFor n (.paren (.tuple es))
  | list {n f st kw v es} : n.core = .call f [.mk st kw v] → Named f (py "list") → Display v es → LiteralFor n (.list es)
  | set {n f st kw v es} : n.core = .call f [.mk st kw v] → Named f (py "set") → Display v es → es ≠ [] → LiteralFor n (.set es)
  | emptySet {n f st kw v} : n.core = .call f [.mk st kw v] → Named f (py "set") → Display v [] → LiteralFor n (.call (.name (py "set")) [])
  | dict {n f st kw v es ps} : n.core = .call f [.mk st kw v] → Named f (py "dict") → Display v es → PairItems es ps → LiteralFor n (.dict ps)

/-- These objects are two-item lists or tuples with these contents. -/
inductive PairObjects {I : Interp} (tup lst : List I.Val → I.Val) : List I.Val → List (I.Val × I.Val) → Prop where
  | nil : PairObjects tup lst [] []
  | tup {a b os ps} : PairObjects tup lst os ps → PairObjects tup lst (tup [a, b] :: os) ((a, b) :: ps)
  | lst {a b os ps} : PairObjects tup lst os ps → PairObjects tup lst (lst [a, b] :: os) ((a, b) :: ps)

/-- The builtin container types, as documented; objects are taken up to identity (`tup vs` is *the* tuple with the items `vs`). `B s` is the
builtin with the name `s`. -/
structure ContainerLaws (I : Interp) (B : PStr → I.Val) (tup lst : List I.Val → I.Val) : Prop where
  tuple : ∀ vs, I.tuple vs = Run.pure (tup vs)
  list : ∀ vs, I.list vs = Run.pure (lst vs)
  tuple0 : I.call (B (py "tuple")) [] [] = I.tuple []
  list0 : I.call (B (py "list")) [] [] = I.list []
  set0 : I.call (B (py "set")) [] [] = I.set []
  dict0 : I.call (B (py "dict")) [] [] = I.dict []
  tuple1 : ∀ vs, I.call (B (py "tuple")) [lst vs] [] = I.tuple vs ∧ I.call (B (py "tuple")) [tup vs] [] = I.tuple vs
  list1 : ∀ vs, I.call (B (py "list")) [lst vs] [] = I.list vs ∧ I.call (B (py "list")) [tup vs] [] = I.list vs
  set1 : ∀ vs, I.call (B (py "set")) [lst vs] [] = I.set vs ∧ I.call (B (py "set")) [tup vs] [] = I.set vs
  dict1 : ∀ os ps, PairObjects tup lst os ps → I.call (B (py "dict")) [lst os] [] = I.dict ps ∧ I.call (B (py "dict")) [tup os] [] = I.dict ps

/-- The names of the builtin container types mean them. -/
def ContainerNames (I : Interp) (ρ : I.Locals) (B : PStr → I.Val) : Prop :=
  ∀ s, s = py "tuple" ∨ s = py "list" ∨ s = py "set" ∨ s = py "dict" → I.lookup ρ s = Run.pure (B s)

end Cst

namespace Cst
open Py

/-- `(elt for …)` or `[elt for …]`. -/
def Comprehension (e elt : Expr) (cs : List Clause) : Prop := e.core = .genExp elt cs ∨ e.core = .listComp elt cs

/-- The call on the left can be written as the comprehension on the right. For a `dict`, the first two items of the element are the key and
the value, whatever follows. -/
inductive ComprehensionFor : Expr → Expr → Prop where
  | list {n f st kw v elt cs} : n.core = .call f [.mk st kw v] → Named f (py "list") → Comprehension v elt cs → ComprehensionFor n (.listComp elt cs)
  | set {n f st kw v elt cs} : n.core = .call f [.mk st kw v] → Named f (py "set") → Comprehension v elt cs → ComprehensionFor n (.setComp elt cs)
  | dict {n f st kw v elt cs a b rest} : n.core = .call f [.mk st kw v] → Named f (py "dict") → Comprehension v elt cs →
    Display elt (a :: b :: rest) → ComprehensionFor n (.dictComp a.value b.value cs)

/-- `dict(…)` of a comprehension whose element is a display with fewer than two items. -/
inductive ShortPairs : Expr → Prop where
  | mk {n f st kw v elt cs es} : n.core = .call f [.mk st kw v] → Named f (py "dict") → Comprehension v elt cs →
    Display elt es → es.length < 2 → ShortPairs n

/-- A builtin container type called with the generator expression gets the items that the list comprehension would hold. -/
def ConsumesGenerator (I : Interp) (ρ : I.Locals) (fv : I.Val) (elt : Expr) (cs : List Clause) : Prop :=
  ((eval I ρ (.genExp elt cs)).bind fun g => I.call fv [g] []) = (eval I ρ (.listComp elt cs)).bind fun l => I.call fv [l] []

end Cst

namespace Cst
open Py

/-- `self.<method>`. -/
def SelfMethod (f : Expr) (method : PStr) : Prop := ∃ v, f.core = .attr v method ∧ Named v (py "self")

/-- `x in y`, as a single comparison. -/
def IsIn (e x y : Expr) : Prop := e.core = .comp x [.mk .isIn y]

/-- A call of `self.assertTrue` or `self.assertFalse` that tests membership, with the test it stands for: is `x` in `y` (`true`), or is it
not (`false`)? -/
inductive MembershipTest : Expr → Expr → Expr → Bool → Prop where
  | isIn {n f st kw e x y} : n.core = .call f [.mk st kw e] → SelfMethod f (py "assertTrue") → IsIn e x y → MembershipTest n x y true
  | notIsIn {n f st kw e e' x y} : n.core = .call f [.mk st kw e] → SelfMethod f (py "assertTrue") → e.core = .not e' → IsIn e' x y →
    MembershipTest n x y false
  | notIn {n f st kw e x y} : n.core = .call f [.mk st kw e] → SelfMethod f (py "assertTrue") → e.core = .comp x [.mk .notIn y] →
    MembershipTest n x y false
  | falseIsIn {n f st kw e x y} : n.core = .call f [.mk st kw e] → SelfMethod f (py "assertFalse") → IsIn e x y → MembershipTest n x y false

/-- `x is None` (`true`) or `x is not None` (`false`). -/
inductive NoneTest : Expr → Expr → Bool → Prop where
  | is {e x r} : e.core = .comp x [.mk .is r] → Named r (py "None") → NoneTest e x true
  | isNot {e x r} : e.core = .comp x [.mk .isNot r] → Named r (py "None") → NoneTest e x false

/-- The same, possibly under one `not`. -/
inductive NoneCondition : Expr → Expr → Bool → Prop where
  | plain {e x b} : NoneTest e x b → NoneCondition e x b
  | not {e e' x b} : e.core = .not e' → NoneTest e' x b → NoneCondition e x !b

/-- A call of `self.assertTrue` or `self.assertFalse` that asserts that `x` is `None` (`true`) or that it is not (`false`). -/
inductive NoneAssertion : Expr → Expr → Bool → Prop where
  | true {n f st kw e x b} : n.core = .call f [.mk st kw e] → SelfMethod f (py "assertTrue") → NoneCondition e x b → NoneAssertion n x b
  | false {n f st kw e x b} : n.core = .call f [.mk st kw e] → SelfMethod f (py "assertFalse") → NoneCondition e x b → NoneAssertion n x !b

/-- The methods of a test case, as documented. Which message a failure carries is not distinguished: every failed assertion raises `fail`. -/
structure UnittestLaws (I : Interp) (me : I.Val) (meth : PStr → I.Val) (fail : I.Exc) : Prop where
  getattr : ∀ m, I.getattr me m = Run.pure (meth m)
  assertTrue : ∀ v, I.call (meth (py "assertTrue")) [v] [] = (I.truth v).bind fun b => if b then Run.pure I.none else Run.raise fail
  assertFalse : ∀ v, I.call (meth (py "assertFalse")) [v] [] = (I.truth v).bind fun b => if b then Run.raise fail else Run.pure I.none
  assertIn : ∀ x y, I.call (meth (py "assertIn")) [x, y] [] = (I.contains y x).bind fun b => if b then Run.pure I.none else Run.raise fail
  assertNotIn : ∀ x y, I.call (meth (py "assertNotIn")) [x, y] [] = (I.contains y x).bind fun b => if b then Run.raise fail else Run.pure I.none
  assertIsNone : ∀ v, I.call (meth (py "assertIsNone")) [v] [] = if I.same v I.none then Run.pure I.none else Run.raise fail
  assertIsNotNone : ∀ v, I.call (meth (py "assertIsNotNone")) [v] [] = if I.same v I.none then Run.raise fail else Run.pure I.none

/-- The deprecated names of `unittest.TestCase` methods and what they are aliases of (documentation of `unittest`, "Deprecated aliases"). -/
inductive Alias : PStr → PStr → Prop where
  | equal : Alias (py "assertEquals") (py "assertEqual")
  | notEqual : Alias (py "assertNotEquals") (py "assertNotEqual")
  | almost : Alias (py "assertAlmostEquals") (py "assertAlmostEqual")
  | notAlmost : Alias (py "assertNotAlmostEquals") (py "assertNotAlmostEqual")
  | regex : Alias (py "assertRegexpMatches") (py "assertRegex")
  | notRegex : Alias (py "assertNotRegexpMatches") (py "assertNotRegex")
  | raisesRegex : Alias (py "assertRaisesRegexp") (py "assertRaisesRegex")

/-- A number, a tuple, list, set or dict display, or a singleton: what nobody would pass as a message. -/
inductive LiteralValue : Expr → Prop where
  | num {e t} : e.core = .num t → LiteralValue e
  | tuple {e es} : e.core = .tuple es → LiteralValue e
  | list {e es} : e.core = .list es → LiteralValue e
  | set {e es} : e.core = .set es → LiteralValue e
  | dict {e es} : e.core = .dict es → LiteralValue e
  | singleton {e} : SingletonLiteral e → LiteralValue e

/-- What `self.assertTrue(a, b)` was probably meant to be, when `b` is a literal value. -/
inductive MeantAs : Arg → Arg → PStr → List Arg → Prop where
  | true {a b} : Named b.value (py "True") → MeantAs a b (py "assertTrue") [a]
  | none {a b} : Named b.value (py "None") → MeantAs a b (py "assertIsNone") [a]
  | false {a b} : Named b.value (py "False") → MeantAs a b (py "assertFalse") [a]
  | value {a b} : LiteralValue b.value → ¬ SingletonLiteral b.value → MeantAs a b (py "assertEqual") [a, b]

/-- A call of a deprecated method of `self`: its function with the current name of the method. -/
inductive DeprecatedCall : Expr → Expr → List Arg → Prop where
  | mk {n f v args old new} : n.core = .call f args → f.core = .attr v old → Named v (py "self") → Alias old new →
    DeprecatedCall n (f.withCore fun _ => .attr v new) args

/-- `frozen=` is written in the decorator. -/
def SaysFrozen (d : Expr) : Prop := ∃ f as, d.core = .call f as ∧ ∃ a ∈ as, a.keyword = some (py "frozen")

end Cst
