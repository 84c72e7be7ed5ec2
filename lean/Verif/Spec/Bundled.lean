import Verif.Model.Rules.Bundled
import Verif.Spec.RulesExpr
import Verif.Spec.RulesStateful
import Verif.Spec.RulesClasses
import Verif.Spec.Percent
import Verif.Spec.Scopes

/-!
# What the bundled rules should report about a module
-/

namespace Spec
open Py Cst Fixit

/-- The module has this node, and it is of this kind. -/
def OfKind (t : Syn) (kind : PStr) (i : Nat) : Prop := ∃ way l ks, At way (.node i l ks) t ∧ l.typeName = kind

/-- The node is the first child of the other. -/
def FirstChild (t : Syn) (i parent : Nat) : Prop := ∃ way f l ks, At (way ++ [f]) (.node i l ks) t ∧ f.id = parent ∧ f.before = []

/-- The node is an `… or …`. -/
def IsOr (L : Looks) (t : Syn) (i : Nat) : Prop := OfKind t (py "BooleanOperation") i ∧ ∃ l r, (L.expr i).core = .bool .or l r

/-- From one `or` operation the other is reached by going to left operands, and all between are `or` operations. -/
inductive LeftChain (L : Looks) (t : Syn) : Nat → Nat → Prop
  | here (i : Nat) (h : IsOr L t i) : LeftChain L t i i
  | left (i k j : Nat) (h : IsOr L t i) (hk : FirstChild t k i) (hj : LeftChain L t k j) : LeftChain L t i j

/-- What the rules see of the module fits the module, and it is a module as the parser makes them. -/
structure LooksRight (L : Looks) (t : Syn) : Prop where
  root : L.root = t
  module : IsModule t
  nodup : t.ids.Nodup
  exprs : ExprsOnly t
  keywords : ∀ i, KeywordScopes (L.names i)
  equal : ∀ i a b, (L.isinstance i).deepEquals a b = true ↔ a = b
  bool : ∀ i, OfKind t (py "BooleanOperation") i → ∃ op l r, (L.expr i).core = .bool op l r
  spine : ∀ i j, OfKind t (py "BooleanOperation") i → (j ∈ L.spine i ↔ LeftChain L t i j)
  lines : ∀ i, ((L.lines i).map Line.id).Nodup
  decorators : ∀ c, OfKind t (py "ClassDef") c → ((L.decorators c).map (·.1)).Nodup
  apart : ∀ c c', OfKind t (py "ClassDef") c → OfKind t (py "ClassDef") c' → c ≠ c' → ∀ i ∈ (L.decorators c).map (·.1), i ∉ (L.decorators c').map (·.1)

/-- `isinstance(<target>, <type>)`, a call of the builtin with a type that is not written as a tuple. -/
def Check (o : IsinstanceOracle) (e target : Expr) : Prop :=
  ∃ f a b, e.core = .call f [a, b] ∧ (∀ es, b.value.core ≠ .tuple es) ∧ o.isBuiltin e = true ∧ target = a.value

/-- The format has only `%s`, at least one, and the operand is short: the rule does not need the value of the literal. -/
def SimplePercent (L : Looks) (text : PStr) (right : Expr) : Prop :=
  'b' ∉ strPrefix text ∧ '%' ∈ strRaw text ∧ OnlyS (strRaw text) ∧ ShortOperand L.code right

/-- `# noqa`, in upper or lower case. -/
def IsNoqa (value : PStr) : Prop :=
  ∃ n o q a rest, value = '#' :: ' ' :: n :: o :: q :: a :: rest ∧ (n = 'n' ∨ n = 'N') ∧ (o = 'o' ∨ o = 'O') ∧ (q = 'q' ∨ q = 'Q') ∧ (a = 'a' ∨ a = 'A')

/-- The rule reports this node. -/
def Offends (L : Looks) (t : Syn) : Bundled → Nat → Prop
  | .avoidOrInExcept, i => OfKind t (py "Try") i ∧ ∃ h l r, L.handlers i = [h] ∧ CatchesOr h l r
  | .collapseIsinstanceChecks, i => OfKind t (py "BooleanOperation") i ∧ (¬ ∃ k, IsOr L t k ∧ IsOr L t i ∧ FirstChild t i k) ∧
      ∃ es, Operands (L.expr i) es ∧ ∃ (a b : Nat) (x y target : Expr), a < b ∧ es[a]? = some x ∧ es[b]? = some y ∧ Check (L.isinstance i) x target ∧ Check (L.isinstance i) y target
  | .useClsInClassmethod, i => OfKind t (py "FunctionDef") i ∧ (∃ d ∈ (L.method i).decorators, L.isClassmethod d = true) ∧
      ∀ p rest, (L.method i).params = p :: rest → p.2 ≠ py "cls"
  | .comparePrimitivesByEqual, i => OfKind t (py "Comparison") i ∧
      ∃ k ∈ (L.expr i).links, (k.2.1 = .is ∨ k.2.1 = .isNot) ∧ (PrimitiveLiteral k.1 ∨ PrimitiveLiteral k.2.2)
  | .compareSingletonPrimitivesByIs, i => OfKind t (py "Comparison") i ∧
      ∃ k ∈ (L.expr i).links, (k.2.1 = .eq ∨ k.2.1 = .ne) ∧ (SingletonLiteral k.1 ∨ SingletonLiteral k.2.2)
  | .deprecatedABCImport, i => ∃ rep, AbcReport t rep ∧ rep.node = i
  | .deprecatedUnittestAsserts, i => OfKind t (py "Call") i ∧ ∃ f args, DeprecatedCall (L.expr i) f args
  | .noAssertTrueForComparisons, i => OfKind t (py "Call") i ∧ ∃ f a b, (L.expr i).core = .call f [a, b] ∧ SelfMethod f (py "assertTrue") ∧ LiteralValue b.value
  | .noInheritFromObject, i => ∃ way c n bases ks, At way (.node i (.classDef c n bases) ks) t ∧ ∃ b ∈ bases, IsObject b.2
  | .noNamedTuple, i => ∃ way c n bases ks, At way (.node i (.classDef c n bases) ks) t ∧ ∃ b ∈ bases, L.isNamedTuple b.1 = true
  | .noRedundantArgumentsSuper, i => ∃ way func args ks, At way (.node i (.call func args) ks) t ∧ func.core = .name (py "super") ∧ classesAround way ≠ [] ∧
      ∃ a b, args = [a, b] ∧ IsDotted a.value (classesAround way)
  | .noRedundantFString, i => OfKind t (py "FormattedString") i ∧ ∃ s, (L.fstring i).parts = [.text s]
  | .noRedundantLambda, i => OfKind t (py "Lambda") i ∧ ∃ f, ForwardsTo (L.expr i) f
  | .noRedundantListComprehension, i => OfKind t (py "Call") i ∧ ∃ f st kw v elt cs, (L.expr i).core = .call f [.mk st kw v] ∧ v.core = .listComp elt cs ∧
      (f.core = .name (py "any") ∨ f.core = .name (py "all"))
  | .noStaticIfCondition, i => OfKind t (py "If") i ∧ ∃ b, Forced (L.test i) b
  | .noStringTypeAnnotation, i => ∃ way text ks v, At way (.node i (.simpleString text) ks) t ∧ FutureBefore way ∧ InAnnotation way ∧ ¬ InLiteral L.qual way ∧ L.decoded text = .ok v
  | .replaceUnionWithOptional, i => OfKind t (py "Annotation") i ∧ ∃ x y, UnionWithNone (L.annotation i) x y
  | .rewriteToComprehension, i => OfKind t (py "Call") i ∧ ∃ e, ComprehensionFor (L.expr i) e
  | .rewriteToLiteral, i => OfKind t (py "Call") i ∧ ∃ e, LiteralFor (L.expr i) e
  | .sortedAttributes, i => OfKind t (py "ClassDef") i ∧ Directive (L.lines i) ∧ ¬ InOrder (L.lines i)
  | .useAssertIn, i => OfKind t (py "Call") i ∧ ∃ x y b, MembershipTest (L.expr i) x y b
  | .useAssertIsNotNone, i => OfKind t (py "Call") i ∧ ∃ x b, NoneAssertion (L.expr i) x b
  | .useAsyncSleepInAsyncDef, i => ∃ way func args ks, At way (.node i (.call func args) ks) t ∧ InAsync way ∧ (L.qual i)[0]? = some (py "time.sleep")
  | .useFstring, i =>
      (OfKind t (py "Call") i ∧ ∃ f v as text, (L.expr i).core = .call f as ∧ f.core = .attr v (py "format") ∧ v.core = .str text) ∨
      (OfKind t (py "BinaryOperation") i ∧ ∃ left right text, L.percent i = some (left, right) ∧ left.core = .str text ∧ ((∃ s, L.value text = .ok (.inl s)) ∨ SimplePercent L text right))
  | .useTypesFromTyping, i => ∃ way s ks T, At way (.node i (.name s) ks) t ∧ InAnnotation way ∧ MeansBuiltin (L.qual i) s T
  | .explicitFrozenDataclass, i => ∃ c d, OfKind t (py "ClassDef") c ∧ (i, d) ∈ L.decorators c ∧ L.isDataclass d = true ∧ ¬ SaysFrozen d
  | .useLintFixmeComment, i => OfKind t (py "Comment") i ∧ IsNoqa (L.comment i)

/-- The rule raises somewhere in the module. -/
def RaisesOn (L : Looks) (t : Syn) : Bundled → Prop
  | .rewriteToComprehension => ∃ i, OfKind t (py "Call") i ∧ ShortPairs (L.expr i)
  | .noStringTypeAnnotation => ∃ way i text ks x, At way (.node i (.simpleString text) ks) t ∧ FutureBefore way ∧ InAnnotation way ∧ ¬ InLiteral L.qual way ∧ L.decoded text = .error x
  | .useTypesFromTyping => ∃ way i s ks T x, At way (.node i (.name s) ks) t ∧ InAnnotation way ∧ MeansBuiltin (L.qual i) s T ∧ L.scope i = .error x
  | .sortedAttributes => ∃ i, OfKind t (py "ClassDef") i ∧ Directive (L.lines i) ∧ Unsortable (L.lines i)
  | .useFstring => ∃ i left right text x, OfKind t (py "BinaryOperation") i ∧ L.percent i = some (left, right) ∧ left.core = .str text ∧ L.value text = .error x ∧ ¬ SimplePercent L text right
  | _ => False

/-- The message that a report of the rule carries itself, about this node; the others carry none, and the `MESSAGE` of the rule is used. -/
inductive Explains (L : Looks) (t : Syn) (i : Nat) : Bundled → PStr → Prop
  | lambda (ps : Params) (body : Expr) (h : (L.expr i).core = .lam ps body) : Explains L t i .noRedundantLambda
      (py "The lambda that is wrapping " ++ (L.fullName body).getD (py "function") ++ py " is redundant. It can unwrapped safely and used purely.")
  | quantifier (f : Expr) (args : List Arg) (s : PStr) (h : (L.expr i).core = .call f args) (hf : Named f s) : Explains L t i .noRedundantListComprehension
      (py "Unnecessary list comprehension - " ++ s ++ py " can take a generator, and is likely to short-circuit, so constructing a list is probably wasteful.")
  | generator (f v elt : Expr) (cs : List Clause) (st : Star) (kw : Option PStr) (s : PStr) (h : (L.expr i).core = .call f [.mk st kw v]) (hf : Named f s) (hv : v.core = .genExp elt cs) :
      Explains L t i .rewriteToComprehension
        (py "It's unnecessary to use " ++ s ++ py " around a generator expression, since there are equivalent comprehensions for this type.")
  | list (f v elt : Expr) (cs : List Clause) (st : Star) (kw : Option PStr) (s : PStr) (h : (L.expr i).core = .call f [.mk st kw v]) (hf : Named f s) (hv : v.core = .listComp elt cs) :
      Explains L t i .rewriteToComprehension
        (py "It's unnecessary to use a list comprehension inside a call to " ++ s ++ py " since there are equivalent comprehensions for this type")
  | empty (f : Expr) (s : PStr) (h : (L.expr i).core = .call f []) (hf : Named f s) : Explains L t i .rewriteToLiteral
      (py "It's slower to call " ++ s ++ py "() than using the empty literal, because the name " ++ s ++ py " must be looked up in the global scope in case it has been rebound.")
  | literal (f : Expr) (a : Arg) (s : PStr) (h : (L.expr i).core = .call f [a]) (hf : Named f s) : Explains L t i .rewriteToLiteral
      (py "It's unnecessary to use a list or tuple within a call to " ++ s ++ py " since there is literal syntax for this type")
  | deprecated (f v : Expr) (args : List Arg) (old new : PStr) (h : (L.expr i).core = .call f args) (hf : f.core = .attr v old) (ha : Alias old new) : Explains L t i .deprecatedUnittestAsserts
      (old ++ py " is deprecated, use " ++ new ++ py " instead")
  | typing (way : List Frame) (ks : List Syn) (s T : PStr) (hat : At way (.node i (.name s) ks) t) (h : (s, T) ∈ typingNames) : Explains L t i .useTypesFromTyping
      (py "You are using builtins." ++ s ++ py " as a type annotation but the type system doesn't recognize it as a valid type. You should use typing." ++ T ++ py " instead.")
  | sleep : Explains L t i .useAsyncSleepInAsyncDef (py "Use asyncio.sleep in async function")

/-- The message of a report of the rule about this node: its own, or else the `MESSAGE` of the rule. -/
def Message (L : Looks) (t : Syn) (i : Nat) (b : Bundled) (message : PStr) : Prop :=
  Explains L t i b message ∨ ((∀ s, ¬ Explains L t i b s) ∧ b.message = some message)

/-- `isinstance(<target>, <type>)` as `Check`, with the type. -/
def CheckOf (o : IsinstanceOracle) (e target type : Expr) : Prop :=
  ∃ f a b, e.core = .call f [a, b] ∧ (∀ es, b.value.core ≠ .tuple es) ∧ o.isBuiltin e = true ∧ target = a.value ∧ type = b.value

/-- `isinstance(<target>, <type>)`, or `isinstance(<target>, (<type>, …))`. -/
def oneCheck (target : Expr) : List Expr → Expr
  | [type] => .call (.name (py "isinstance")) [.pos target, .pos type]
  | types => .call (.name (py "isinstance")) [.pos target, .pos (.paren (.tuple (types.map .plain)))]

/-- The fix that a report of the rule about this node carries, if any. -/
def Fixes (L : Looks) (t : Syn) : Bundled → Nat → Option Change → Prop
  | .avoidOrInExcept, _, c => c = none
  | .collapseIsinstanceChecks, i, c => ∃ es e' call, Operands (L.expr i) es ∧ (∀ e target type, call e = some (target, type) ↔ CheckOf (L.isinstance i) e target type) ∧
      c = some (.expr e') ∧ Operands e' (gathered call (L.isinstance i).deepEquals oneCheck [] es)
  | .useClsInClassmethod, i, c =>
      ((L.method i).params = [] ∧ c = some (.method { L.method i with params := [(L.fresh i, py "cls")] })) ∨
      ∃ p rest, (L.method i).params = p :: rest ∧
        (if L.hasScope i = true ∧ resolve (frameOf (L.method i).sid .func (L.method i).items :: L.around i) (py "cls") = none then c = some (.method ((L.method i).rename ((L.method i).refs (L.around i) p.2) (py "cls"))) else c = none)
  | .comparePrimitivesByEqual, i, c => ∃ l ts ts', (L.expr i).core = .comp l ts ∧ c = some (.expr ((L.expr i).withCore fun _ => .comp l ts')) ∧
      LinkChanges (fun a op b => (op = .is ∨ op = .isNot) ∧ (PrimitiveLiteral a ∨ PrimitiveLiteral b)) Swap (linksOf l (ts.map Target.both)) (linksOf l (ts'.map Target.both))
  | .compareSingletonPrimitivesByIs, i, c => ∃ l ts ts', (L.expr i).core = .comp l ts ∧ c = some (.expr ((L.expr i).withCore fun _ => .comp l ts')) ∧
      LinkChanges (fun a op b => (op = .eq ∨ op = .ne) ∧ (SingletonLiteral a ∨ SingletonLiteral b)) (fun a b => Swap b a) (linksOf l (ts.map Target.both)) (linksOf l (ts'.map Target.both))
  | .deprecatedABCImport, i, c => AbcReport t { node := i, message := none, change := c }
  | .deprecatedUnittestAsserts, i, c => ∃ f args, DeprecatedCall (L.expr i) f args ∧ c = some (.expr ((L.expr i).withCore fun _ => .call f args))
  | .noAssertTrueForComparisons, i, c => ∃ f v a b m args, (L.expr i).core = .call f [a, b] ∧ f.core = .attr v (py "assertTrue") ∧ Named v (py "self") ∧ MeantAs a b m args ∧
      c = some (.expr ((L.expr i).withCore fun _ => .call (f.withCore fun _ => .attr v m) args))
  | .noInheritFromObject, i, c => ∃ way name n bases ks keep, At way (.node i (.classDef name n bases) ks) t ∧ (∀ b, keep b = true ↔ ¬ IsObject b) ∧
      c = some (.bases ((bases.map (·.2)).filter keep))
  | .noNamedTuple, i, c => ∃ way name n bases ks, At way (.node i (.classDef name n bases) ks) t ∧
      c = some (.classHead ((bases.filter (fun b => !L.isNamedTuple b.1)).map (·.2))
        ((L.decorators i).map (·.2) ++ [.call (.name (py "dataclass")) [.mk .none (some (py "frozen")) (.name (py "True"))]]))
  | .noRedundantArgumentsSuper, _, c => c = some (.args [])
  | .noRedundantFString, i, c => ∃ new, c = some (.expr (.str new)) ∧
      ∀ names p q s v, BraceFreeNames names → FStringLiteral names p q s (v.map .inl) → L.fstring i = ⟨p ++ q, [.text s], q⟩ →
        StringLiteral names new v ∧ ∃ p' s', new = p' ++ q ++ s' ++ q ∧ isRaw p' = isRaw p
  | .noRedundantLambda, i, c => ∃ f, ForwardsTo (L.expr i) f ∧ c = some (.expr f)
  | .noRedundantListComprehension, i, c => ∃ f st kw v elt cs, (L.expr i).core = .call f [.mk st kw v] ∧ v.core = .listComp elt cs ∧
      c = some (.expr ((L.expr i).withCore fun _ => .call f [.mk st kw (.genExp elt cs)]))
  | .noStaticIfCondition, _, c => c = none
  | .noStringTypeAnnotation, i, c => ∃ way text ks v, At way (.node i (.simpleString text) ks) t ∧ L.decoded text = .ok v ∧ c = (L.parse v).map .expr
  | .replaceUnionWithOptional, i, c => ∃ x y, UnionWithNone (L.annotation i) x y ∧
      ((c = none ∧ (L.optionalKnown i = false ∨ (x.isNoneIndex = true ∧ y.isNoneIndex = true))) ∨
        (L.optionalKnown i = true ∧ ∃ z, c = some (.annotation (.subscript (.name (py "Optional")) [z])) ∧ ((z = x ∧ x.isNoneIndex = false) ∨ (z = y ∧ y.isNoneIndex = false))))
  | .rewriteToComprehension, i, c => ∃ e, ComprehensionFor (L.expr i) e ∧ c = some (.expr e)
  | .rewriteToLiteral, i, c => ∃ e, LiteralFor (L.expr i) e ∧ c = some (.expr e)
  | .sortedAttributes, i, c => ∃ new, SortedBody (L.lines i) new ∧ c = some (.lines new)
  | .useAssertIn, i, c => ∃ x y b, MembershipTest (L.expr i) x y b ∧
      c = some (.expr ((L.expr i).withCore fun _ => .call (.attr (.name (py "self")) (if b then py "assertIn" else py "assertNotIn")) [.pos x, .pos y]))
  | .useAssertIsNotNone, i, c => ∃ x b, NoneAssertion (L.expr i) x b ∧
      c = some (.expr ((L.expr i).withCore fun _ => .call (.attr (.name (py "self")) (if b then py "assertIsNone" else py "assertIsNotNone")) [.pos x]))
  | .useAsyncSleepInAsyncDef, _, c => c = none
  -- the f-string is the one that C110 describes
  | .useFstring, i, c => (OfKind t (py "Call") i ∧ c = none) ∨ ∃ left right, OfKind t (py "BinaryOperation") i ∧ L.percent i = some (left, right) ∧
      ((c = none ∧ ∀ node, useFstring L.code (fun t => (L.value t).toOption) Sum.isLeft left right ≠ .fix node) ∨
        ∃ node, c = some (.fstring node) ∧ useFstring L.code (fun t => (L.value t).toOption) Sum.isLeft left right = .fix node)
  | .useTypesFromTyping, i, c => ∃ way s ks T known, At way (.node i (.name s) ks) t ∧ MeansBuiltin (L.qual i) s T ∧ L.scope i = .ok known ∧
      (((∃ k, known = some k ∧ k T = true) ∧ c = some (.rename T)) ∨ ((¬ ∃ k, known = some k ∧ k T = true) ∧ c = none))
  | .explicitFrozenDataclass, i, c => ∃ cls d f as, (i, d) ∈ L.decorators cls ∧ ¬ SaysFrozen d ∧ (d.core = .call f as ∨ ((∀ g bs, d.core ≠ .call g bs) ∧ f = d ∧ as = [])) ∧
      c = some (.decorator (.call f (as ++ [.mk .none (some (py "frozen")) (.name (py "True"))])))
  | .useLintFixmeComment, _, c => c = none

end Spec
