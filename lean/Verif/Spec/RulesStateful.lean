import Verif.Spec.Visit

/-!
# What the rules that remember something should do
-/

namespace Spec
open Py Cst

/-- The names of the class statements around a position, outermost first. -/
def classesAround (way : List Frame) : List PStr :=
  way.filterMap (fun f => match f.label with | .classDef c _ _ => some c | _ => none)

/-- `e`, parentheses aside, is `a.b.c` for the names `a`, `b`, `c`. -/
inductive IsDotted : Expr → List PStr → Prop
  | name (e : Expr) (s : PStr) (h : e.core = .name s) : IsDotted e [s]
  | attr (e v : Expr) (s : PStr) (names : List PStr) (h : e.core = .attr v s) (hv : IsDotted v names) : IsDotted e (names ++ [s])

/-- There is no function definition in the tree. -/
def NoDef (t : Syn) : Prop := ∀ i a ks, ¬ Within (.node i (.funcDef a) ks) t

/-- The innermost function definition around the position is an `async def`, and no other function definition inside it comes before the position. -/
def InAsync (way : List Frame) : Prop :=
  ∃ outer f inner, way = outer ++ f :: inner ∧ f.label = .funcDef true ∧
    (∀ g ∈ inner, ∀ a, g.label ≠ .funcDef a) ∧ ∀ g ∈ f :: inner, ∀ k ∈ g.before, NoDef k

/-- The position is inside an annotation. -/
def InAnnotation (way : List Frame) : Prop := ∃ f ∈ way, f.label = .annotation

/-- The types of `typing` that stand for builtin types. -/
def typingNames : List (PStr × PStr) := [(py "dict", py "Dict"), (py "list", py "List"), (py "set", py "Set"), (py "tuple", py "Tuple")]

/-- `s` is written at a place where `t` of `typing` can be used, and means the builtin type as far as is known. -/
structure MeansBuiltin (qual : List PStr) (s t : PStr) : Prop where
  known : (s, t) ∈ typingNames
  only : ∀ q ∈ qual, ∃ b ∈ typingNames, q = py "builtins." ++ b.1

/-- `from __future__ import …, annotations, …`. -/
def IsFuture (l : Label) : Prop :=
  ∃ dots m names, l = .importFrom dots (some m) (some names) ∧ m.core = .name (py "__future__") ∧ ∃ a ∈ names, a.name.core = .name (py "annotations")

/-- Such an import stands before the position. -/
def FutureBefore (way : List Frame) : Prop := ∃ f ∈ way, IsFuture f.label ∨ ∃ k ∈ f.before, ∃ n, Within n k ∧ IsFuture n.label

/-- The position is inside a subscript, itself inside an annotation, whose value is `Literal`. -/
def InLiteral (qual : Nat → List PStr) (way : List Frame) : Prop :=
  ∃ outer f inner, way = outer ++ f :: inner ∧ f.label = .subscript ∧ (py "typing.Literal" ∈ qual f.id ∨ py "typing_extensions.Literal" ∈ qual f.id) ∧ InAnnotation outer

/-- There are no import statements inside annotations and subscripts, because these hold expressions only. -/
def ExprsOnly (t : Syn) : Prop :=
  ∀ n, Within n t → (n.label = .annotation ∨ n.label = .subscript) → ∀ m, Within m n → ¬ IsFuture m.label

/-! ## DeprecatedABCImport -/

/-- The abstract base classes that moved from `collections` to `collections.abc`. -/
def movedAbcs : List PStr :=
  [py "AsyncGenerator", py "AsyncIterable", py "AsyncIterator", py "Awaitable", py "Buffer", py "ByteString", py "Callable", py "Collection", py "Container",
   py "Coroutine", py "Generator", py "Hashable", py "ItemsView", py "Iterable", py "Iterator", py "KeysView", py "Mapping", py "MappingView", py "MutableMapping",
   py "MutableSequence", py "MutableSet", py "Reversible", py "Sequence", py "Set", py "Sized", py "ValuesView"]

/-- The name that the expression is. -/
def plainName (e : Expr) : Option PStr :=
  match e.core with
  | .name n => some n
  | _ => none

/-- The names in `from collections import <names>`, with any number of dots and whatever `as` says. -/
def collectionsNames : Label → Option (List PStr)
  | .importFrom _ (some m) (some as) => match m.core with
    | .name s => if s = py "collections" then some (as.filterMap (fun a => plainName a.name)) else none
    | _ => none
  | _ => none

/-- The position is below an `except` clause. -/
def InExcept (way : List Frame) : Prop := ∃ f ∈ way, f.label = .exceptHandler

/-- `e` is `collections.<x>`, where `x` moved to `collections.abc`. -/
def OldAbc (e : Expr) (x : PStr) : Prop := ∃ v, e.core = .attr v x ∧ v.core = .name (py "collections") ∧ x ∈ movedAbcs

/-- `collections.abc.<x>`. -/
def newAbc (x : PStr) : Expr := .attr (.attr (.name (py "collections")) (py "abc")) x

/-- Some of the names moved and some did not. -/
def Mixed (names : List PStr) : Prop := (∃ n ∈ names, n ∈ movedAbcs) ∧ ∃ n ∈ names, n ∉ movedAbcs

instance (names : List PStr) : Decidable (Mixed names) := inferInstanceAs (Decidable (_ ∧ _))

mutual
/-- The names of each `from collections import …` in the tree that is not below an `except` clause, in the order of the text. -/
def collectionsImports (inExcept : Bool) : Syn → List (List PStr)
  | .node _ l ks => (if inExcept then [] else (collectionsNames l).toList) ++ collectionsImportsAll (inExcept || l.isExcept) ks
/-- The same for several trees. -/
def collectionsImportsAll (inExcept : Bool) : List Syn → List (List PStr)
  | [] => []
  | k :: ks => collectionsImports inExcept k ++ collectionsImportsAll inExcept ks
end

/-- The names of the last import in the module, outside `except` clauses, that mixes names that moved with names that did not. -/
def lastMixed (t : Syn) : Option (List PStr) := ((collectionsImports false t).filter (fun ns => Mixed ns)).getLast?

/-- The module has no module inside. -/
def IsModule (t : Syn) : Prop := t.label = .module ∧ ∀ k ∈ t.kids, ∀ i ks, ¬ Within (.node i .module ks) k

/-- Somewhere in the statement there is `from collections import` of exactly these names, in this order. -/
def ImportsExactly (names : List PStr) (s : Syn) : Prop :=
  ∃ i d m as ks, Within (.node i (.importFrom d (some m) (some as)) ks) s ∧ m.core = .name (py "collections") ∧ as.map (fun a => a.name.core) = names.map Expr.name

/-- The statement `from <module> import <names>`. -/
def importStatement (module : Expr) (names : List PStr) : Syn :=
  .node 0 (.other (py "SimpleStatementLine")) [.node 0 (.importFrom 0 (some module) (some (names.map (fun n => ⟨0, .name n, none⟩)))) []]

/-- The statements of a module after each statement that holds the import has been replaced by two imports. -/
inductive SplitBody (names : List PStr) : List Syn → List Syn → Prop
  | nil : SplitBody names [] []
  | kept (s : Syn) (ss new : List Syn) (h : ¬ ImportsExactly names s) (hs : SplitBody names ss new) : SplitBody names (s :: ss) (s :: new)
  | replaced (s : Syn) (ss new : List Syn) (h : ImportsExactly names s) (hs : SplitBody names ss new) :
      SplitBody names (s :: ss) (importStatement (.name (py "collections")) (names.filter (fun n => n ∉ movedAbcs)) ::
        importStatement (.attr (.name (py "collections")) (py "abc")) (names.filter (fun n => n ∈ movedAbcs)) :: new)

/-- `b`, or `collections.abc.<x>` instead of `collections.<x>`. -/
inductive NewBase : Arg → Arg → Prop
  | moved (b : Arg) (x : PStr) (h : OldAbc b.value x) : NewBase b (.mk .none none (newAbc x))
  | same (b : Arg) (h : ∀ x, ¬ OldAbc b.value x) : NewBase b b

/-- The four ways in which the rule reports something. -/
inductive AbcReport (t : Syn) : Rep → Prop
  /-- `from collections import` of names that all moved, outside `except` clauses: the module becomes `collections.abc` -/
  | from_ (way : List Frame) (i : Nat) (l : Label) (ks : List Syn) (names : List PStr) (hat : At way (.node i l ks) t) (hn : collectionsNames l = some names) (hne : names ≠ [])
      (hall : ∀ n ∈ names, n ∈ movedAbcs) (hx : ¬ InExcept way) : AbcReport t { node := i, message := none, change := some (.fromModule (.attr (.name (py "collections")) (py "abc"))) }
  /-- some import, the last one of these outside `except` clauses, mixes names: the module gets a new body -/
  | mixed (names : List PStr) (body : List Syn) (hm : lastMixed t = some names) (hb : SplitBody names t.kids body) :
      AbcReport t { node := t.id, message := none, change := some (.body body) }
  /-- `import collections.<x>` -/
  | import_ (way : List Frame) (i : Nat) (a : ImportName) (ks : List Syn) (x : PStr) (hat : At way (.node i (.importAlias a) ks) t) (ha : OldAbc a.name x) :
      AbcReport t { node := i, message := none, change := some (.alias (newAbc x) a.asname) }
  /-- `class C(…, collections.<x>, …)` -/
  | base (way : List Frame) (i : Nat) (c : PStr) (n : Nat) (bases : List (Nat × Arg)) (ks : List Syn) (new : List Arg) (hat : At way (.node i (.classDef c n bases) ks) t)
      (hb : ∃ b ∈ bases, ∃ x, OldAbc b.2.value x) (hl : new.length = bases.length) (hnew : ∀ (j : Nat) (b : Nat × Arg) (b' : Arg), bases[j]? = some b → new[j]? = some b' → NewBase b.2 b') :
      AbcReport t { node := i, message := none, change := some (.bases new) }

/-! ## The upgrade rules -/

/-- The names of Fixit 1 and those of Fixit 2. -/
def renamed : List (PStr × PStr) :=
  [(py "CstLintRule", py "LintRule"), (py "CSTLintRule", py "LintRule"), (py "InvalidTestCase", py "Invalid"), (py "ValidTestCase", py "Valid")]

/-- The message of the rule. -/
def renamedMessage (old new : PStr) : PStr := py "Fixit deprecated import " ++ old ++ py ", use " ++ new ++ py " instead"

/-- What `FixitDeprecatedImport` reports. -/
inductive RenameReport (meta_ : Store) (t : Syn) : Rep → Prop
  /-- `from fixit import <old>`, which becomes `<new>`; an `as <new>` goes away and any other `as` stays -/
  | import_ (way : List Frame) (i d : Nat) (m : Expr) (as : List ImportName) (ks : List Syn) (a : ImportName) (old new : PStr) (asname : Option Expr)
      (hat : At way (.node i (.importFrom d (some m) (some as)) ks) t) (ha : a ∈ as) (hm : m.core = .name (py "fixit")) (hn : a.name.core = .name old) (hr : (old, new) ∈ renamed)
      (has : (∃ x, a.asname = some x ∧ x.core = .name new ∧ asname = none) ∨ (asname = a.asname ∧ ∀ x, a.asname = some x → x.core ≠ .name new)) :
      RenameReport meta_ t { node := a.id, message := some (renamedMessage old new), change := some (.alias (.name new) asname) }
  /-- a name `<old>` whose (first) qualified name is `fixit.<old>`, which becomes `<new>` -/
  | use (way : List Frame) (i : Nat) (ks : List Syn) (old new : PStr) (hat : At way (.node i (.name old) ks) t) (hq : (meta_ i)[0]? = some (py "fixit." ++ old)) (hr : (old, new) ∈ renamed) :
      RenameReport meta_ t { node := i, message := some (renamedMessage old new), change := some (.rename new) }

/-- The bases that the label says, by node. -/
def basesOf : Label → List Nat
  | .classDef _ _ bases => bases.map (·.1)
  | _ => []

mutual
/-- All bases of classes in the tree. -/
def baseIds : Syn → List Nat
  | .node _ l ks => basesOf l ++ baseIdsAll ks
/-- The same for several trees. -/
def baseIdsAll : List Syn → List Nat
  | [] => []
  | k :: ks => baseIds k ++ baseIdsAll ks
end

/-- The keywords of test cases that Fixit 2 does not have. -/
def droppedKeywords : List PStr := [py "line", py "column", py "config", py "filename", py "kind"]

/-- `e` is the value of the last argument `k=e`. -/
def LastKeyword (args : List Arg) (k : PStr) (e : Expr) : Prop :=
  ∃ pre a post, args = pre ++ a :: post ∧ a.keyword = some k ∧ a.value = e ∧ ∀ x ∈ post, x.keyword ≠ some k

/-- The text of the new range. -/
def rangeText (line column : PStr) : PStr :=
  py "CodeRange(start=CodePosition(" ++ line ++ py ", " ++ column ++ py "), end=CodePosition(1 + " ++ line ++ py ", 0))"

/-- The text of the range for some arguments that say `line`. -/
inductive RangeOf (code : Expr → PStr) (args : List Arg) : PStr → Prop
  | both (l c : Expr) (hl : LastKeyword args (py "line") l) (hc : LastKeyword args (py "column") c) : RangeOf code args (rangeText (code l) (code c))
  | line (l : Expr) (hl : LastKeyword args (py "line") l) (hc : ∀ a ∈ args, a.keyword ≠ some (py "column")) : RangeOf code args (rangeText (code l) (py "0"))

/-- The new arguments: those with other keywords, in order, and then `range=…` if there is a `line`. -/
inductive NewArgs (code : Expr → PStr) (parse : PStr → Except Err Expr) (args : List Arg) : List Arg → Prop
  | range (text : PStr) (e : Expr) (h : RangeOf code args text) (hp : parse text = .ok e) :
      NewArgs code parse args (args.filter (fun a => ∀ k ∈ droppedKeywords, a.keyword ≠ some k) ++ [.mk .none (some (py "range")) e])
  | plain (h : ∀ a ∈ args, a.keyword ≠ some (py "line")) : NewArgs code parse args (args.filter (fun a => ∀ k ∈ droppedKeywords, a.keyword ≠ some k))

/-- The call makes a test case of Fixit 1. -/
def IsTestCase (names : List PStr) : Prop := py "fixit.InvalidTestCase" ∈ names ∨ py "fixit.ValidTestCase" ∈ names

end Spec
