import Verif.Model.Visit

/-!
# The bundled rules that remember something between nodes, and the upgrade rules

What the rules ask of libCST's metadata is a parameter: the qualified names of a node, in the order of iteration, and the scope of a node. A matcher such as `m.Name("super")`
does not look at parentheses, and a `m.Arg(…)` without `star` and `keyword` does not look at these.
-/

namespace Cst
open Py Fixit

/-- A rule whose methods do not raise and do not change metadata (for example rules/no_redundant_arguments_super.py:118-139). -/
def VRule.simple {σ : Type} (init : σ) (methods : List PStr) (f : σ → Ev → σ × List Rep) : VRule :=
  ⟨σ, init, methods, fun st s e => .ok (st, (f s e).1, (f s e).2)⟩

/-! ## NoRedundantArgumentsSuper -/

/-- `_build_arg_class_matcher` (rules/no_redundant_arguments_super.py:141-150) applied to an expression; the names are those of the classes, innermost first. -/
def matchesDotted (e : Expr) : List PStr → Bool
  | [] => false
  | [c] => e.isName c
  | c :: cs => match e.core with
    | .attr v a => a == c && matchesDotted v cs
    | _ => false

/-- The condition of `leave_Call` (rules/no_redundant_arguments_super.py:128-138); `current_classes` innermost first. -/
def isRedundantSuper (classes : List PStr) (func : Expr) (args : List Arg) : Bool :=
  !classes.isEmpty && func.isName (py "super") && match args with
    | [a, _] => matchesDotted a.value classes
    | _ => false

/-- `NoRedundantArgumentsSuper` (rules/no_redundant_arguments_super.py:118-139). -/
def superRule : VRule :=
  .simple (σ := List PStr) [] [py "visit_ClassDef", py "leave_ClassDef", py "leave_Call"] (fun classes e => match e with
    | .visit _ (.classDef c _ _) => (c :: classes, [])
    | .leave _ (.classDef _ _ _) => (classes.tail, [])
    | .leave i (.call func args) => (classes, if isRedundantSuper classes func args then [{ node := i, change := some (.args []) }] else [])
    | _ => (classes, []))

/-! ## UseAsyncSleepInAsyncDef -/

/-- `UseAsyncSleepInAsyncDef` (rules/use_async_sleep_in_async_def.py:115-138); `qual` are the qualified names of a node, `message` is `MESSAGE`. -/
def asyncSleepRule (qual : Nat → List PStr) (message : PStr) : VRule :=
  .simple (σ := Bool) false [py "visit_FunctionDef", py "leave_FunctionDef", py "visit_Call"] (fun inAsync e => match e with
    | .visit _ (.funcDef a) => (a, [])
    | .leave _ (.funcDef _) => (false, [])
    | .visit i (.call _ _) => (inAsync, if inAsync && (qual i).head? == some (py "time.sleep") then [{ node := i, message := some message }] else [])
    | _ => (inAsync, []))

/-! ## UseTypesFromTyping -/

/-- `BUILTINS_TO_REPLACE` (rules/use_types_from_typing.py:20). -/
def builtinsToReplace : List PStr := [py "dict", py "list", py "set", py "tuple"]

/-- `str.title()` of a word in lower-case ASCII letters (rules/use_types_from_typing.py:137-154). -/
def titleWord : PStr → PStr
  | [] => []
  | c :: cs => c.toUpper :: cs

/-- `is_builtin_type` (rules/use_types_from_typing.py:137-140). -/
def isBuiltinType (s : PStr) (qual : List PStr) : Bool :=
  builtinsToReplace.contains s && qual.all (fun q => (builtinsToReplace.map (fun b => py "builtins." ++ b)).contains q)

/-- `REPLACE_BUILTIN_TYPE_ANNOTATION.format(…)` (rules/use_types_from_typing.py:14-18). -/
def typingMessage (s : PStr) : PStr :=
  py "You are using builtins." ++ s ++ py " as a type annotation but the type system doesn't recognize it as a valid type. You should use typing." ++ titleWord s ++ py " instead."

/-- `UseTypesFromTyping` (rules/use_types_from_typing.py:118-154). `qual` are the qualified names of a node (none when there are no metadata), `scope` is
`get_metadata(ScopeProvider, node)`: it raises when there are no metadata for the node, and may give no scope; a scope says which names it knows. -/
def typingRule (qual : Nat → List PStr) (scope : Nat → Except Err (Option (PStr → Bool))) : VRule where
  State := Int
  init := 0
  methods := [py "visit_Annotation", py "leave_Annotation", py "visit_Name"]
  on := fun st n e => match e with
    | .visit _ .annotation => .ok (st, n + 1, [])
    | .leave _ .annotation => .ok (st, n - 1, [])
    | .visit i (.name s) =>
      if n > 0 ∧ isBuiltinType s (qual i) = true then
        match scope i with
        | .error x => .error x
        | .ok none => .ok (st, n, [{ node := i, message := some (typingMessage s) }])
        | .ok (some known) =>
          .ok (st, n, [{ node := i, message := some (typingMessage s), change := if known (titleWord s) then some (.rename (titleWord s)) else none }])
      else .ok (st, n, [])
    | _ => .ok (st, n, [])

/-! ## NoStringTypeAnnotation -/

/-- What `NoStringTypeAnnotation` remembers (rules/no_string_type_annotation.py:248-252). -/
structure Quoted where
  annotations : List Nat := []
  literals : List Nat := []
  future : Bool := false

/-- `from __future__ import …, annotations, …` (rules/no_string_type_annotation.py:254-266). -/
def isFutureAnnotations (module : Option Expr) (names : Option (List ImportName)) : Bool :=
  match module, names with
  | some m, some as => m.isName (py "__future__") && as.any (fun a => a.name.isName (py "annotations"))
  | _, _ => false

/-- `visit_SimpleString` (rules/no_string_type_annotation.py:303-315): `value` is the evaluated and decoded string, `parse` is `cst.parse_expression`, without a value when it raises
`ParserSyntaxError`. -/
def unquote (parse : PStr → Option Expr) (i : Nat) (value : PStr) : Rep :=
  match parse value with
  | some e => { node := i, change := some (.expr e) }
  | none => { node := i }

/-- `NoStringTypeAnnotation` (rules/no_string_type_annotation.py:248-315); `value` may raise (bytes that are not UTF-8). -/
def quotedRule (qual : Nat → List PStr) (value : PStr → Except Err PStr) (parse : PStr → Option Expr) : VRule where
  State := Quoted
  init := {}
  methods := [py "visit_ImportFrom", py "visit_Annotation", py "leave_Annotation", py "visit_Subscript", py "leave_Subscript", py "visit_SimpleString"]
  on := fun st q e => match e with
    | .visit _ (.importFrom _ m ns) => .ok (st, if isFutureAnnotations m ns then { q with future := true } else q, [])
    | .visit i .annotation => .ok (st, { q with annotations := i :: q.annotations }, [])
    | .leave i .annotation => .ok (st, { q with annotations := q.annotations.erase i }, [])
    | .visit i .subscript =>
      .ok (st, if q.future && !q.annotations.isEmpty && (qual i).any (fun n => n == py "typing.Literal" || n == py "typing_extensions.Literal")
        then { q with literals := i :: q.literals } else q, [])
    | .leave i .subscript => .ok (st, if q.future then { q with literals := q.literals.erase i } else q, [])
    | .visit i (.simpleString s) =>
      if q.future && !q.annotations.isEmpty && q.literals.isEmpty then
        match value s with
        | .error x => .error x
        | .ok v => .ok (st, q, [unquote parse i v])
      else .ok (st, q, [])
    | _ => .ok (st, q, [])

/-! ## DeprecatedABCImport -/

/-- `ABCS` (rules/deprecated_abc_import.py:17-46). -/
def abcs : List PStr :=
  [py "AsyncGenerator", py "AsyncIterable", py "AsyncIterator", py "Awaitable", py "Buffer", py "ByteString", py "Callable", py "Collection", py "Container",
   py "Coroutine", py "Generator", py "Hashable", py "ItemsView", py "Iterable", py "Iterator", py "KeysView", py "Mapping", py "MappingView", py "MutableMapping",
   py "MutableSequence", py "MutableSet", py "Reversible", py "Sequence", py "Set", py "Sized", py "ValuesView"]

/-- `name.value`, when `name` is a `Name` (rules/deprecated_abc_import.py:190-194). -/
def Expr.nameText (e : Expr) : Option PStr :=
  match e.core with
  | .name s => some s
  | _ => none

mutual
/-- `is_except_block` (rules/deprecated_abc_import.py:168-180): whether the node is below an `ExceptHandler`; `inside` says whether the tree is. -/
def belowExcept (id : Nat) (inside : Bool) : Syn → Bool
  | .node i l ks => (i == id && inside) || belowExceptAny id (inside || l.isExcept) ks
/-- The same for several trees (rules/deprecated_abc_import.py:168-180). -/
def belowExceptAny (id : Nat) (inside : Bool) : List Syn → Bool
  | [] => false
  | k :: ks => belowExcept id inside k || belowExceptAny id inside ks
end

/-- The imported names (rules/deprecated_abc_import.py:190-194); an import list holds plain names. -/
def importNames : Option (List ImportName) → List PStr
  | none => []
  | some as => as.filterMap (fun a => a.name.nameText)

/-- `collections.abc` (rules/deprecated_abc_import.py:217-220). -/
def collectionsAbc : Expr := .attr (.name (py "collections")) (py "abc")

/-- `node.module and node.module.value == "collections"` (rules/deprecated_abc_import.py:198-199); the dots are not looked at. -/
def fromCollections : Option Expr → Bool
  | some m => m.nameText == some (py "collections")
  | none => false

/-- The matcher of `get_import_from` (rules/deprecated_abc_import.py:230-237): `from collections import` of exactly these names. -/
def Label.importsExactly (names : List PStr) : Label → Bool
  | .importFrom _ (some m) (some as) => m.isName (py "collections") && (as.length == names.length && (as.zip names).all (fun p => p.1.name.isName p.2))
  | _ => false

mutual
/-- `get_import_from(statement)` (rules/deprecated_abc_import.py:223-239): whether some `ImportFrom` in the statement, at any depth, imports exactly these names from
`collections`. -/
def hasImport (names : List PStr) : Syn → Bool
  | .node _ l ks => l.importsExactly names || hasImportAny names ks
/-- The same for several statements (rules/deprecated_abc_import.py:223-239). -/
def hasImportAny (names : List PStr) : List Syn → Bool
  | [] => false
  | k :: ks => hasImport names k || hasImportAny names ks
end

/-- A new statement `from <module> import …` (rules/deprecated_abc_import.py:262-291). -/
def newImport (module : Expr) (names : List PStr) : Syn :=
  .node 0 (.other (py "SimpleStatementLine")) [.node 0 (.importFrom 0 (some module) (some (names.map (fun n => ⟨0, .name n, none⟩)))) []]

/-- The loop over the statements of the module (rules/deprecated_abc_import.py:252-292). It runs over a list that it changes: a statement with such an import is replaced by
two imports, and the first of these is not looked at again; the second is, but imports from `collections.abc`. -/
def splitImports (names : List PStr) : List Syn → List Syn
  | [] => []
  | s :: ss =>
    if hasImport names s then
      newImport (.name (py "collections")) (names.filter (fun n => !abcs.contains n)) :: newImport collectionsAbc (names.filter (fun n => abcs.contains n)) :: splitImports names ss
    else s :: splitImports names ss

/-- `collections.<ABC>` (rules/deprecated_abc_import.py:301-308 and 326-334). -/
def collectionsDot (e : Expr) : Option PStr :=
  match e.core with
  | .attr v a => if v.isName (py "collections") && abcs.contains a then some a else none
  | _ => none

/-- `collections.abc.<ABC>` (rules/deprecated_abc_import.py:312-318 and 342-348). -/
def collectionsAbcDot (a : PStr) : Expr := .attr collectionsAbc a

/-- The new bases (rules/deprecated_abc_import.py:338-365). -/
def newBase (b : Arg) : Arg :=
  match collectionsDot b.value with
  | some a => .pos (collectionsAbcDot a)
  | none => b

/-- `DeprecatedABCImport` (rules/deprecated_abc_import.py:161-368) on the module `root`; the state is `imports_names` when `update_module` is set. -/
def abcRule (root : Syn) : VRule :=
  .simple (σ := Option (List PStr)) none [py "visit_ImportFrom", py "leave_Module", py "visit_ImportAlias", py "visit_ClassDef"] (fun s e => match e with
    | .visit i (.importFrom _ m ns) =>
      if belowExcept i false root then (s, [])
      else if fromCollections m && (importNames ns).any (abcs.contains ·) then
        if (importNames ns).all (abcs.contains ·) then (s, [{ node := i, change := some (.fromModule collectionsAbc) }])
        else (some (importNames ns), [])
      else (s, [])
    | .leave i .module => match s with
      | none => (s, [])
      | some names => (s, [{ node := i, change := some (.body (splitImports names root.kids)) }])
    | .visit i (.importAlias a) => match collectionsDot a.name with
      | some n => (s, [{ node := i, change := some (.alias (collectionsAbcDot n) a.asname) }])
      | none => (s, [])
    | .visit i (.classDef _ _ bases) =>
      (s, (bases.filter (fun b => (collectionsDot b.2.value).isSome)).map (fun _ => { node := i, change := some (.bases (bases.map (fun b => newBase b.2))) }))
    | _ => (s, []))

/-! ## The upgrade rules -/

/-- `DEPRECATIONS` (upgrade/deprecated_import.py:23-28). -/
def deprecations : List (PStr × PStr × PStr) :=
  [(py "fixit.CstLintRule", py "CstLintRule", py "LintRule"), (py "fixit.CSTLintRule", py "CSTLintRule", py "LintRule"),
   (py "fixit.InvalidTestCase", py "InvalidTestCase", py "Invalid"), (py "fixit.ValidTestCase", py "ValidTestCase", py "Valid")]

/-- `DEPRECATIONS.get(fqname)` (upgrade/deprecated_import.py:90-131). -/
def deprecation (fqname : PStr) : Option (PStr × PStr) := (deprecations.find? (fun d => d.1 = fqname)).map (fun d => d.2)

/-- `MESSAGE.format(…)` (upgrade/deprecated_import.py:20). -/
def deprecatedMessage (old new : PStr) : PStr := py "Fixit deprecated import " ++ old ++ py ", use " ++ new ++ py " instead"

/-- One alias of an import (upgrade/deprecated_import.py:94-115). -/
def deprecatedAlias (module : PStr) (a : ImportName) : List Rep :=
  match a.name.nameText with
  | none => []
  | some n => match deprecation (module ++ py "." ++ n) with
    | none => []
    | some (old, new) =>
      let asname := match a.asname with
        | some x => if x.nameText = some new then none else some x
        | none => none
      [{ node := a.id, message := some (deprecatedMessage old new), change := some (.alias (.name new) asname) }]

/-- `visit_ImportFrom` (upgrade/deprecated_import.py:90-115); the dots are not looked at. -/
def deprecatedFrom (module : Option Expr) (names : Option (List ImportName)) : List Rep :=
  match module, names with
  | some m, some as => match m.nameText with
    | some s => as.flatMap (deprecatedAlias s)
    | none => []
  | _, _ => []

/-- `metadata.pop()`: the name taken and the set left; an empty set raises `KeyError` (upgrade/deprecated_import.py:117-131). -/
def popName (st : Store) (i : Nat) : Except Err (PStr × Store) :=
  match st i with
  | [] => .error (.other 3)
  | n :: rest => .ok (n, fun j => if j = i then rest else st j)

/-- `FixitDeprecatedImport` (upgrade/deprecated_import.py:90-131). -/
def deprecatedImportRule : VRule where
  State := Unit
  init := ()
  methods := [py "visit_ImportFrom", py "visit_Name"]
  on := fun st s e => match e with
    | .visit _ (.importFrom _ m ns) => .ok (st, s, deprecatedFrom m ns)
    | .visit i (.name v) => match st i with
      | [] => .ok (st, s, [])
      | n :: rest =>
        .ok (fun j => if j = i then rest else st j, s, match deprecation n with
          | some (old, new) => if v = old then [{ node := i, message := some (deprecatedMessage old new), change := some (.rename new) }] else []
          | none => [])
    | _ => .ok (st, s, [])

/-- `rule_name[:-4]` when it ends with `Rule` (upgrade/remove_rule_suffix.py:60-62). -/
def withoutSuffix (name : PStr) : Option PStr :=
  if (py "Rule").isSuffixOf name then some (name.take (name.length - 4)) else none

/-- What a base with this qualified name leads to (upgrade/remove_rule_suffix.py:56-63). -/
def suffixReport (name : PStr) (nameId : Nat) (q : PStr) : List Rep :=
  if q = py "fixit.LintRule" then match withoutSuffix name with
    | some n => [{ node := nameId, change := some (.rename n) }]
    | none => []
  else []

/-- The loop over the bases (upgrade/remove_rule_suffix.py:54-63). -/
def suffixBases (name : PStr) (nameId : Nat) : List (Nat × Arg) → Store → Except Err (Store × List Rep)
  | [], st => .ok (st, [])
  | b :: bs, st => match popName st b.1 with
    | .error x => .error x
    | .ok (q, st') => match suffixBases name nameId bs st' with
      | .error x => .error x
      | .ok (st'', out) => .ok (st'', suffixReport name nameId q ++ out)

/-- `FixitRemoveRuleSuffix` (upgrade/remove_rule_suffix.py:53-63). -/
def removeSuffixRule : VRule where
  State := Unit
  init := ()
  methods := [py "visit_ClassDef"]
  on := fun st s e => match e with
    | .visit _ (.classDef name nameId bases) => match suffixBases name nameId bases st with
      | .error x => .error x
      | .ok (st', out) => .ok (st', s, out)
    | _ => .ok (st, s, [])

/-- `arg.keyword` is one of these names (upgrade/deprecated_testcase_keywords.py:79-91). -/
def Arg.keywordIn (a : Arg) (names : List PStr) : Bool :=
  match a.keyword with
  | some k => names.contains k
  | none => false

/-- `f"CodeRange(start=CodePosition({line_str}, {col_str}), end=CodePosition(1 + {line_str}, 0))"` (upgrade/deprecated_testcase_keywords.py:99-102). -/
def codeRange (line col : PStr) : PStr :=
  py "CodeRange(start=CodePosition(" ++ line ++ py ", " ++ col ++ py "), end=CodePosition(1 + " ++ line ++ py ", 0))"

/-- The value of the last keyword argument of this name (upgrade/deprecated_testcase_keywords.py:79-91). -/
def lastKeyword (k : PStr) : List Arg → Option Expr
  | [] => none
  | a :: as => match lastKeyword k as with
    | some e => some e
    | none => if a.keyword = some k then some a.value else none

/-- The keywords that are removed (upgrade/deprecated_testcase_keywords.py:79-91). -/
def oldKeywords : List PStr := [py "line", py "column", py "config", py "filename", py "kind"]

/-- The new argument (upgrade/deprecated_testcase_keywords.py:96-104); `code` is `code_for_node`, `parse` is `parse_expression`. -/
def rangeArgs (code : Expr → PStr) (parse : PStr → Except Err Expr) (args : List Arg) : Except Err (List Arg) :=
  match lastKeyword (py "line") args with
  | none => .ok []
  | some l => (parse (codeRange (code l) (((lastKeyword (py "column") args).map code).getD (py "0")))).map (fun e => [.mk .none (some (py "range")) e])

/-- `convert_linecol_to_range` (upgrade/deprecated_testcase_keywords.py:75-108). -/
def convertArgs (code : Expr → PStr) (parse : PStr → Except Err Expr) (i : Nat) (args : List Arg) : Except Err (List Rep) :=
  match rangeArgs code parse args with
  | .error x => .error x
  | .ok new =>
    if args.any (·.keywordIn oldKeywords) then .ok [{ node := i, change := some (.args (args.filter (fun a => !a.keywordIn oldKeywords) ++ new)) }]
    else .ok []

/-- The loop over the qualified names (upgrade/deprecated_testcase_keywords.py:69-73). -/
def convertEach (code : Expr → PStr) (parse : PStr → Except Err Expr) (i : Nat) (args : List Arg) : List PStr → Except Err (List Rep)
  | [] => .ok []
  | q :: qs =>
    if q = py "fixit.InvalidTestCase" ∨ q = py "fixit.ValidTestCase" then
      match convertArgs code parse i args with
      | .error x => .error x
      | .ok out => match convertEach code parse i args qs with
        | .error x => .error x
        | .ok out' => .ok (out ++ out')
    else convertEach code parse i args qs

/-- `FixitDeprecatedTestCaseKeywords` (upgrade/deprecated_testcase_keywords.py:63-73); `qual` are the qualified names of a node. -/
def testCaseRule (qual : Nat → List PStr) (code : Expr → PStr) (parse : PStr → Except Err Expr) : VRule where
  State := Unit
  init := ()
  methods := [py "visit_Module", py "visit_Call"]
  on := fun st s e => match e with
    | .visit i (.call _ args) => (convertEach code parse i args (qual i)).map (fun out => (st, s, out))
    | _ => .ok (st, s, [])

end Cst
