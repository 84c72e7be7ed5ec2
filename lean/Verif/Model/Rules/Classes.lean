import Verif.Model.Rules.Expr
import Verif.Model.Refs
import Verif.Py.Order

/-!
# The bundled rules about class statements
-/

namespace Cst
open Py Fixit

/-! ## SortedAttributes -/

/-- The target of an assignment, for `target.value`: a name has a text there, an attribute, a subscript or a starred target a node, a tuple or a list nothing (rules/sorted_attributes_rule.py:107-109). -/
inductive LineTarget where
  | name (s : PStr)
  | node
  | sequence
deriving DecidableEq

/-- A line of the body of a class: a string (a doc string when it comes first), an assignment with one target as the only statement of its line, or anything else (rules/sorted_attributes_rule.py:81-109). -/
inductive LineKind where
  | doc (text : PStr)
  | assign (t : LineTarget)
  | other
deriving DecidableEq

/-- A line, with its node (rules/sorted_attributes_rule.py:85-105). -/
structure Line where
  id : Nat
  kind : LineKind
deriving DecidableEq

/-- `sub in s` for strings (rules/sorted_attributes_rule.py:82). -/
def hasSub (sub : PStr) : PStr → Bool
  | [] => sub.isPrefixOf []
  | c :: s => sub.isPrefixOf (c :: s) || hasSub sub s

/-- `not doc_string or "@sorted-attributes" not in doc_string`, negated (rules/sorted_attributes_rule.py:81-83). -/
def hasDirective : List Line → Bool
  | ⟨_, .doc text⟩ :: _ => hasSub (py "@sorted-attributes") text
  | _ => false

/-- `m.matches(line, m.SimpleStatementLine(body=[m.Assign(targets=[m.AssignTarget()])]))` (rules/sorted_attributes_rule.py:98-100). -/
def Line.isAssign (l : Line) : Bool :=
  match l.kind with
  | .assign _ => true
  | _ => false

/-- The loop over the lines (rules/sorted_attributes_rule.py:85-105): the lines before the first assignment, the assignments, the other lines after it. -/
def partLines (found : Bool) : List Line → List Line × List Line × List Line
  | [] => ([], [], [])
  | l :: ls =>
    if l.isAssign then
      let r := partLines true ls
      (r.1, l :: r.2.1, r.2.2)
    else
      let r := partLines found ls
      if found then (r.1, r.2.1, l :: r.2.2) else (l :: r.1, r.2.1, r.2.2)

/-- A sorting key: a text, or a node, which has no order (rules/sorted_attributes_rule.py:107-109). -/
inductive Key where
  | text (s : PStr)
  | node

/-- `line.body[0].targets[0].target.value` (rules/sorted_attributes_rule.py:107-109). -/
def Line.key (l : Line) : Except Err Key :=
  match l.kind with
  | .assign (.name s) => .ok (.text s)
  | .assign .node => .ok .node
  | _ => .error .attribute

/-- The key is a `str` (rules/sorted_attributes_rule.py:107-109). -/
def Key.isText : Key → Bool
  | .text _ => true
  | .node => false

/-- The text of a key that is a `str` (rules/sorted_attributes_rule.py:107-109). -/
def Key.toText : Key → PStr
  | .text s => s
  | .node => []

/-- The keys, all of them before anything is compared (rules/sorted_attributes_rule.py:107-109). -/
def keysOf : List Line → Except Err (List (Key × Line))
  | [] => .ok []
  | l :: ls => match l.key with
    | .error x => .error x
    | .ok k => match keysOf ls with
      | .error x => .error x
      | .ok r => .ok ((k, l) :: r)

/-- `sorted(assign_lines, key=…)` (rules/sorted_attributes_rule.py:107-109). A sort of two or more elements compares each of them at least once, and a comparison with a node raises. -/
def sortLines (ls : List Line) : Except Err (List Line) :=
  match keysOf ls with
  | .error x => .error x
  | .ok ks =>
    if 2 ≤ ks.length ∧ ks.any (fun k => !k.1.isText) = true then .error .type
    else .ok ((sortBy (keyLt (fun k => k.1.toText)) ks).map Prod.snd)

/-- `visit_ClassDef` (rules/sorted_attributes_rule.py:80-119): the new body, if the class is reported. libCST nodes are compared by identity. -/
def sortAttributes (body : List Line) : Except Err (Option (List Line)) :=
  if hasDirective body then
    let p := partLines false body
    match sortLines p.2.1 with
    | .error x => .error x
    | .ok sorted => if sorted.map Line.id = p.2.1.map Line.id then .ok none else .ok (some (p.1 ++ sorted ++ p.2.2))
  else .ok none

/-! ## NoInheritFromObject -/

/-- `new_bases` (rules/no_inherit_from_object.py:49-51). -/
def newBases (bases : List Arg) : List Arg := bases.filter (fun b => !b.value.isName (py "object"))

/-- `visit_ClassDef` (rules/no_inherit_from_object.py:48-62): the new bases, if the class is reported. libCST nodes are compared by identity, so two tuples of which one is made by
leaving out elements of the other differ when they differ in length. The keywords and the parentheses are dropped. -/
def withoutObject (bases : List Arg) : Option (List Arg) :=
  if bases.length ≠ (newBases bases).length then some (newBases bases) else none

/-! ## NoNamedTuple -/

/-- `dataclass(frozen=True)` (rules/no_namedtuple.py:174). -/
def frozenDataclass : Expr := .call (.name (py "dataclass")) [.mk .none (some (py "frozen")) (.name (py "True"))]

/-- The loop of `partition_bases` (rules/no_namedtuple.py:185-198): `namedtuple_base` and `new_bases` so far. `isNamedTuple` is
`QualifiedNameProvider.has_name(self, base_class.value, …)`, by the node of the value. -/
def partitionBases (isNamedTuple : Nat → Bool) : List (Nat × Arg) → Option (Nat × Arg) × List (Nat × Arg) → Option (Nat × Arg) × List (Nat × Arg)
  | [], acc => acc
  | b :: bs, (base, new) => partitionBases isNamedTuple bs (if isNamedTuple b.1 then (some b, new) else (base, new ++ [b]))

/-- `leave_ClassDef` (rules/no_namedtuple.py:171-184): the new bases and decorators, if the class is reported. The keywords and the parentheses are dropped. -/
def dropNamedTuple (isNamedTuple : Nat → Bool) (bases : List (Nat × Arg)) (decorators : List Expr) : Option (List (Nat × Arg) × List Expr) :=
  match partitionBases isNamedTuple bases (none, []) with
  | (none, _) => none
  | (some _, new) => some (new, decorators ++ [frozenDataclass])

/-! ## AvoidOrInExcept -/

/-- `m.ExceptHandler(type=m.BooleanOperation(operator=m.Or()))` (rules/avoid_or_in_except.py:98-101), on the type of the handler. -/
def isOrHandler : Option Expr → Bool
  | some t => match t.core with
    | .bool .or _ _ => true
    | _ => false
  | none => false

/-- `visit_Try` (rules/avoid_or_in_except.py:97-102), on the types of the handlers: the pattern is a list of one handler. -/
def avoidOrInExcept : List (Option Expr) → Bool
  | [t] => isOrHandler t
  | _ => false

/-! ## ReplaceUnionWithOptional -/

/-- `SubscriptElement.slice`: an `Index`, starred or not, or a `Slice` (rules/replace_union_with_optional.py:94-98, 117-124). -/
inductive SubElem where
  | index (starred : Bool) (value : Expr)
  | slice

/-- `m.SubscriptElement(m.Index())` (rules/replace_union_with_optional.py:117-124). -/
def SubElem.isIndex : SubElem → Bool
  | .index _ _ => true
  | .slice => false

/-- `m.SubscriptElement(m.Index(m.Name("None")))` (rules/replace_union_with_optional.py:95); the star is not looked at. -/
def SubElem.isNoneIndex : SubElem → Bool
  | .index _ v => v.isName (py "None")
  | .slice => false

/-- An annotation, for this rule: `value[elements]`, or anything else (rules/replace_union_with_optional.py:88-128). -/
inductive Ann where
  | subscript (value : Expr) (elements : List SubElem)
  | other

/-- `contains_union_with_none` (rules/replace_union_with_optional.py:109-128). -/
def containsUnionWithNone : Ann → Bool
  | .subscript v [a, b] => v.isName (py "Union") && ((a.isIndex && b.isNoneIndex) || (a.isNoneIndex && b.isIndex))
  | _ => false

/-- The loop over the elements (rules/replace_union_with_optional.py:94-98): `nones` and `indexes`. -/
def countNones : List SubElem → Nat × List SubElem
  | [] => (0, [])
  | e :: es =>
    let r := countNones es
    if e.isNoneIndex then (r.1 + 1, r.2) else (r.1, e :: r.2)

/-- The replacement (rules/replace_union_with_optional.py:93-106). -/
def toOptional (elements : List SubElem) : Report Ann :=
  match countNones elements with
  | (nones, [x]) => if ¬ (nones > 1) then .fix (.subscript (.name (py "Optional")) [x]) else .warn
  | _ => .warn

/-- `leave_Annotation` (rules/replace_union_with_optional.py:88-107). `optionalKnown` is `scope is not None and "Optional" in scope`. -/
def replaceUnion (optionalKnown : Bool) (a : Ann) : Report Ann :=
  if containsUnionWithNone a then
    match a with
    | .subscript _ elements => if optionalKnown then toOptional elements else .warn
    | .other => .warn
  else .silent

end Cst
