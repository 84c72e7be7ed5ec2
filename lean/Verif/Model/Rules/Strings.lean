import Verif.Model.Rules.Expr
import Verif.Py.Re

/-!
# The bundled rules about string literals
-/

namespace Cst
open Py

/-- `s.replace(old, new)` for `old` not empty: from left to right; the first `skip` characters belong to the last occurrence (rules/no_redundant_fstring.py:56-58, rules/use_fstring.py:184). -/
def replaceGo (old new : PStr) : Nat → PStr → PStr
  | _, [] => []
  | skip + 1, _ :: t => replaceGo old new skip t
  | 0, c :: t => if old.isPrefixOf (c :: t) then new ++ replaceGo old new (old.length - 1) t else c :: replaceGo old new 0 t

/-- `s.replace(old, new)` for `old` not empty (rules/no_redundant_fstring.py:56-58, rules/use_fstring.py:184). -/
def replaceAll (old new s : PStr) : PStr := replaceGo old new 0 s

/-- `sub in s` (rules/no_redundant_fstring.py:52-64, rules/use_fstring.py:57). -/
def isIn (sub : PStr) : PStr → Bool
  | [] => sub.isPrefixOf []
  | c :: s => sub.isPrefixOf (c :: s) || isIn sub s

/-! ## NoRedundantFString -/

/-- `FormattedString`: `start` is the prefix with the opening quote (rules/no_redundant_fstring.py:52-64, rules/use_fstring.py:181-228). -/
structure FNode where
  start : PStr
  parts : List FPart
  stop : PStr

/-- `old_string_inner` (rules/no_redundant_fstring.py:56-58). -/
def halveBraces (s : PStr) : PStr :=
  if isIn (py "{{") s || isIn (py "}}") s then replaceAll (py "}}") (py "}") (replaceAll (py "{{") (py "{") s) else s

/-- `visit_FormattedString` (rules/no_redundant_fstring.py:52-64): the text of the new literal, if the f-string is reported. -/
def noRedundantFString (n : FNode) : Option PStr :=
  match n.parts with
  | [.text s] => some (replaceAll (py "F") [] (replaceAll (py "f") [] n.start) ++ halveBraces s ++ n.stop)
  | _ => none

/-! ## UseFstring -/

/-- `s.split(sep)` for `sep` not empty; the first `skip` characters belong to the last separator (rules/use_fstring.py:184-186). -/
def splitGo (sep : PStr) : Nat → PStr → PStr × List PStr
  | _, [] => ([], [])
  | skip + 1, _ :: t => splitGo sep skip t
  | 0, c :: t =>
    if sep.isPrefixOf (c :: t) then ([], (splitGo sep (sep.length - 1) t).1 :: (splitGo sep (sep.length - 1) t).2)
    else (c :: (splitGo sep 0 t).1, (splitGo sep 0 t).2)

/-- `s.split(sep)` for `sep` not empty: the first part and the others (rules/use_fstring.py:184-186). -/
def splitAll (sep s : PStr) : PStr × List PStr := splitGo sep 0 s

/-- `libcst.SimpleString.prefix` (rules/use_fstring.py:59-67). -/
def strPrefix (text : PStr) : PStr := (text.takeWhile (fun c => c ≠ '\'' && c ≠ '"')).map Char.toLower

/-- `libcst.SimpleString.quote`: the equal quote characters after the prefix; two of them are the two quotes of an empty string, and of more than three only three count (rules/use_fstring.py:53-67). -/
def strQuote (text : PStr) : PStr :=
  match text.drop (strPrefix text).length with
  | [] => []
  | c :: t =>
    let run := c :: t.takeWhile (fun d => d == c)
    if run.length = 2 then run.take 1 else if 3 < run.length then run.take 3 else run

/-- `libcst.SimpleString.raw_value` (rules/use_fstring.py:18-27, 53-67). -/
def strRaw (text : PStr) : PStr :=
  let s := text.drop ((strPrefix text).length + (strQuote text).length)
  s.take (s.length - (strQuote text).length)

/-- `[^%]*(%s[^%]*)+` (rules/use_fstring.py:26). -/
def simpleFormat : Re := .seq (.star (.chr (fun c => c != '%'))) (.plus (.grp 1 (.seq (Re.str (py "%s")) (.star (.chr (fun c => c != '%'))))))

/-- `re.fullmatch(r, s) is not None`: one of the ways to match ends at the end (rules/use_fstring.py:26). -/
def fullmatch (r : Re) (s : PStr) : Bool := (r.run ⟨0, s, fun _ => none⟩).any (fun t => t.rest.isEmpty)

/-- `_match_simple_string` (rules/use_fstring.py:18-27), on a string literal. -/
def matchSimpleString (text : PStr) : Bool := !isIn (py "b") (strPrefix text) && fullmatch simpleFormat (strRaw text)

/-- `isinstance(node, cst.Tuple) and all(…)` (rules/use_fstring.py:35-40). -/
def simpleTuple (codegen : Expr → PStr) (e : Expr) : Bool :=
  match e.core with
  | .tuple es => es.all (fun x => decide ((codegen x.value).length < 30))
  | _ => false

/-- `_match_simple_expression` (rules/use_fstring.py:30-45). `codegen` is `module.code_for_node`. -/
def matchSimpleExpression (codegen : Expr → PStr) (e : Expr) : Bool := simpleTuple codegen e || decide ((codegen e).length < 30)

/-- The quotes that are tried, in order (rules/use_fstring.py:57). -/
def escapeQuotes : List PStr := [py "'", py "\"", py "'''", py "\"\"\""]

/-- `EscapeStringQuote.leave_SimpleString` (rules/use_fstring.py:48-71), `none` when it raises. `value` is `evaluated_value`, `none` when that raises. -/
def escapeString {L : Type} [DecidableEq L] (value : PStr → Option L) (quote : PStr) (text : PStr) : Option PStr :=
  if quote = strQuote text then
    match escapeQuotes.find? (fun quo => quo != strQuote text && !isIn quo (strRaw text)) with
    | some quo =>
      match value (strPrefix text ++ quo ++ strRaw text ++ quo), value text with
      | some x, some y => if x = y then some (strPrefix text ++ quo ++ strRaw text ++ quo) else none
      | _, _ => none
    | none => none
  else some text

/-- A parenthesised string literal: a new literal does not have the parentheses of the old one (rules/use_fstring.py:59-67). -/
def escapeParen (e : Expr) (t t' : PStr) : Expr := if t' = t then .paren e else .str t'

mutual
/-- `expression.visit(escape_transformer)` (rules/use_fstring.py:207): every string literal in the expression, `none` when a visit raises. Format specifications and the defaults of
lambda parameters are dropped in `Expr`, and so are the literals in them. -/
def escapeExpr (f : PStr → Option PStr) : Expr → Option Expr
  | .name s => some (.name s)
  | .num t => some (.num t)
  | .str t => (f t).map .str
  | .fstr ps => (escapeParts f ps).map .fstr
  | .attr v a => (escapeExpr f v).map (.attr · a)
  | .call g as => (escapeExpr f g).bind fun g' => (escapeArgs f as).map (.call g' ·)
  | .lam ps b => (escapeExpr f b).map (.lam ps ·)
  | .bool op l r => (escapeExpr f l).bind fun l' => (escapeExpr f r).map (.bool op l' ·)
  | .not e => (escapeExpr f e).map .not
  | .comp l ts => (escapeExpr f l).bind fun l' => (escapeTargets f ts).map (.comp l' ·)
  | .tuple es => (escapeElems f es).map .tuple
  | .list es => (escapeElems f es).map .list
  | .set es => (escapeElems f es).map .set
  | .dict es => (escapeDict f es).map .dict
  | .genExp e cs => (escapeExpr f e).bind fun e' => (escapeClauses f cs).map (.genExp e' ·)
  | .listComp e cs => (escapeExpr f e).bind fun e' => (escapeClauses f cs).map (.listComp e' ·)
  | .setComp e cs => (escapeExpr f e).bind fun e' => (escapeClauses f cs).map (.setComp e' ·)
  | .dictComp k v cs => (escapeExpr f k).bind fun k' => (escapeExpr f v).bind fun v' => (escapeClauses f cs).map (.dictComp k' v' ·)
  | .await e => (escapeExpr f e).map .await
  | .other k es => (escapeExprs f es).map (.other k ·)
  | .paren e =>
    match e.core with
    | .str t => (f t).map (escapeParen e t)
    | _ => (escapeExpr f e).map .paren
/-- The same for lists (rules/use_fstring.py:207). -/
def escapeExprs (f : PStr → Option PStr) : List Expr → Option (List Expr)
  | [] => some []
  | e :: es => (escapeExpr f e).bind fun e' => (escapeExprs f es).map (e' :: ·)
/-- The same for the parts of an f-string (rules/use_fstring.py:207). -/
def escapeParts (f : PStr → Option PStr) : List FPart → Option (List FPart)
  | [] => some []
  | .text t :: ps => (escapeParts f ps).map (.text t :: ·)
  | .expr e s :: ps => (escapeExpr f e).bind fun e' => (escapeParts f ps).map (.expr e' s :: ·)
/-- The same for arguments (rules/use_fstring.py:207). -/
def escapeArgs (f : PStr → Option PStr) : List Arg → Option (List Arg)
  | [] => some []
  | .mk s k e :: as => (escapeExpr f e).bind fun e' => (escapeArgs f as).map (.mk s k e' :: ·)
/-- The same for comparisons (rules/use_fstring.py:207). -/
def escapeTargets (f : PStr → Option PStr) : List Target → Option (List Target)
  | [] => some []
  | .mk o e :: ts => (escapeExpr f e).bind fun e' => (escapeTargets f ts).map (.mk o e' :: ·)
/-- The same for elements (rules/use_fstring.py:207). -/
def escapeElems (f : PStr → Option PStr) : List Elem → Option (List Elem)
  | [] => some []
  | .plain e :: es => (escapeExpr f e).bind fun e' => (escapeElems f es).map (.plain e' :: ·)
  | .starred e :: es => (escapeExpr f e).bind fun e' => (escapeElems f es).map (.starred e' :: ·)
/-- The same for the elements of a dict (rules/use_fstring.py:207). -/
def escapeDict (f : PStr → Option PStr) : List DictElem → Option (List DictElem)
  | [] => some []
  | .pair k v :: es => (escapeExpr f k).bind fun k' => (escapeExpr f v).bind fun v' => (escapeDict f es).map (.pair k' v' :: ·)
  | .starred e :: es => (escapeExpr f e).bind fun e' => (escapeDict f es).map (.starred e' :: ·)
/-- The same for the clauses of a comprehension (rules/use_fstring.py:207). -/
def escapeClauses (f : PStr → Option PStr) : List Clause → Option (List Clause)
  | [] => some []
  | .mk a t i ifs :: cs => (escapeExpr f t).bind fun t' => (escapeExpr f i).bind fun i' => (escapeExprs f ifs).bind fun ifs' =>
      (escapeClauses f cs).map (.mk a t' i' ifs' :: ·)
end

/-- `if len(token) > 0: parts.append(cst.FormattedStringText(value=token))` (rules/use_fstring.py:187-188, 215-216). -/
def textPart (token : PStr) : List FPart := if token = [] then [] else [.text token]

/-- The loop over the tokens after the first (rules/use_fstring.py:195-217); `none` when the node is reported without a fix. -/
def buildParts (escape : Expr → Option Expr) : List PStr → List Expr → Option (List FPart)
  | [], _ => some []
  | _ :: _, [] => none
  | token :: tokens, e :: es =>
    match escape e with
    | none => none
    | some e' => (buildParts escape tokens es).map (fun ps => .expr e' [] :: (textPart token ++ ps))

/-- `innards` (rules/use_fstring.py:184). -/
def doubleBraces (s : PStr) : PStr := replaceAll (py "}") (py "}}") (replaceAll (py "{") (py "{{") s)

/-- `expressions` (rules/use_fstring.py:189-193). -/
def expressionsOf (e : Expr) : List Expr :=
  match e.core with
  | .tuple es => es.map Elem.value
  | _ => [e]

/-- The parts of the new f-string (rules/use_fstring.py:181-217). -/
def fstringParts {L : Type} [DecidableEq L] (value : PStr → Option L) (text : PStr) (right : Expr) : Option (List FPart) :=
  (buildParts (escapeExpr (escapeString value (strQuote text))) (splitAll (py "%s") (doubleBraces (strRaw text))).2 (expressionsOf right)).map
    (fun ps => textPart (splitAll (py "%s") (doubleBraces (strRaw text))).1 ++ ps)

/-- `visit_BinaryOperation` (rules/use_fstring.py:162-228), on the operands of a `%`; `value` is `evaluated_value` and `isText` whether it is a `str`. -/
def useFstring {L : Type} [DecidableEq L] (codegen : Expr → PStr) (value : PStr → Option L) (isText : L → Bool) (left right : Expr) : Report FNode :=
  match left.core with
  | .str text =>
    if matchSimpleString text && matchSimpleExpression codegen right then
      match fstringParts value text right with
      | some ps => .fix ⟨py "f" ++ strPrefix text ++ strQuote text, ps, strQuote text⟩
      | none => .warn
    else
      match value text with
      | some x => if isText x then .warn else .silent
      | none => .crash
  | _ => .silent

/-- `m.Attribute(value=m.SimpleString(), attr=m.Name(value="format"))` (rules/use_fstring.py:157). -/
def isStringFormat (f : Expr) : Bool :=
  match f.core with
  | .attr v a =>
    match v.core with
    | .str _ => a == py "format"
    | _ => false
  | _ => false

/-- `visit_Call` (rules/use_fstring.py:153-160). -/
def useFstringCall (node : Expr) : Report FNode :=
  match node.core with
  | .call f _ => if isStringFormat f then .warn else .silent
  | _ => .silent

end Cst
