import Verif.Py.Re

/-!
# Model of `src/fixit/rule.py` and the directive regex of `src/fixit/ftypes.py`
-/

namespace Fixit
open Py

/-! ## The directive regex -/

/-- `LintIgnoreRegex`, ftypes.py:76-89 (VERBOSE layout removed):
`\#\s*(lint-(?:ignore|fixme))(?:(?::\s*|\s+)(\w+(?:,\s*\w+)*))?`. -/
def lintIgnoreRegex (u : Unicode) : Re :=
  .seq (.lit '#') <|
  .seq (.star (.chr isSpace)) <|
  .seq (.grp 1 (.seq (.str (py "lint-")) (.alt (.str (py "ignore")) (.str (py "fixme"))))) <|
  .opt <|
    .seq (.alt (.seq (.lit ':') (.star (.chr isSpace))) (.plus (.chr isSpace))) <|
    .grp 2 <|
      .seq (.plus (.chr u.word)) <|
      .star <| .seq (.lit ',') <| .seq (.star (.chr isSpace)) (.plus (.chr u.word))

/-! ## Comments associated with a node -/

/-- The value of an optional comment: `tw.comment` / `line.comment` (libCST: `Comment | None`) (rule.py:119-192). -/
abbrev OptComment := Option PStr

/-- A whitespace slot of a comma or bracket: libCST `SimpleWhitespace` (no comments), or
`ParenthesizedWhitespace` with a `first_line` and `empty_lines` (rule.py:119-192). -/
inductive Ws where
  | simple
  | paren (firstLine : OptComment) (emptyLines : List OptComment)

/-- The `body` attribute as inspected by rule.py:131-136. -/
inductive Body where
  /-- no `body` attribute, or a body that is not a suite (e.g. a `Lambda`) -/
  | other
  /-- `SimpleStatementSuite`, with its `trailing_whitespace` -/
  | simpleSuite (trailing : OptComment)
  /-- `IndentedBlock`, with its `header` -/
  | indented (header : OptComment)

/-- What `node_comments` reads of one CST node through `getattr` (rule.py:125-178). A missing attribute is `none`. -/
structure NodeInfo where
  isDecorator : Bool
  /-- `trailing_whitespace` -/
  trailing : Option OptComment
  body : Body
  /-- `comma`, when it is a `Comma`: its `whitespace_after` -/
  comma : Option Ws
  /-- `rbracket`: its `whitespace_before` -/
  rbracket : Option Ws
  /-- `lbracket`: its `whitespace_after` -/
  lbracket : Option Ws
  /-- `lines_after_decorators` -/
  linesAfterDecorators : Option (List OptComment)
  /-- `leading_lines` -/
  leadingLines : Option (List OptComment)

/-- A CST node other than a module (rule.py:119-192). -/
inductive Tree where
  | node (info : NodeInfo) (children : List Tree)

/-- What `node_comments` reads of a node (rule.py:119-192). -/
def Tree.info : Tree → NodeInfo
  | .node i _ => i
/-- `node.children` (rule.py:119-192). -/
def Tree.children : Tree → List Tree
  | .node _ cs => cs

/-- A module: header lines, top-level statements, and its other child nodes (header/footer lines are themselves nodes) (rule.py:119-192). -/
structure ModuleTree where
  header : List OptComment
  body : List Tree
  others : List Tree

/-- A position in a module: the module itself, or a path below a top-level statement, or below another child.
Positions stand for node identity (CSTNode equality is identity) (rule.py:119-192). -/
inductive Pos where
  | module
  | inBody (i : Nat) (path : List Nat)
  | inOther (i : Nat) (path : List Nat)

/-- The nodes on a path, topmost first; `none` if the path does not exist (rule.py:119-192). -/
def Tree.along : Tree → List Nat → Option (List NodeInfo)
  | t, [] => some [t.info]
  | .node info cs, i :: p =>
    match cs[i]? with
    | none => none
    | some c => (c.along p).map (info :: ·)

/-- The chain the loop of rule.py:125 walks: the node, its parent, … up to but excluding the Module.
Parents are what `ParentNodeProvider` returns. `none` if the position does not exist. -/
def ModuleTree.chain (m : ModuleTree) : Pos → Option (List NodeInfo)
  | .module => some []
  | .inBody i p => (m.body[i]?).bind fun t => (t.along p).map List.reverse
  | .inOther i p => (m.others[i]?).bind fun t => (t.along p).map List.reverse

/-- `getattr(ws, "first_line", None)` and then `tw.comment`, as a list of yielded values (rule.py:119-192). -/
def Ws.firstLineComments : Ws → List PStr
  | .simple => []
  | .paren fl _ => fl.toList

/-- `getattr(ws, "empty_lines", None)` comments (rule.py:119-192). -/
def Ws.emptyLineComments : Ws → List PStr
  | .simple => []
  | .paren _ ls => ls.filterMap id

/-- rule.py:126-139: the trailing comment, either of the node itself or of its body. -/
def trailingComments (n : NodeInfo) : List PStr :=
  let tw : Option OptComment :=
    match n.trailing with
    | some t => some t
    | none =>
      match n.body with
      | .simpleSuite t => some t
      | .indented h => some h
      | .other => none
  match tw with
  | some c => c.toList
  | none => []

/-- rule.py:141-160: comments of an optional whitespace slot. -/
def slotComments (f : Ws → List PStr) : Option Ws → List PStr
  | some w => f w
  | none => []

/-- rule.py:162-172: comments of an optional list of lines. -/
def lineComments : Option (List OptComment) → List PStr
  | some ls => ls.filterMap id
  | none => []

/-- One iteration of the loop, rule.py:126-172 (everything yielded before the `break`/climb). -/
def nodeOwnComments (n : NodeInfo) : List PStr :=
  trailingComments n ++
  slotComments Ws.firstLineComments n.comma ++
  slotComments Ws.firstLineComments n.rbracket ++
  slotComments Ws.emptyLineComments n.lbracket ++
  lineComments n.linesAfterDecorators ++
  lineComments n.leadingLines

/-- rule.py:168-176: whether the loop stops at this node. -/
def stopsAt (n : NodeInfo) : Bool := n.leadingLines.isSome && !n.isDecorator

/-- The loop of rule.py:125-178 over a chain: the comments yielded, and how many nodes below the top are left when it breaks
(`none`: it climbed to the Module). -/
def climb : List NodeInfo → List PStr × Option Nat
  | [] => ([], none)
  | n :: rest =>
    if stopsAt n then (nodeOwnComments n, some rest.length)
    else
      let (cs, r) := climb rest
      (nodeOwnComments n ++ cs, r)

/-- rule.py:183-192: the header is included when the loop reached the Module (`none`), or broke at `parent.body[0]`: the node
at which it broke is a direct child of the module (`some 0`) and the position is in the first top-level statement. -/
def headerApplies : Option Nat → Pos → Bool
  | none, _ => true
  | some 0, .inBody 0 _ => true
  | _, _ => false

/-- `node_comments`, rule.py:119-192. -/
def nodeComments (m : ModuleTree) (p : Pos) : List PStr :=
  match m.chain p with
  | none => []
  | some ch => (climb ch).1 ++ (if headerApplies (climb ch).2 p then m.header.filterMap id else [])

/-! ## Suppression -/

/-- `name.endswith("Rule")` / `name[:-4]`, rule.py:101-102 and 212-213. -/
def stripRuleSuffix (s : PStr) : PStr :=
  if endsWith s (py "Rule") then s.take (s.length - 4) else s

/-- `LintRule.__init__`, rule.py:98-102: the friendly name of a rule class. -/
def ruleName (className : PStr) : PStr := stripRuleSuffix className

/-- The body of the loop of `ignore_lint` for one comment, rule.py:203-215. -/
def commentSilences (u : Unicode) (name comment : PStr) : Bool :=
  let ruleNames := [name, u.lower name]
  match (lintIgnoreRegex u).search comment with
  | none => false
  | some m =>
    match m.caps 2 with
    | none => true
    | some names =>
      ((splitOn ',' names).map strip).any fun n => ruleNames.contains (stripRuleSuffix n)

/-- `ignore_lint`, rule.py:194-217, on the comments `node_comments` yields. -/
def ignoreLint (u : Unicode) (name : PStr) (comments : List PStr) : Bool :=
  comments.any (commentSilences u name)

/-! ## report -/

/-- libCST `CodePosition` (imported in ftypes.py:30). -/
structure CodePosition where
  line : Nat
  column : Nat
  deriving DecidableEq, Repr

/-- libCST `CodeRange` (imported in ftypes.py:30). -/
structure CodeRange where
  start : CodePosition
  stop : CodePosition
  deriving DecidableEq, Repr

/-- The `position` argument of `report` (rule.py:219-265). -/
inductive PositionArg where
  | none
  | pos (p : CodePosition)
  | range (r : CodeRange)

/-- `LintViolation`, ftypes.py:255-274 (nodes and replacements are abstract here; `diff` is filled in by the engine). -/
structure Violation (Node Repl : Type) where
  ruleName : PStr
  range : CodeRange
  message : PStr
  node : Node
  replacement : Option Repl

/-- A `LintRule` instance as far as `report` is concerned: its name, its optional `MESSAGE`, and `_violations` (rule.py:98-102, 219-265). -/
structure RuleState (Node Repl : Type) where
  name : PStr
  message : Option PStr
  violations : List (Violation Node Repl)

/-- `message` after rule.py:245-249: a non-empty explicit message, else a non-empty `MESSAGE`, else none. -/
def resolveMessage (msg classMsg : Option PStr) : Option PStr :=
  match msg with
  | some (c :: cs) => some (c :: cs)
  | _ =>
    match classMsg with
    | some (c :: cs) => some (c :: cs)
    | _ => none

/-- The range of the violation, rule.py:251-255; `default` is the node's own range (`PositionProvider`). -/
def resolveRange (default : CodeRange) : PositionArg → CodeRange
  | .none => default
  | .pos p => ⟨p, ⟨p.line + 1, 0⟩⟩
  | .range rg => rg

/-- `report`, rule.py:219-265. `comments` are those of `node_comments(node)`, `default` is the node's own range
(`PositionProvider`). The result is the new state, or `none` when ValueError is raised (state unchanged). -/
def report {Node Repl : Type} (u : Unicode) (comments : List PStr) (default : CodeRange)
    (r : RuleState Node Repl) (node : Node) (msg : Option PStr) (position : PositionArg) (repl : Option Repl) :
    Option (RuleState Node Repl) :=
  if ignoreLint u r.name comments then some r
  else
    match resolveMessage msg r.message with
    | none => none
    | some m =>
      some { r with violations := r.violations ++ [⟨r.name, resolveRange default position, m, node, repl⟩] }

end Fixit
