import Verif.Py.Re
import Verif.Py.Order

/-!
# Model of rule references and tags (`src/fixit/ftypes.py`, `config.py:parse_rule`, `cli.py:main`)
-/

namespace Fixit
open Py

/-- An absolute, resolved path: its components below the root (`/` is `[]`) (ftypes.py:125, config.py:567). -/
abbrev Path := List PStr

/-- A piece of the message of a ConfigError: text, or a value written by `{value!r}`; `dateType` is `{type(value)}` of a TOML date or time,
which is left open (config.py:346-349, 362-365, 372-375, 389, 458-461, 468-470). -/
inductive Piece where
  | text (s : PStr)
  | str (s : PStr)
  | int (n : Int)
  | float (n : Int)
  | bool (b : Bool)
  | date (n : Nat)
  | dateType (n : Nat)
  deriving DecidableEq, Repr

/-- Python exceptions as values. `config` carries `ConfigError` (config.py:64-67); the others are exceptions the code does
not turn into `ConfigError`. -/
inductive Err where
  /-- `ConfigError`, with its message in pieces -/
  | config (msg : List Piece)
  /-- `ValueError` that is not a `ConfigError` -/
  | value
  /-- `IndexError` -/
  | index
  /-- `AttributeError` -/
  | attribute
  /-- `TypeError` -/
  | type
  /-- `ImportError` -/
  | importError
  /-- `CollectionError`, config.py:70-76 -/
  | collection
  /-- `OSError` of a directory that is not there -/
  | os
  /-- any other exception class (parse errors, OSError, …), identified by a number -/
  | other (n : Nat)
  deriving DecidableEq, Repr

deriving instance DecidableEq for Except

/-! ## QualifiedRule -/

/-- `QualifiedRule`, ftypes.py:120-133. `root` does not take part in `==`/`hash` (`compare=False, hash=False`). -/
structure QualifiedRule where
  module : PStr
  name : Option PStr := none
  loc : Option PStr := none
  root : Option Path := none
  deriving DecidableEq, Repr

/-- What `QualifiedRule.__eq__`/`__hash__` compare: `(module, name, local)` (ftypes.py:120-125). -/
def QualifiedRule.key (r : QualifiedRule) : PStr × Option PStr × Option PStr := (r.module, r.name, r.loc)

/-- `QualifiedRule.__str__`, ftypes.py:127-128. -/
def QualifiedRule.str (r : QualifiedRule) : PStr :=
  r.module ++ (match r.name with | some (c :: cs) => ':' :: c :: cs | _ => [])

/-- `[a-zA-Z0-9_]` (ftypes.py:97). -/
def isIdentChar (c : Char) : Bool := c.isAlphanum || c == '_'
/-- `[a-zA-Z0-9_-]` (ftypes.py:97, 99). -/
def isSegChar (c : Char) : Bool := isIdentChar c || c == '-'

/-- `QualifiedRuleRegex`, ftypes.py:92-103. Groups: 1 = module, 2 = local, 3 = unnamed, 4 = name. -/
def qualifiedRuleRegex : Re :=
  .seq .bos <|
  .seq (.grp 1 (.seq (.opt (.grp 2 (.lit '.'))) (.seq (.plus (.chr isIdentChar))
    (.star (.grp 3 (.seq (.lit '.') (.plus (.chr isSegChar)))))))) <|
  .seq (.opt (.seq (.lit ':') (.grp 4 (.plus (.chr isSegChar))))) .eos

/-- `parse_rule`, config.py:382-399. `match.groupdict()` gives groups 1, 2, 4; the module group always participates. -/
def parseRule (rule : PStr) (root : Path) : Except Err QualifiedRule :=
  match qualifiedRuleRegex.match_ rule with
  | none => .error (.config [.text (py "invalid rule name "), .str rule])
  | some m =>
    let module := (m.caps 1).getD []
    let name := m.caps 4
    match m.caps 2 with
    | some (c :: cs) => .ok { module := module, name := name, loc := some (c :: cs), root := some root }
    | _ => .ok { module := module, name := name }

/-! ## Python sets of rules -/

/-- `s.add(x)` on a set compared by `key`: an element equal to `x` that is already present is kept, `x` is dropped (config.py:442, 448). -/
def setAdd {α β : Type} [DecidableEq β] (key : α → β) (x : α) (s : List α) : List α :=
  if s.any (fun y => key y = key x) then s else s ++ [x]

/-- `s.discard(x)` (config.py:443, 447). -/
def setDiscard {α β : Type} [DecidableEq β] (key : α → β) (x : α) (s : List α) : List α :=
  s.filter (fun y => key y ≠ key x)

/-- `{… for x in l}`: a set literal or comprehension, elements added in order (config.py:413, cli.py:110-114). -/
def setOf {α β : Type} [DecidableEq β] (key : α → β) (l : List α) : List α :=
  l.foldl (fun s x => setAdd key x s) []

/-- `sorted(rules)`: by `QualifiedRule.__lt__`, ftypes.py:130-133, i.e. by `str`. -/
def sortRules (l : List QualifiedRule) : List QualifiedRule := sortBy (keyLt QualifiedRule.str) l

/-! ## Tags -/

/-- `Tags`, ftypes.py:136-139. -/
structure Tags where
  incl : List PStr := []
  excl : List PStr := []
  deriving DecidableEq, Repr

/-- `token[0] in "!^-"` (ftypes.py:150). -/
def isNegation (c : Char) : Bool := c == '!' || c == '^' || c == '-'

/-- The loop of `Tags.parse`, ftypes.py:149-153: `token[0]` raises IndexError on an empty token. -/
def tagLoop : List PStr → List PStr → List PStr → Except Err (List PStr × List PStr)
  | incl, excl, [] => .ok (incl, excl)
  | _, _, [] :: _ => .error .index
  | incl, excl, (c :: cs) :: ts =>
    if isNegation c then tagLoop incl (setAdd id cs excl) ts
    else tagLoop (setAdd id (c :: cs) incl) excl ts

/-- `sorted` on strings (ftypes.py:156-157). -/
def sortStrs (l : List PStr) : List PStr := sortBy strLt l

/-- `Tags.parse`, ftypes.py:141-158, as a function of the iteration order `order` of the token set (`order` stands for any
permutation Python may choose). -/
def Tags.parse (u : Unicode) (order : List PStr → List PStr) (value : Option PStr) : Except Err Tags :=
  match value with
  | none => .ok {}
  | some [] => .ok {}
  | some v => do
    let tokens := setOf id ((splitOn ',' (u.lower v)).map strip)
    let (incl, excl) ← tagLoop [] [] (order tokens)
    return { incl := sortStrs incl, excl := sortStrs excl }

/-- `Tags.__bool__`, ftypes.py:160-161. -/
def Tags.truthy (t : Tags) : Bool := !t.incl.isEmpty || !t.excl.isEmpty

/-- `value in tags` for a collection of tags, ftypes.py:163-179. -/
def Tags.contains (t : Tags) (tags : List PStr) : Bool :=
  if tags.any (fun x => t.excl.contains x) then false
  else if t.incl.isEmpty || tags.any (fun x => t.incl.contains x) then true
  else false

/-- `value in tags` for a single string, ftypes.py:166-167. -/
def Tags.containsStr (t : Tags) (tag : PStr) : Bool := t.contains [tag]

/-! ## The `--rules` option -/

/-- All elements parsed in order, failing at the first failure (cli.py:109-115, 288). -/
def parseAll (root : Path) : List PStr → Except Err (List QualifiedRule)
  | [] => .ok []
  | s :: ss => do
    let r ← parseRule s root
    let rs ← parseAll root ss
    return r :: rs

/-- `cli.py:109-115`: `sorted({parse_rule(r, cwd) for r in (rs.strip() for rs in rules.split(",")) if r})`.
`order` is the iteration order of the set. -/
def parseRulesOption (order : List QualifiedRule → List QualifiedRule) (cwd : Path) (rules : PStr) :
    Except Err (List QualifiedRule) := do
  let rs ← parseAll cwd (((splitOn ',' rules).map strip).filter (fun r => !r.isEmpty))
  return sortRules (order (setOf QualifiedRule.key rs))

end Fixit
