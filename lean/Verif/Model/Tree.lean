import Verif.Model.Refs

/-!
# Concrete syntax trees and replacements: `engine.py:diff_violation`, `LintRunner.apply_replacements` and the parts of libCST they run

libCST itself is not part of the repository; `visit`, `deep_replace` and code generation are modelled after its documented behaviour.
-/

namespace Fixit
open Py

mutual
/-- A CST node. `id` is the object identity (nodes compare and hash by identity). `line` marks a `SimpleStatementLine`, which libCST
drops from a body when it becomes empty. `dflt` says that the node's trailing separator is `MaybeSentinel.DEFAULT`, so that one is generated
when it is not last in its sequence (the trees of engine.py:31-48, 125-143). -/
inductive Node where
  | mk (id : Nat) (line : Bool) (dflt : Bool) (parts : Parts)
/-- What code generation of a node emits, in order (engine.py:36, 41). -/
inductive Parts where
  | nil
  /-- fixed text -/
  | tok (s : PStr) (rest : Parts)
  /-- the current indentation -/
  | indent (rest : Parts)
  /-- a required child; `push` is added to the indentation inside it -/
  | one (push : PStr) (c : Node) (rest : Parts)
  /-- an optional child that is present, preceded by text emitted only with it -/
  | opt (extra : PStr) (c : Node) (rest : Parts)
  /-- a sequence of children with `push` added to the indentation, `sep` the default separator, `empty` emitted when there are no children
  (`pass`); `body` marks bodies of statements -/
  | seq (push : PStr) (body : Bool) (sep empty : PStr) (cs : Nodes) (rest : Parts)
/-- A sequence of nodes (the trees of engine.py:31-48, 125-143). -/
inductive Nodes where
  | nil
  | cons (c : Node) (cs : Nodes)
end

/-- Object identity (engine.py:129, 134, 137). -/
def Node.id : Node → Nat
  | .mk i _ _ _ => i

/-- The sequence is empty (engine.py:36, 41, 142). -/
def Nodes.isNil : Nodes → Bool
  | .nil => true
  | .cons _ _ => false

/-- All sequences are empty (engine.py:142). -/
def Parts.noItems : Parts → Bool
  | .nil => true
  | .tok _ r => r.noItems
  | .indent r => r.noItems
  | .one _ _ r => r.noItems
  | .opt _ _ r => r.noItems
  | .seq _ _ _ _ cs r => cs.isNil && r.noItems

/-- libCST `_is_removable`: a statement line without statements. (Leading lines, also a sequence, are left out of the line's own sequences here:
they are modelled as fixed text.) (engine.py:37, 142). -/
def Node.removable : Node → Bool
  | .mk _ l _ ps => l && ps.noItems

/-- The sequence as a list (engine.py:142). -/
def Nodes.toList : Nodes → List Node
  | .nil => []
  | .cons c cs => c :: cs.toList

/-- A list as a sequence (engine.py:142). -/
def Nodes.ofList : List Node → Nodes
  | [] => .nil
  | c :: cs => .cons c (Nodes.ofList cs)

mutual
/-- `_codegen` of a node with indentation `ind`; `trail` is the default separator, `[]` for the last of a sequence and outside sequences (engine.py:36, 41). -/
def Node.code (ind trail : PStr) : Node → PStr
  | .mk _ _ d ps => ps.code ind ++ (if d then trail else [])
/-- The text of what a node emits (engine.py:36, 41). -/
def Parts.code (ind : PStr) : Parts → PStr
  | .nil => []
  | .tok s r => s ++ r.code ind
  | .indent r => ind ++ r.code ind
  | .one push c r => c.code (ind ++ push) [] ++ r.code ind
  | .opt extra c r => extra ++ c.code ind [] ++ r.code ind
  | .seq push _ sep empty cs r => cs.code (ind ++ push) sep empty ++ r.code ind
/-- The elements of a sequence (engine.py:36, 41). -/
def Nodes.code (ind sep empty : PStr) : Nodes → PStr
  | .nil => empty
  | .cons c cs => c.code ind (if cs.isNil then [] else sep) ++ cs.code ind sep []
end

/-- `Module.code` (engine.py:36, 41). -/
def moduleCode (m : Node) : PStr := m.code [] []

/-- What a transformer's `on_leave` may return: `NodeReplacement`, ftypes.py. -/
inductive Repl where
  | node (n : Node)
  /-- `RemovalSentinel.REMOVE` -/
  | remove
  /-- `FlattenSentinel(nodes)` -/
  | flatten (ns : List Node)

/-- `bool(replacement)`: an empty `FlattenSentinel` has length 0; nodes and the removal sentinel are true (engine.py:111, 129). -/
def Repl.truthy : Repl → Bool
  | .node _ => true
  | .remove => true
  | .flatten ns => !ns.isEmpty

/-- A `CSTTransformer` (engine.py:131-140). -/
structure Transformer where
  onVisit : Node → Bool
  onLeave : Node → Node → Repl

/-- What libCST does with the results for the children of a sequence: removed ones disappear, flattened ones are spliced; in a body, a line that
was not empty and now is disappears too (engine.py:37, 142). -/
def keepOne (body : Bool) (old new : Node) : List Node := if body && !old.removable && new.removable then [] else [new]

/-- The nodes that come in the place of a child of a sequence (engine.py:37, 142). -/
def splice (body : Bool) (old : Node) : Repl → List Node
  | .remove => []
  | .node n => keepOne body old n
  | .flatten ns => ns.flatMap (keepOne body old)

mutual
/-- `CSTNode.visit` with a transformer. The node rebuilt with updated children is a new object; its identity plays no role and is not changed here (engine.py:142). -/
def Node.visit (v : Transformer) : Node → Except Err Repl
  | .mk i l d ps =>
    if v.onVisit (.mk i l d ps) then do
      let ps' ← ps.visit v
      return v.onLeave (.mk i l d ps) (.mk i l d ps')
    else .ok (v.onLeave (.mk i l d ps) (.mk i l d ps))
/-- `_visit_and_replace_children`: a required child must be replaced by one node, an optional one by at most one (engine.py:142). -/
def Parts.visit (v : Transformer) : Parts → Except Err Parts
  | .nil => .ok .nil
  | .tok s r => do return .tok s (← r.visit v)
  | .indent r => do return .indent (← r.visit v)
  | .one push c r => do
    match (← c.visit v) with
    | .node c' => return .one push c' (← r.visit v)
    | _ => throw (.other 0)
  | .opt extra c r => do
    match (← c.visit v) with
    | .node c' => return .opt extra c' (← r.visit v)
    | .remove => r.visit v
    | .flatten _ => throw (.other 0)
  | .seq push b sep e cs r => do
    let l ← cs.visit v b
    return .seq push b sep e (Nodes.ofList l) (← r.visit v)
/-- `visit_sequence`, `visit_body_sequence` (engine.py:142). -/
def Nodes.visit (v : Transformer) (body : Bool) : Nodes → Except Err (List Node)
  | .nil => .ok []
  | .cons c cs => do
    let r ← c.visit v
    let rest ← cs.visit v body
    return splice body c r ++ rest
end

/-- `Module.visit`: a removed module is emptied; flattening a module is an error (engine.py:142). -/
def visitModule (v : Transformer) (m : Node) : Except Err Node := do
  match (← m.visit v) with
  | .node n => return n
  | .remove => return .mk m.id false false .nil
  | .flatten _ => throw (.other 0)

/-- The transformer behind `deep_replace(old, new)` (engine.py:37-39). -/
def childReplacement (old : Nat) (new : Repl) : Transformer where
  onVisit n := n.id ≠ old
  onLeave n upd := if n.id = old then new else .node upd

/-- `module.deep_replace(old, new)` (engine.py:37-39). -/
def deepReplace (m : Node) (old : Nat) (new : Repl) : Except Err Node := visitModule (childReplacement old new) m

/-- A violation as far as fixing is concerned (`LintViolation.node`, `.replacement`, ftypes.py:255-274). -/
structure Fix where
  node : Nat
  replacement : Option Repl

/-- `v.replacement`, if it is true (engine.py:111, 129). -/
def Fix.usable (f : Fix) : Option Repl :=
  match f.replacement with
  | some r => if r.truthy then some r else none
  | none => none

/-- `{v.node: v.replacement for v in violations if v.replacement}`, engine.py:129: a later entry for the same node replaces an earlier one. -/
def replacements : List Fix → Nat → Option Repl
  | [], _ => none
  | f :: fs, i =>
    match replacements fs i with
    | some r => some r
    | none => if f.node = i then f.usable else none

/-- `ReplacementTransformer`, engine.py:131-140. -/
def replacementTransformer (ρ : Nat → Option Repl) : Transformer where
  onVisit n := (ρ n.id).isNone
  onLeave n upd := match ρ n.id with
    | some r => r
    | none => .node upd

/-- `LintRunner.apply_replacements`, engine.py:125-143. -/
def applyReplacements (m : Node) (fs : List Fix) : Except Err Node := visitModule (replacementTransformer (replacements fs)) m

/-- `diff_violation`, engine.py:31-48: the two texts the diff is made from. Called only for violations with a (true) replacement. -/
def diffTexts (m : Node) (old : Nat) (r : Repl) : Except Err (PStr × PStr) := do
  let changed ← deepReplace m old r
  return (moduleCode m, moduleCode changed)

end Fixit
