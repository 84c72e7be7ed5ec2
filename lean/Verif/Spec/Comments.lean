import Verif.Model.Rule

/-!
# Specification: which comments belong to a reported node
-/

namespace Spec
open Py Fixit

/-- `c` is written in one of the comment places of this very node: its trailing comment (or that of its block header),
after its comma, before its closing bracket, on the lines after its opening bracket, between decorators and definition,
or on the lines above it. -/
def Attached (n : NodeInfo) (c : PStr) : Prop :=
  n.trailing = some (some c) ∨
  (n.trailing = none ∧ (n.body = .simpleSuite (some c) ∨ n.body = .indented (some c))) ∨
  (∃ ls, n.comma = some (.paren (some c) ls)) ∨
  (∃ ls, n.rbracket = some (.paren (some c) ls)) ∨
  (∃ fl ls, n.lbracket = some (.paren fl ls) ∧ some c ∈ ls) ∨
  (∃ ls, n.linesAfterDecorators = some ls ∧ some c ∈ ls) ∨
  (∃ ls, n.leadingLines = some ls ∧ some c ∈ ls)

/-- A node that owns the lines above it (a statement), decorators not counted. -/
def OwnsLines (n : NodeInfo) : Prop := n.leadingLines ≠ none ∧ n.isDecorator = false

/-- `c` belongs to the node at `p`: it is attached to the node or to an ancestor with no line-owning node strictly below it
(that is, up to the nearest enclosing statement), or it is in the module header and that statement is the first one of the
module, or there is no enclosing statement. -/
def Associated (m : ModuleTree) (p : Pos) (c : PStr) : Prop :=
  ∃ ch, m.chain p = some ch ∧
    ((∃ (k : Nat) (n : NodeInfo), ch[k]? = some n ∧ Attached n c ∧ ∀ j < k, ∀ n', ch[j]? = some n' → ¬ OwnsLines n') ∨
     (some c ∈ m.header ∧
       ((∀ n ∈ ch, ¬ OwnsLines n) ∨
        (∃ path, p = .inBody 0 path ∧ ∀ (j : Nat) (n : NodeInfo), j + 1 < ch.length → ch[j]? = some n → ¬ OwnsLines n))))

/-- Replace the subtree at a path by `t'` (unchanged if the path does not exist). -/
def replaceAt (t' : Tree) : List Nat → Tree → Tree
  | [], _ => t'
  | i :: q, .node info cs => .node info (cs.modify i (replaceAt t' q))

/-- Replace the subtree at a position of a module. -/
def ModuleTree.replaceAt (m : ModuleTree) (t' : Tree) : Pos → ModuleTree
  | .module => m
  | .inBody i q => { m with body := m.body.modify i (Spec.replaceAt t' q) }
  | .inOther i q => { m with others := m.others.modify i (Spec.replaceAt t' q) }

/-- `q` is the node at `p` or one of its ancestors (below the module). -/
def OnChain : Pos → Pos → Prop
  | .inBody i q, .inBody j p => i = j ∧ q <+: p
  | .inOther i q, .inOther j p => i = j ∧ q <+: p
  | _, _ => False

end Spec
