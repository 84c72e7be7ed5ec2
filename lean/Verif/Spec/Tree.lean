import Verif.Model.Tree

/-!
# Specification of applying fixes to a tree
-/

namespace Spec
open Py Fixit

/-- The nodes directly below a node. -/
def childrenOf : Parts → List Node
  | .nil => []
  | .tok _ r => childrenOf r
  | .indent r => childrenOf r
  | .one _ c r => c :: childrenOf r
  | .opt _ c r => c :: childrenOf r
  | .seq _ _ _ _ cs r => cs.toList ++ childrenOf r

/-- The nodes directly below a node. -/
def children : Node → List Node
  | .mk _ _ _ ps => childrenOf ps

/-- `s` occurs in the tree `n`. -/
inductive Occurs (s : Node) : Node → Prop
  | here : Occurs s s
  | deeper (c n : Node) : c ∈ children n → Occurs s c → Occurs s n

/-- `s` occurs strictly inside `n`. -/
def Inside (s n : Node) : Prop := ∃ c ∈ children n, Occurs s c

/-- Distinct occurrences are distinct objects: siblings' subtrees share no node, and a node does not contain itself. -/
inductive Distinct : Node → Prop
  | intro (n : Node) : (∀ c ∈ children n, Distinct c) →
      (children n).Pairwise (fun a b => ∀ s t, Occurs s a → Occurs t b → s.id ≠ t.id) →
      (∀ s, Inside s n → s.id ≠ n.id) → Distinct n

/-- A piece of the text of a file: text that belongs to no replaced node, or the place of a replaced node (with the indentation and
the default separator in force there). -/
inductive Seg where
  | text (s : PStr)
  | hole (ind trail : PStr) (n : Node)

/-- The text of a replacement put at a place. -/
def replText (ind trail : PStr) : Repl → PStr
  | .node n => n.code ind trail
  | .remove => []
  | .flatten ns => ns.flatMap (fun n => n.code ind trail)

/-- The original text of a piece. -/
def Seg.before : Seg → PStr
  | .text s => s
  | .hole ind trail n => n.code ind trail

/-- The text of a piece after the fixes. -/
def Seg.after (ρ : Nat → Option Repl) : Seg → PStr
  | .text s => s
  | .hole ind trail n => match ρ n.id with
    | some r => replText ind trail r
    | none => []

/-- The replaced places, in order. -/
def holes : List Seg → List Node
  | [] => []
  | .text _ :: l => holes l
  | .hole _ _ n :: l => n :: holes l

end Spec
