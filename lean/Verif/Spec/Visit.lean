import Verif.Model.Visit

/-!
# Positions in a tree
-/

namespace Spec
open Py Cst

/-- A node on the way down to a position, with its children that come before the way. -/
structure Frame where
  id : Nat
  label : Label
  before : List Syn

/-- `n` is in `t` at the end of this way, outermost node first. -/
inductive At : List Frame → Syn → Syn → Prop
  | here (t : Syn) : At [] t t
  | down (i : Nat) (l : Label) (before after : List Syn) (k : Syn) (way : List Frame) (n : Syn) (h : At way n k) :
      At (⟨i, l, before⟩ :: way) n (.node i l (before ++ k :: after))

/-- `n` is somewhere in `t`. -/
def Within (n t : Syn) : Prop := ∃ way, At way n t

end Spec

namespace Cst

mutual
/-- The nodes of a tree. -/
def Syn.ids : Syn → List Nat
  | .node i _ ks => i :: Syn.idsAll ks
/-- The nodes of some trees. -/
def Syn.idsAll : List Syn → List Nat
  | [] => []
  | k :: ks => k.ids ++ Syn.idsAll ks
end

end Cst
