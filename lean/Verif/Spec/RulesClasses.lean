import Verif.Model.Rules.Classes

/-!
# What the rules about class statements should do
-/

namespace Spec
open Py Cst

/-- The class has a doc string that holds `@sorted-attributes`. -/
def Directive (body : List Line) : Prop := ∃ i before after rest, body = ⟨i, .doc (before ++ py "@sorted-attributes" ++ after)⟩ :: rest

/-- The line is `<target> = …`. -/
def Assigns (l : Line) : Prop := ∃ t, l.kind = .assign t

instance (l : Line) : Decidable (Assigns l) :=
  match h : l.kind with
  | .assign t => isTrue ⟨t, h⟩
  | .doc _ => isFalse (fun ⟨t, ht⟩ => by rw [h] at ht; cases ht)
  | .other => isFalse (fun ⟨t, ht⟩ => by rw [h] at ht; cases ht)

/-- The attribute that the line sets. -/
def attributeOf (l : Line) : PStr :=
  match l.kind with
  | .assign (.name s) => s
  | _ => []

/-- `new` is `body` with its assignments sorted: first the lines before the first assignment, then the assignments in order of their names, those to the same name as they were, then
the other lines as they were. -/
structure SortedBody (body new : List Line) : Prop where
  parts : ∃ pre rest mid, body = pre ++ rest ∧ (∀ l ∈ pre, ¬ Assigns l) ∧ (∀ l tail, rest = l :: tail → Assigns l) ∧
    new = pre ++ mid ++ rest.filter (fun l => ¬ Assigns l) ∧ mid.Perm (body.filter (fun l => Assigns l)) ∧
    mid.Pairwise (fun a b => strLt (attributeOf b) (attributeOf a) = false) ∧
    ∀ s, mid.filter (fun l => attributeOf l = s) = (body.filter (fun l => Assigns l)).filter (fun l => attributeOf l = s)

/-- The assignments are in order of the names. -/
def InOrder (body : List Line) : Prop := (body.filter (fun l => Assigns l)).Pairwise (fun a b => strLt (attributeOf b) (attributeOf a) = false)

/-- A target cannot be sorted by its name: there is a tuple or list target, or there are two or more assignments and one of the targets is no plain name. -/
def Unsortable (body : List Line) : Prop :=
  (∃ l ∈ body, l.kind = .assign .sequence) ∨ (2 ≤ (body.filter (fun l => Assigns l)).length ∧ ∃ l ∈ body, l.kind = .assign .node)

/-! ## Class statements -/

/-- The base is written `object` (parentheses aside). -/
def IsObject (b : Arg) : Prop := b.value.core = .name (py "object")

/-- Take a class off the front of a list, if it is there. -/
def dropHead {C : Type} [DecidableEq C] (h : C) : List C → List C
  | x :: t => if x = h then t else x :: t
  | [] => []

/-- Python's merge of linearisations (C3): again and again, take the first head that is in the tail of no list, and take it off all lists; it fails when there is no such head. -/
inductive Merge {C : Type} [DecidableEq C] : List (List C) → List C → Prop
  | done (seqs : List (List C)) : (∀ s ∈ seqs, s = []) → Merge seqs []
  | step (seqs before after : List (List C)) (h : C) (t out : List C) :
      seqs = before ++ (h :: t) :: after →
      (∀ s ∈ seqs, h ∉ s.tail) →
      (∀ s ∈ before, ∀ x, s.head? = some x → ∃ s' ∈ seqs, x ∈ s'.tail) →
      Merge (seqs.map (dropHead h)) out → Merge seqs (h :: out)

/-- A class statement with these bases makes a class, and `out` are the classes after it in its method resolution order. Without bases, `object` is the base. -/
def Inherits {C : Type} [DecidableEq C] (object : C) (mro : C → List C) (bases out : List C) : Prop :=
  let bs := if bases = [] then [object] else bases
  Merge (bs.map mro ++ [bs]) out

/-- The method resolution orders of the existing classes: each starts with the class and ends with `object`. -/
structure Lineages {C : Type} (object : C) (mro : C → List C) : Prop where
  object_mro : mro object = [object]
  starts : ∀ c, c ∈ mro c
  ends : ∀ c, ∃ l, mro c = l ++ [object]

/-- What a type annotation stands for, as the set of its members: `Union[a, b]` and `Optional[a]` of plain indexes (`typing` documentation). `member` says what the other types are. -/
inductive Denotes (V : Type) (member : Expr → V → Prop) : Ann → V → Prop
  | union (v : Expr) (es : List SubElem) (e : Expr) (x : V) : v.core = .name (py "Union") → .index false e ∈ es → member e x → Denotes V member (.subscript v es) x
  | optional (v : Expr) (e : Expr) (x : V) : v.core = .name (py "Optional") → member e x → Denotes V member (.subscript v [.index false e]) x
  | optionalNone (v : Expr) (e : Expr) (x : V) : v.core = .name (py "Optional") → member (.name (py "None")) x → Denotes V member (.subscript v [.index false e]) x

/-- The handler is `except <l> or <r>`. -/
def CatchesOr (t : Option Expr) (l r : Expr) : Prop := ∃ e, t = some e ∧ e.core = .bool .or l r

/-- Applying decorators to a class: the last one first. -/
def decorated {V : Type} (apply : Expr → V → V) : List Expr → V → V
  | [], c => c
  | d :: ds, c => apply d (decorated apply ds c)

/-- The annotation is `Union[a, b]` of two indexes of which one is `None`. -/
structure UnionWithNone (a : Ann) (x y : SubElem) : Prop where
  union : ∃ v, a = .subscript v [x, y] ∧ v.core = .name (py "Union")
  index : (∃ s v, x = .index s v) ∧ ∃ s v, y = .index s v
  none : (∃ s v, x = .index s v ∧ v.core = .name (py "None")) ∨ ∃ s v, y = .index s v ∧ v.core = .name (py "None")

end Spec
