import Verif.Model.Rules.Expr
import Verif.Spec.Scopes

/-!
# UseClsInClassmethod

libCST's scope analysis (`ScopeProvider`) is a dependency; that it follows Python's rules for names (`Verif.Spec.Scopes`) is assumed. Not modelled: assignment expressions inside
comprehensions.
-/

namespace Cst
open Py Spec

/-- `FunctionDef`, as far as the rule looks at it (rules/cls_in_classmethod.py:223-290). -/
structure Method where
  decorators : List Expr
  /-- names in decorators, defaults and annotations, which belong to the scopes outside -/
  header : List Scoped
  sid : Nat
  /-- `params.posonly_params`, `params.params` and the other parameters: node and name -/
  posonly : List (Nat × PStr)
  params : List (Nat × PStr)
  others : List (Nat × PStr)
  body : List Scoped

/-- A parameter binds its name in the function's scope (rules/cls_in_classmethod.py:274-287). -/
def paramItems (ps : List (Nat × PStr)) : List Scoped := ps.map (fun p => .name p.1 p.2 .store)

/-- The contents of the function's scope (rules/cls_in_classmethod.py:274-287). -/
def Method.items (m : Method) : List Scoped := paramItems m.posonly ++ (paramItems m.params ++ (paramItems m.others ++ m.body))

mutual
/-- `_RenameTransformer.leave_Name` (rules/cls_in_classmethod.py:23-37): the names at these nodes, but not the texts of quoted annotations. -/
def renameAt (refs : List Nat) (new : PStr) : Scoped → Scoped
  | .name id s u => if u ≠ .quoted ∧ id ∈ refs then .name id new u else .name id s u
  | .binder s => .binder s
  | .declare g s => .declare g s
  | .scope sid k items => .scope sid k (renameAll refs new items)
/-- The same for lists (rules/cls_in_classmethod.py:23-37). -/
def renameAll (refs : List Nat) (new : PStr) : List Scoped → List Scoped
  | [] => []
  | t :: ts => renameAt refs new t :: renameAll refs new ts
end

/-- The same for parameters (rules/cls_in_classmethod.py:23-37). -/
def renameParams (refs : List Nat) (new : PStr) (ps : List (Nat × PStr)) : List (Nat × PStr) := ps.map (fun p => if p.1 ∈ refs then (p.1, new) else p)

/-- `node.visit(_RenameTransformer(refs, new))` (rules/cls_in_classmethod.py:289). -/
def Method.rename (refs : List Nat) (new : PStr) (m : Method) : Method :=
  { m with header := renameAll refs new m.header, posonly := renameParams refs new m.posonly, params := renameParams refs new m.params,
           others := renameParams refs new m.others, body := renameAll refs new m.body }

/-- `refs` (rules/cls_in_classmethod.py:274-287): the names at which the function's variable `s` is bound or read. -/
def Method.refs (env : List ScopeFrame) (m : Method) (s : PStr) : List Nat :=
  ((placesAll (frameOf m.sid .func m.items :: env) m.items).filter (fun p => p.s == s && p.target == some m.sid)).map Place.id

/-- `CLS` (rules/cls_in_classmethod.py:20). -/
def clsName : PStr := py "cls"

/-- `visit_FunctionDef` (rules/cls_in_classmethod.py:223-290). `isClassmethod` is `QualifiedNameProvider.has_name(self, decorator, builtins.classmethod)`, `hasScope` whether there is scope
metadata, `env` the scopes around the function and `fresh` a new node. -/
def useCls (isClassmethod : Expr → Bool) (hasScope : Bool) (env : List ScopeFrame) (fresh : Nat) (m : Method) : Report Method :=
  if m.decorators.any isClassmethod then
    match m.params with
    | [] => .fix { m with params := [(fresh, clsName)] }
    | p0 :: _ =>
      if p0.2 = clsName then .silent
      else if !hasScope then .warn
      else if (resolve (frameOf m.sid .func m.items :: env) clsName).isSome then .warn
      else .fix (m.rename (m.refs env p0.2) clsName)
  else .silent

end Cst
