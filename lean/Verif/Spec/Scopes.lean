import Verif.Py.Str

/-!
# Names and scopes

After the Python language reference, chapter 4.2 ("Naming and binding"). Source text is reduced to what the meaning of names depends on: where names are used and bound, and the nested
scopes. The order within a scope does not matter for which scope a name belongs to.
-/

namespace Spec
open Py

/-- How a name is used at a place: read (or deleted), bound (a parameter, an assignment, a `for` target, …), or read inside a quoted annotation. -/
inductive Use where
  | load | store | quoted
deriving DecidableEq, Repr

/-- Functions and lambdas, comprehensions, classes, and the module with what is built in. -/
inductive ScopeKind where
  | func | comp | cls | module
deriving DecidableEq, Repr

/-- What a scope contains. -/
inductive Scoped where
  /-- a name, its node and its use -/
  | name (id : Nat) (s : PStr) (u : Use)
  /-- an `import`, a `def` or a `class`: binds a name, but is no name itself -/
  | binder (s : PStr)
  /-- `global s` or `nonlocal s` -/
  | declare (isGlobal : Bool) (s : PStr)
  /-- a nested scope -/
  | scope (sid : Nat) (k : ScopeKind) (items : List Scoped)

/-- A scope, seen from inside. -/
structure ScopeFrame where
  sid : Nat
  kind : ScopeKind
  /-- the names bound here -/
  bound : List PStr
  /-- the names declared `global` here -/
  globals : List PStr

/-- The names that an item of a scope binds. -/
def Scoped.binds : Scoped → List PStr
  | .name _ s .store => [s]
  | .binder s => [s]
  | _ => []

/-- The names that an item declares `global` or `nonlocal`. -/
def Scoped.declares : Scoped → List PStr
  | .declare _ s => [s]
  | _ => []

def Scoped.declaresGlobal : Scoped → List PStr
  | .declare true s => [s]
  | _ => []

/-- The scope with these items: what is bound in it, unless it is declared `global` or `nonlocal`, is local. -/
def frameOf (sid : Nat) (k : ScopeKind) (items : List Scoped) : ScopeFrame :=
  ⟨sid, k, (items.flatMap Scoped.binds).filter (fun s => !(items.flatMap Scoped.declares).contains s), items.flatMap Scoped.declaresGlobal⟩

/-- The module's (or built-in) variable with this name. -/
def moduleLookup : List ScopeFrame → PStr → Option Nat
  | [], _ => none
  | f :: fs, s => if f.kind = .module ∧ s ∈ f.bound then some f.sid else moduleLookup fs s

/-- The variable with this name, seen from a nested scope: the variables of classes are not visible there. -/
def resolveUp : List ScopeFrame → PStr → Option Nat
  | [], _ => none
  | f :: fs, s =>
    if f.kind = .cls then resolveUp fs s
    else if s ∈ f.globals then moduleLookup fs s
    else if s ∈ f.bound then some f.sid
    else resolveUp fs s

/-- The scope whose variable a name means, in the innermost of these scopes; `none` when there is no such variable. -/
def resolve : List ScopeFrame → PStr → Option Nat
  | [], _ => none
  | f :: fs, s => if s ∈ f.globals then moduleLookup fs s else if s ∈ f.bound then some f.sid else resolveUp fs s

/-- A place where a name is used: its node, the name, how, and the scopes around it. -/
structure Place where
  id : Nat
  s : PStr
  u : Use
  env : List ScopeFrame

/-- The scope whose variable is meant there. -/
def Place.target (p : Place) : Option Nat := resolve p.env p.s

mutual
/-- All places with names. -/
def places (env : List ScopeFrame) : Scoped → List Place
  | .name id s u => [⟨id, s, u, env⟩]
  | .binder _ => []
  | .declare _ _ => []
  | .scope sid k items => placesAll (frameOf sid k items :: env) items
def placesAll (env : List ScopeFrame) : List Scoped → List Place
  | [] => []
  | t :: ts => places env t ++ placesAll env ts
end

mutual
/-- All declarations. -/
def declared : Scoped → List PStr
  | .name _ _ _ => []
  | .binder _ => []
  | .declare _ s => [s]
  | .scope _ _ items => declaredAll items
def declaredAll : List Scoped → List PStr
  | [] => []
  | t :: ts => declared t ++ declaredAll ts
end

mutual
/-- The nested scopes. -/
def sids : Scoped → List Nat
  | .name _ _ _ => []
  | .binder _ => []
  | .declare _ _ => []
  | .scope sid _ items => sid :: sidsAll items
def sidsAll : List Scoped → List Nat
  | [] => []
  | t :: ts => sids t ++ sidsAll ts
end

end Spec
