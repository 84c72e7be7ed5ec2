import Verif.Model.Cst

/-!
# The names that occur in an expression

Every name written anywhere in the expression, bound or free (so that "does not occur" is the strongest form of "does not depend on").
The targets of `for` clauses are not included: they are given a value, not read.
-/

namespace Cst
open Py

mutual
def Expr.names : Expr → List PStr
  | .name s => [s]
  | .num _ => []
  | .str _ => []
  | .fstr ps => namesParts ps
  | .attr v _ => v.names
  | .call f as => f.names ++ namesArgs as
  | .lam _ b => b.names
  | .bool _ l r => l.names ++ r.names
  | .not e => e.names
  | .comp l ts => l.names ++ namesTargets ts
  | .tuple es => namesElems es
  | .list es => namesElems es
  | .set es => namesElems es
  | .dict es => namesDict es
  | .genExp e cs => e.names ++ namesClauses cs
  | .listComp e cs => e.names ++ namesClauses cs
  | .setComp e cs => e.names ++ namesClauses cs
  | .dictComp k v cs => k.names ++ v.names ++ namesClauses cs
  | .await e => e.names
  | .other _ es => namesExprs es
  | .paren e => e.names
def namesExprs : List Expr → List PStr
  | [] => []
  | e :: es => e.names ++ namesExprs es
def namesParts : List FPart → List PStr
  | [] => []
  | .text _ :: ps => namesParts ps
  | .expr e _ :: ps => e.names ++ namesParts ps
def namesArgs : List Arg → List PStr
  | [] => []
  | .mk _ _ e :: as => e.names ++ namesArgs as
def namesTargets : List Target → List PStr
  | [] => []
  | .mk _ e :: ts => e.names ++ namesTargets ts
def namesElems : List Elem → List PStr
  | [] => []
  | .plain e :: es => e.names ++ namesElems es
  | .starred e :: es => e.names ++ namesElems es
def namesDict : List DictElem → List PStr
  | [] => []
  | .pair k v :: es => k.names ++ v.names ++ namesDict es
  | .starred e :: es => e.names ++ namesDict es
def namesClauses : List Clause → List PStr
  | [] => []
  | .mk _ _ it ifs :: cs => it.names ++ namesExprs ifs ++ namesClauses cs
end

end Cst
