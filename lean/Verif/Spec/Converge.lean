import Verif.Model.Rules.Strings
import Verif.Model.Rules.Stateful

/-!
# Applying the fixes of several rules again and again

What the statement about fixing until nothing is left needs: the number of nodes of an expression, what it is to replace one node of an expression, and which replacements the bundled
rules offer. Nothing here is code of the repository.
-/

namespace Cst
open Py

mutual
/-- The sum of `g` over the nodes of an expression. -/
def Expr.total (g : Expr → Nat) : Expr → Nat
  | .name s => g (.name s)
  | .num t => g (.num t)
  | .str t => g (.str t)
  | .fstr ps => g (.fstr ps) + totalParts g ps
  | .attr v a => g (.attr v a) + v.total g
  | .call f as => g (.call f as) + f.total g + totalArgs g as
  | .lam ps b => g (.lam ps b) + b.total g
  | .bool op l r => g (.bool op l r) + l.total g + r.total g
  | .not e => g (.not e) + e.total g
  | .comp l ts => g (.comp l ts) + l.total g + totalTargets g ts
  | .tuple es => g (.tuple es) + totalElems g es
  | .list es => g (.list es) + totalElems g es
  | .set es => g (.set es) + totalElems g es
  | .dict es => g (.dict es) + totalDict g es
  | .genExp e cs => g (.genExp e cs) + e.total g + totalClauses g cs
  | .listComp e cs => g (.listComp e cs) + e.total g + totalClauses g cs
  | .setComp e cs => g (.setComp e cs) + e.total g + totalClauses g cs
  | .dictComp k v cs => g (.dictComp k v cs) + k.total g + v.total g + totalClauses g cs
  | .await e => g (.await e) + e.total g
  | .other k es => g (.other k es) + totalExprs g es
  | .paren e => g (.paren e) + e.total g
/-- The same for lists. -/
def totalExprs (g : Expr → Nat) : List Expr → Nat
  | [] => 0
  | e :: es => e.total g + totalExprs g es
/-- The same for the parts of an f-string. -/
def totalParts (g : Expr → Nat) : List FPart → Nat
  | [] => 0
  | .text _ :: ps => totalParts g ps
  | .expr e _ :: ps => e.total g + totalParts g ps
/-- The same for arguments. -/
def totalArgs (g : Expr → Nat) : List Arg → Nat
  | [] => 0
  | .mk _ _ e :: as => e.total g + totalArgs g as
/-- The same for comparisons. -/
def totalTargets (g : Expr → Nat) : List Target → Nat
  | [] => 0
  | .mk _ e :: ts => e.total g + totalTargets g ts
/-- The same for elements. -/
def totalElems (g : Expr → Nat) : List Elem → Nat
  | [] => 0
  | .plain e :: es => e.total g + totalElems g es
  | .starred e :: es => e.total g + totalElems g es
/-- The same for the elements of a dict. -/
def totalDict (g : Expr → Nat) : List DictElem → Nat
  | [] => 0
  | .pair k v :: es => k.total g + v.total g + totalDict g es
  | .starred e :: es => e.total g + totalDict g es
/-- The same for the clauses of a comprehension. -/
def totalClauses (g : Expr → Nat) : List Clause → Nat
  | [] => 0
  | .mk _ t i ifs :: cs => t.total g + i.total g + totalExprs g ifs + totalClauses g cs
end

/-- The number of nodes of an expression (a pair of parentheses counts as one). -/
def Expr.size (e : Expr) : Nat := e.total (fun _ => 1)

/-- A place for an expression in an element of a display. -/
inductive ElemHole : (Expr → Elem) → Prop where
  | plain : ElemHole .plain
  | starred : ElemHole .starred

/-- A place for an expression in an element of a dict. -/
inductive DictHole : (Expr → DictElem) → Prop where
  | key (v : Expr) : DictHole (fun k => .pair k v)
  | value (k : Expr) : DictHole (fun v => .pair k v)
  | starred : DictHole .starred

/-- A place for an expression in a clause of a comprehension. -/
inductive ClauseHole : (Expr → Clause) → Prop where
  | target (a : Bool) (i : Expr) (ifs : List Expr) : ClauseHole (fun t => .mk a t i ifs)
  | iter (a : Bool) (t : Expr) (ifs : List Expr) : ClauseHole (fun i => .mk a t i ifs)
  | cond (a : Bool) (t i : Expr) (pre post : List Expr) : ClauseHole (fun c => .mk a t i (pre ++ c :: post))

/-- A place for an expression directly below a node. -/
inductive Hole : (Expr → Expr) → Prop where
  | fstr (pre post : List FPart) (spec : PStr) : Hole (fun x => .fstr (pre ++ .expr x spec :: post))
  | attr (a : PStr) : Hole (fun x => .attr x a)
  | func (as : List Arg) : Hole (fun x => .call x as)
  | arg (f : Expr) (pre post : List Arg) (st : Star) (kw : Option PStr) : Hole (fun x => .call f (pre ++ .mk st kw x :: post))
  | lam (ps : Params) : Hole (fun x => .lam ps x)
  | left (op : BoolOp) (r : Expr) : Hole (fun x => .bool op x r)
  | right (op : BoolOp) (l : Expr) : Hole (fun x => .bool op l x)
  | not : Hole (fun x => .not x)
  | compLeft (ts : List Target) : Hole (fun x => .comp x ts)
  | compTarget (l : Expr) (pre post : List Target) (op : CompOp) : Hole (fun x => .comp l (pre ++ .mk op x :: post))
  | tuple {w : Expr → Elem} (h : ElemHole w) (pre post : List Elem) : Hole (fun x => .tuple (pre ++ w x :: post))
  | list {w : Expr → Elem} (h : ElemHole w) (pre post : List Elem) : Hole (fun x => .list (pre ++ w x :: post))
  | set {w : Expr → Elem} (h : ElemHole w) (pre post : List Elem) : Hole (fun x => .set (pre ++ w x :: post))
  | dict {w : Expr → DictElem} (h : DictHole w) (pre post : List DictElem) : Hole (fun x => .dict (pre ++ w x :: post))
  | genElt (cs : List Clause) : Hole (fun x => .genExp x cs)
  | genClause (e : Expr) {w : Expr → Clause} (h : ClauseHole w) (pre post : List Clause) : Hole (fun x => .genExp e (pre ++ w x :: post))
  | listElt (cs : List Clause) : Hole (fun x => .listComp x cs)
  | listClause (e : Expr) {w : Expr → Clause} (h : ClauseHole w) (pre post : List Clause) : Hole (fun x => .listComp e (pre ++ w x :: post))
  | setElt (cs : List Clause) : Hole (fun x => .setComp x cs)
  | setClause (e : Expr) {w : Expr → Clause} (h : ClauseHole w) (pre post : List Clause) : Hole (fun x => .setComp e (pre ++ w x :: post))
  | dictKey (v : Expr) (cs : List Clause) : Hole (fun x => .dictComp x v cs)
  | dictValue (k : Expr) (cs : List Clause) : Hole (fun x => .dictComp k x cs)
  | dictClause (k v : Expr) {w : Expr → Clause} (h : ClauseHole w) (pre post : List Clause) : Hole (fun x => .dictComp k v (pre ++ w x :: post))
  | await : Hole (fun x => .await x)
  | other (kind : PStr) (pre post : List Expr) : Hole (fun x => .other kind (pre ++ x :: post))
  | paren : Hole (fun x => .paren x)

/-- One node of the first expression, at any depth, is replaced as `R` says; the rest stays. -/
inductive Step (R : Expr → Expr → Prop) : Expr → Expr → Prop where
  | here {e e' : Expr} : R e e' → Step R e e'
  | inside {w : Expr → Expr} {e e' : Expr} : Hole w → Step R e e' → Step R (w e) (w e')

/-- `n` replacements one after the other. -/
inductive Steps (R : Expr → Expr → Prop) : Nat → Expr → Expr → Prop where
  | done (e : Expr) : Steps R 0 e e
  | next {n : Nat} {a b c : Expr} : Step R a b → Steps R n b c → Steps R (n + 1) a c

/-- Which of the two rules about comparisons is enabled. -/
inductive Comparing where
  | primitives | singletons

/-- A replacement that a bundled rule offers for the node. Whatever a rule asks of libCST's metadata (which names are builtins, which trees are equal, what a literal means, …) may be
answered in any way, and differently each time. -/
inductive Offered (c : Comparing) : Expr → Expr → Prop where
  | collapseIsinstance (o : IsinstanceOracle) {e e'} : Cst.collapseIsinstance o e = .fix e' → Offered c e e'
  | comparePrimitives {e e'} : c = .primitives → comparePrimitivesByEqual e = .fix e' → Offered c e e'
  | compareSingletons (quals : PStr → List QName) {e e'} : c = .singletons → compareSingletonByIs quals e = .fix e' → Offered c e e'
  | redundantLambda {e e'} : noRedundantLambda e = .fix e' → Offered c e e'
  | redundantListComprehension {e e'} : noRedundantListComprehension e = .fix e' → Offered c e e'
  | toLiteral {e e'} : rewriteToLiteral e = .fix e' → Offered c e e'
  | toComprehension {e e'} : rewriteToComprehension e = .fix e' → Offered c e e'
  | deprecatedAsserts {e e'} : deprecatedUnittestAsserts e = .fix e' → Offered c e e'
  | assertTrue {e e'} : noAssertTrueForComparisons e = .fix e' → Offered c e e'
  | assertIn {e e'} : useAssertIn e = .fix e' → Offered c e e'
  | assertIsNotNone {e e'} : useAssertIsNotNone e = .fix e' → Offered c e e'
  /-- a call of `super` in these classes loses its arguments -/
  | redundantSuper (classes : List PStr) {e f as} : e.core = .call f as → isRedundantSuper classes f as = true →
      Offered c e (e.withCore fun _ => .call f [])
  /-- a builtin type is renamed -/
  | typing (qual : List PStr) {e s} : e.core = .name s → isBuiltinType s qual = true → Offered c e (e.withCore fun _ => .name (titleWord s))
  /-- an f-string without expressions becomes a literal -/
  | redundantFString (start stop : PStr) {e ps t} : e.core = .fstr ps → noRedundantFString ⟨start, ps, stop⟩ = some t → Offered c e (.str t)
  /-- `left % right`, for whatever name the kind of node has, becomes an f-string -/
  | useFString {L : Type} [DecidableEq L] (codegen : Expr → PStr) (value : PStr → Option L) (isText : L → Bool) {e kind l r n} :
      e.core = .other kind [l, r] → useFstring codegen value isText l r = .fix n → Offered c e (.fstr n.parts)

end Cst
