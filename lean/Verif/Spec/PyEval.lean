import Verif.Model.Cst

/-!
# What Python expressions mean

An evaluator for the expressions of `Verif.Model.Cst`, after the Python language reference (chapter 6, "Expressions"): evaluation order
is left to right, `and`/`or` return one of their operands and skip the second one when the first decides, a chained comparison evaluates
each operand at most once and stops at the first false link, a lambda evaluates its body when called, a list display evaluates its items
before a call starts and a generator expression evaluates them as they are asked for.

Everything that depends on the program and not on the language (the objects, the variables, what a call does, what `==` does, …) is a
parameter, `Interp`: each operation may change the state or raise. The statements about the rules quantify over all of these.
-/

namespace Cst
open Py

/-- A computation: from a state to a value or an exception, and the state then. -/
abbrev Run (S E α : Type) := S → Except E α × S

namespace Run
variable {S E α β : Type}

def pure (a : α) : Run S E α := fun s => (.ok a, s)

def raise (e : E) : Run S E α := fun s => (.error e, s)

def andThen (f : α → Run S E β) : Except E α × S → Except E β × S
  | (.ok a, s) => f a s
  | (.error e, s) => (.error e, s)

def bind (r : Run S E α) (f : α → Run S E β) : Run S E β := fun s => andThen f (r s)

instance : Monad (Run S E) where
  pure := Run.pure
  bind := Run.bind

end Run

/-- An iteration under way: it ends, raises, hands out a value and goes on, or works on the state. -/
inductive Flow (S E V : Type) where
  | done
  | raise (e : E)
  | yield (v : V) (rest : Flow S E V)
  | act (f : S → S) (k : S → Flow S E V)

namespace Flow
variable {S E V U : Type}

def append : Flow S E V → Flow S E V → Flow S E V
  | .done, g => g
  | .raise e, _ => .raise e
  | .yield v r, g => .yield v (r.append g)
  | .act f k, g => .act f (fun s => (k s).append g)

/-- `for v in flow: yield from body(v)`. -/
def each (body : V → Flow S E U) : Flow S E V → Flow S E U
  | .done => .done
  | .raise e => .raise e
  | .yield v r => (body v).append (r.each body)
  | .act f k => .act f (fun s => (k s).each body)

/-- Do a computation, then go on with its value. -/
def after {α : Type} (r : Run S E α) (k : α → Flow S E V) : Flow S E V :=
  .act (fun s => (r s).2) (fun s => match (r s).1 with | .ok a => k a | .error e => .raise e)

/-- Hand out the value of a computation. -/
def just (r : Run S E V) : Flow S E V := after r fun v => .yield v .done

/-- The iteration that hands out exactly these values. -/
def ofList : List V → Flow S E V
  | [] => .done
  | v :: vs => .yield v (ofList vs)

/-- Run to the end and keep the values: `list(flow)`. -/
def toList : Flow S E V → Run S E (List V)
  | .done => Run.pure []
  | .raise e => Run.raise e
  | .yield v r => Run.bind r.toList (fun vs => Run.pure (v :: vs))
  | .act f k => fun s => (k s).toList (f s)

end Flow

/-- The objects and operations of a Python program: everything an expression's value depends on besides its text. -/
structure Interp where
  Val : Type
  St : Type
  Exc : Type
  none : Val
  true : Val
  false : Val
  /-- the value of a number or a string literal -/
  num : PStr → Val
  str : PStr → Val
  /-- a variable that no enclosing lambda or comprehension of the expression binds -/
  load : PStr → Run St Exc Val
  getattr : Val → PStr → Run St Exc Val
  /-- call with positional and keyword arguments -/
  call : Val → List Val → List (PStr × Val) → Run St Exc Val
  /-- the items of a `*` argument or element -/
  spread : Val → Run St Exc (List Val)
  /-- the items of a `**` argument -/
  spreadMap : Val → Run St Exc (List (PStr × Val))
  /-- the items of a `**` element of a dict display -/
  spreadDict : Val → Run St Exc (List (Val × Val))
  /-- a new function object with these parameters and this body -/
  function : Params → (List (PStr × Val) → Run St Exc Val) → Run St Exc Val
  /-- truth value testing: may run `__bool__` or `__len__` -/
  truth : Val → Run St Exc Bool
  /-- object identity -/
  same : Val → Val → Bool
  /-- `==`, `!=`, `<`, `<=`, `>`, `>=` -/
  rich : CompOp → Val → Val → Run St Exc Val
  /-- `contains container item`: `item in container` -/
  contains : Val → Val → Run St Exc Bool
  tuple : List Val → Run St Exc Val
  list : List Val → Run St Exc Val
  set : List Val → Run St Exc Val
  dict : List (Val × Val) → Run St Exc Val
  /-- the text of an f-string part, and the string made of the texts -/
  format : Val → PStr → Run St Exc Val
  joinStr : List Val → Run St Exc Val
  /-- iterate over a value: `for x in v`, or `async for` when the flag is set -/
  iterate : Bool → Val → Flow St Exc Val
  /-- the variables an assignment target gets -/
  assign : Expr → Val → Run St Exc (List (PStr × Val))
  /-- a new generator object (an asynchronous one when the flag is set) over an iteration -/
  generator : Bool → Flow St Exc Val → Run St Exc Val
  await : Val → Run St Exc Val
  /-- an expression of a kind the rules do not look at: what it does with its subexpressions is up to the interpretation -/
  other : PStr → List (Run St Exc Val) → Run St Exc Val

namespace Interp
variable (I : Interp)

/-- `True` or `False`. -/
def ofBool (b : Bool) : I.Val := if b then I.true else I.false

/-- Local variables of the enclosing lambdas and comprehensions, innermost first. -/
abbrev Locals := List (PStr × I.Val)

/-- A name: the constants are keywords; then the local variables; then the rest of the program. -/
def lookup (ρ : I.Locals) (s : PStr) : Run I.St I.Exc I.Val :=
  if s = py "None" then Run.pure I.none
  else if s = py "True" then Run.pure I.true
  else if s = py "False" then Run.pure I.false
  else match ρ.lookup s with
    | some v => Run.pure v
    | .none => I.load s

/-- `x or y` / `x and y`. -/
def boolOp (op : BoolOp) (l r : Run I.St I.Exc I.Val) : Run I.St I.Exc I.Val :=
  l.bind fun v => (I.truth v).bind fun b =>
    if b = (op = .or) then Run.pure v else r

/-- One link of a comparison. -/
def link (op : CompOp) (a b : I.Val) : Run I.St I.Exc I.Val :=
  match op with
  | .is => Run.pure (I.ofBool (I.same a b))
  | .isNot => Run.pure (I.ofBool (!I.same a b))
  | .isIn => (I.contains b a).bind fun x => Run.pure (I.ofBool x)
  | .notIn => (I.contains b a).bind fun x => Run.pure (I.ofBool (!x))
  | op => I.rich op a b

/-- `not x`. -/
def negate (r : Run I.St I.Exc I.Val) : Run I.St I.Exc I.Val :=
  r.bind fun v => (I.truth v).bind fun b => Run.pure (I.ofBool (!b))

end Interp

mutual
/-- `await` occurs in the expression, outside lambdas and nested comprehensions (which have their own). -/
def Expr.awaits : Expr → Bool
  | .name _ => false
  | .num _ => false
  | .str _ => false
  | .fstr ps => awaitsParts ps
  | .attr v _ => v.awaits
  | .call f as => f.awaits || awaitsArgs as
  | .lam _ _ => false
  | .bool _ l r => l.awaits || r.awaits
  | .not e => e.awaits
  | .comp l ts => l.awaits || awaitsTargets ts
  | .tuple es => awaitsElems es
  | .list es => awaitsElems es
  | .set es => awaitsElems es
  | .dict es => awaitsDict es
  | .genExp _ _ => false
  | .listComp e cs => e.awaits || awaitsClauses cs
  | .setComp e cs => e.awaits || awaitsClauses cs
  | .dictComp k v cs => k.awaits || v.awaits || awaitsClauses cs
  | .await _ => true
  | .other _ es => awaitsExprs es
  | .paren e => e.awaits
def awaitsExprs : List Expr → Bool
  | [] => false
  | e :: es => e.awaits || awaitsExprs es
def awaitsParts : List FPart → Bool
  | [] => false
  | .text _ :: ps => awaitsParts ps
  | .expr e _ :: ps => e.awaits || awaitsParts ps
def awaitsArgs : List Arg → Bool
  | [] => false
  | .mk _ _ e :: as => e.awaits || awaitsArgs as
def awaitsTargets : List Target → Bool
  | [] => false
  | .mk _ e :: ts => e.awaits || awaitsTargets ts
def awaitsElems : List Elem → Bool
  | [] => false
  | .plain e :: es => e.awaits || awaitsElems es
  | .starred e :: es => e.awaits || awaitsElems es
def awaitsDict : List DictElem → Bool
  | [] => false
  | .pair k v :: es => k.awaits || v.awaits || awaitsDict es
  | .starred e :: es => e.awaits || awaitsDict es
def awaitsClauses : List Clause → Bool
  | [] => false
  | .mk a _ it ifs :: cs => a || it.awaits || awaitsExprs ifs || awaitsClauses cs
end

mutual
/-- The value of an expression. -/
def eval (I : Interp) (ρ : I.Locals) : Expr → Run I.St I.Exc I.Val
  | .name s => I.lookup ρ s
  | .num t => Run.pure (I.num t)
  | .str t => Run.pure (I.str t)
  | .fstr ps => (evalParts I ρ ps).bind I.joinStr
  | .attr v a => (eval I ρ v).bind fun x => I.getattr x a
  | .call f as => (eval I ρ f).bind fun fv => (evalArgs I ρ as).bind fun p => I.call fv p.1 p.2
  | .lam ps b => I.function ps fun bound => eval I (bound ++ ρ) b
  | .bool op l r => I.boolOp op (eval I ρ l) (eval I ρ r)
  | .not e => I.negate (eval I ρ e)
  | .comp l ts => (eval I ρ l).bind fun v => evalTargets I ρ v ts
  | .tuple es => (evalElems I ρ es).bind I.tuple
  | .list es => (evalElems I ρ es).bind I.list
  | .set es => (evalElems I ρ es).bind I.set
  | .dict es => (evalDict I ρ es).bind I.dict
  | .genExp e cs =>
    (evalFirst I ρ cs).bind fun fl => I.generator (e.awaits || awaitsClauses cs) (fl.each fun ρ' => .just (eval I ρ' e))
  | .listComp e cs => ((evalClauses I ρ cs).each fun ρ' => .just (eval I ρ' e)).toList.bind I.list
  | .setComp e cs => ((evalClauses I ρ cs).each fun ρ' => .just (eval I ρ' e)).toList.bind I.set
  | .dictComp k v cs =>
    ((evalClauses I ρ cs).each fun ρ' => .just ((eval I ρ' k).bind fun a => (eval I ρ' v).bind fun b => Run.pure (a, b))).toList.bind I.dict
  | .await e => (eval I ρ e).bind I.await
  | .other k es => I.other k (evalExprs I ρ es)
  | .paren e => eval I ρ e

/-- The subexpressions of an `other` expression, unevaluated. -/
def evalExprs (I : Interp) (ρ : I.Locals) : List Expr → List (Run I.St I.Exc I.Val)
  | [] => []
  | e :: es => eval I ρ e :: evalExprs I ρ es

def evalParts (I : Interp) (ρ : I.Locals) : List FPart → Run I.St I.Exc (List I.Val)
  | [] => Run.pure []
  | .text t :: ps => (evalParts I ρ ps).bind fun vs => Run.pure (I.str t :: vs)
  | .expr e spec :: ps => (eval I ρ e).bind fun v => (I.format v spec).bind fun x => (evalParts I ρ ps).bind fun vs => Run.pure (x :: vs)

/-- The arguments of a call, left to right: positional ones and keyword ones. -/
def evalArgs (I : Interp) (ρ : I.Locals) : List Arg → Run I.St I.Exc (List I.Val × List (PStr × I.Val))
  | [] => Run.pure ([], [])
  | .mk .one _ e :: as =>
    (eval I ρ e).bind fun v => (I.spread v).bind fun vs => (evalArgs I ρ as).bind fun p => Run.pure (vs ++ p.1, p.2)
  | .mk .two _ e :: as =>
    (eval I ρ e).bind fun v => (I.spreadMap v).bind fun ks => (evalArgs I ρ as).bind fun p => Run.pure (p.1, ks ++ p.2)
  | .mk .none (some k) e :: as =>
    (eval I ρ e).bind fun v => (evalArgs I ρ as).bind fun p => Run.pure (p.1, (k, v) :: p.2)
  | .mk .none .none e :: as =>
    (eval I ρ e).bind fun v => (evalArgs I ρ as).bind fun p => Run.pure (v :: p.1, p.2)

/-- The links of a comparison: `a op b` gives its value if it is the last link or false, and else the rest decides. -/
def evalTargets (I : Interp) (ρ : I.Locals) (a : I.Val) : List Target → Run I.St I.Exc I.Val
  | [] => Run.pure a
  | .mk op e :: ts =>
    (eval I ρ e).bind fun b => (I.link op a b).bind fun r =>
      if ts.isEmpty then Run.pure r
      else (I.truth r).bind fun t => if t then evalTargets I ρ b ts else Run.pure r

def evalElems (I : Interp) (ρ : I.Locals) : List Elem → Run I.St I.Exc (List I.Val)
  | [] => Run.pure []
  | .plain e :: es => (eval I ρ e).bind fun v => (evalElems I ρ es).bind fun vs => Run.pure (v :: vs)
  | .starred e :: es => (eval I ρ e).bind fun v => (I.spread v).bind fun xs => (evalElems I ρ es).bind fun vs => Run.pure (xs ++ vs)

def evalDict (I : Interp) (ρ : I.Locals) : List DictElem → Run I.St I.Exc (List (I.Val × I.Val))
  | [] => Run.pure []
  | .pair k v :: es =>
    (eval I ρ k).bind fun a => (eval I ρ v).bind fun b => (evalDict I ρ es).bind fun ps => Run.pure ((a, b) :: ps)
  | .starred e :: es => (eval I ρ e).bind fun v => (I.spreadDict v).bind fun xs => (evalDict I ρ es).bind fun ps => Run.pure (xs ++ ps)

/-- The conditions of a `for` clause: all of them must be true. -/
def evalIfs (I : Interp) (ρ : I.Locals) : List Expr → Run I.St I.Exc Bool
  | [] => Run.pure true
  | e :: es => (eval I ρ e).bind fun v => (I.truth v).bind fun b => if b then evalIfs I ρ es else Run.pure false

/-- The clauses of a comprehension: the local variables for each element. -/
def evalClauses (I : Interp) (ρ : I.Locals) : List Clause → Flow I.St I.Exc I.Locals
  | [] => .yield ρ .done
  | .mk isAsync target iter ifs :: cs =>
    Flow.after (eval I ρ iter) fun it => (I.iterate isAsync it).each fun x =>
      Flow.after (I.assign target x) fun bound =>
        Flow.after (evalIfs I (bound ++ ρ) ifs) fun ok => if ok then evalClauses I (bound ++ ρ) cs else .done

/-- The clauses of a generator expression: the first iterable is evaluated at once, everything else when asked for. -/
def evalFirst (I : Interp) (ρ : I.Locals) : List Clause → Run I.St I.Exc (Flow I.St I.Exc I.Locals)
  | [] => Run.pure (.yield ρ .done)
  | .mk a target iter ifs :: cs =>
    (eval I ρ iter).bind fun it => Run.pure ((I.iterate a it).each fun x =>
      Flow.after (I.assign target x) fun bound =>
        Flow.after (evalIfs I (bound ++ ρ) ifs) fun ok => if ok then evalClauses I (bound ++ ρ) cs else .done)
end

end Cst
