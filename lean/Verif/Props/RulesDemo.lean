import Verif.Spec.RulesExpr

/-! # A small program to test the statements about rules on -/

namespace Cst
open Py

/-- An object of the demo program: a name, and what is an instance of it when it is used as a type. -/
abbrev DVal := PStr × (PStr → Bool)

def dval (s : PStr) : DVal := (s, fun _ => false)

/-- A program in which every variable holds an object of its own name, every operation is without effect, and calls of `isinstance` ask
the second argument. -/
def demo (types : PStr → PStr → Bool) : Interp where
  Val := DVal
  St := Unit
  Exc := Unit
  none := dval (py "None")
  true := dval (py "True")
  false := dval (py "False")
  num := dval
  str := dval
  load := fun s => Run.pure (s, fun n => types s n)
  getattr := fun v a => Run.pure (dval (v.1 ++ py "." ++ a))
  call := fun f vs _ =>
    match vs with
    | [x, t] => if f.1 = py "isinstance" then Run.pure (if t.2 x.1 then dval (py "True") else dval (py "False")) else Run.pure (dval (f.1 ++ py "()"))
    | _ => Run.pure (dval (f.1 ++ py "()"))
  spread := fun v => Run.pure [v]
  spreadMap := fun _ => Run.pure []
  spreadDict := fun _ => Run.pure []
  function := fun _ _ => Run.pure (dval (py "function"))
  truth := fun v => Run.pure (decide (v.1 ≠ py "False" ∧ v.1 ≠ py "None" ∧ v.1 ≠ py "0"))
  same := fun a b => a.1 == b.1
  rich := fun op a b => Run.pure (if (a.1 == b.1) != (op == .ne) then dval (py "True") else dval (py "False"))
  contains := fun _ _ => Run.pure false
  tuple := fun vs => Run.pure (py "tuple", fun n => vs.any (fun v => v.2 n))
  list := fun _ => Run.pure (dval (py "list"))
  set := fun _ => Run.pure (dval (py "set"))
  dict := fun _ => Run.pure (dval (py "dict"))
  format := fun v _ => Run.pure v
  joinStr := fun vs => Run.pure (dval (vs.map (·.1)).flatten)
  iterate := fun _ v => .yield v .done
  assign := fun t v => Run.pure (match t with | .name s => [(s, v)] | _ => [])
  generator := fun _ _ => Run.pure (dval (py "generator"))
  await := fun v => Run.pure v
  other := fun k _ => Run.pure (dval k)

theorem demo_const (types : PStr → PStr → Bool) : ConstTruth (demo types) where
  true := by simp [demo, dval]
  false := by simp [demo, dval]

/-- In the demo program: `x` is an instance of `A` and of `B`, and nothing else is an instance of anything. -/
def xAB : PStr → PStr → Bool := fun t n => n == py "x" && (t == py "A" || t == py "B")

/-- `x` is an instance of `B` only. -/
def xB : PStr → PStr → Bool := fun t n => n == py "x" && t == py "B"

theorem demo_isinstance (types : PStr → PStr → Bool) : IsinstanceLaws (demo types) (py "isinstance", types (py "isinstance"))
    (fun x t => t.2 x.1) (fun vs => (py "tuple", fun n => vs.any (fun v => v.2 n))) where
  tuple := fun _ => rfl
  call := by intro x t; simp [demo, Interp.ofBool]
  any := fun _ _ => rfl

/-- A program whose state is the list of the calls made so far. Values are their own names. -/
def tracing : Interp where
  Val := PStr
  St := List PStr
  Exc := PStr
  none := py "None"
  true := py "True"
  false := py "False"
  num := id
  str := id
  load := Run.pure
  getattr := fun v a => Run.pure (v ++ py "." ++ a)
  call := fun f _ _ s => (.ok (f ++ py "()"), s ++ [f])
  spread := fun v => Run.pure [v]
  spreadMap := fun _ => Run.pure []
  spreadDict := fun _ => Run.pure []
  function := fun _ _ => Run.pure (py "function")
  truth := fun v => Run.pure (v == py "True")
  same := fun a b => a == b
  rich := fun _ _ _ => Run.pure (py "True")
  contains := fun _ _ => Run.pure false
  tuple := fun _ => Run.pure (py "tuple")
  list := fun _ => Run.pure (py "list")
  set := fun _ => Run.pure (py "set")
  dict := fun _ => Run.pure (py "dict")
  format := fun v _ => Run.pure v
  joinStr := fun vs => Run.pure vs.flatten
  iterate := fun _ v => .yield v .done
  assign := fun t v => Run.pure (match t with | .name s => [(s, v)] | _ => [])
  generator := fun _ _ => Run.pure (py "generator")
  await := fun v => Run.pure v
  other := fun k _ => Run.pure k

end Cst

namespace Cst
open Py

/-- Objects with contents. A generator is what it will hand out, and the exception it ends with. -/
inductive SV where
  | atom (s : PStr)
  | tup (vs : List SV)
  | lst (vs : List SV)
  | st (vs : List SV)
  | dct (ps : List (SV × SV))
  | gen (vs : List SV) (err : Option PStr)

/-- What iterating over an object hands out, and the exception it ends with. -/
def SV.items : SV → List SV × Option PStr
  | .atom _ => ([], some (py "TypeError"))
  | .tup vs => (vs, none)
  | .lst vs => (vs, none)
  | .st vs => (vs, none)
  | .dct ps => (ps.map (·.1), none)
  | .gen vs err => (vs, err)

def SV.truth : SV → Bool
  | .atom s => decide (s ≠ py "False" ∧ s ≠ py "None" ∧ s ≠ py "0")
  | .tup vs => !vs.isEmpty
  | .lst vs => !vs.isEmpty
  | .st vs => !vs.isEmpty
  | .dct ps => !ps.isEmpty
  | .gen _ _ => true

def SV.toPair : SV → Option (SV × SV)
  | .tup [a, b] => some (a, b)
  | .lst [a, b] => some (a, b)
  | _ => none

def SV.toPairs : List SV → Option (List (SV × SV))
  | [] => some []
  | v :: vs => match v.toPair, SV.toPairs vs with | some p, some ps => some (p :: ps) | _, _ => none

/-- All the items, or the exception. -/
def SV.collect (v : SV) : Run Unit PStr (List SV) :=
  match v.items with
  | (vs, none) => Run.pure vs
  | (_, some e) => Run.raise e

def SV.quantify (stop : Bool) : List SV → Option PStr → Run Unit PStr SV
  | [], none => Run.pure (.atom (if stop then py "False" else py "True"))
  | [], some e => Run.raise e
  | v :: vs, err => if v.truth = stop then Run.pure (.atom (if stop then py "True" else py "False")) else SV.quantify stop vs err

/-- The builtins `any`, `all`, `list`, `tuple`, `set` and `dict`; anything else gives back its arguments. -/
def SV.callOne (f : PStr) (x : SV) : Run Unit PStr SV :=
  if f = py "any" then SV.quantify true x.items.1 x.items.2
  else if f = py "all" then SV.quantify false x.items.1 x.items.2
  else if f = py "list" then x.collect.bind fun vs => Run.pure (.lst vs)
  else if f = py "tuple" then x.collect.bind fun vs => Run.pure (.tup vs)
  else if f = py "set" then x.collect.bind fun vs => Run.pure (.st vs)
  else if f = py "dict" then x.collect.bind fun vs => match SV.toPairs vs with | some ps => Run.pure (.dct ps) | none => Run.raise (py "TypeError")
  else Run.pure x

def SV.call (f : PStr) (vs : List SV) : Run Unit PStr SV :=
  match vs with
  | [x] => SV.callOne f x
  | [] =>
    if f = py "list" then Run.pure (.lst [])
    else if f = py "tuple" then Run.pure (.tup [])
    else if f = py "set" then Run.pure (.st [])
    else if f = py "dict" then Run.pure (.dct [])
    else Run.pure (.atom (f ++ py "()"))
  | vs => Run.pure (.tup vs)

/-- Run an iteration to its end. -/
def Flow.drain : Flow Unit PStr SV → List SV × Option PStr
  | .done => ([], none)
  | .raise e => ([], some e)
  | .yield v r => (v :: r.drain.1, r.drain.2)
  | .act _ k => (k ()).drain

/-- A program with containers and the builtins that make and consume them. Nothing has effects, but things may raise. -/
def seqs : Interp where
  Val := SV
  St := Unit
  Exc := PStr
  none := .atom (py "None")
  true := .atom (py "True")
  false := .atom (py "False")
  num := .atom
  str := .atom
  load := fun s => Run.pure (.atom s)
  getattr := fun _ a => Run.pure (.atom a)
  call := fun f vs kws => match f, kws with | .atom f, [] => SV.call f vs | .atom f, kws => if f = py "dict" then Run.pure (.dct (kws.map fun p => (.atom p.1, p.2))) else Run.raise (py "TypeError") | _, _ => Run.raise (py "TypeError")
  spread := SV.collect
  spreadMap := fun _ => Run.pure []
  spreadDict := fun _ => Run.pure []
  function := fun _ _ => Run.pure (.atom (py "function"))
  truth := fun v => Run.pure v.truth
  same := fun _ _ => false
  rich := fun _ _ _ => Run.pure (.atom (py "True"))
  contains := fun _ _ => Run.pure false
  tuple := fun vs => Run.pure (.tup vs)
  list := fun vs => Run.pure (.lst vs)
  set := fun vs => Run.pure (.st vs)
  dict := fun ps => Run.pure (.dct ps)
  format := fun v _ => Run.pure v
  joinStr := fun vs => Run.pure (.tup vs)
  iterate := fun _ v => (Flow.ofList v.items.1).append (match v.items.2 with | none => .done | some e => .raise e)
  assign := fun t v => Run.pure (match t with | .name s => [(s, v)] | _ => [])
  generator := fun isAsync fl => Run.pure (if isAsync then .atom (py "async_generator") else .gen fl.drain.1 fl.drain.2)
  await := fun v => Run.pure v
  other := fun k _ => Run.pure (.atom k)

end Cst
