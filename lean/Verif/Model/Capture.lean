import Verif.Py.Gen

/-!
# `util.py`: `capture` and `chdir`
-/

namespace Py.Gen
open Fixit (Err)
variable {W Y S R Q : Type}

/-- What `generator.send(v)` gives (util.py:45). -/
inductive Outcome (Y R : Type) where
  | yielded (y : Y)
  /-- StopIteration; its value is `None` when the generator had finished before -/
  | stopped (r : Option R)
  | raised (e : Err)

/-- A generator object (util.py:38). -/
inductive Obj (W Y S R : Type) where
  | fresh (g : Gen W Y (Option S) R)
  | waiting (k : Option S → Gen W Y (Option S) R)
  | finished

/-- Run a generator body up to the next value or its end (util.py:45). -/
def resume : Gen W Y (Option S) R → W → Outcome Y R × Obj W Y S R × W
  | .ret r, w => (.stopped (some r), .finished, w)
  | .raise e, w => (.raised e, .finished, w)
  | .yield y k, w => (.yielded y, .waiting k, w)
  | .act a k, w => resume (k w) (a w)

/-- `generator.send(v)` (and `next`, which is `send(None)`): a value cannot be sent to a generator that has not started (TypeError) (util.py:45). -/
def Obj.send (v : Option S) : Obj W Y S R → W → Outcome Y R × Obj W Y S R × W
  | .fresh g, w => match v with
    | none => resume g w
    | some _ => (.raised .type, .fresh g, w)
  | .waiting k, w => resume (k v) w
  | .finished, w => (.stopped none, .finished, w)

end Py.Gen

namespace Fixit
open Py Py.Gen

/-- The state of an iterator made by `capture.__iter__`, util.py:42-52. -/
inductive Iter where
  /-- not started -/
  | fresh
  /-- at `answer = yield value` -/
  | waiting
  | finished
  deriving DecidableEq

/-- A `capture` object, util.py:37-40, and the iterator in use. `result` is `none` for the sentinel. -/
structure Capture (W Y S R : Type) where
  obj : Obj W Y S R
  send : Option S
  result : Option (Option R)
  iter : Iter

section
variable {W Y S R : Type}

/-- `capture(g)` and `iter(...)` of it, util.py:37-42. -/
def Capture.new (g : Gen W Y (Option S) R) : Capture W Y S R := ⟨.fresh g, none, none, .fresh⟩

/-- The loop of `__iter__` from its top, util.py:45-52: send `_send` to the wrapped generator. -/
def Capture.loop (c : Capture W Y S R) (w : W) : Outcome Y (Option R) × Capture W Y S R × W :=
  match c.obj.send c.send w with
  | (.yielded y, o, w') => (.yielded y, { c with obj := o, send := none, iter := .waiting }, w')
  | (.stopped r, o, w') => (.stopped (some r), { c with obj := o, result := some r, iter := .finished }, w')
  | (.raised e, o, w') => (.raised e, { c with obj := o, iter := .finished }, w')

/-- Resuming the iterator with `send(answer)`; `next` and the `for` loop send `None`. util.py:42-52. -/
def Capture.resume (c : Capture W Y S R) (answer : Option S) (w : W) : Outcome Y (Option R) × Capture W Y S R × W :=
  match c.iter with
  | .fresh => match answer with
    | none => c.loop w
    | some _ => (.raised .type, c, w)
  | .waiting => match answer with
    | none => c.loop w
    | some v => { c with send := some v }.loop w
  | .finished => (.stopped none, c, w)

/-- `respond`, util.py:54-60. -/
def Capture.respond (c : Capture W Y S R) (answer : Option S) : Capture W Y S R := { c with send := answer }

/-- The property `result`, util.py:62-69: ValueError while the sentinel is there; `none` is the value `None`. -/
def Capture.getResult (c : Capture W Y S R) : Except Err (Option R) :=
  match c.result with
  | none => .error .value
  | some r => .ok r

/-- `iter(...)` again (util.py:42-44). -/
def Capture.again (c : Capture W Y S R) : Capture W Y S R := { c with iter := .fresh }

/-- What a consumer may do (util.py:42, 54, 63). -/
inductive CaptureOp (S : Type) where
  /-- resume the iterator, sending an answer -/
  | next (answer : Option S)
  /-- call `respond` -/
  | respond (answer : Option S)
  /-- start a new iteration -/
  | again

/-- The consumer's operations, and what each resumption gave (util.py:42-69). -/
def Capture.ops : List (CaptureOp S) → Capture W Y S R → W → List (Outcome Y (Option R)) × Capture W Y S R × W
  | [], c, w => ([], c, w)
  | .next a :: os, c, w => ((c.resume a w).1 :: (Capture.ops os (c.resume a w).2.1 (c.resume a w).2.2).1, (Capture.ops os (c.resume a w).2.1 (c.resume a w).2.2).2)
  | .respond a :: os, c, w => Capture.ops os (c.respond a) w
  | .again :: os, c, w => Capture.ops os c.again w

end

/-- The working directory, and the directories one can change to (util.py:95-100). -/
structure OS where
  cwd : Path
  dirs : List Path
  deriving DecidableEq

/-- Code that works on the OS and may raise (the body of the `with`, util.py:98). -/
abbrev OSCode (A : Type) := OS → OS × Except Err A

/-- `os.chdir(path)`, raising OSError when there is no such directory (util.py:97, 100). -/
def osChdir (path : Path) : OSCode Unit := fun os => if path ∈ os.dirs then ({ os with cwd := path }, .ok ()) else (os, .error .os)

/-- One piece of code after another (util.py:97-98). -/
def OSCode.andThen {A B : Type} (a : OSCode A) (b : OSCode B) : OSCode B := fun os =>
  match a os with
  | (os', .ok _) => b os'
  | (os', .error e) => (os', .error e)

/-- `try: body finally: last`: an exception of `last` replaces the outcome of `body` (util.py:96-100). -/
def tryFinally {A : Type} (body : OSCode A) (last : OSCode Unit) : OSCode A := fun os =>
  match last (body os).1 with
  | (os', .ok _) => (os', (body os).2)
  | (os', .error e) => (os', .error e)

/-- `with chdir(path): body`, util.py:93-100. -/
def chdirDo {A : Type} (path : Path) (body : OSCode A) : OSCode A := fun os =>
  tryFinally ((osChdir path).andThen body) (osChdir os.cwd) os

end Fixit
