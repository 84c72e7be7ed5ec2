import Verif.Model.Refs

/-!
# Python generators

A generator is a tree of what it does next: return, raise, hand out a value and wait to be resumed with a sent value, or do one atomic
step on the world (files, output). Closing or abandoning a suspended generator runs nothing more: the code modelled has no `finally` and
catches only `Exception`, which `GeneratorExit` is not.
-/

namespace Py
open Fixit (Err)

/-- A generator body at some point of its execution: `W` the world, `Y` yielded values, `S` sent values, `R` the return value. -/
inductive Gen (W Y S R : Type) where
  | ret (r : R)
  | raise (e : Err)
  | yield (y : Y) (k : S → Gen W Y S R)
  /-- One atomic step: the world becomes `f w`, and the rest may depend on the world before. -/
  | act (f : W → W) (k : W → Gen W Y S R)

namespace Gen
variable {W Y S R Q : Type}

/-- Sequencing; also `x = yield from g`. -/
def bind : Gen W Y S R → (R → Gen W Y S Q) → Gen W Y S Q
  | .ret r, f => f r
  | .raise e, _ => .raise e
  | .yield y k, f => .yield y (fun s => (k s).bind f)
  | .act a k, f => .act a (fun w => (k w).bind f)

/-- `try: g except Exception as e: h e`. -/
def except (h : Err → Gen W Y S R) : Gen W Y S R → Gen W Y S R
  | .ret r => .ret r
  | .raise e => h e
  | .yield y k => .yield y (fun s => (k s).except h)
  | .act a k => .act a (fun w => (k w).except h)

/-- `for y in g: st = body y st`, with the variables `st` of the loop. -/
def forIn {Z T : Type} (body : Z → T → Gen W Y S T) : Gen W Z Unit R → T → Gen W Y S T
  | .ret _, st => .ret st
  | .raise e, _ => .raise e
  | .yield z k, st => (body z st).bind (fun st' => (k ()).forIn body st')
  | .act a k, st => .act a (fun w => (k w).forIn body st)

/-- A step that only looks at the world. -/
def look (k : W → Gen W Y S R) : Gen W Y S R := .act id k

/-- An expression that may raise. -/
def ofExcept (r : Except Err R) : Gen W Y S R :=
  match r with
  | .ok a => .ret a
  | .error e => .raise e

/-- How a run against a list of answers ended. -/
inductive Status (R : Type) where
  | returned (r : R)
  | raised (e : Err)
  /-- the answers ran out: the consumer stopped (or closed the generator) after the last value -/
  | suspended

/-- Start the generator with `next` and answer its values with `ss` (one `send` each); what it yielded, how it ended, and the world then.
A consumer that stops early is a short list of answers. -/
def run : Gen W Y S R → List S → W → List Y × Status R × W
  | .ret r, _, w => ([], .returned r, w)
  | .raise e, _, w => ([], .raised e, w)
  | .yield y _, [], w => ([y], .suspended, w)
  | .yield y k, s :: ss, w => (y :: ((k s).run ss w).1, ((k s).run ss w).2)
  | .act a k, ss, w => (k w).run ss (a w)

/-- Run to the end, always answering `s`; what it yielded, how it ended, and the world then. -/
def drain (s : S) : Gen W Y S R → W → List Y × Status R × W
  | .ret r, w => ([], .returned r, w)
  | .raise e, w => ([], .raised e, w)
  | .yield y k, w => (y :: (drain s (k s) w).1, (drain s (k s) w).2)
  | .act a k, w => drain s (k w) (a w)

/-- Every world the run goes through: the points where the process may crash or be killed. -/
def worlds : Gen W Y S R → List S → W → List W
  | .ret _, _, w => [w]
  | .raise _, _, w => [w]
  | .yield _ _, [], w => [w]
  | .yield _ k, s :: ss, w => w :: (k s).worlds ss w
  | .act a k, ss, w => w :: (k w).worlds ss (a w)

end Gen
end Py
