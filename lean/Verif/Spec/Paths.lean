import Verif.Spec.Api
import Verif.Model.Paths

/-!
# What linting several paths should do
-/

namespace Spec
open Py Fixit

/-- What the arguments ask for. -/
inductive Request where
  /-- lint standard input, under this name -/
  | stdin (name : Path)
  /-- lint these files -/
  | files (fs : List Path)

/-- The files under all the paths, in order; the first failure counts. -/
def filesUnder (walk : Path → Except Err (List Path)) : List Path → Except Err (List Path)
  | [] => .ok []
  | p :: ps => match walk p with
    | .error e => .error e
    | .ok fs => match filesUnder walk ps with
      | .error e => .error e
      | .ok gs => .ok (fs ++ gs)

variable {C : Type} (env : Env C)

/-- Each file on its own, all starting from the world `w`; each takes the answers the ones before have left, and the first that does not return is the last. -/
def oneByOne (autofix hook : Bool) (w : World) : List Path → List Answer → List (List Result × Gen.Status Unit × World)
  | [], _ => []
  | p :: ps, ss =>
    let r := (fixitFile env p autofix hook).run ss w
    match r.2.1 with
    | .returned _ => r :: oneByOne autofix hook w ps (ss.drop r.1.length)
    | _ => [r]

/-- Everything a file yields when run alone from `w` without answers, and the world after it. -/
def alone (autofix hook : Bool) (w : World) (p : Path) : List Result × Gen.Status Unit × World :=
  Gen.drain none (fixitFile env p autofix hook) w

/-- Configuration, rules and what the rules record depend on no file of `S`: no linted file is itself a configuration file, a local rule or read by a rule. -/
def Stable (S : Path → Prop) : Prop :=
  ∀ f f' : Path → Option Bytes, (∀ q, ¬ S q → f q = f' q) → env.config f = env.config f' ∧ env.collect f = env.collect f' ∧ env.visit f = env.visit f'

/-- What is on standard input was saved as the file `p` in `saved`; all other files are the same. -/
structure Saved (p : Path) (w saved : World) (content : Bytes) : Prop where
  stdin : env.stdin = .ok content
  file : saved.files p = some content
  readable : env.readRaises p = none
  others : ∀ q, q ≠ p → saved.files q = w.files q

/-- Nothing that is written fails: neither the file `p` nor standard output. -/
structure Writable (p : Path) : Prop where
  opens : env.openRaises p = none
  writes : ∀ b, env.writeRaises p b = none
  prints : ∀ b, env.stdoutRaises b = none

end Spec

namespace Spec
open Py Fixit

variable {C : Type} (env : Env C)

/-- Each file in turn, in the world that those before it have left. -/
def inTurn (autofix hook : Bool) : List Path → World → List Result × World
  | [], w => ([], w)
  | p :: ps, w => ((alone env autofix hook w p).1 ++ (inTurn autofix hook ps (alone env autofix hook w p).2.2).1, (inTurn autofix hook ps (alone env autofix hook w p).2.2).2)

end Spec
