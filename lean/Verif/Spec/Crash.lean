import Verif.Spec.Paths

/-!
# Points at which a process can die, also in the middle of a write
-/

namespace Py.Gen
variable {W Y S R : Type}

/-- The steps a run takes: the world before and after each. -/
def steps : Gen W Y S R → List S → W → List (W × W)
  | .ret _, _, _ => []
  | .raise _, _, _ => []
  | .yield _ _, [], _ => []
  | .yield _ k, s :: ss, w => (k s).steps ss w
  | .act a k, ss, w => (w, a w) :: (k w).steps ss (a w)

end Py.Gen

namespace Spec
open Py Fixit

/-- In the middle of a step from `x` to `y`: a file that the step does not change is as it is; one that it does change has, so far, some beginning of what it is given. -/
def Midway (x y u : World) : Prop :=
  ∃ n, ∀ q, (y.files q = x.files q → u.files q = x.files q) ∧ (y.files q ≠ x.files q → u.files q = (y.files q).map (·.take n))

/-- What the files can be like when a run dies: between two steps, or in the middle of one. -/
def CrashPoint {Y S R : Type} (g : Gen World Y S R) (ss : List S) (w u : World) : Prop :=
  (∃ x ∈ g.worlds ss w, u.files = x.files) ∨ ∃ xy ∈ g.steps ss w, Midway xy.1 xy.2 u

variable {C : Type} (env : Env C)

/-- The content of the file given as `p` after it was fixed on its own. -/
def finalContent (autofix hook : Bool) (w : World) (p : Path) : Option Bytes := (alone env autofix hook w p).2.2.files (env.resolve p)

/-- Fixing the file given as `p` a second time changes nothing more. -/
def FixedOnce (autofix hook : Bool) (w : World) (p : Path) : Prop :=
  finalContent env autofix hook (alone env autofix hook w p).2.2 p = finalContent env autofix hook w p

/-- What is left of a run over the files `fs` that began in `w`: up to some file, all have the content that fixing them alone gives; from that file on, all have
the content they had, except that the first of these may hold a beginning (nothing, some, or all) of its new content; no other file has changed. -/
structure LeftBehind (autofix hook : Bool) (w : World) (fs : List Path) (u : World) (before : List Path) (cur : Path) (rest : List Path) : Prop where
  split : fs = before ++ cur :: rest
  done : ∀ p ∈ before, u.files (env.resolve p) = finalContent env autofix hook w p
  current : u.files (env.resolve cur) = w.files (env.resolve cur) ∨ ∃ b n, finalContent env autofix hook w cur = some b ∧ u.files (env.resolve cur) = some (b.take n)
  notYet : ∀ p ∈ rest, u.files (env.resolve p) = w.files (env.resolve p)
  others : ∀ q, q ∉ fs.map env.resolve → u.files q = w.files q

/-- What the files can be like when the workers of the pool, which have taken the steps `sched`, are all killed: each may be in the middle of its next step. -/
def PoolCrash (autofix hook : Bool) (fs : List Path) (w : World) (sched : List Nat) (u : World) : Prop :=
  ∀ q, u.files q = (runPool sched (startWorkers env autofix hook fs) w).2.files q ∨
    ∃ (i : Nat) (k : Worker) (n : Nat), (runPool sched (startWorkers env autofix hook fs) w).1[i]? = some k ∧
      (k.step (runPool sched (startWorkers env autofix hook fs) w).2).2.files q ≠ (runPool sched (startWorkers env autofix hook fs) w).2.files q ∧
      u.files q = ((k.step (runPool sched (startWorkers env autofix hook fs) w).2).2.files q).map (·.take n)

end Spec
