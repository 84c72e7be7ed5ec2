import Verif.Model.Paths

/-!
# Results on their way from the pool's processes

`Model/Paths` hands the lists of results of the workers to the caller as they are. In fact each list is pickled in the worker's process and unpickled in the caller's
(api.py:300-310 through `trailrunner.run_iter`, which is a `concurrent.futures` process pool). What is not an exception arrives unchanged (dataclasses, paths, syntax trees); an exception
is rebuilt from its `__reduce__` (see `Model/Pickle`), and that may fail.
-/

namespace Fixit
open Py

/-- How exceptions travel: what arrives, if it can be rebuilt, and what the pool raises in the caller when a list cannot be sent or rebuilt (api.py:309). -/
structure Channel where
  carry : Err → Option Err
  broken : Err

/-- A result in the caller's process (ftypes.py:277-285). -/
def Channel.result (ch : Channel) (r : Result) : Option Result :=
  match r.error with
  | none => some r
  | some e => match ch.carry e with
    | none => none
    | some e' => some { r with error := some e' }

/-- The list returned by `_fixit_file_wrapper` in the caller's process, api.py:233-235, 309: it is pickled as a whole. -/
def Channel.list (ch : Channel) : List Result → Option (List Result)
  | [] => some []
  | r :: rs => match ch.result r, ch.list rs with
    | some r', some rs' => some (r' :: rs')
    | _, _ => none

/-- The loop over `run_iter`, api.py:309-310, given the lists that the workers have sent, in the order of arrival: the one that cannot be rebuilt raises there. -/
def yieldCarried (ch : Channel) : List (List Result) → Linting Unit
  | [] => .ret ()
  | rs :: rss => match ch.list rs with
    | some rs' => (yieldList rs').bind (fun _ => yieldCarried ch rss)
    | none => .raise ch.broken

/-- The runs of `fixit_paths`, api.py:238-310, as `PathsRun` but with the lists of the pool sent through the channel. -/
inductive CarriedRun {C : Type} (env : Env C) (ch : Channel) (walk : (Path → Option Bytes) → Path → Except Err (List Path)) (autofix hook parallel : Bool) (paths : List Path)
    (ss : List Answer) (w : World) : List Result × Gen.Status Unit × World → Prop
  | plain : usesPool (walk w.files) parallel paths = none → CarriedRun env ch walk autofix hook parallel paths ss w ((fixitPaths env walk autofix hook paths).run ss w)
  | pool (fs : List Path) (sched order : List Nat) : usesPool (walk w.files) parallel paths = some fs → order.Nodup →
      (∀ i ∈ order, ∃ k, (runPool sched (startWorkers env autofix hook fs) w).1[i]? = some k ∧ k.done = true) →
      (((yieldCarried ch (arrived (runPool sched (startWorkers env autofix hook fs) w).1 order)).run ss w).2.1 = .returned () →
        ∀ i < fs.length, i ∈ order) →
      CarriedRun env ch walk autofix hook parallel paths ss w
        (((yieldCarried ch (arrived (runPool sched (startWorkers env autofix hook fs) w).1 order)).run ss w).1,
         ((yieldCarried ch (arrived (runPool sched (startWorkers env autofix hook fs) w).1 order)).run ss w).2.1,
         (runPool sched (startWorkers env autofix hook fs) w).2)

end Fixit
