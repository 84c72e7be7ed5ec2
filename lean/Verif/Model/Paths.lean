import Verif.Model.Api

/-!
# `api.py`: `fixit_paths`
-/

namespace Fixit
open Py

section
variable {C : Type} (env : Env C)

/-- `STDIN = Path("-")`, ftypes.py:37, as its parts. A path given by the caller is its `.parts`; two such paths are equal when their parts are. -/
def stdinArg : Path := [py "-"]

/-- `Path("stdin")`, api.py:278. -/
def stdinName : Path := [py "stdin"]

/-- The variables of the loop of `fixit_paths`, api.py:276-278. -/
structure Scan where
  expanded : List Path
  isStdin : Bool
  name : Path

/-- The loop, api.py:279-291, from index `i`. `walk` is `trailrunner.walk` (consumed at once by `extend`); the log message is left out. -/
def scanFrom (walk : Path → Except Err (List Path)) : List Path → Nat → Scan → Except Err Scan
  | [], _, st => .ok st
  | p :: ps, i, st =>
    if p = stdinArg then
      if i = 0 then scanFrom walk ps (i + 1) { st with isStdin := true } else scanFrom walk ps (i + 1) st
    else if st.isStdin then
      if i = 1 then scanFrom walk ps (i + 1) { st with name := p } else .error .value
    else match walk p with
      | .error e => .error e
      | .ok fs => scanFrom walk ps (i + 1) { st with expanded := st.expanded ++ fs }

/-- The whole loop (api.py:276-291). -/
def scan (walk : Path → Except Err (List Path)) (paths : List Path) : Except Err Scan := scanFrom walk paths 0 ⟨[], false, stdinName⟩

/-- One file after the other, api.py:297-301. -/
def eachFile (autofix hook : Bool) : List Path → Linting Unit
  | [] => .ret ()
  | p :: ps => (fixitFile env p autofix hook).bind (fun _ => eachFile autofix hook ps)

/-- `fixit_paths`, api.py:238-301, when it does not use the process pool. `walk files` is `trailrunner.walk` on the current files. -/
def fixitPaths (walk : (Path → Option Bytes) → Path → Except Err (List Path)) (autofix hook : Bool) (paths : List Path) : Linting Unit :=
  if paths.isEmpty then .ret ()
  else .look (fun w => (Gen.ofExcept (scan (walk w.files) paths)).bind (fun st =>
    if st.isStdin then fixitStdin env st.name autofix hook else eachFile env autofix hook st.expanded))

/-! ## The process pool -/

/-- A worker process running `_fixit_file_wrapper`, api.py:222-235: the rest of the generator and the results it has put in its list. -/
structure Worker where
  rest : Linting Unit
  out : List Result

/-- The workers started for the expanded paths, api.py:303-309: `trailrunner.run_iter` calls the function once for each path, resolved or not. -/
def startWorkers (autofix hook : Bool) (paths : List Path) : List Worker := paths.map (fun p => ⟨fixitFile env p autofix hook, []⟩)

/-- One step of one worker: `list(...)` resumes the generator with `next`, that is, sends `None` (api.py:233-235). -/
def Worker.step (k : Worker) (w : World) : Worker × World :=
  match k.rest with
  | .ret _ => (k, w)
  | .raise _ => (k, w)
  | .yield y c => (⟨c none, k.out ++ [y]⟩, w)
  | .act a c => (⟨c w, k.out⟩, a w)

/-- The pool after the workers took steps in the order `sched`; processes share nothing but the world (api.py:309). -/
def runPool : List Nat → List Worker → World → List Worker × World
  | [], ks, w => (ks, w)
  | i :: sched, ks, w =>
    match ks[i]? with
    | none => runPool sched ks w
    | some k => runPool sched (ks.set i (k.step w).1) (k.step w).2

/-- The worker has finished (api.py:233-235, 309). -/
def Worker.done (k : Worker) : Bool :=
  match k.rest with
  | .ret _ => true
  | _ => false

/-- `yield from results` for a list, api.py:310: it cannot be sent an answer (`list_iterator` has no `send`: AttributeError). -/
def yieldList : List Result → Linting Unit
  | [] => .ret ()
  | r :: rs => .yield r (fun s => match s with | none => yieldList rs | some _ => .raise .attribute)

/-- The loop over `run_iter`, api.py:309-310, given the lists of results in the order in which they arrive. -/
def yieldLists : List (List Result) → Linting Unit
  | [] => .ret ()
  | rs :: rss => (yieldList rs).bind (fun _ => yieldLists rss)

/-- The lists of results of the workers `order` (api.py:309-310). -/
def arrived (ks : List Worker) (order : List Nat) : List (List Result) := order.filterMap (fun i => ks[i]?.map Worker.out)

/-- `len(expanded_paths) == 1 or not parallel`, api.py:297. -/
def sequential (parallel : Bool) (expanded : List Path) : Bool := expanded.length == 1 || !parallel

/-- Whether the arguments are linted by the process pool, api.py:293-302. -/
def usesPool (walk : Path → Except Err (List Path)) (parallel : Bool) (paths : List Path) : Option (List Path) :=
  match scan walk paths with
  | .ok st => if st.isStdin then none else if sequential parallel st.expanded then none else some st.expanded
  | .error _ => none

/-- The runs of `fixit_paths`, api.py:238-310, against the answers `ss` from the world `w`: what it yields, how it ends, and a world at that time. With the
pool, the workers may have taken any steps, the lists of those in `order` have arrived in that order, and the loop ends when all have.
`trailrunner.run_iter` (a library) is assumed to hand out the list of each path once, when its worker has finished. -/
inductive PathsRun (walk : (Path → Option Bytes) → Path → Except Err (List Path)) (autofix hook parallel : Bool) (paths : List Path) (ss : List Answer) (w : World) :
    List Result × Gen.Status Unit × World → Prop
  | plain : usesPool (walk w.files) parallel paths = none → PathsRun walk autofix hook parallel paths ss w ((fixitPaths env walk autofix hook paths).run ss w)
  | pool (fs : List Path) (sched order : List Nat) : usesPool (walk w.files) parallel paths = some fs → order.Nodup →
      (∀ i ∈ order, ∃ k, (runPool sched (startWorkers env autofix hook fs) w).1[i]? = some k ∧ k.done = true) →
      (((yieldLists (arrived (runPool sched (startWorkers env autofix hook fs) w).1 order)).run ss w).2.1 = .returned () →
        ∀ i < fs.length, i ∈ order) →
      PathsRun walk autofix hook parallel paths ss w
        (((yieldLists (arrived (runPool sched (startWorkers env autofix hook fs) w).1 order)).run ss w).1,
         ((yieldLists (arrived (runPool sched (startWorkers env autofix hook fs) w).1 order)).run ss w).2.1,
         (runPool sched (startWorkers env autofix hook fs) w).2)

end
end Fixit
