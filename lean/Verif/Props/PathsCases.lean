import Verif.Props.Paths

/-!
# Concrete runs for C50–C52
-/

namespace Fixit
open Py Spec Gen

/-- Two files. -/
def twoFiles (f g : Bytes) : World :=
  ⟨fun p => if p = [py "root", py "f"] then some f else if p = [py "root", py "g"] then some g else none, []⟩

/-- `trailrunner.walk` of a toy tree: the directory `d` contains `f` and `g`; other paths are files. -/
def toyWalk : (Path → Option Bytes) → Path → Except Err (List Path) := fun _ p => if p = [py "d"] then .ok [[py "f"], [py "g"]] else .ok [p]

/-- The toy rules look at no other file. -/
theorem toyStable (w : Option (Nat × Err)) (fmt : Option PStr) (stdin : Bytes) (S : Path → Prop) : Stable (toyEnv w fmt stdin) S := fun _ _ _ => ⟨rfl, rfl, rfl⟩

/-- C50: a directory, with `-` ignored after the first place; both files are fixed. -/
example :
    let out := (fixitPaths (toyEnv none none []) toyWalk true false [[py "d"], [py "-"]]).run (List.replicate 3 none) (twoFiles [98] [97, 100])
    shown out.1 = [(some (py "b"), false), (some (py "d"), false)] ∧ isReturned out.2.1 = true ∧
    fContent out.2.2 = some [66] ∧ out.2.2.files [py "root", py "g"] = some [97] := by decide

/-- C50: standard input under the name `g`. -/
example :
    let out := (fixitPaths (toyEnv none none [98, 97]) toyWalk true false [[py "-"], [py "g"], [py "-"]]).run (List.replicate 3 none) (twoFiles [98] [97, 100])
    out.1.map (·.path) = [[py "root", py "g"]] ∧ stdoutWrites out.2.2.log = [[66, 97]] := by decide

/-- C50: `- - name`. -/
example : ((fixitPaths (toyEnv none none [98, 97]) toyWalk true false [[py "-"], [py "-"], [py "g"]]).run [] (twoFiles [98] [97])).2.1 = .raised .value := rfl

/-- C52: the hypotheses of `C52_each_on_its_own` hold for two files, one of which cannot be parsed. -/
example : ((fixitPaths (toyEnv none none []) toyWalk true false [[py "d"]]).run (List.replicate 3 none) (twoFiles [120] [97, 100])).1.map (fun r => (r.path, r.error.isSome)) =
      [([py "root", py "f"], true), ([py "root", py "g"], false)] ∧
    ([[py "f"], [py "g"]].map (toyEnv none none []).resolve).Nodup := by decide

/-- C51: a run of the pool, with the workers taking turns and the second list arriving first. -/
example :
    PathsRun (toyEnv none none []) toyWalk true false true [[py "d"]] (List.replicate 2 none) (twoFiles [98] [97, 100])
      (((yieldLists (arrived (runPool (List.replicate 20 [0, 1]).flatten (startWorkers (toyEnv none none []) true false [[py "f"], [py "g"]]) (twoFiles [98] [97, 100])).1 [1, 0])).run
          (List.replicate 2 none) (twoFiles [98] [97, 100])).1,
       ((yieldLists (arrived (runPool (List.replicate 20 [0, 1]).flatten (startWorkers (toyEnv none none []) true false [[py "f"], [py "g"]]) (twoFiles [98] [97, 100])).1 [1, 0])).run
          (List.replicate 2 none) (twoFiles [98] [97, 100])).2.1,
       (runPool (List.replicate 20 [0, 1]).flatten (startWorkers (toyEnv none none []) true false [[py "f"], [py "g"]]) (twoFiles [98] [97, 100])).2) ∧
    shown ((yieldLists (arrived (runPool (List.replicate 20 [0, 1]).flatten (startWorkers (toyEnv none none []) true false [[py "f"], [py "g"]]) (twoFiles [98] [97, 100])).1 [1, 0])).run
          (List.replicate 2 none) (twoFiles [98] [97, 100])).1 = [(some (py "d"), false), (some (py "b"), false)] ∧
    isReturned ((yieldLists (arrived (runPool (List.replicate 20 [0, 1]).flatten (startWorkers (toyEnv none none []) true false [[py "f"], [py "g"]]) (twoFiles [98] [97, 100])).1 [1, 0])).run
          (List.replicate 2 none) (twoFiles [98] [97, 100])).2.1 = true ∧
    fContent (runPool (List.replicate 20 [0, 1]).flatten (startWorkers (toyEnv none none []) true false [[py "f"], [py "g"]]) (twoFiles [98] [97, 100])).2 = some [66] := by
  refine ⟨.pool _ _ _ (by decide) (by decide) (fun i hi => ?_) (fun _ => by decide), by decide, by decide, by decide⟩
  rcases List.mem_cons.mp hi with rfl | hi
  · exact ⟨_, rfl, rfl⟩
  · rw [List.mem_singleton] at hi; subst hi; exact ⟨_, rfl, rfl⟩

/-- **C51** (finding) Distinctness is needed: when the same file is given twice and fixed in parallel, one worker can read it while the other has it truncated,
and report it clean; one after the other, the second look at the file reports the violation that has no fix. -/
theorem C51_same_file_twice_races :
    (let out := (eachFile (toyEnv none none []) true false [[py "f"], [py "f"]]).run (List.replicate 5 none) (toyWorld [98, 110])
     shown out.1 = [(some (py "b"), false), (some (py "n"), false), (some (py "n"), false)]) ∧
    ∃ sched, let R := runPool sched (startWorkers (toyEnv none none []) true false [[py "f"], [py "f"]]) (toyWorld [98, 110])
      R.1.map Worker.done = [true, true] ∧ R.1.map (fun k => shown k.out) = [[(some (py "b"), false), (some (py "n"), false)], [(none, false)]] := by
  refine ⟨by decide, List.replicate 7 0 ++ List.replicate 8 1 ++ List.replicate 6 0, by decide, by decide⟩

end Fixit
