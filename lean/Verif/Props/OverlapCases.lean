import Verif.Props.BatchesOverlap
import Verif.Props.SplitCases

/-!
# C139: several runs over the same files, concretely
-/

namespace Fixit
open Py Spec Gen

/-- Two runs at once, one of a directory with two files, the other of the first of them. -/
def overlapping : List (List Path × List Path) := [([[py "d"]], [[py "f"], [py "g"]]), ([[py "f"]], [[py "f"]])]

theorem overlapping_ok : OnceIsEnough (toyEnv none none []) true false (twoFiles [98, 110] [97, 98]) (overlapping.flatMap (·.2)) where
  stable _ _ _ := ⟨rfl, rfl, rfl⟩
  opens _ _ := rfl
  writes _ _ _ := rfl
  empty p hp := by
    simp only [overlapping, List.flatMap_cons, List.flatMap_nil, List.append_nil, List.cons_append, List.nil_append, List.mem_cons, List.not_mem_nil, or_false] at hp
    rcases hp with rfl | rfl | rfl <;> decide +kernel
  once p hp := by
    simp only [overlapping, List.flatMap_cons, List.flatMap_nil, List.append_nil, List.cons_append, List.nil_append, List.mem_cons, List.not_mem_nil, or_false] at hp
    rcases hp with rfl | rfl | rfl <;> decide +kernel

theorem overlapping_found (r : List Path × List Path) (hr : r ∈ overlapping) (u : World) : filesUnder (toyWalk u.files) (r.1.filter (· ≠ [py "-"])) = .ok r.2 := by
  simp only [overlapping, List.mem_cons, List.not_mem_nil, or_false] at hr
  rcases hr with rfl | rfl <;> rfl

/-- C139: the hypotheses of `C139_runs_end` are met, by taking turns. -/
example : ∃ N, ∀ m ≥ N,
    let now := runPool (turns (fun n => n % 2) m) (startRuns (toyEnv none none []) toyWalk true false (overlapping.map (·.1))) (twoFiles [98, 110] [97, 98])
    (∀ k ∈ now.1, k.done = true) ∧ ∀ r ∈ overlapping, ∀ p ∈ r.2, now.2.files ((toyEnv none none []).resolve p) =
      afterAlone (toyEnv none none []) true false (twoFiles [98, 110] [97, 98]) p ((twoFiles [98, 110] [97, 98]).files ((toyEnv none none []).resolve p)) :=
  C139_runs_end (toyEnv none none []) toyWalk overlapping (twoFiles [98, 110] [97, 98]) (by decide) (fun r hr u _ => overlapping_found r hr u) overlapping_ok _ (fun i hi m =>
    ⟨2 * m + i, by omega, by have : i < 2 := hi; show (2 * m + i) % 2 = i; omega⟩)

/-- C139: the second run may see the first file empty, or fixed; both end, and the files are fixed. -/
example :
    let now := runPool (List.replicate 8 0 ++ List.replicate 30 1 ++ List.replicate 60 0) (startRuns (toyEnv none none []) toyWalk true false (overlapping.map (·.1))) (twoFiles [98, 110] [97, 98])
    now.1.map (fun k => (k.done, shown k.out)) = [(true, [(some (py "b"), false), (some (py "n"), false), (some (py "b"), false)]), (true, [(none, false)])] ∧
    fContent now.2 = some [66, 110] ∧ now.2.files [py "root", py "g"] = some [97, 66] := by decide +kernel

end Fixit
