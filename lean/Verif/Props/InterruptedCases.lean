import Verif.Props.Interrupted
import Verif.Props.PathsCases

/-!
# Concrete runs for C145
-/

namespace Fixit
open Py Spec Gen

/-- The points of fixing `f` (`b`, to become `B`) and `g` (`ad`, to become `a`), in order: what both files contain, without repetitions. -/
def bothContents (u : World) : Option Bytes × Option Bytes := (u.files [py "root", py "f"], u.files [py "root", py "g"])

/-- C145: the points of the run: nothing done, `f` emptied, `f` fixed, `g` emptied too, both fixed. -/
example : (((eachFile (toyEnv none none []) true false [[py "f"], [py "g"]]).worlds (List.replicate 3 none) (twoFiles [98] [97, 100])).map bothContents).eraseDups =
    [(some [98], some [97, 100]), (some [], some [97, 100]), (some [66], some [97, 100]), (some [66], some []), (some [66], some [97])] := by decide

/-- C145: fixing once is enough for both. -/
theorem twoFiles_once : ∀ p ∈ [[py "f"], [py "g"]], FixedOnce (toyEnv none none []) true false (twoFiles [98] [97, 100]) p := by
  intro p hp
  rcases List.mem_cons.mp hp with rfl | hp
  · show _ = _; decide
  · rw [List.mem_singleton] at hp; subst hp
    show _ = _; decide

/-- A point of the run at which `f` is done and `g` has not been begun. -/
def between : World := ((fixitFile (toyEnv none none []) [py "f"] true false).run (List.replicate 1 none) (twoFiles [98] [97, 100])).2.2

theorem run_worlds_bind {W Y S R Q : Type} (k : R → Gen W Y S Q) : ∀ (g : Gen W Y S R) (ss : List S) (w : W), (g.run ss w).2.2 ∈ (g.bind k).worlds ss w
  | .ret r, ss, w => by
    simp only [run, Gen.bind]
    cases k r with
    | ret _ => simp [worlds]
    | raise _ => simp [worlds]
    | yield _ _ => cases ss <;> simp [worlds]
    | act _ _ => simp [worlds]
  | .raise e, ss, w => by simp [run, Gen.bind, worlds]
  | .yield y j, [], w => by simp [run, Gen.bind, worlds]
  | .yield y j, s :: ss, w => by simp only [run, Gen.bind, worlds]; exact List.mem_cons_of_mem _ (run_worlds_bind k (j s) ss w)
  | .act a j, ss, w => by simp only [run, Gen.bind, worlds]; exact List.mem_cons_of_mem _ (run_worlds_bind k (j w) ss (a w))

/-- C145: the run stopped after `f`, and repeated: all hypotheses of `C145_repeat` hold, and both files end as they do without the interruption. -/
example :
    let env := toyEnv none none []
    let again := (fixitPaths env toyWalk true false [[py "d"]]).run (List.replicate 3 none) between
    let once := (fixitPaths env toyWalk true false [[py "d"]]).run (List.replicate 3 none) (twoFiles [98] [97, 100])
    bothContents between = (some [66], some [97, 100]) ∧ bothContents again.2.2 = (some [66], some [97]) ∧
    again.2.2.files = once.2.2.files := by
  refine ⟨by decide, by decide, ?_⟩
  refine (C145_repeat (toyEnv none none []) toyWalk true false false [[py "d"]] 1 3 3 (twoFiles [98] [97, 100]) _ between _ _ _ [[py "f"], [py "g"]] false
    (by decide) rfl rfl (toyStable _ _ _ _) (by decide) twoFiles_once (Or.inl ⟨_, run_worlds_bind _ _ _ _, rfl⟩)
    (PathsRun.plain rfl) (PathsRun.plain rfl)).resolve_right ?_
  rintro ⟨cur, hcur, h1, h2, -⟩
  rcases List.mem_cons.mp hcur with rfl | hcur
  · exact absurd (by decide) h2
  · rw [List.mem_singleton] at hcur; subst hcur
    exact absurd (by decide) h1

/-- The last step of fixing `abba`, as `f`: the write. -/
def lastStep : World × World :=
  ((fixitFile (toyEnv none none []) [py "f"] true false).steps [none, none] (toyWorld [97, 98, 98, 97])).getLast (by decide)

/-- C77, C145: killed in the middle of writing `aBBa` to `f`, which held `abba`: it holds `aB`. -/
example : ∃ u, CrashPoint (fixitFile (toyEnv none none []) [py "f"] true false) [none, none] (toyWorld [97, 98, 98, 97]) u ∧ fContent u = some [97, 66] := by
  refine ⟨⟨fun q => if lastStep.2.files q = lastStep.1.files q then lastStep.1.files q else (lastStep.2.files q).map (·.take 2), []⟩,
    Or.inr ⟨lastStep, List.getLast_mem _, 2, fun q => ⟨fun h => if_pos h, fun h => if_neg h⟩⟩, by decide⟩

/-- **C145** (finding) The exception is real: interrupted while `f` is being rewritten, the repeated run finds it empty and leaves it so. -/
theorem C145_emptied_stays_empty :
    (∃ u ∈ (eachFile (toyEnv none none []) true false [[py "f"], [py "g"]]).worlds (List.replicate 3 none) (twoFiles [98] [97, 100]),
      bothContents u = (some [], some [97, 100])) ∧
    bothContents ((eachFile (toyEnv none none []) true false [[py "f"], [py "g"]]).run (List.replicate 3 none) (twoFiles [] [97, 100])).2.2 = (some [], some [97]) := by
  refine ⟨?_, by decide⟩
  have h : ((eachFile (toyEnv none none []) true false [[py "f"], [py "g"]]).worlds (List.replicate 3 none) (twoFiles [98] [97, 100])).any
      (fun u => decide (bothContents u = (some [], some [97, 100]))) = true := by decide
  obtain ⟨u, h1, h2⟩ := List.any_eq_true.mp h
  exact ⟨u, h1, of_decide_eq_true h2⟩

end Fixit
