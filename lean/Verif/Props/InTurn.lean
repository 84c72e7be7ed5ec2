import Verif.Props.PathsCases

/-!
# C135: files one after the other, whatever they are
-/

namespace Fixit
open Py Spec Gen

section
variable {C : Type} (env : Env C) (walk : (Path → Option Bytes) → Path → Except Err (List Path))

theorem eachFile_inTurn (autofix hook : Bool) : ∀ (ps : List Path) (w : World),
    drain none (eachFile env autofix hook ps) w = ((inTurn env autofix hook ps w).1, .returned (), (inTurn env autofix hook ps w).2)
  | [], w => rfl
  | p :: ps, w => by
    have hlong : ∀ n, (alone env autofix hook w p).1.length ≤ n →
        (fixitFile env p autofix hook).run (List.replicate n none) w = ((alone env autofix hook w p).1, .returned (), (alone env autofix hook w p).2.2) := by
      intro n hn
      rw [run_replicate none (fixitFile env p autofix hook) w n hn]
      have := alone_returns env autofix hook w p
      show alone env autofix hook w p = _
      rw [← this]
    have ih := eachFile_inTurn autofix hook ps (alone env autofix hook w p).2.2
    have hrest : ∀ n, (inTurn env autofix hook ps (alone env autofix hook w p).2.2).1.length ≤ n →
        (eachFile env autofix hook ps).run (List.replicate n none) (alone env autofix hook w p).2.2 =
          ((inTurn env autofix hook ps (alone env autofix hook w p).2.2).1, .returned (), (inTurn env autofix hook ps (alone env autofix hook w p).2.2).2) := by
      intro n hn
      rw [run_replicate none _ _ n (by rw [ih]; exact hn), ih]
    have hrun : (eachFile env autofix hook (p :: ps)).run
        (List.replicate ((alone env autofix hook w p).1.length + (inTurn env autofix hook ps (alone env autofix hook w p).2.2).1.length) none) w =
        ((inTurn env autofix hook (p :: ps) w).1, .returned (), (inTurn env autofix hook (p :: ps) w).2) := by
      show ((fixitFile env p autofix hook).bind (fun _ => eachFile env autofix hook ps)).run _ w = _
      rw [run_bind_returned (hlong _ (Nat.le_add_right _ _)), List.drop_replicate, Nat.add_sub_cancel_left, hrest _ (Nat.le_refl _)]
      rfl
    rw [run_returned_drain none () _ _ w (by rw [hrun]), hrun]

/-- **C135** A sequential run over any files, whether some are the same or part of the configuration or of a rule, that completes without answers, does what linting or
fixing them one by one does, each in the state the ones before it have left. -/
theorem C135_in_turn (autofix hook : Bool) (paths : List Path) (n : Nat) (w w' : World) (ys : List Result) (fs : List Path)
    (hh : paths.head? ≠ some [py "-"]) (hf : filesUnder (walk w.files) (paths.filter (· ≠ [py "-"])) = .ok fs)
    (hr : PathsRun env walk autofix hook false paths (List.replicate n none) w (ys, .returned (), w')) :
    ys = (inTurn env autofix hook fs w).1 ∧ w' = (inTurn env autofix hook fs w).2 := by
  have key : (fixitPaths env walk autofix hook paths).run (List.replicate n none) w = (ys, .returned (), w') := by
    generalize hout : (ys, (Status.returned () : Status Unit), w') = out at hr
    cases hr with
    | plain _ => rfl
    | pool fs' sched order hu _ _ _ =>
      exfalso
      unfold usesPool at hu
      cases hs : scan (walk w.files) paths with
      | error e => rw [hs] at hu; cases hu
      | ok st =>
        rw [hs] at hu
        simp only [sequential, Bool.not_false, Bool.or_true, ite_true, ite_self] at hu
        cases hu
  rw [C50_files env walk autofix hook paths (List.replicate n none) w fs hh hf] at key
  have h1 := run_returned_drain none () (eachFile env autofix hook fs) n w (by rw [key])
  rw [key, eachFile_inTurn] at h1
  simp only [Prod.mk.injEq, true_and] at h1
  exact ⟨h1.1.symm, h1.2.symm⟩

/-- **C135** So a file that is given twice and that the first fixing leaves without change for a second one ends as if it had been given once, and is reported twice: as it was
and as it is after the fixes. -/
theorem C135_given_twice (hook : Bool) (p : Path) (w : World)
    (hfix : (alone env true hook (alone env true hook w p).2.2 p).2.2.files = (alone env true hook w p).2.2.files) :
    (inTurn env true hook [p, p] w).2.files = (inTurn env true hook [p] w).2.files ∧
    (inTurn env true hook [p, p] w).1 = (alone env true hook w p).1 ++ (alone env true hook (alone env true hook w p).2.2 p).1 := by
  constructor
  · exact hfix
  · simp [inTurn]

end

/-- A file `bn` given twice: the `b` is fixed by the first, the `n` (no fix) is reported by both. -/
example : (inTurn (toyEnv none none []) true false [[py "f"], [py "f"]] (toyWorld [98, 110])).2.files ((toyEnv none none []).resolve [py "f"]) = some [66, 110] ∧
    shown (inTurn (toyEnv none none []) true false [[py "f"], [py "f"]] (toyWorld [98, 110])).1 = [(some (py "b"), false), (some (py "n"), false), (some (py "n"), false)] :=
  ⟨by decide, by decide⟩

/-- `C135_in_turn` applies to it. -/
example : ∃ ys w', PathsRun (toyEnv none none []) (fun _ p => .ok [p]) true false false [[py "f"], [py "f"]] (List.replicate 5 none) (toyWorld [98, 110]) (ys, .returned (), w') := by
  have h := PathsRun.plain (env := toyEnv none none []) (walk := fun _ p => .ok [p]) (autofix := true) (hook := false) (parallel := false) (paths := [[py "f"], [py "f"]])
    (ss := List.replicate 5 none) (w := toyWorld [98, 110]) (by decide)
  have hs : ((fixitPaths (toyEnv none none []) (fun _ p => .ok [p]) true false [[py "f"], [py "f"]]).run (List.replicate 5 none) (toyWorld [98, 110])).2.1 = .returned () := by rfl
  generalize (fixitPaths (toyEnv none none []) (fun _ p => .ok [p]) true false [[py "f"], [py "f"]]).run (List.replicate 5 none) (toyWorld [98, 110]) = out at h hs
  obtain ⟨ys, st, w'⟩ := out
  simp only at hs
  subst hs
  exact ⟨ys, w', h⟩

end Fixit
