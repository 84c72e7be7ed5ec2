import Verif.Props.SplitRun
import Verif.Props.Batches
import Verif.Props.CliCases

/-!
# Concrete runs for C147
-/

namespace Fixit
open Py Spec Gen

/-- C147: the hypotheses of `C147_fix_split` are met by two files, in both of which there is something to fix. -/
example :
    let w := twoFiles [98] [97, 98]
    let fix := fun args w => (fixCommand (toyEnv none none []) toyConsole toyWalk false false false (.ok (.fixit, .str [])) args).run [] (w, [])
    let both := fix [[py "f"], [py "g"]] w
    let first := fix [[py "f"]] w
    let second := fix [[py "g"]] first.2.2.1
    filesUnder (toyWalk w.files) ([[py "f"]].filter (· ≠ [py "-"])) = .ok [[py "f"]] ∧ filesUnder (toyWalk first.2.2.1.files) ([[py "g"]].filter (· ≠ [py "-"])) = .ok [[py "g"]] ∧
    fContent first.2.2.1 = some [66] ∧ first.2.2.1.files [py "root", py "g"] = some [97, 98] ∧
    fContent both.2.2.1 = some [66] ∧ both.2.2.1.files [py "root", py "g"] = some [97, 66] ∧
    fContent second.2.2.1 = some [66] ∧ second.2.2.1.files [py "root", py "g"] = some [97, 66] ∧
    both.2.2.2.map (fun o => String.ofList o.text) = ["f@1:1 Toy: b (has autofix)\n", "g@1:2 Toy: b (has autofix)\n",
      "🛠️  2 files checked, 2 files with errors, 2 auto-fixes available, 2 fixes applied 🛠️\n"] := by decide +kernel

/-- Two runs at once, one of a directory with two files. -/
def atOnce : List (List Path × List Path) := [([[py "d"]], [[py "f"], [py "g"]]), ([[py "h"]], [[py "h"]])]

/-- C147: the hypotheses of `C147_at_the_same_time` are met, and with enough steps all runs end. -/
example :
    let w := twoFiles [98] [97, 98]
    let now := runPool (List.replicate 30 [0, 1]).flatten (startRuns (toyEnv none none []) toyWalk true false (atOnce.map (·.1))) w
    (∀ r ∈ atOnce, r.1.head? ≠ some [py "-"]) ∧ (∀ r ∈ atOnce, ∀ u : World, filesUnder (toyWalk u.files) (r.1.filter (· ≠ [py "-"])) = .ok r.2) ∧
    Stable (toyEnv none none []) (fun q => q ∈ (atOnce.flatMap (·.2)).map (toyEnv none none []).resolve) ∧
    ((atOnce.flatMap (·.2)).map (toyEnv none none []).resolve).Nodup ∧
    now.1.map (fun k => (k.done, k.out.length)) = [(true, 2), (true, 1)] ∧ fContent now.2 = some [66] ∧ now.2.files [py "root", py "g"] = some [97, 66] :=
  ⟨by decide, fun r hr u => by simp only [atOnce, List.mem_cons, List.not_mem_nil, or_false] at hr; rcases hr with rfl | rfl <;> rfl, toyStable _ _ _ _, by decide, by decide +kernel,
    by decide +kernel, by decide +kernel⟩

/-- C147: after a few steps the first run has emptied its first file and not yet written it, the other has ended. -/
example :
    let now := runPool (List.replicate 30 1 ++ List.replicate 7 0) (startRuns (toyEnv none none []) toyWalk true false (atOnce.map (·.1))) (twoFiles [98] [97, 98])
    now.1.map (fun k => (k.done, k.out.length)) = [(false, 1), (true, 1)] ∧ fContent now.2 = some [] := by decide +kernel

/-- C147: the hypotheses of `C147_lint_split` are met by a file with a violation and one that cannot be parsed. -/
example : ∃ outs outs₁ outs₂ w',
    LintRun (toyEnv none none []) toyConsole toyWalk false false (.ok (.vscode, .str [])) [[py "d"]] (twoFiles [98] [120]) (outs, .exit 3, w') ∧
    LintRun (toyEnv none none []) toyConsole toyWalk false false (.ok (.vscode, .str [])) [[py "f"]] (twoFiles [98] [120]) (outs₁, .exit 1, twoFiles [98] [120]) ∧
    LintRun (toyEnv none none []) toyConsole toyWalk false false (.ok (.vscode, .str [])) [[py "g"]] (twoFiles [98] [120]) (outs₂, .exit 2, twoFiles [98] [120]) := by
  have h1 := LintRun.ran (env := toyEnv none none []) (con := toyConsole) (walk := toyWalk) (diff := false) (hook := false) (cfg := .ok (.vscode, .str []))
    (paths := [[py "f"]]) (w := twoFiles [98] [120]) .vscode (.str []) 1 _ _ _ rfl (PathsRun.plain (by decide)) (fun r _ e he => by simpa using (C79_raises toyConsole false false .vscode (.str []) r e he).1)
  have h2 := LintRun.ran (env := toyEnv none none []) (con := toyConsole) (walk := toyWalk) (diff := false) (hook := false) (cfg := .ok (.vscode, .str []))
    (paths := [[py "g"]]) (w := twoFiles [98] [120]) .vscode (.str []) 1 _ _ _ rfl (PathsRun.plain (by decide)) (fun r _ e he => by simpa using (C79_raises toyConsole false false .vscode (.str []) r e he).1)
  have h := LintRun.ran (env := toyEnv none none []) (con := toyConsole) (walk := toyWalk) (diff := false) (hook := false) (cfg := .ok (.vscode, .str []))
    (paths := [[py "d"]]) (w := twoFiles [98] [120]) .vscode (.str []) 2 _ _ _ rfl
    (PathsRun.pool [[py "f"], [py "g"]] (List.replicate 20 [0, 1]).flatten [1, 0] rfl (by decide) (fun i hi => by
      rcases List.mem_cons.mp hi with rfl | hi
      · exact ⟨_, rfl, rfl⟩
      · rw [List.mem_singleton] at hi; subst hi; exact ⟨_, rfl, rfl⟩) (fun _ => by decide)) (fun r _ e he => by simpa using (C79_raises toyConsole false false .vscode (.str []) r e he).1)
  exact ⟨_, _, _, _, h, h1, h2⟩

end Fixit
