import Verif.Props.YesToAll
import Verif.Props.CliCases
import Verif.Props.PathsCases

/-!
# Concrete cases for C132
-/

namespace Fixit
open Py Py.Gen Spec

/-- Two files: two fixable violations and one that is not in the first, one in the second. -/
def yesWorld : World := twoFiles [98, 110, 98] [97, 98]

/-- C132: the hypotheses of `C132_yes_is_automatic` hold, and what both do. -/
example :
    let env := toyEnv none none []
    (∀ j < ([[py "f"], [py "g"]].map (fun q => prompts (foundIn env yesWorld.files (env.resolve q)))).sum, ([.yes, .yes, .yes] : List Reply)[j]? = some .yes) ∧
    (∀ p ∈ [[py "f"], [py "g"]], foundIn env yesWorld.files (env.resolve p) = [] ∨ ∃ v ∈ foundIn env yesWorld.files (env.resolve p), v.autofixable = true) ∧
    filesUnder (toyWalk yesWorld.files) ([[py "d"]].filter (· ≠ [py "-"])) = .ok [[py "f"], [py "g"]] ∧ Stable env (fun q => q ∈ [[py "f"], [py "g"]].map env.resolve) ∧
    ([[py "f"], [py "g"]].map env.resolve).Nodup := by
  refine ⟨by decide +kernel, ?_, rfl, toyStable _ _ _ _, by decide⟩
  intro p hp
  right
  have h1 : (foundIn (toyEnv none none []) yesWorld.files ((toyEnv none none []).resolve [py "f"])).any LintViolation.autofixable = true := by decide +kernel
  have h2 : (foundIn (toyEnv none none []) yesWorld.files ((toyEnv none none []).resolve [py "g"])).any LintViolation.autofixable = true := by decide +kernel
  simp only [List.mem_cons, List.not_mem_nil, or_false] at hp
  rcases hp with rfl | rfl
  · exact List.any_eq_true.mp h1
  · exact List.any_eq_true.mp h2

example :
    let env := toyEnv none none []
    let asked := (fixCommand env toyConsole toyWalk true false false (.ok (.fixit, .str [])) [[py "d"]]).run [.yes, .yes, .yes] (yesWorld, [])
    let automatic := (fixCommand env toyConsole toyWalk false true false (.ok (.fixit, .str [])) [[py "d"]]).run [] (yesWorld, [])
    let refused := (fixCommand env toyConsole toyWalk true false false (.ok (.fixit, .str [])) [[py "d"]]).run [.no, .no, .no] (yesWorld, [])
    asked.1.length = 3 ∧ automatic.1.length = 0 ∧ asked.2.2.2 = automatic.2.2.2 ∧
    asked.2.2.1.files [py "root", py "f"] = some [66, 110, 66] ∧ automatic.2.2.1.files [py "root", py "f"] = some [66, 110, 66] ∧
    refused.2.2.1.files [py "root", py "f"] = some [98, 110, 98] := by
  decide +kernel

/-- **Finding (C132)** `fix --automatic` rewrites a file in which it fixes nothing: a violation without fix is enough for the formatter to be run and its output to be written.
With a yes to every question (there are none) the file stays as it is. -/
theorem C132_reformats :
    let env := toyEnv none (some (py "up")) []
    let asked := (fixCommand env toyConsole toyWalk true false false (.ok (.fixit, .str [])) [[py "f"]]).run [] (toyWorld [110], [])
    let automatic := (fixCommand env toyConsole toyWalk false false false (.ok (.fixit, .str [])) [[py "f"]]).run [] (toyWorld [110], [])
    asked.1.length = 0 ∧ fContent asked.2.2.1 = some [110] ∧ fContent automatic.2.2.1 = some [110, 33] ∧
    automatic.2.2.2.map (fun o => String.ofList o.text) = ["f@1:1 Toy: n\n", "🛠️  1 file checked, 1 file with errors 🛠️\n"] := by
  decide +kernel

end Fixit
