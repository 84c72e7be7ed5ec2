import Verif.Props.CleanLint
import Verif.Props.CleanStdin
import Verif.Props.CliCases

/-!
# Concrete runs for C146
-/

namespace Fixit
open Py Spec Gen

/-- C146: `lint` of a clean file exits with 0, so the hypotheses of `C146_clean_lint_nothing_to_fix` are met, and `fix -i` with a user ready to say yes asks nothing. -/
theorem C146_clean_case : ∃ outs, LintRun (toyEnv none none []) toyConsole toyWalk false false (.ok (.fixit, .str [])) [[py "f"]] (toyWorld [97, 97])
      (outs, .exit 0, toyWorld [97, 97]) ∧
    outs.map (fun o => (o.err, String.ofList o.text)) = [(true, "🧼 1 file clean 🧼\n")] ∧
    ((fixCommand (toyEnv none none []) toyConsole toyWalk true true false (.ok (.fixit, .str [])) [[py "f"]]).run [.yes, .yes] (toyWorld [97, 97], [])).2.2.2 = outs := by
  have h := LintRun.ran (env := toyEnv none none []) (con := toyConsole) (walk := toyWalk) (diff := false) (hook := false) (cfg := .ok (.fixit, .str []))
    (paths := [[py "f"]]) (w := toyWorld [97, 97]) .fixit (.str []) 1 _ _ _ rfl (PathsRun.plain (by decide))
    (fun r _ e he => by simpa using (C79_raises toyConsole false false .fixit (.str []) r e he).1)
  refine ⟨_, h, by decide +kernel, ?_⟩
  have := C146_clean_lint_nothing_to_fix (toyEnv none none []) toyConsole toyWalk true false true false .fixit (.str []) [[py "f"]] [[py "f"]] [.yes, .yes]
    (toyWorld [97, 97]) _ _ [] (by decide) rfl h
  exact this.2.2.2

/-- C146: the hypotheses of `C146_silent_fix_clean_lint` are met by the same file: `fix` ends with one line printed. -/
example :
    let out := (fixCommand (toyEnv none none []) toyConsole toyWalk false false false (.ok (.vscode, .str [])) [[py "f"]]).run [] (toyWorld [97, 97], [])
    returnedWith out.2.1 = some 0 ∧ out.2.2.2.map (fun o => String.ofList o.text) = ["🧼 1 file clean 🧼\n"] := by decide +kernel

/-- C146: with a violation to report, fixable or not, `fix` prints more than the summary. -/
example :
    ((fixCommand (toyEnv none none []) toyConsole toyWalk false false false (.ok (.vscode, .str [])) [[py "f"]]).run [] (toyWorld [97, 110], [])).2.2.2.length = 2 := by decide +kernel

/-- C146: `lint -` on clean input exits with 0, so the hypotheses of `C146_clean_stdin` are met, and `fix -` prints the input. -/
example : ∃ outs, LintRun (toyEnv none none [97, 97]) toyConsole toyWalk false false (.ok (.fixit, .str [])) [[py "-"], [py "g"]] (toyWorld [98])
      (outs, .exit 0, toyWorld [98]) ∧
    ∃ content, (toyEnv none none [97, 97]).stdin = .ok content ∧ stdoutWrites (newEvents (toyWorld [98])
      ((fixCommand (toyEnv none none [97, 97]) toyConsole toyWalk true true false (.ok (.fixit, .str [])) [[py "-"], [py "g"]]).run [] (toyWorld [98], [])).2.2.1) = [content] := by
  have h := LintRun.ran (env := toyEnv none none [97, 97]) (con := toyConsole) (walk := toyWalk) (diff := false) (hook := false) (cfg := .ok (.fixit, .str []))
    (paths := [[py "-"], [py "g"]]) (w := toyWorld [98]) .fixit (.str []) 1 _ _ _ rfl (PathsRun.plain (by decide))
    (fun r _ e he => by simpa using (C79_raises toyConsole false false .fixit (.str []) r e he).1)
  have := C146_clean_stdin (toyEnv none none [97, 97]) toyConsole toyWalk true false true false .fixit (.str []) [[py "-"], [py "g"]] [py "g"] []
    (toyWorld [98]) _ _ [] (.named [py "g"] [] (by decide) (by simp)) (by decide) (fun _ => rfl) h
  exact ⟨_, h, this.2.2.2.2⟩

end Fixit
