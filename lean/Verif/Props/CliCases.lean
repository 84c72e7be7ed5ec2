import Verif.Props.CliFiles
import Verif.Props.PathsCases

/-!
# Concrete runs for C55–C57, C79, C80
-/

namespace Fixit
open Py Spec Gen

/-- A terminal at `/root`. -/
def toyConsole : Console := ⟨[py "root"], fun _ => py "bad", fun _ => py "trace\n", fun _ _ => .error .value⟩

/-- The toy language with a rule runner whose diffs are `D`. -/
def diffEnv (stdin : Bytes) : Env Unit := { toyEnv none none stdin with unifiedDiff := fun _ _ _ => .ok (py "D") }

/-- **C55** Every completed run of `fixit_paths` under a built-in format gives a run of `lint` that exits (so C55 and C56 speak about every such run). -/
theorem C55_lint_exits {C : Type} (env : Env C) (con : Console) (walk : (Path → Option Bytes) → Path → Except Err (List Path)) (diff hook : Bool)
    (fmt : OutputFormat) (template : Toml) (paths : List Path) (n : Nat) (rs : List Result) (w w' : World) (hfmt : fmt ≠ .custom)
    (h : PathsRun env walk false hook true (if paths = [] then [con.cwd] else paths) (List.replicate n none) w (rs, .returned (), w')) :
    ∃ outs code, LintRun env con walk diff hook (.ok (fmt, template)) paths w (outs, .exit code, w') := by
  have hno : ∀ r e, printResult con diff false fmt template r ≠ .error e := fun r e he => hfmt (C79_raises con diff false fmt template r e he).1
  have hl : ∀ (rs : List Result) (t : Tally), ∃ t', (lintLoop con diff fmt template rs t).2 = .ok t' := by
    intro rs
    induction rs with
    | nil => intro t; exact ⟨t, rfl⟩
    | cons r rs ih =>
      intro t
      simp only [lintLoop]
      cases hp : printResult con diff false fmt template r with
      | error e => exact absurd hp (hno r e)
      | ok x => exact ih _
  obtain ⟨t', ht⟩ := hl rs {}
  have := LintRun.ran (env := env) (con := con) (walk := walk) (diff := diff) (hook := hook) (cfg := .ok (fmt, template)) (paths := paths) (w := w)
    fmt template n rs (.returned ()) w' rfl (by rw [defaultPaths_eq]; exact h) (fun r _ e => hno r e)
  refine ⟨(lintLoop con diff fmt template rs {}).1 ++ [splash t'.visited t'.dirty t'.autofixes t'.fixed], t'.exitCode, ?_⟩
  have hc : lintCommand con diff (.ok (fmt, template)) rs (.returned ()) =
      ((lintLoop con diff fmt template rs {}).1 ++ [splash t'.visited t'.dirty t'.autofixes t'.fixed], .exit t'.exitCode) := by
    unfold lintCommand
    rcases hx : lintLoop con diff fmt template rs {} with ⟨outs, end_⟩
    rw [hx] at ht
    simp only at ht
    subst ht
    simp [hx]
  rw [hc] at this
  exact this

/-- **C55** A bad configuration of the current directory makes `lint` raise before any file is looked at, whatever the paths given. -/
theorem C55_bad_config {C : Type} (env : Env C) (con : Console) (walk : (Path → Option Bytes) → Path → Except Err (List Path)) (diff hook : Bool) (e : Err)
    (paths : List Path) (w : World) (out : List Out × Ending × World) : LintRun env con walk diff hook (.error e) paths w out ↔ out = ([], .raised e, w) := by
  constructor
  · intro h
    cases h with
    | badConfig e' he => cases he; rfl
    | ran fmt template n rs st w' hc => cases hc
  · rintro rfl; exact .badConfig e rfl

/-- C55, C56: linting a file with two violations, one fixable. -/
example : ∃ outs, LintRun (toyEnv none none []) toyConsole toyWalk false false (.ok (.fixit, .str [])) [[py "f"]] (toyWorld [98, 110])
    (outs, .exit 1, toyWorld [98, 110]) ∧
    outs.map (fun o => (o.err, String.ofList o.text)) = [(false, "f@1:1 Toy: b (has autofix)\n"), (false, "f@1:2 Toy: n\n"),
      (true, "🛠️  1 file checked, 1 file with errors, 1 auto-fix available 🛠️\n")] := by
  have h := LintRun.ran (env := toyEnv none none []) (con := toyConsole) (walk := toyWalk) (diff := false) (hook := false) (cfg := .ok (.fixit, .str []))
    (paths := [[py "f"]]) (w := toyWorld [98, 110]) .fixit (.str []) 2 _ _ _ rfl (PathsRun.plain (by decide)) (fun r _ e he => by simpa using (C79_raises toyConsole false false .fixit (.str []) r e he).1)
  exact ⟨_, h, by decide +kernel⟩

/-- C55: both bits. -/
example :
    let rs := ((fixitPaths (toyEnv none none []) toyWalk false false [[py "d"]]).run (List.replicate 3 none) (twoFiles [98] [120])).1
    (lintCommand toyConsole false (.ok (.vscode, .str [])) rs (.returned ())).2 = .exit 3 := by decide +kernel

/-- C57: accept the first fix, decline the second. -/
example :
    let out := (fixCommand (toyEnv none none []) toyConsole toyWalk true false false (.ok (.fixit, .str [])) [[py "f"]]).run [.yes, .no] (toyWorld [98, 110, 100], [])
    out.1.map (fun r => r.violation.map (·.base.message)) = [some (py "b"), some (py "d")] ∧ isReturned out.2.1 = true ∧ fContent out.2.2.1 = some [66, 110, 100] ∧
    (out.2.2.2.getLast?.map (fun o => String.ofList o.text)) = some "🛠️  1 file checked, 1 file with errors, 2 auto-fixes available, 1 fix applied 🛠️\n" := by decide +kernel

/-- **C57** (finding) Quitting discards the fixes already accepted in the current file, but the summary counts them as applied. -/
theorem C57_quit_discards :
    let out := (fixCommand (toyEnv none none []) toyConsole toyWalk true false false (.ok (.fixit, .str [])) [[py "f"]]).run [.yes, .quit] (toyWorld [98, 110, 100], [])
    isReturned out.2.1 = true ∧ fContent out.2.2.1 = some [98, 110, 100] ∧
    (out.2.2.2.getLast?.map (fun o => String.ofList o.text)) = some "🛠️  1 file checked, 1 file with errors, 2 auto-fixes available, 1 fix applied 🛠️\n" := by decide +kernel

/-- C57: the hypotheses of `C57_files` are met by two files; the user accepts the fix of the first and quits at the second. -/
example :
    let out := (fixCommand (toyEnv none none []) toyConsole toyWalk true false false (.ok (.fixit, .str [])) [[py "d"]]).run [.yes, .quit] (twoFiles [98] [97, 100], [])
    filesUnder (toyWalk (twoFiles [98] [97, 100]).files) [[py "d"]] = .ok [[py "f"], [py "g"]] ∧
    Stable (toyEnv none none []) (fun q => q ∈ [[py "f"], [py "g"]].map (toyEnv none none []).resolve) ∧
    ([[py "f"], [py "g"]].map (toyEnv none none []).resolve).Nodup ∧
    fContent out.2.2.1 = some [66] ∧ out.2.2.1.files [py "root", py "g"] = some [97, 100] :=
  ⟨rfl, toyStable _ _ _ _, by decide, by decide +kernel, by decide +kernel⟩

def returnedWith {R : Type} : Status R → Option R
  | .returned r => some r
  | _ => none

/-- **C57** (finding) `fix` exits with 0 although nothing could be checked. -/
theorem C57_exit_zero_on_error :
    let out := (fixCommand (toyEnv none none []) toyConsole toyWalk false false false (.ok (.fixit, .str [])) [[py "f"]]).run [] (toyWorld [120], [])
    returnedWith out.2.1 = some 0 ∧ fContent out.2.2.1 = some [120] := by decide +kernel

/-- **C57** (finding) The count of fixes applied can be positive although writing the file failed. -/
theorem C57_counted_not_written :
    let out := (fixCommand { toyEnv none none [] with openRaises := fun _ => some (.other 5) } toyConsole toyWalk false false false (.ok (.fixit, .str [])) [[py "f"]]).run []
      (toyWorld [98], [])
    fContent out.2.2.1 = some [98] ∧
    (out.2.2.2.getLast?.map (fun o => String.ofList o.text)) = some "🛠️  1 file checked, 1 file with errors, 1 auto-fix available, 1 fix applied 🛠️\n" := by decide +kernel

/-- C80: `fix -`. -/
example :
    let out := (fixCommand (diffEnv [98, 97]) toyConsole toyWalk true false false (.ok (.fixit, .str [])) [[py "-"]]).run [] (toyWorld [], [])
    StdinArgs [[py "-"]] [py "stdin"] ∧ stdoutWrites out.2.2.1.log = [[66, 97]] ∧
    out.2.2.2.map (fun o => (o.err, String.ofList o.text)) = [(true, "stdin@1:1 Toy: b (has autofix)\n"),
      (true, "🛠️  1 file checked, 1 file with errors, 1 auto-fix available, 1 fix applied 🛠️\n")] :=
  ⟨.unnamed [] (by simp), by decide +kernel, by decide +kernel⟩

/-- **C80** (finding) With `--diff` the diffs, and with `--print-metrics` the metrics, are mixed into the fixed source on standard output. -/
theorem C80_diff_and_metrics_on_stdout :
    (let out := (fixCommand (diffEnv [98, 97]) toyConsole toyWalk false true false (.ok (.fixit, .str [])) [[py "-"]]).run [] (toyWorld [], [])
     onStdout out.2.2.2 = [py "D"] ∧ stdoutWrites out.2.2.1.log = [[66, 97]]) ∧
    (let out := (fixCommand (diffEnv [98, 97]) toyConsole toyWalk false false true (.ok (.fixit, .str [])) [[py "-"]]).run [] (toyWorld [], [])
     (hookCalls out.2.2.1.log).length = 1 ∧ stdoutWrites out.2.2.1.log = [[66, 97]]) := by decide +kernel

end Fixit
