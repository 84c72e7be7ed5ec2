import Verif.Props.StdinAsFile
import Verif.Props.CommandsCases
import Verif.Props.CliCases
import Verif.Props.PathsCases

/-!
# C130 for the whole program, and cases
-/

namespace Fixit
open Py Spec Gen

section
variable {V M : Type} (o : Outside V M) (con : Console) (walk : (Path → Option Bytes) → Path → Except Err (List Path))

theorem output_saved (options : Options) (name : Path) (w saved : World) (hoth : ∀ q, q ≠ o.base.resolve name → saved.files q = w.files q)
    (hS : Stable (o.env (some options)) (fun q => q = o.base.resolve name)) : o.output con options saved.files = o.output con options w.files := by
  have h := (hS saved.files w.files hoth).1
  have h' : o.config (some options) saved.files = o.config (some options) w.files := h
  unfold Outside.output
  rw [h']

/-- **C130** for the whole program: `fixit lint - name` and `fixit lint name` of the saved file print the same and exit with the same status. -/
theorem C130_program_lint (options : Options) (diff hook : Bool) (args : List Path) (name : Path) (w saved w' saved' : World) (outs outs' : List Out) (code code' : Nat)
    (content : Bytes) (hargs : StdinArgs args name) (hn : name ≠ [py "-"]) (hwalk : walk saved.files name = .ok [name])
    (hs : Saved (o.env (some options)) (o.base.resolve name) w saved content) (hw : Writable (o.env (some options)) (o.base.resolve name))
    (hS : Stable (o.env (some options)) (fun q => q = o.base.resolve name))
    (h : o.Lint con walk options diff hook args w (outs, .exit code, w')) (h' : o.Lint con walk options diff hook [name] saved (outs', .exit code', saved')) :
    outs = outs' ∧ code = code' := by
  unfold Outside.Lint at h h'
  rw [output_saved o con options name w saved hs.others hS] at h'
  exact C130_lint (o.env (some options)) con walk diff hook _ args name w saved w' saved' outs outs' code code' content hargs hn hwalk hs hw hS h h'

/-- **C130** for the whole program: what `fixit fix - name` writes to standard output is what `fixit fix --automatic name` would make of the saved file; the texts printed are the same. -/
theorem C130_program_fix (options : Options) (flag diff hook : Bool) (fmt : OutputFormat) (template : Toml) (args : List Path) (name : Path) (replies replies' : List Reply)
    (w saved : World) (c : List Out) (content : Bytes) (hargs : StdinArgs args name) (hn : name ≠ [py "-"]) (hwalk : walk saved.files name = .ok [name])
    (hout : o.output con options w.files = .ok (fmt, template)) (hfmt : fmt ≠ .custom)
    (hs : Saved (o.env (some options)) (o.base.resolve name) w saved content) (hw : Writable (o.env (some options)) (o.base.resolve name))
    (hS : Stable (o.env (some options)) (fun q => q = o.base.resolve name)) :
    let stdin := (o.fix con walk options flag diff hook args w).run replies (w, c)
    let file := (o.fix con walk options false diff hook [name] saved).run replies' (saved, c)
    stdin.1 = [] ∧ file.1 = [] ∧ stdin.2.1 = .returned 0 ∧ file.2.1 = .returned 0 ∧
    stdin.2.2.2.map Out.text = file.2.2.2.map Out.text ∧ stdin.2.2.1.files = w.files ∧
    ((∃ cfg, o.config (some options) w.files (o.base.resolve name) = .ok cfg) →
      ∃ b, stdoutWrites (newEvents w stdin.2.2.1) = [b] ∧ file.2.2.1.files (o.base.resolve name) = some b) := by
  unfold Outside.fix
  rw [output_saved o con options name w saved hs.others hS, hout]
  exact C130_fix (o.env (some options)) con walk flag diff hook fmt template args name replies replies' w saved c content hargs hn hwalk hfmt hs hw hS

end

/-! ## Cases -/

/-- The file on disk says `a`, the editor has `ba`. -/
theorem toySaved : Saved (toyEnv none none [98, 97]) [py "root", py "f"] (toyWorld [97]) (toyWorld [98, 97]) [98, 97] :=
  ⟨rfl, rfl, rfl, fun q hq => by unfold toyWorld; simp [hq]⟩

theorem toyWritable (fmt : Option PStr) (stdin : Bytes) (p : Path) : Writable (toyEnv none fmt stdin) p := ⟨rfl, fun _ => rfl, fun _ => rfl⟩

/-- C130: fixing `ba` from standard input gives what fixing the file would, and leaves the file with `a`. -/
example :
    let stdin := (fixCommand (toyEnv none none [98, 97]) toyConsole toyWalk true false false (.ok (.fixit, .str [])) [[py "-"], [py "f"]]).run [] (toyWorld [97], [])
    let file := (fixCommand (toyEnv none none [98, 97]) toyConsole toyWalk false false false (.ok (.fixit, .str [])) [[py "f"]]).run [] (toyWorld [98, 97], [])
    stdin.2.2.2.map Out.text = file.2.2.2.map Out.text ∧ stdin.2.2.2.length = 2 ∧ fContent stdin.2.2.1 = some [97] ∧
      stdoutWrites stdin.2.2.1.log = [[66, 97]] ∧ fContent file.2.2.1 = some [66, 97] := by
  refine ⟨?_, by decide +kernel, by decide +kernel, by decide +kernel, by decide +kernel⟩
  exact (C130_fix (toyEnv none none [98, 97]) toyConsole toyWalk true false false .fixit (.str []) [[py "-"], [py "f"]] [py "f"] [] [] (toyWorld [97]) (toyWorld [98, 97]) []
    [98, 97] (.named _ [] (by decide) (by simp)) (by decide) rfl (by decide) toySaved (toyWritable none _ _) (toyStable none none _ _)).2.2.2.2.1

/-- **C130** (finding) If the configuration for the named file cannot be read, `fixit fix - name` still exits with 0 and writes nothing to standard output: whoever replaces the source by the
output loses it. -/
theorem C130_lost :
    let env : Env Unit := { toyEnv none none [98, 97] with config := fun _ _ => .error (.other 7) }
    let out := (fixCommand env toyConsole toyWalk false false false (.ok (.fixit, .str [])) [[py "-"], [py "f"]]).run [] (toyWorld [97], [])
    isReturned out.2.1 = true ∧ stdoutWrites out.2.2.1.log = [] ∧ onStdout out.2.2.2 = [] := by decide +kernel

/-- The toy program with `abcu` on standard input. -/
def typedOutside : Outside Nat Nat := { toyOutside with base := { toyOutside.base with stdin := .ok abcu } }

theorem typed_config (content : Bytes) (path : Path) (hp : path = [py "root", py "f"] ∨ path = [py "root"]) :
    typedOutside.config (some {}) (systemWorld content).files path = .ok (abcuConfig path) := by
  have hl : locateConfigs (typedOutside.fs (systemWorld content).files) path none = .ok [[py "root", py "fixit.toml"]] := by
    have : typedOutside.fs (systemWorld content).files = typedOutside.fs (systemWorld abcu).files := by
      unfold Outside.fs systemWorld
      congr 1
      funext p
      by_cases h : p = [py "root", py "f"]
      · simp [h]
      · simp [h]
    rw [this]
    rcases hp with rfl | rfl <;> decide +kernel
  unfold Outside.config generateConfig
  show (locateConfigs (typedOutside.fs (systemWorld content).files) path none >>= _) = _
  rw [hl]
  rcases hp with rfl | rfl <;> rfl

/-- C130 for the toy program: the file on disk is empty, `abcu` is on standard input; the hypotheses hold, and the fixed text is printed. -/
example :
    let stdin := (typedOutside.fix toyConsole toyWalk {} true false false [[py "-"], [py "f"]] (systemWorld [])).run [] (systemWorld [], [])
    (∃ b, stdoutWrites (newEvents (systemWorld []) stdin.2.2.1) = [b] ∧
      ((typedOutside.fix toyConsole toyWalk {} false false false [[py "f"]] (systemWorld abcu)).run [] (systemWorld abcu, [])).2.2.1.files [py "root", py "f"] = some b) ∧
    stdoutWrites (newEvents (systemWorld []) stdin.2.2.1) = [[97, 66, 99, 117]] := by
  refine ⟨(C130_program_fix typedOutside toyConsole toyWalk {} true false false .fixit (.str []) [[py "-"], [py "f"]] [py "f"] [] [] (systemWorld []) (systemWorld abcu) [] abcu
    (.named _ [] (by decide) (by simp)) (by decide) rfl (by unfold Outside.output; rw [show toyConsole.cwd = [py "root"] from rfl, typed_config [] _ (.inr rfl)]; rfl) (by decide) ⟨rfl, rfl, rfl, ?_⟩ ⟨rfl, fun _ => rfl, fun _ => rfl⟩ ?_).2.2.2.2.2.2 ⟨_, typed_config [] _ (.inl rfl)⟩, by decide +kernel⟩
  · intro q hq
    have hq : q ≠ [py "root", py "f"] := hq
    simp [systemWorld, hq]
  · refine C93_stable typedOutside (some {}) _ ?_ (by intro oo f h1 h2; cases h1; cases h2) (fun _ _ _ => rfl) (fun _ _ _ => rfl)
    intro d n hn
    refine (fun hne => ⟨hne, hne⟩) ?_
    intro h
    have : d ++ [n] = [py "root", py "f"] := h
    have e : (d ++ [n]).getLast? = some (py "f") := by rw [this]; rfl
    simp only [List.getLast?_append, List.getLast?_singleton, Option.some_or, Option.some.injEq] at e
    subst e
    revert hn
    decide

end Fixit
