import Verif.Model.Engine

/-!
# What `collect_violations` should hand out
-/

namespace Spec
open Py Fixit

/-- The violation as shown: the diff is that between the file and the file with only this fix applied; no fix, no diff. -/
def display {C : Type} (env : Env C) (path : Path) (m : Node) (v : Violation Nat Repl) : Except Err LintViolation :=
  if (⟨v.node, v.replacement⟩ : Fix).usable.isSome then do
    let m' ← applyReplacements m [⟨v.node, v.replacement⟩]
    let d ← env.unifiedDiff (moduleCode m) (moduleCode m') path
    return ⟨v, d⟩
  else .ok ⟨v, []⟩

/-- All of them, up to the first that cannot be shown. -/
def displayed {C : Type} (env : Env C) (path : Path) (m : Node) : List (Violation Nat Repl) → List LintViolation × Option Err
  | [] => ([], none)
  | v :: vs => match display env path m v with
    | .error e => ([], some e)
    | .ok lv => (lv :: (displayed env path m vs).1, (displayed env path m vs).2)

/-- The violations with a usable fix. -/
def fixable (vs : List (Violation Nat Repl)) : List (Violation Nat Repl) := vs.filter (fun v => (⟨v.node, v.replacement⟩ : Fix).usable.isSome)

end Spec
