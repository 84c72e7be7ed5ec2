import Verif.Props.Agree
import Verif.Props.LspCases
import Verif.Props.PathsCases

/-!
# Concrete cases for C131
-/

namespace Fixit
open Py Py.Gen Spec

/-- C131: a fixable and an unfixable violation; fixing shows both, for any answers, and so does linting; stopped after the first, fixing has shown one. -/
example :
    let w := toyWorld [97, 98, 110]
    shown (alone (toyEnv none none []) false false w [py "f"]).1 = [(some (py "b"), false), (some (py "n"), false)] ∧
    shown ((fixitFile (toyEnv none none []) [py "f"] true false).run [none, none, none] w).1 = [(some (py "b"), false), (some (py "n"), false)] ∧
    shown ((fixitFile (toyEnv none none []) [py "f"] false false).run [some true, none] w).1 = [(some (py "b"), false), (some (py "n"), false)] ∧
    shown ((fixitFile (toyEnv none none []) [py "f"] false false).run [some true] w).1 = [(some (py "b"), false), (some (py "n"), false)] ∧
    shown ((fixitFile (toyEnv none none []) [py "f"] false false).run [] w).1 = [(some (py "b"), false)] := by decide +kernel

/-- C131: when the file cannot be written, fixing shows what linting shows and then the error. -/
example :
    let w := toyWorld [97, 98, 110]
    shown ((fixitFile (toyEnv (some (0, .other 5)) none []) [py "f"] true false).run [none, none, none] w).1 =
      shown (alone (toyEnv (some (0, .other 5)) none []) false false w [py "f"]).1 ++ [(none, true)] := by decide +kernel

/-- In `lspEnv` nothing but the files `off` and `bad` has any influence. -/
theorem lspStable (p : Path) (h : p ≠ [py "off"]) (h' : p ≠ [py "bad"]) : Stable lspEnv (fun q => q = p) := by
  intro f f' hf
  have h1 : f [py "off"] = f' [py "off"] := hf _ (fun e => h e.symm)
  have h2 : f [py "bad"] = f' [py "bad"] := hf _ (fun e => h' e.symm)
  refine ⟨?_, rfl, rfl⟩
  funext p'
  simp only [lspEnv, h1, h2]

/-- The document `a`, saved. -/
def savedA (content : Bytes) : World := ⟨fun q => if q = [py "a"] then some content else none, []⟩

/-- C131: the hypotheses of `C131_editor_shows_lint` are met in the busy history of C62, and linting the saved document gives the diagnostics of version 3. -/
example :
    (∀ f, FilesSeen noFiles [] busyHistory f → ∀ q, q ≠ [py "a"] → (savedA [97, 98]).files q = f q) ∧
    (savedA [97, 98]).files [py "a"] = some [97, 98] ∧ (lspClient true).fsPath docA = some [py "a"] ∧
    SourceSeen (lspClient true) noFiles [] busyHistory docA [97, 98] ∧ Stable lspEnv (fun q => q = [py "a"]) ∧
    ((alone lspEnv false false (savedA [97, 98]) [py "a"]).1.filterMap Result.violation).map (fun v => (shownAs v).message) = [py "b"] := by
  refine ⟨?_, by decide, by decide, ⟨busyHistory, List.prefix_refl _, ?_⟩, lspStable _ (by decide) (by decide), by decide +kernel⟩
  · rintro f ⟨pre, hpre, rfl⟩ q hq
    have hno : ∀ (es : List LspEvent) (g : Path → Option Bytes), (∀ e ∈ es, ∀ x, e ≠ .files x) → filesAfter g es = g := by
      intro es
      induction es with
      | nil => intro g _; rfl
      | cons e es ih =>
        intro g hg
        cases e with
        | files x => exact absurd rfl (hg _ (by simp) x)
        | _ => exact ih g (fun e he => hg e (List.mem_cons_of_mem _ he))
    have hb : ∀ e ∈ busyHistory, ∀ x, e ≠ .files x := by
      intro e he x
      simp only [busyHistory, List.mem_cons, List.not_mem_nil, or_false] at he
      rcases he with h | h | h | h | h | h | h | h | h | h | h | h | h | h | h | h | h | h | h | h | h | h | h | h | h <;> (rw [h]; simp)
    rw [List.nil_append, hno pre noFiles (fun e he => hb e (hpre.subset he))]
    simp [savedA, hq, noFiles]
  · rfl

/-- C131: formatting `a\nbb` in the editor and fixing it as a file. -/
example :
    let s := (Server.start noFiles).run lspEnv (lspClient true) [.edit docA (py "a\nbb")]
    let w := savedA [97, 10, 98, 98]
    s.docs docA = some (py "a\nbb") ∧ usesConfig lspEnv s [py "a"] true ∧ (∀ q, q ≠ [py "a"] → w.files q = s.files q) ∧
    (∀ r ∈ (alone lspEnv true false w [py "a"]).1, r.error = none) ∧
    (alone lspEnv true false w [py "a"]).2.2.files [py "a"] = some [97, 10, 66, 66] ∧
    formattedTo (s.next lspEnv (lspClient true) (.format docA)) (py "a\nbb") = some (some (py "a\nBB")) := by
  refine ⟨by decide +kernel, .inr ⟨rfl, rfl⟩, ?_, ?_, by decide +kernel, by decide +kernel⟩
  · intro q hq
    simp only [savedA, if_neg hq]
    rfl
  · have h : (alone lspEnv true false (savedA [97, 10, 98, 98]) [py "a"]).1.map Result.error = [none, none] := by decide +kernel
    intro r hr
    have := List.mem_map_of_mem (f := Result.error) hr
    rw [h] at this
    simpa using this

end Fixit
