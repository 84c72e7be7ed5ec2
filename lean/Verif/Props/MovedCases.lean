import Verif.Props.Moved
import Verif.Props.CommandsCases

/-!
# Concrete runs for C138
-/

namespace Fixit
open Py Spec Gen

/-- A project: its root, a rule of its own, and an override for the directory given. -/
def projectTable (sub : PStr) : Dict :=
  [(py "tool", .tbl [(py "fixit", .tbl [(py "root", .bool true), (py "enable", .arr [.str (py ".local")]),
    (py "overrides", .arr [.tbl [(py "path", .str sub), (py "disable", .arr [.str (py "fixit.rules:OtherRule")])]])])])]

def projectOutside (sub : PStr) : Outside Nat Nat :=
  { toyOutside with base := { toyOutside.base with resolve := fun p => p }, isDir := fun _ => false, toml := fun _ => .ok (projectTable sub) }

/-- The project is in this directory: `fixit.toml` and `sub/f`. -/
def projectWorld (P : Path) : World := ⟨fun p => if p = P ++ [py "sub", py "f"] then some [97, 98] else if p = P ++ [py "fixit.toml"] then some [] else none, []⟩

/-- Where the rule of its own is looked for, and what is disabled. -/
def projectView (sub : PStr) (P : Path) : List (List PStr) × List PStr :=
  match (projectOutside sub).config none (projectWorld P).files (P ++ [py "sub", py "f"]) with
  | .ok c => (c.enable.map (fun q => q.str :: q.root.getD []), c.disable.map QualifiedRule.str)
  | .error _ => ([], [])

example : projectView (py "sub") [py "a"] = ([[py ".local", py "a"], [py "fixit.rules"]], [py "fixit.rules:OtherRule"]) ∧
    projectView (py "sub") [py "b", py "c"] = ([[py ".local", py "b", py "c"], [py "fixit.rules"]], [py "fixit.rules:OtherRule"]) := by decide +kernel

/-- C138: an absolute override path, or one that leads out of the project, is not moved with it. -/
theorem C138_absolute_override : projectView (py "/a/sub") [py "a"] = ([[py ".local", py "a"], [py "fixit.rules"]], [py "fixit.rules:OtherRule"]) ∧
    projectView (py "/a/sub") [py "b", py "c"] = ([[py ".local", py "b", py "c"], [py "fixit.rules"]], []) ∧
    projectView (py "../a/sub") [py "a"] = ([[py ".local", py "a"], [py "fixit.rules"]], [py "fixit.rules:OtherRule"]) ∧
    projectView (py "../a/sub") [py "b", py "c"] = ([[py ".local", py "b", py "c"], [py "fixit.rules"]], []) := by decide +kernel

theorem project_stays : OverridesStay (projectOutside (py "sub")) 0 [] := by
  intro data tool table os entry s h1 h2 h3 h4 h5 h6
  cases h1
  cases h2
  cases h3
  cases h4
  rw [List.mem_singleton] at h5
  cases h5
  cases h6
  exact ⟨by decide +kernel, by simp [StaysInside, splitOn]⟩

theorem project_copied : Copied (projectOutside (py "sub")) (projectWorld [py "a"]).files (projectWorld [py "b", py "c"]).files [py "a"] [py "b", py "c"] [py "sub", py "f"] := by
  have hsame : ∀ t : Path, (projectWorld [py "a"]).files ([py "a"] ++ t) = (projectWorld [py "b", py "c"]).files ([py "b", py "c"] ++ t) := by
    intro t
    simp only [projectWorld, List.append_cancel_left_eq]
  intro d hd n hn
  refine ⟨by rw [hsame], d, n, rfl, rfl, hsame _, ?_⟩
  intro b hb
  have : d ++ [n] = [py "sub", py "f"] ∨ d ++ [n] = [py "fixit.toml"] := by
    simp only [projectWorld, List.append_cancel_left_eq] at hb
    by_cases h1 : d ++ [n] = [py "sub", py "f"]
    · exact .inl h1
    · rw [if_neg h1] at hb
      by_cases h2 : d ++ [n] = [py "fixit.toml"]
      · exact .inr h2
      · rw [if_neg h2] at hb; cases hb
  rcases this with h | h
  · exfalso
    have hl : n = py "f" := by
      have := congrArg List.getLast? h
      simpa using this
    subst hl
    revert hn
    decide +kernel
  · have hd0 : d = [] := by
      have := congrArg List.length h
      simpa using this
    subst hd0
    intro data tool table os entry s h1
    exact project_stays data tool table os entry s h1

/-- C138: the hypotheses are met, and something is found. -/
example (autofix hook : Bool) (ss : List Answer) :
    ((fixitFile ((projectOutside (py "sub")).env (some {})) [py "b", py "c", py "sub", py "f"] autofix hook).run ss (projectWorld [py "b", py "c"])).1 =
      ((fixitFile ((projectOutside (py "sub")).env (some {})) [py "a", py "sub", py "f"] autofix hook).run ss (projectWorld [py "a"])).1.map
        (fun r => { r with path := [py "b", py "c", py "sub", py "f"] }) := by
  refine (C138_results (projectOutside (py "sub")) (fun l => List.Perm.refl l) (some {}) (fun oo h => by cases h; rfl) (projectWorld [py "a"]) (projectWorld [py "b", py "c"])
    [py "a"] [py "b", py "c"] [py "sub", py "f"] [py "a", py "sub", py "f"] [py "b", py "c", py "sub", py "f"] (by simp) rfl rfl rfl ?_ project_copied ?_ ?_ ?_ ?_ autofix hook ss).1
  · exact ⟨py "fixit.toml", by simp, by decide +kernel, [], projectTable (py "sub"), _, _, _, by decide +kernel, rfl, rfl, rfl, rfl, rfl⟩
  · decide +kernel
  · exact ⟨fun _ _ => rfl, fun _ _ _ => rfl, fun _ => ⟨by simp [projectOutside, toyOutside], by simp [projectOutside, toyOutside]⟩, rfl, rfl, rfl⟩
  · intro cfg m rs; rfl
  · exact ⟨rfl, rfl, rfl, fun _ _ => rfl, fun s hs m => by (cases hs with | head => rfl | tail _ h => cases h)⟩

example : (foundIn ((projectOutside (py "sub")).env (some {})) (projectWorld [py "a"]).files [py "a", py "sub", py "f"]).length = 1 := by decide +kernel

end Fixit
