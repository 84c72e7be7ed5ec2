import Verif.Props.Locality
import Verif.Props.CommandsCases

/-!
# Concrete runs for C137
-/

namespace Fixit
open Py Spec Gen

/-- A table that says `root`, and one that disables everything. -/
def rootTable : Dict := [(py "tool", .tbl [(py "fixit", .tbl [(py "root", .bool true)])])]
def offTable : Dict := [(py "tool", .tbl [(py "fixit", .tbl [(py "disable", .arr [.str (py "fixit.rules")])])])]

def nestedOutside : Outside Nat Nat := { toyOutside with toml := fun b => .ok (if b = [1] then rootTable else if b = [2] then offTable else toyConfig) }

/-- `/root/f` is `ab`; `/root/fixit.toml` and `/fixit.toml` are given. -/
def nestedWorld (inner : Bytes) (outer : Option Bytes) : World :=
  ⟨fun p => if p = [py "root", py "f"] then some [97, 98] else if p = [py "root", py "fixit.toml"] then some inner else if p = [py "fixit.toml"] then outer else none, []⟩

/-- How many violations are found. -/
def nestedCount (inner : Bytes) (outer : Option Bytes) : Nat := (foundIn (nestedOutside.env (some {})) (nestedWorld inner outer).files [py "root", py "f"]).length

/-- C137: with `root = true` in the project, the table above it has no effect; without, it has. -/
example : nestedCount [1] none = 2 ∧ nestedCount [1] (some [2]) = 2 := by decide +kernel
theorem C137_without_root : nestedCount [0] none = 1 ∧ nestedCount [0] (some [2]) = 0 := by decide +kernel

/-- C137: the hypotheses are met. -/
example (outer : Option Bytes) (autofix hook : Bool) (ss : List Answer) :
    ((fixitFile (nestedOutside.env (some {})) [py "f"] autofix hook).run ss (nestedWorld [1] none)).1 =
      ((fixitFile (nestedOutside.env (some {})) [py "f"] autofix hook).run ss (nestedWorld [1] outer)).1 := by
  refine (C137_results nestedOutside (some {}) (fun oo h => by cases h; rfl) (nestedWorld [1] none) (nestedWorld [1] outer) [py "f"] [py "root"] rfl (by decide +kernel) (.inr ?_) ?_ rfl rfl
    autofix hook ss).1
  · exact ⟨py "fixit.toml", by simp, by decide +kernel, [1], rootTable, _, _, _, by decide +kernel, rfl, rfl, rfl, rfl, rfl⟩
  · intro d h1 h2 n hn
    have hd : d = [py "root"] := by
      have hs : startDir nestedOutside (nestedOutside.base.resolve [py "f"]) = [py "root"] := by decide +kernel
      rw [hs] at h2
      obtain ⟨t, ht⟩ := h1
      have := h2.length_le
      rw [← ht] at this
      simp at this
      subst this
      simpa using ht.symm
    subst hd
    simp only [List.mem_cons, List.not_mem_nil, or_false] at hn
    rcases hn with rfl | rfl | rfl <;> exact ⟨rfl, rfl⟩

end Fixit
