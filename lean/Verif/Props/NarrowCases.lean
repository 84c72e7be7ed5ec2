import Verif.Props.Narrow
import Verif.Props.WalkCases

/-!
# Concrete runs for C144
-/

namespace Fixit
open Py Spec Gen Cst

/-- The toy program, with a tag on each rule. -/
def taggedOutside : Outside Nat Nat :=
  { toyOutside with rules := fun files => { toyOutside.rules files with tags := fun k => if k = 0 then [py "style", py "new"] else [py "slow"] } }

def taggedFound (t : Option Tags) : List (PStr × PStr × Nat) :=
  (foundIn ((taggedOutside.walking (toyVisits raisingRule)).env (some { bothOptions with tags := t })) (systemWorld abcu).files [py "root", py "f"]).map (fun v => (v.base.ruleName, v.base.message, v.base.range.start.column))

/-- C144: all, those with the tag `style`, those without. -/
example : taggedFound none = [(py "Toy", py "found", 2), (py "Other", py "see a", 1)] ∧ taggedFound (some (onlyTag (py "style"))) = [(py "Toy", py "found", 2)] ∧
    taggedFound (some (notTag (py "style"))) = [(py "Other", py "see a", 1)] := by decide +kernel

theorem tagged_config : taggedOutside.config (some bothOptions) (systemWorld abcu).files [py "root", py "f"] = .ok bothConfig := both_config

theorem tagged_active (k : Nat) : Active taggedOutside (systemWorld abcu).files bothConfig k ↔ k = 0 ∨ k = 1 := by
  have h := (selected_iff taggedOutside (fun l => .refl l) (systemWorld abcu).files bothConfig _ rfl).2 k
  rw [← h]
  show k ∈ [0, 1] ↔ _
  simp

theorem tagged_lints : Lints (taggedOutside.walking (toyVisits raisingRule)) (some bothOptions) (systemWorld abcu).files [py "root", py "f"] abcu bothConfig abcuNode :=
  C116_lints taggedOutside (toyVisits raisingRule) (fun l => .refl l) (some bothOptions) _ _ abcu _ _ abcuNode (by decide) rfl tagged_config rfl rfl
    (fun k _ => toyVisits_keeps _ raisingRule_keeps _ _ _ _ k) (fun _ => rfl) (fun _ => rfl) (fun k hk => toy_reports raisingRule k ((tagged_active k).mp hk) (some bothOptions))

/-- C144: the hypotheses of `C144_split` (and of `C144_tags`) are met. -/
example : (foundIn ((taggedOutside.walking (toyVisits raisingRule)).env (some bothOptions)) (systemWorld abcu).files [py "root", py "f"]).Perm
    (foundIn ((taggedOutside.walking (toyVisits raisingRule)).env (some (withTags bothOptions (onlyTag (py "style"))))) (systemWorld abcu).files [py "root", py "f"] ++
      foundIn ((taggedOutside.walking (toyVisits raisingRule)).env (some (withTags bothOptions (notTag (py "style"))))) (systemWorld abcu).files [py "root", py "f"]) :=
  C144_split taggedOutside (toyVisits raisingRule) (fun l => .refl l) ⟨fun _ _ _ _ _ _ _ => rfl, fun _ _ _ _ _ _ _ _ => rfl⟩ bothOptions rfl tagged_lints
    (fun k _ => toyVisits_keeps _ raisingRule_keeps _ _ _ _ k) (py "style")

/-- C144: the hypotheses of `C144_common` are met: with `--rules fixit.rules` there is one rule more than configured. -/
example : ∃ common gone extra, (foundIn ((toyOutside.walking (toyVisits raisingRule)).env (some {})) (systemWorld abcu).files [py "root", py "f"]).Perm (common ++ gone) ∧
    (foundIn ((toyOutside.walking (toyVisits raisingRule)).env (some bothOptions)) (systemWorld abcu).files [py "root", py "f"]).Perm (common ++ extra) ∧ gone = [] ∧ common ≠ [] := by
  obtain ⟨common, gone, extra, h1, h2, -, h4, -⟩ := C144_common toyOutside (toyVisits raisingRule) (fun l => .refl l) (one_lints _ raisingRule_keeps) (both_lints _ raisingRule_keeps) rfl rfl
    (fun k _ => toyVisits_keeps _ raisingRule_keeps _ _ _ _ k)
  have hg : gone = [] := by
    rw [List.eq_nil_iff_forall_not_mem]
    intro lv hlv
    obtain ⟨k, ha, hn, -⟩ := h4 lv hlv
    exact hn ((both_active k).mpr (.inl ((one_active k).mp ha)))
  refine ⟨common, gone, extra, h1, h2, hg, ?_⟩
  rintro rfl
  have hl := h1.length_eq
  rw [hg] at hl
  have : (foundIn ((toyOutside.walking (toyVisits raisingRule)).env (some {})) (systemWorld abcu).files [py "root", py "f"]).length = 1 := by decide +kernel
  rw [this] at hl
  cases hl

end Fixit
