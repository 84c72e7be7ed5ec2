import Verif.Props.OneEnabled
import Verif.Props.OneMoreCases

/-!
# Concrete runs for C143
-/

namespace Fixit
open Py Spec Gen Cst

/-- A file that disables the bundled rules, alone and with a nearer one that enables one of them. -/
def sparseRaw : List RawConfig := [⟨[py "a", py "fixit.toml"], [(py "enable", .arr [.str (py "extra.rules")]), (py "disable", .arr [.str (py "fixit.rules")])]⟩]
def pickedRaw : List RawConfig := ⟨[py "a", py "b", py "fixit.toml"], [(py "enable", .arr [.str (py "fixit.rules:AvoidOrInExcept")])]⟩ :: sparseRaw

/-- C143: the hypotheses of `C143_config` are met. -/
example : ∃ cfg w cfg' w' q, mergeConfigs exEnv id [py "a", py "b", py "x.py"] sparseRaw none = .ok (cfg, w) ∧ mergeConfigs exEnv id [py "a", py "b", py "x.py"] pickedRaw none = .ok (cfg', w') ∧
    q.str = py "fixit.rules:AvoidOrInExcept" ∧ q ∈ cfg'.enable ∧ (∀ e, e ∈ cfg'.enable ↔ e ∈ cfg.enable ∨ e = q) ∧ ∀ d, d ∈ cfg'.disable ↔ d ∈ cfg.disable ∧ d ≠ q := by
  have h : ∃ cfg w, mergeConfigs exEnv id [py "a", py "b", py "x.py"] sparseRaw none = .ok (cfg, w) ∧ cfg.enable = [{ module := py "extra.rules" }] ∧ cfg.disable = [{ module := py "fixit.rules" }] :=
    ⟨_, _, rfl, by decide, by decide⟩
  obtain ⟨cfg, w, h, he, hd⟩ := h
  have habs : ∀ q, q ∈ cfg.enable ∨ q ∈ cfg.disable → q.str.head? ≠ some '.' := by
    intro q hq
    rw [he, hd] at hq
    simp only [List.mem_cons, List.not_mem_nil, or_false] at hq
    rcases hq with rfl | rfl <;> decide
  obtain ⟨q, hq⟩ := C143_config exEnv [py "a", py "b", py "x.py"] id (fun l => .refl l) (raw := sparseRaw) (raw' := pickedRaw) (root := none) (root' := none) h rfl
    (py "fixit.rules:AvoidOrInExcept") [py "a", py "b"] rfl habs (by decide)
  exact ⟨cfg, w, _, _, q, h, rfl, hq⟩

/-- C143: with the module disabled nothing is found; naming one of its rules brings the violations of that rule, and only those. -/
example : moreFound [4] = [] ∧ moreFound [3] = [(py "Other", py "see a", 1)] := by decide +kernel

theorem more_config3 : moreOutside.config (some {}) (moreWorld [3]).files [py "root", py "f"] = .ok (moreConfig [otherRule] [modRules]) := by
  have hl : locateConfigs (moreOutside.fs (moreWorld [3]).files) [py "root", py "f"] none = .ok [[py "root", py "fixit.toml"]] := by
    decide +kernel
  unfold Outside.config generateConfig
  show (locateConfigs (moreOutside.fs (moreWorld [3]).files) [py "root", py "f"] none >>= _) = _
  rw [hl]
  rfl

theorem more_config4 : moreOutside.config (some {}) (moreWorld [4]).files [py "root", py "f"] = .ok (moreConfig [] [modRules]) := by
  have hl : locateConfigs (moreOutside.fs (moreWorld [4]).files) [py "root", py "f"] none = .ok [[py "root", py "fixit.toml"]] := by
    decide +kernel
  unfold Outside.config generateConfig
  show (locateConfigs (moreOutside.fs (moreWorld [4]).files) [py "root", py "f"] none >>= _) = _
  rw [hl]
  rfl

theorem picked_active (k : Nat) : Active moreOutside (moreWorld [3]).files (moreConfig [otherRule] [modRules]) k ↔ k = 1 := by
  have h := (selected_iff moreOutside (fun l => .refl l) (moreWorld [3]).files (moreConfig [otherRule] [modRules]) _ rfl).2 k
  rw [← h]
  show k ∈ [1] ↔ _
  simp

theorem picked_lints : Lints (moreOutside.walking (toyVisits raisingRule)) (some {}) (moreWorld [3]).files [py "root", py "f"] abcu (moreConfig [otherRule] [modRules]) abcuNode :=
  C116_lints moreOutside (toyVisits raisingRule) (fun l => .refl l) (some {}) _ _ abcu _ _ abcuNode (by decide) rfl more_config3 rfl rfl
    (fun k _ => toyVisits_keeps _ raisingRule_keeps _ _ _ _ k) (fun _ => rfl) (fun _ => rfl) (fun k hk => toy_reports raisingRule k (.inr ((picked_active k).mp hk)) (some {}))

/-- C143: the hypotheses of `C143_enable` are met. -/
example : ∃ new, (foundIn ((moreOutside.walking (toyVisits raisingRule)).env (some {})) (moreWorld [3]).files [py "root", py "f"]).Perm
        (foundIn ((moreOutside.walking (toyVisits raisingRule)).env (some {})) (moreWorld [4]).files [py "root", py "f"] ++ new) ∧
      ∀ lv ∈ new, ∃ k, Active moreOutside (moreWorld [3]).files (moreConfig [otherRule] [modRules]) k ∧ ¬ Active moreOutside (moreWorld [4]).files (moreConfig [] [modRules]) k ∧
        lv.base.ruleName = ruleName (moreOutside.className k) ∧ LeadsTo moreOutside (moreWorld [4]).files (moreConfig [] [modRules]) otherRule k :=
  (C143_enable moreOutside (toyVisits raisingRule) (fun l => .refl l) (files := (moreWorld [4]).files) (files' := (moreWorld [3]).files) (options := some {}) (options' := some {}) (q := otherRule)
    ⟨rfl, rfl, rfl, rfl, rfl⟩ (fun _ _ _ _ => rfl) ⟨fun _ _ _ _ _ _ _ => rfl, fun _ _ _ _ _ _ _ _ => rfl⟩ picked_lints
    (fun k _ => toyVisits_keeps _ raisingRule_keeps _ _ _ _ k) rfl more_config4
    ⟨fun e => by simp [moreConfig], fun d => by
      constructor
      · intro h
        exact ⟨h, by rw [List.mem_singleton.mp h]; decide⟩
      · exact fun h => h.1, rfl, rfl, rfl, rfl, rfl⟩).2

end Fixit
