import Verif.Props.OneMore
import Verif.Props.WalkCases

/-!
# Concrete runs for C140
-/

namespace Fixit
open Py Spec Gen Cst

/-! ## The configuration -/

/-- A file that enables one rule more than the default. -/
def beforeRaw : List RawConfig := [⟨[py "a", py "fixit.toml"], [(py "enable", .arr [.str (py "extra.rules")])]⟩]

/-- The same, with one reference disabled. -/
def afterRaw : List RawConfig := [⟨[py "a", py "fixit.toml"], [(py "enable", .arr [.str (py "extra.rules")]), (py "disable", .arr [.str (py "fixit.rules")])]⟩]

/-- C140: the hypotheses of `C140_config` are met. -/
example : ∃ cfg w cfg' w' q, mergeConfigs exEnv id [py "a", py "x.py"] beforeRaw none = .ok (cfg, w) ∧ mergeConfigs exEnv id [py "a", py "x.py"] afterRaw none = .ok (cfg', w') ∧
    q.str = py "fixit.rules" ∧ q ∈ cfg'.disable ∧ (∀ e, e ∈ cfg'.enable ↔ e ∈ cfg.enable ∧ e ≠ q) ∧ ∀ d, d ∈ cfg'.disable ↔ d ∈ cfg.disable ∨ d = q := by
  have h : ∃ cfg w, mergeConfigs exEnv id [py "a", py "x.py"] beforeRaw none = .ok (cfg, w) ∧ cfg.enable = [{ module := py "extra.rules" }, { module := py "fixit.rules" }] ∧ cfg.disable = [] :=
    ⟨_, _, rfl, by decide, by decide⟩
  obtain ⟨cfg, w, h, he, hd⟩ := h
  have habs : ∀ q, q ∈ cfg.enable ∨ q ∈ cfg.disable → q.str.head? ≠ some '.' := by
    intro q hq
    rw [he, hd] at hq
    simp only [List.mem_cons, List.not_mem_nil, or_false] at hq
    rcases hq with rfl | rfl <;> decide
  obtain ⟨q, hq⟩ := C140_config exEnv [py "a", py "x.py"] id (fun l => .refl l) (raw := beforeRaw) (raw' := afterRaw) (root := none) (root' := none) h rfl (py "fixit.rules") [py "a"]
    rfl habs (by decide)
  exact ⟨cfg, w, _, _, q, h, rfl, hq⟩

/-! ## The program -/

/-- What `/root/fixit.toml` says, depending on what is in it. -/
def moreTable (b : Bytes) : List (PStr × Toml) :=
  if b = [1] then [(py "disable", .arr [.str (py "fixit.rules:OtherRule")])]
  else if b = [2] then [(py "enable", .arr [.str (py "fixit.rules:OtherRule")])]
  else if b = [3] then [(py "enable", .arr [.str (py "fixit.rules:OtherRule")]), (py "disable", .arr [.str (py "fixit.rules")])]
  else if b = [4] then [(py "disable", .arr [.str (py "fixit.rules")])]
  else [(py "root", .bool true)]

def moreOutside : Outside Nat Nat := { toyOutside with toml := fun b => .ok [(py "tool", .tbl [(py "fixit", .tbl (moreTable b))])] }

/-- `/root/f` and `/root/fixit.toml`. -/
def moreWorld (b : Bytes) : World :=
  ⟨fun p => if p = [py "root", py "f"] then some abcu else if p = [py "root", py "fixit.toml"] then some b else none, []⟩

def moreFound (b : Bytes) : List (PStr × PStr × Nat) :=
  (foundIn ((moreOutside.walking (toyVisits raisingRule)).env (some {})) (moreWorld b).files [py "root", py "f"]).map (fun v => (v.base.ruleName, v.base.message, v.base.range.start.column))

/-- C140: disabling a rule by its name. -/
example : moreFound [] = [(py "Toy", py "found", 2), (py "Other", py "see a", 1)] ∧ moreFound [1] = [(py "Toy", py "found", 2)] := by decide +kernel

/-- C140: disabling the module leaves the rule that is enabled by its name. -/
theorem C140_named_survives : (moreFound [2]).Perm [(py "Toy", py "found", 2), (py "Other", py "see a", 1)] ∧ moreFound [3] = [(py "Other", py "see a", 1)] := by decide +kernel

/-- What the program makes of the file. -/
def moreConfig (enable disable : List QualifiedRule) : Config Nat :=
  ⟨[py "root", py "f"], [py "root"], .off, enable, disable, [], some 12, {}, none, .fixit, .str []⟩

def modRules : QualifiedRule := { module := py "fixit.rules" }
def otherRule : QualifiedRule := { module := py "fixit.rules", name := some (py "OtherRule") }

theorem more_config0 : moreOutside.config (some {}) (moreWorld []).files [py "root", py "f"] = .ok (moreConfig [modRules] []) := by
  have hl : locateConfigs (moreOutside.fs (moreWorld []).files) [py "root", py "f"] none = .ok [[py "root", py "fixit.toml"]] := by
    decide +kernel
  unfold Outside.config generateConfig
  show (locateConfigs (moreOutside.fs (moreWorld []).files) [py "root", py "f"] none >>= _) = _
  rw [hl]
  rfl

theorem more_config1 : moreOutside.config (some {}) (moreWorld [1]).files [py "root", py "f"] = .ok (moreConfig [modRules] [otherRule]) := by
  have hl : locateConfigs (moreOutside.fs (moreWorld [1]).files) [py "root", py "f"] none = .ok [[py "root", py "fixit.toml"]] := by
    decide +kernel
  unfold Outside.config generateConfig
  show (locateConfigs (moreOutside.fs (moreWorld [1]).files) [py "root", py "f"] none >>= _) = _
  rw [hl]
  rfl

theorem more_active (k : Nat) : Active moreOutside (moreWorld []).files (moreConfig [modRules] []) k ↔ k = 0 ∨ k = 1 := by
  have h := (selected_iff moreOutside (fun l => .refl l) (moreWorld []).files (moreConfig [modRules] []) _ rfl).2 k
  rw [← h]
  show k ∈ [0, 1] ↔ _
  simp

theorem more_lints : Lints (moreOutside.walking (toyVisits raisingRule)) (some {}) (moreWorld []).files [py "root", py "f"] abcu (moreConfig [modRules] []) abcuNode :=
  C116_lints moreOutside (toyVisits raisingRule) (fun l => .refl l) (some {}) _ _ abcu _ _ abcuNode (by decide) rfl more_config0 rfl rfl
    (fun k _ => toyVisits_keeps _ raisingRule_keeps _ _ _ _ k) (fun _ => rfl) (fun _ => rfl) (fun k hk => toy_reports raisingRule k ((more_active k).mp hk) (some {}))

/-- C140: the hypotheses of `C140_disable` are met. -/
example : Lints (moreOutside.walking (toyVisits raisingRule)) (some {}) (moreWorld [1]).files [py "root", py "f"] abcu (moreConfig [modRules] [otherRule]) abcuNode ∧
    ∃ gone, (foundIn ((moreOutside.walking (toyVisits raisingRule)).env (some {})) (moreWorld []).files [py "root", py "f"]).Perm
        (foundIn ((moreOutside.walking (toyVisits raisingRule)).env (some {})) (moreWorld [1]).files [py "root", py "f"] ++ gone) ∧
      (∀ lv ∈ gone, ∃ k, Active moreOutside (moreWorld []).files (moreConfig [modRules] []) k ∧ lv.base.ruleName = ruleName (moreOutside.className k) ∧
        LeadsTo moreOutside (moreWorld []).files (moreConfig [modRules] []) otherRule k ∧
        ¬ ∃ e ∈ (moreConfig [modRules] []).enable, e ≠ otherRule ∧ ByName e ∧ LeadsTo moreOutside (moreWorld []).files (moreConfig [modRules] []) e k) ∧
      ∀ lv ∈ foundIn ((moreOutside.walking (toyVisits raisingRule)).env (some {})) (moreWorld [1]).files [py "root", py "f"], ∃ k, Active moreOutside (moreWorld []).files (moreConfig [modRules] []) k ∧ lv.base.ruleName = ruleName (moreOutside.className k) ∧
        (LeadsTo moreOutside (moreWorld []).files (moreConfig [modRules] []) otherRule k → ∃ e ∈ (moreConfig [modRules] []).enable, e ≠ otherRule ∧ ByName e ∧
          LeadsTo moreOutside (moreWorld []).files (moreConfig [modRules] []) e k) :=
  C140_disable moreOutside (toyVisits raisingRule) (fun l => .refl l) (files := (moreWorld []).files) (files' := (moreWorld [1]).files) (options := some {}) (options' := some {}) (q := otherRule) ⟨rfl, rfl, rfl, rfl, rfl⟩ (fun _ _ _ _ => rfl) ⟨fun _ _ _ _ _ _ _ => rfl, fun _ _ _ _ _ _ _ _ => rfl⟩ more_lints
    (fun k _ => toyVisits_keeps _ raisingRule_keeps _ _ _ _ k) rfl more_config1
    ⟨fun e => by
        constructor
        · intro h
          exact ⟨h, by rw [List.mem_singleton.mp h]; decide⟩
        · exact fun h => h.1,
      fun d => by simp [moreConfig], rfl, rfl, rfl, rfl, rfl⟩

end Fixit
