import Verif.Props.Walk
import Verif.Props.CommandsCases

/-!
# Concrete runs for C116

The program of `CommandsCases` with visitors in place of the list of calls: a statement is a name, and the rules visit names.
-/

namespace Fixit
open Py Spec Gen Cst

/-- The statements as names. -/
def nameSyns : Nat → Bytes → List Syn
  | _, [] => []
  | i, b :: bs => .node i (.name [Char.ofNat b.toNat]) [] :: nameSyns (i + 1) bs

/-- The rule that reports names with this text. -/
def nameRule (texts : List PStr) (message : Option PStr) (fix : Bool) : VRule where
  State := Nat
  init := 0
  methods := [py "visit_Name"]
  on := fun st n e => match e with
    | .visit i (.name s) => .ok (st, n + 1, if s ∈ texts then [⟨i, message, if fix then some (.rename (py "B")) else none⟩] else [])
    | _ => .ok (st, n, [])

/-- A rule that raises at the first `u`. -/
def raisingRule : VRule where
  State := Unit
  init := ()
  methods := [py "visit_Name"]
  on := fun st n e => match e with
    | .visit _ (.name s) => if s = py "u" then .error (.other 7) else .ok (st, n, [])
    | _ => .ok (st, n, [])

def toyVisits (third : VRule) : Visits where
  rule := fun _ _ _ _ k => if k = 0 then nameRule [py "b", py "c"] none true else if k = 1 then nameRule [py "a"] (some (py "see a")) false else third
  syn := fun m => .node 0 .module (nameSyns 1 (toyBytes m))
  names := fun _ _ _ _ _ => []
  deps := fun k => if k = 2 then [5] else [3]
  genCache := fun p => p = 5
  repoRaises := fun _ _ _ _ => none
  resolveRaises := fun _ _ _ _ _ => none
  replacement := fun _ _ _ => .node (toyLeaf 99 66)
  clock := fun _ _ => []

theorem nameRule_keeps (texts : List PStr) (message : Option PStr) (fix : Bool) : KeepsMetadata (nameRule texts message fix) := by
  intro e st s st' s' out h
  unfold VRule.step at h
  split at h
  · simp only [nameRule] at h
    split at h <;> cases h <;> rfl
  · cases h; rfl

theorem raisingRule_keeps : KeepsMetadata raisingRule := by
  intro e st s st' s' out h
  unfold VRule.step at h
  split at h
  · simp only [raisingRule] at h
    split at h
    · split at h
      · cases h
      · cases h; rfl
    · cases h; rfl
  · cases h; rfl

def walkFound (third : VRule) (options : Options) : List (PStr × PStr × Nat) :=
  (foundIn ((toyOutside.walking (toyVisits third)).env (some options)) (systemWorld abcu).files [py "root", py "f"]).map
    (fun v => (v.base.ruleName, v.base.message, v.base.range.start.column))

/-- C116: `Toy` says the same with and without `Other`. -/
example : walkFound raisingRule {} = [(py "Toy", py "found", 2)] := by decide +kernel
example : walkFound raisingRule { rules := [{ module := py "fixit.rules" }] } = [(py "Toy", py "found", 2), (py "Other", py "see a", 1)] := by decide +kernel

/-- C116: with the rule that raises, `Toy` says nothing. -/
example : walkFound raisingRule { rules := [{ module := py "fixit.rules" }, { module := py "fixit.upgrade" }] } = [] := by decide +kernel
example : ((alone ((toyOutside.walking (toyVisits raisingRule)).env (some { rules := [{ module := py "fixit.rules" }, { module := py "fixit.upgrade" }] })) false false
    (systemWorld abcu) [py "f"]).1).map (fun r => (r.violation.isNone, r.error)) = [(true, some (.other 7))] := by decide +kernel

/-- The configuration with `--rules fixit.rules`. -/
def bothConfig : Config Nat :=
  ⟨[py "root", py "f"], [py "root"], .off, [{ module := py "fixit.rules" }], [], [], some 12, {}, none, .fixit, .str []⟩

def bothOptions : Options := { rules := [{ module := py "fixit.rules" }] }

theorem both_config : toyOutside.config (some bothOptions) (systemWorld abcu).files [py "root", py "f"] = .ok bothConfig := by
  have hl : locateConfigs (toyOutside.fs (systemWorld abcu).files) [py "root", py "f"] none = .ok [[py "root", py "fixit.toml"]] := by
    decide +kernel
  unfold Outside.config generateConfig
  show (locateConfigs (toyOutside.fs (systemWorld abcu).files) [py "root", py "f"] none >>= _) = _
  rw [hl]
  rfl

theorem toyVisits_keeps (third : VRule) (h : KeepsMetadata third) (files : Path → Option Bytes) (root path : Path) (m : Node) (k : Nat) : KeepsMetadata ((toyVisits third).rule files root path m k) := by
  simp only [toyVisits]
  split
  · exact nameRule_keeps _ _ _
  · split
    · exact nameRule_keeps _ _ _
    · exact h

/-- The rules selected with and without the option. -/
theorem both_active (k : Nat) : Active toyOutside (systemWorld abcu).files bothConfig k ↔ k = 0 ∨ k = 1 := by
  have h := (selected_iff toyOutside (fun l => .refl l) (systemWorld abcu).files bothConfig _ rfl).2 k
  rw [← h]
  show k ∈ [0, 1] ↔ _
  simp

theorem one_active (k : Nat) : Active toyOutside (systemWorld abcu).files (abcuConfig [py "root", py "f"]) k ↔ k = 0 := by
  have h := (selected_iff toyOutside (fun l => .refl l) (systemWorld abcu).files (abcuConfig [py "root", py "f"]) _ rfl).2 k
  rw [← h]
  show k ∈ [0] ↔ _
  simp

theorem toy_shows (w : Violation Nat Repl) (hn : w.node = 1 ∨ w.node = 2 ∨ w.node = 3) (options : Option Options)
    (hr : w.replacement = some (.node (toyLeaf 99 66)) ∨ w.replacement = none) : ∃ lv, display (toyOutside.env options) [py "root", py "f"] abcuNode w = .ok lv := by
  obtain ⟨rn, rg, ms, nd, rp⟩ := w
  simp only at hn hr
  rcases hn with rfl | rfl | rfl <;> rcases hr with rfl | rfl <;> exact ⟨_, rfl⟩

/-- C116: the hypotheses of `C116_lints` are met, with and without the second rule. -/
theorem toy_reports (third : VRule) (k : Nat) (h : k = 0 ∨ k = 1) (options : Option Options) : ∃ reps,
    ((toyVisits third).rule (systemWorld abcu).files [py "root"] [py "root", py "f"] abcuNode k).alone ((toyVisits third).names (systemWorld abcu).files [py "root"] [py "root", py "f"] abcuNode)
      ((toyVisits third).syn abcuNode) = .ok reps ∧
    ∀ rep ∈ reps, ¬ Silenced toyOutside abcuNode rep.node (ruleName (toyOutside.className k)) → (∃ s, s ≠ [] ∧ (rep.message = some s ∨ toyOutside.classMessage k = some s)) ∧
      ∀ w : Violation Nat Repl, w.node = rep.node → w.replacement = rep.change.map ((toyVisits third).replacement abcuNode rep.node) →
        ∃ lv, display (toyOutside.env options) [py "root", py "f"] abcuNode w = .ok lv := by
  rcases h with rfl | rfl
  · refine ⟨[⟨2, none, some (.rename (py "B"))⟩, ⟨3, none, some (.rename (py "B"))⟩], rfl, ?_⟩
    intro rep hrep _
    refine ⟨⟨py "found", by decide, .inr rfl⟩, fun w hn hr => ?_⟩
    simp only [List.mem_cons, List.not_mem_nil, or_false] at hrep
    rcases hrep with rfl | rfl
    · exact toy_shows w (.inr (.inl hn)) options (.inl hr)
    · exact toy_shows w (.inr (.inr hn)) options (.inl hr)
  · refine ⟨[⟨1, some (py "see a"), none⟩], rfl, ?_⟩
    intro rep hrep _
    simp only [List.mem_cons, List.not_mem_nil, or_false] at hrep
    subst hrep
    exact ⟨⟨py "see a", by decide, .inl rfl⟩, fun w hn hr => toy_shows w (.inl hn) options (.inr hr)⟩

theorem one_lints (third : VRule) (h3 : KeepsMetadata third) :
    Lints (toyOutside.walking (toyVisits third)) (some {}) (systemWorld abcu).files [py "root", py "f"] abcu (abcuConfig [py "root", py "f"]) abcuNode :=
  C116_lints toyOutside (toyVisits third) (fun l => .refl l) (some {}) _ _ abcu _ _ abcuNode (by decide) rfl (abcu_config _ (.inl rfl)) rfl rfl
    (fun k _ => toyVisits_keeps third h3 _ _ _ _ k) (fun _ => rfl) (fun _ => rfl) (fun k hk => toy_reports third k (.inl ((one_active k).mp hk)) _)

theorem both_lints (third : VRule) (h3 : KeepsMetadata third) :
    Lints (toyOutside.walking (toyVisits third)) (some bothOptions) (systemWorld abcu).files [py "root", py "f"] abcu bothConfig abcuNode :=
  C116_lints toyOutside (toyVisits third) (fun l => .refl l) (some bothOptions) _ _ abcu _ _ abcuNode (by decide) rfl both_config rfl rfl
    (fun k _ => toyVisits_keeps third h3 _ _ _ _ k) (fun _ => rfl) (fun _ => rfl) (fun k hk => toy_reports third k ((both_active k).mp hk) _)

/-- C116: the theorem about two configurations applies. -/
example : ofRule toyOutside 0 (foundIn ((toyOutside.walking (toyVisits raisingRule)).env (some {})) (systemWorld abcu).files [py "root", py "f"]) =
    ofRule toyOutside 0 (foundIn ((toyOutside.walking (toyVisits raisingRule)).env (some bothOptions)) (systemWorld abcu).files [py "root", py "f"]) :=
  C116_same toyOutside (toyVisits raisingRule) (fun l => .refl l) (some {}) (some bothOptions) _ _ abcu _ _ abcuNode (one_lints _ raisingRule_keeps) (both_lints _ raisingRule_keeps) rfl rfl
    (fun k k' h h' _ => ((one_active k).mp h).trans ((one_active k').mp h').symm)
    (fun k k' h h' hn => by
      rcases (both_active k).mp h with rfl | rfl <;> rcases (both_active k').mp h' with rfl | rfl
      · rfl
      · exact absurd hn (by decide +kernel)
      · exact absurd hn (by decide +kernel)
      · rfl)
    (fun k _ => toyVisits_keeps _ raisingRule_keeps _ _ _ _ k) 0 ((one_active 0).mpr rfl) ((both_active 0).mpr (.inl rfl))

/-- The configuration with `--rules fixit.rules,fixit.upgrade`. -/
def allConfig : Config Nat :=
  ⟨[py "root", py "f"], [py "root"], .off, [{ module := py "fixit.rules" }, { module := py "fixit.upgrade" }], [], [], some 12, {}, none, .fixit, .str []⟩

def allOptions : Options := { rules := [{ module := py "fixit.rules" }, { module := py "fixit.upgrade" }] }

theorem all_config : toyOutside.config (some allOptions) (systemWorld abcu).files [py "root", py "f"] = .ok allConfig := by
  have hl : locateConfigs (toyOutside.fs (systemWorld abcu).files) [py "root", py "f"] none = .ok [[py "root", py "fixit.toml"]] := by
    decide +kernel
  unfold Outside.config generateConfig
  show (locateConfigs (toyOutside.fs (systemWorld abcu).files) [py "root", py "f"] none >>= _) = _
  rw [hl]
  rfl

theorem all_active (k : Nat) : Active toyOutside (systemWorld abcu).files allConfig k ↔ k = 0 ∨ k = 1 ∨ k = 2 := by
  have h := (selected_iff toyOutside (fun l => .refl l) (systemWorld abcu).files allConfig _ rfl).2 k
  rw [← h]
  show k ∈ [0, 1, 2] ↔ _
  simp

/-- C116: the theorem about a rule that raises applies. -/
example (autofix : Bool) (ss : List Answer) : ∃ e, ((fixitFile ((toyOutside.walking (toyVisits raisingRule)).env (some allOptions)) [py "f"] autofix false).run ss (systemWorld abcu)).1 =
    [⟨[py "root", py "f"], none, some e⟩] := by
  obtain ⟨e, h, -⟩ := C116_raises toyOutside (toyVisits raisingRule) (fun l => .refl l) (some allOptions) autofix false ss (systemWorld abcu) [py "f"] abcu allConfig _ abcuNode
    (by decide) rfl all_config rfl rfl (fun k _ => toyVisits_keeps _ raisingRule_keeps _ _ _ _ k) 2 ((all_active 2).mpr (.inr (.inr rfl))) (.other 7) rfl
  exact ⟨e, h⟩

/-- C116: and it says which error is reported: one of the third rule. -/
example (autofix : Bool) (ss : List Answer) : ∃ pre e j k x made, StopsAt (toyVisits raisingRule) (systemWorld abcu).files allConfig [0, 1, 2] abcuNode pre e j k x made := by
  obtain ⟨pre, e, j, k, x, made, h, -⟩ := C116_which toyOutside (toyVisits raisingRule) (fun l => .refl l) (some allOptions) autofix false ss (systemWorld abcu) [py "f"] abcu allConfig _ abcuNode
    (by decide) rfl all_config rfl rfl (fun k _ => toyVisits_keeps _ raisingRule_keeps _ _ _ _ k) (fun _ => rfl) (fun _ => rfl) 2 ((all_active 2).mpr (.inr (.inr rfl))) (.other 7) rfl
  exact ⟨pre, e, j, k, x, made, h⟩

/-- C116: of the three rules only the third needs the repository. -/
example : (toyVisits raisingRule).needs [0, 1] = [] ∧ (toyVisits raisingRule).needs [0, 2, 1, 2] = [5] := by decide

end Fixit
