import Verif.Props.Commands
import Verif.Props.CliCases

/-!
# Concrete runs for C93–C95

The toy language of `ApiCases`: the rule `ToyRule` reports every `b` and `c` (fix: `B`), `OtherRule` every `a`, `OldRule` (of `fixit.upgrade`) every `u` (fix: `B`). A `c` has
the comment `# lint-ignore: toy`. The file `/root/fixit.toml` disables `OtherRule`.
-/

namespace Fixit
open Py Spec Gen

/-- A statement, with its comment. -/
def toyTree (comment : OptComment) : Tree := .node ⟨false, some comment, .other, none, none, none, none, none⟩ []

def toyModule (m : Node) : ModuleTree :=
  ⟨[], (toyBytes m).map (fun b => toyTree (if b = 99 then some (py "# lint-ignore: toy") else none)), []⟩

/-- The call a rule makes on a statement. -/
def toyCall (i : Nat) (r : Nat) (b : UInt8) : Option ReportCall :=
  if r = 0 ∧ (b = 98 ∨ b = 99) then some { node := i, replacement := some (.node (toyLeaf 99 66)) }
  else if r = 1 ∧ b = 97 then some { node := i }
  else if r = 2 ∧ b = 117 then some { node := i, message := some (py "old"), replacement := some (.node (toyLeaf 99 66)) }
  else none

def toyCalls (rules : List RuleInst) : Nat → Bytes → List (RuleInst × ReportCall)
  | _, [] => []
  | i, b :: bs => rules.filterMap (fun r => (toyCall i r.id b).map (fun c => (r, c))) ++ toyCalls rules (i + 1) bs

/-- What `/root/fixit.toml` says. -/
def toyConfig : Dict := [(py "tool", .tbl [(py "fixit", .tbl [(py "disable", .arr [.str (py "fixit.rules:OtherRule")])])])]

def toyOutside : Outside Nat Nat where
  base := { toyEnv none none [] with config := fun _ _ => .error .value, visit := fun _ _ _ _ => .error .value, collect := fun _ _ => .error .value, formatter := fun _ => none }
  isDir := fun p => p == [] || p == [py "root"]
  toml := fun _ => .ok toyConfig
  missing := .other 2
  cfg := exEnv
  configOrder := id
  rules := fun _ =>
    { find := fun _ n q => (if q.module = py "fixit.upgrade" then .ok [2] else if q.name = some (py "OtherRule") then .ok [1] else if q.module = py "fixit.rules" then .ok [0, 1] else .error .value, n)
      tags := fun _ => []
      supports := fun _ _ => .ok true
      make := fun _ => .ok () }
  ruleOrder := id
  sysPath := []
  mods := 0
  className := fun k => if k = 0 then py "ToyRule" else if k = 1 then py "OtherRule" else py "OldRule"
  classMessage := fun _ => some (py "found")
  unicode := Unicode.ascii
  tree := toyModule
  pos := fun _ i => .inBody (i - 1) []
  range := fun _ i => ⟨⟨1, i⟩, ⟨1, i + 1⟩⟩
  visitors := fun _ _ m rules => ⟨toyCalls rules 1 (toyBytes m), none, []⟩

/-- `/root/f` and `/root/fixit.toml`. -/
def systemWorld (content : Bytes) : World :=
  ⟨fun p => if p = [py "root", py "f"] then some content else if p = [py "root", py "fixit.toml"] then some [] else none, []⟩

/-- The content `abcu`. -/
def abcu : Bytes := [97, 98, 99, 117]

/-- What is found in a world under options. -/
def toyFound (options : Options) : List (PStr × PStr × Nat) :=
  (foundIn (toyOutside.env (some options)) (systemWorld abcu).files [py "root", py "f"]).map (fun v => (v.base.ruleName, v.base.message, v.base.range.start.column))

/-- C93: only the `b` is reported: the `c` is silenced, and `OtherRule` is disabled. -/
example : toyFound {} = [(py "Toy", py "found", 2)] := by decide +kernel

/-- C94: with `--rules fixit.rules:OtherRule` only that rule runs, though the configuration disables it. -/
example : toyFound { rules := [{ module := py "fixit.rules", name := some (py "OtherRule") }] } = [(py "Other", py "found", 1)] := by decide +kernel

/-- C94: `upgrade`. -/
example : toyFound (upgradeOptions {}) = [(py "Old", py "old", 4)] := by decide +kernel

def abcuNode : Node := .mk 0 false false (.seq [] true [] [] (.ofList (toyStmts 1 abcu)) .nil)

/-- The configuration of a path in `/root`. -/
def abcuConfig (path : Path) : Config Nat :=
  ⟨path, [py "root"], .off, [{ module := py "fixit.rules" }], [{ module := py "fixit.rules", name := some (py "OtherRule") }], [], some 12, {}, none, .fixit, .str []⟩

theorem abcu_config (path : Path) (hp : path = [py "root", py "f"] ∨ path = [py "root"]) : toyOutside.config (some {}) (systemWorld abcu).files path = .ok (abcuConfig path) := by
  have hl : locateConfigs (toyOutside.fs (systemWorld abcu).files) path none = .ok [[py "root", py "fixit.toml"]] := by
    rcases hp with rfl | rfl <;> decide +kernel
  unfold Outside.config generateConfig
  show (locateConfigs (toyOutside.fs (systemWorld abcu).files) path none >>= _) = _
  rw [hl]
  rcases hp with rfl | rfl <;> rfl

/-- C93: the hypotheses of the theorems are met. -/
theorem abcu_lints : Lints toyOutside (some {}) (systemWorld abcu).files [py "root", py "f"] abcu (abcuConfig [py "root", py "f"]) abcuNode where
  source := by decide
  readable := rfl
  config := abcu_config _ (.inl rfl)
  collect := by
    refine ⟨_, rfl, rfl, ?_⟩
    intro r call hm _
    have hcalls : (r, call) ∈ toyCalls [toyOutside.inst 0] 1 abcu := hm
    have : call.node = 2 ∨ call.node = 3 := by
      simp [toyCalls, abcu, toyCall, Outside.inst] at hcalls
      rcases hcalls with ⟨_, rfl⟩ | ⟨_, rfl⟩ <;> simp
    refine ⟨⟨py "found", by decide, .inr rfl⟩, ?_⟩
    intro v hv hr
    have hrepl : call.replacement = some (.node (toyLeaf 99 66)) := by
      simp [toyCalls, abcu, toyCall, Outside.inst] at hcalls
      rcases hcalls with ⟨_, rfl⟩ | ⟨_, rfl⟩ <;> rfl
    obtain ⟨rn, rg, ms, nd, rp⟩ := v
    simp only at hv hr
    rw [hrepl] at hr
    subst hr
    rcases this with h | h <;> rw [h] at hv <;> subst hv <;> exact ⟨_, rfl⟩
  parse := rfl

/-- C93: the report on the `b` is flagged, that on the `c` is not. -/
example : (∃ call, Flagged toyOutside (systemWorld abcu).files (abcuConfig [py "root", py "f"]) abcuNode 0 call ∧ call.node = 2) ∧
    ¬ ∃ k call, Flagged toyOutside (systemWorld abcu).files (abcuConfig [py "root", py "f"]) abcuNode k call ∧ call.node = 3 := by
  have hact : ∀ k, Active toyOutside (systemWorld abcu).files (abcuConfig [py "root", py "f"]) k ↔ k ∈ [0] := by
    intro k
    have h := (C28_collected_exact (toyOutside.rules (systemWorld abcu).files) (order := id) (fun l => .refl l) (abcuConfig [py "root", py "f"]) [] 0 _ rfl).2 k
    constructor
    · rintro ⟨a, b, c, d⟩; exact h.mpr ⟨a, b, c, d⟩
    · intro hk; obtain ⟨a, b, c, d⟩ := h.mp hk; exact ⟨a, b, c, d⟩
  constructor
  · refine ⟨{ node := 2, replacement := some (.node (toyLeaf 99 66)) }, ⟨(hact 0).mpr (by simp), ⟨_, rfl, ?_⟩, ?_⟩, rfl⟩
    · show _ ∈ toyCalls [toyOutside.inst 0] 1 abcu
      simp [toyCalls, abcu, toyCall, Outside.inst]
    · rw [silenced_iff]; decide +kernel
  · rintro ⟨k, call, ⟨ha, -, hs⟩, hn⟩
    have hk := (hact k).mp ha
    simp only [List.mem_singleton] at hk
    subst hk
    apply hs
    rw [hn, silenced_iff]
    decide +kernel

/-- C93: `fixit lint` exits with 1 here. -/
example : ∃ out, toyOutside.Lint toyConsole toyWalk {} false false [[py "f"]] (systemWorld abcu) out ∧ out.2.1 = .exit 1 ∧
    out.1.map (fun o => (o.err, String.ofList o.text)) = [(false, "f@1:2 Toy: found (has autofix)\n"),
      (true, "🛠️  1 file checked, 1 file with errors, 1 auto-fix available 🛠️\n")] := by
  have hc : toyOutside.output toyConsole {} (systemWorld abcu).files = .ok (.fixit, .str []) := by
    unfold Outside.output
    rw [show toyConsole.cwd = [py "root"] from rfl, abcu_config _ (.inr rfl)]
    rfl
  have h := LintRun.ran (env := toyOutside.env (some {})) (con := toyConsole) (walk := toyWalk) (diff := false) (hook := false)
    (cfg := toyOutside.output toyConsole {} (systemWorld abcu).files)
    (paths := [[py "f"]]) (w := systemWorld abcu) .fixit (.str []) 1 _ _ _ hc (PathsRun.plain (by decide))
    (fun r _ e he => by simpa using (C79_raises toyConsole false false .fixit (.str []) r e he).1)
  exact ⟨_, h, by decide +kernel, by decide +kernel⟩

/-- C93, C94: fixing and upgrading the file. -/
example :
    fContent ((toyOutside.fix toyConsole toyWalk {} false false false [[py "f"]] (systemWorld abcu)).run [] (systemWorld abcu, [])).2.2.1 = some [97, 66, 99, 117] ∧
    fContent ((toyOutside.upgrade toyConsole toyWalk {} false [[py "f"]] (systemWorld abcu)).run [] (systemWorld abcu, [])).2.2.1 = some [97, 98, 99, 66] :=
  ⟨by decide +kernel, by decide +kernel⟩

/-- C93, C94: nothing the environment looks at depends on `/root/f`. -/
example (options : Options) (hfile : options.configFile = none) : Stable (toyOutside.env (some options)) (fun q => q ∈ [[py "f"]].map toyOutside.base.resolve) := by
  refine C93_stable toyOutside (some options) _ ?_ (by intro oo f h1 h2; cases h1; rw [hfile] at h2; cases h2) (fun _ _ _ => rfl) (fun _ _ _ => rfl)
  intro d n hn
  refine (fun hne => ⟨hne, hne⟩) ?_
  intro h
  have : d ++ [n] = [py "root", py "f"] := by simpa [toyOutside, toyEnv] using h
  have e : (d ++ [n]).getLast? = some (py "f") := by rw [this]; rfl
  simp only [List.getLast?_append, List.getLast?_singleton, Option.some_or, Option.some.injEq] at e
  subst e
  revert hn
  decide

/-- C93: a configuration file that is missing, a visitor that raises, a report without a message. -/
example :
    Spec.Fails toyOutside (some { configFile := some [py "nowhere"] }) (systemWorld abcu).files [py "root", py "f"] abcu (.other 2) ∧
    Spec.Fails { toyOutside with visitors := fun _ _ _ _ => ⟨[], some (.other 5), []⟩ } (some {}) (systemWorld abcu).files [py "root", py "f"] abcu (.other 5) ∧
    Spec.Fails { toyOutside with classMessage := fun _ => none } (some {}) (systemWorld abcu).files [py "root", py "f"] abcu .value := by
  refine ⟨.noConfig { configFile := some [py "nowhere"] } _ rfl rfl (by decide), ?_, ?_⟩
  · refine .raises (abcuConfig [py "root", py "f"]) _ abcuNode _ (abcu_config _ (.inl rfl)) rfl (by simp) rfl ?_ rfl
    intro r call h; cases h
  · refine .noMessage (abcuConfig [py "root", py "f"]) _ abcuNode (toyOutside.inst 0) { node := 2, replacement := some (.node (toyLeaf 99 66)) } (abcu_config _ (.inl rfl)) rfl
      (by simp) rfl ?_ ?_ ?_
    · show _ ∈ toyCalls [toyOutside.inst 0] 1 abcu
      simp [toyCalls, abcu, toyCall, Outside.inst]
    · rw [silenced_iff]; decide +kernel
    · intro s _; exact ⟨by simp, by simp⟩

/-- C95. -/
example : (toyOutside.debugPath true toyOutside.className {} (systemWorld abcu).files [py "f"]).2 = none ∧
    (toyOutside.debugPath true toyOutside.className {} (systemWorld abcu).files [py "f"]).1.filterMap (fun l => match l with | .enabled r => some r | _ => none) = [[py "ToyRule"]] ∧
    (toyOutside.debugPath true toyOutside.className {} (systemWorld abcu).files [py "f"]).1.filterMap (fun l => match l with | .disabled r => some r | _ => none) =
      [[py "OtherRule (disabled)"]] := by decide +kernel

/-- C95: without `rich`. -/
example : (toyOutside.debugPath false toyOutside.className {} (systemWorld abcu).files [py "f"]).2 = some .attribute := by decide +kernel

/-- C95: `OtherRule` is disabled and cannot be made: linting works, `debug` fails. -/
example :
    let o' : Outside _ _ := { toyOutside with rules := fun files => { toyOutside.rules files with make := fun k => if k = 1 then .error .value else .ok () } }
    (o'.debugPath true toyOutside.className {} (systemWorld abcu).files [py "f"]).2 = some .value ∧
    ((o'.debugPath true toyOutside.className {} (systemWorld abcu).files [py "f"]).1).length = 3 := by decide +kernel

/-- C32: `validate-config` complains about a reference that cannot be loaded, and only then. -/
example : (toyOutside.validate (systemWorld abcu).files [py "root", py "fixit.toml"]).2 = .ok ∧
    ({ toyOutside with toml := fun _ => .ok [(py "tool", .tbl [(py "fixit", .tbl [(py "enable", .arr [.str (py "nothing")])])])] }.validate
      (systemWorld abcu).files [py "root", py "fixit.toml"]).2 = .failed := ⟨by decide +kernel, by decide +kernel⟩

end Fixit
