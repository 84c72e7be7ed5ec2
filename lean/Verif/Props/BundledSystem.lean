import Verif.Props.BundledFixes
import Verif.Props.Walk

/-!
# C121: linting a file with the bundled rules
-/

namespace Fixit
open Py Spec Gen Cst

section
variable {V M : Type} (o : Outside V M) (v : Visits) (horder : ∀ s : List Nat, (o.ruleOrder s).Perm s)

theorem recorded_mem {m : Node} {k : Nat} {calls : List ReportCall} {vs : List (Violation Nat Repl)} (h : Recorded o m k calls vs) :
    (∀ w ∈ vs, ∃ call ∈ calls, ¬ Silenced o m call.node (ruleName (o.className k)) ∧ Says o m k call w) ∧
    (∀ call ∈ calls, ¬ Silenced o m call.node (ruleName (o.className k)) → ∃ w ∈ vs, Says o m k call w) := by
  induction h with
  | nil => exact ⟨fun _ h => by (cases h), fun _ h => by (cases h)⟩
  | silenced call calls vs h rest ih =>
    refine ⟨fun w hw => ?_, fun c hc hs => ?_⟩
    · obtain ⟨c, hc, h⟩ := ih.1 w hw
      exact ⟨c, List.mem_cons_of_mem _ hc, h⟩
    · rcases List.mem_cons.mp hc with rfl | hc
      · exact absurd h hs
      · exact ih.2 c hc hs
  | says call calls w vs h hs rest ih =>
    refine ⟨fun w' hw => ?_, fun c hc hs' => ?_⟩
    · rcases List.mem_cons.mp hw with rfl | hw
      · exact ⟨call, List.mem_cons_self .., h, hs⟩
      · obtain ⟨c, hc, h⟩ := ih.1 w' hw
        exact ⟨c, List.mem_cons_of_mem _ hc, h⟩
    · rcases List.mem_cons.mp hc with rfl | hc
      · exact ⟨w, List.mem_cons_self .., hs⟩
      · obtain ⟨w', hw, h⟩ := ih.2 c hc hs'
        exact ⟨w', List.mem_cons_of_mem _ hw, h⟩

theorem shown_mem {C : Type} {env : Env C} {path : Path} {m : Node} {vs : List (Violation Nat Repl)} {lvs : List LintViolation} (h : Shown env path m vs lvs) : lvs.map (·.base) = vs := by
  induction h with
  | nil => rfl
  | cons w vs lv lvs h rest ih => rw [List.map_cons, ih, display_base h]

include horder in
/-- C121: with the bundled rules, linting a file finds, for each selected rule, exactly the nodes that the description of the rule names and no comment silences; each
violation carries the message of the rule about that node, where that node stands, and the fix of the rule for that node, if it has one. -/
theorem C121_found (options : Option Options) (files : Path → Option Bytes) (path : Path) (content : Bytes) (cfg : Config V) (m : Node)
    (h : Lints (o.walking v) options files path content cfg m) (hapart : NamesApart o files cfg) (L : Looks) (hl : LooksRight L (v.syn m)) (kind : Nat → Bundled)
    (hrules : ∀ k, Active o files cfg k → v.rule files cfg.root cfg.path m k = bundled L (kind k) ∧ o.classMessage k = (kind k).message) (k : Nat) (ha : Active o files cfg k) :
    (∀ i, (∃ lv ∈ foundIn ((o.walking v).env options) files path, lv.base.ruleName = ruleName (o.className k) ∧ lv.base.node = i) ↔
      Offends L (v.syn m) (kind k) i ∧ ¬ Silenced o m i (ruleName (o.className k))) ∧
    ∀ lv ∈ foundIn ((o.walking v).env options) files path, lv.base.ruleName = ruleName (o.className k) →
      Spec.Message L (v.syn m) lv.base.node (kind k) lv.base.message ∧ lv.base.range = o.range m lv.base.node ∧
      ∃ change, Fixes L (v.syn m) (kind k) lv.base.node change ∧ lv.base.replacement = change.map (v.replacement m lv.base.node) := by
  have hk : ∀ k, Active o files cfg k → KeepsMetadata (v.rule files cfg.root cfg.path m k) := fun k h => by rw [(hrules k h).1]; exact C121_independent L _
  obtain ⟨reps, vs, halone, hrec, hshown⟩ := C116_alone o v horder options files path content cfg m h hapart hk k ha
  rw [(hrules k ha).1] at halone
  obtain ⟨hr1, hr2⟩ := recorded_mem o hrec
  have hbase := shown_mem hshown
  have hmem : ∀ w, w ∈ vs ↔ ∃ lv ∈ foundIn ((o.walking v).env options) files path, lv.base.ruleName = ruleName (o.className k) ∧ lv.base = w := by
    intro w
    rw [← hbase, List.mem_map]
    constructor
    · rintro ⟨lv, hlv, rfl⟩
      obtain ⟨h1, h2⟩ := List.mem_filter.mp hlv
      exact ⟨lv, h1, of_decide_eq_true h2, rfl⟩
    · rintro ⟨lv, h1, h2, rfl⟩
      exact ⟨lv, List.mem_filter.mpr ⟨h1, decide_eq_true h2⟩, rfl⟩
  refine ⟨fun i => ⟨?_, ?_⟩, ?_⟩
  · rintro ⟨lv, hlv, hn, rfl⟩
    obtain ⟨call, hc, hs, hsay⟩ := hr1 lv.base ((hmem _).mpr ⟨lv, hlv, hn, rfl⟩)
    obtain ⟨rep, hrep, rfl⟩ := List.mem_map.mp hc
    have hnode : lv.base.node = rep.node := hsay.node
    rw [hnode]
    exact ⟨(C121_offends hl _ _ halone rep.node).mp ⟨rep, hrep, rfl⟩, hs⟩
  · rintro ⟨ho, hs⟩
    obtain ⟨rep, hrep, rfl⟩ := (C121_offends hl _ _ halone i).mpr ho
    obtain ⟨w, hw, hsay⟩ := hr2 (v.call m rep) (List.mem_map_of_mem hrep) hs
    obtain ⟨lv, hlv, hn, rfl⟩ := (hmem w).mp hw
    exact ⟨lv, hlv, hn, hsay.node⟩
  · intro lv hlv hn
    obtain ⟨call, hc, hs, hsay⟩ := hr1 lv.base ((hmem _).mpr ⟨lv, hlv, hn, rfl⟩)
    obtain ⟨rep, hrep, rfl⟩ := List.mem_map.mp hc
    have hnode : lv.base.node = rep.node := hsay.node
    rw [hnode]
    refine ⟨?_, hsay.own rfl, rep.change, C121_fix hl _ _ halone rep hrep, hsay.fix⟩
    have hmsg : (v.call m rep).message = rep.message := rfl
    rcases C121_message hl _ _ halone rep hrep with ⟨s, h1, h2, h3⟩ | ⟨h1, h2, s, h3, h4⟩
    · rcases hsay.message with ⟨-, h | ⟨h | h, -⟩⟩
      · rw [hmsg, h1] at h; cases h; exact .inl h3
      · rw [hmsg, h1] at h; cases h
      · rw [hmsg, h1] at h; cases h; exact absurd rfl h2
    · rcases hsay.message with ⟨-, h | ⟨-, h⟩⟩
      · rw [hmsg, h1] at h; cases h
      · exact .inr ⟨h2, by rw [← (hrules k ha).2]; exact h⟩

include horder in
/-- C121: with the bundled rules a file that can be read, configured and parsed is linted, unless a selected rule raises on it or a diff cannot be made. -/
theorem C121_lints (options : Option Options) (files : Path → Option Bytes) (path : Path) (content : Bytes) (cfg : Config V) (c : Collected Nat M) (m : Node)
    (hf : files path = some content) (hr : o.base.readRaises path = none)
    (hcfg : generateConfig o.cfg o.configOrder (o.fs files) (o.load files) path none options = .ok cfg)
    (hc : (collectRules (o.rules files) o.ruleOrder cfg o.sysPath o.mods).1 = .ok c) (hp : o.base.parse content = .ok m)
    (hrepo : ∀ ps, v.repoRaises files cfg.root cfg.path ps = none) (hres : ∀ ps, v.resolveRaises files cfg.root cfg.path m ps = none)
    (L : Looks) (hl : LooksRight L (v.syn m)) (kind : Nat → Bundled)
    (hrules : ∀ k, Active o files cfg k → v.rule files cfg.root cfg.path m k = bundled L (kind k) ∧ o.classMessage k = (kind k).message)
    (hno : ∀ k, Active o files cfg k → ¬ RaisesOn L (v.syn m) (kind k))
    (hdiff : ∀ k, Active o files cfg k → ∀ (w : Violation Nat Repl) (change : Option Change), Offends L (v.syn m) (kind k) w.node → Fixes L (v.syn m) (kind k) w.node change → ¬ Silenced o m w.node (ruleName (o.className k)) →
      w.replacement = change.map (v.replacement m w.node) → ∃ lv, display (o.env options) path m w = .ok lv) :
    Lints (o.walking v) options files path content cfg m := by
  refine C116_lints o v horder options files path content cfg c m hf hr hcfg hc hp (fun k h => by rw [(hrules k h).1]; exact C121_independent L _) hrepo hres (fun k ha => ?_)
  rw [(hrules k ha).1, (hrules k ha).2]
  cases hal : (bundled L (kind k)).alone (v.names files cfg.root cfg.path m) (v.syn m) with
  | error x => exact absurd ((C121_raises hl _ _).mp ⟨x, hal⟩) (hno k ha)
  | ok reps =>
    refine ⟨reps, rfl, fun rep hrep hs => ⟨?_, fun w hn hw => hdiff k ha w rep.change ?_ (by rw [hn]; exact C121_fix hl _ _ hal rep hrep) (by rw [hn]; exact hs) (by rw [hw, hn])⟩⟩
    case refine_2 => rw [hn]; exact (C121_offends hl _ _ hal rep.node).mp ⟨rep, hrep, rfl⟩
    rcases C121_message hl _ _ hal rep hrep with ⟨s, h1, h2, -⟩ | ⟨-, -, s, h3, h4⟩
    · exact ⟨s, h2, .inl h1⟩
    · exact ⟨s, h3, .inr h4⟩

include horder in
/-- C121: when a selected rule raises on the file, the only result for it is an error, and nothing is written. -/
theorem C121_fails (options : Option Options) (autofix hook : Bool) (ss : List Answer) (w : World) (p : Path) (content : Bytes) (cfg : Config V) (c : Collected Nat M) (m : Node)
    (hf : w.files (o.base.resolve p) = some content) (hr : o.base.readRaises (o.base.resolve p) = none)
    (hcfg : generateConfig o.cfg o.configOrder (o.fs w.files) (o.load w.files) (o.base.resolve p) none options = .ok cfg)
    (hc : (collectRules (o.rules w.files) o.ruleOrder cfg o.sysPath o.mods).1 = .ok c) (hp : o.base.parse content = .ok m)
    (L : Looks) (hl : LooksRight L (v.syn m)) (kind : Nat → Bundled)
    (hrules : ∀ k, Active o w.files cfg k → v.rule w.files cfg.root cfg.path m k = bundled L (kind k))
    (k : Nat) (ha : Active o w.files cfg k) (hx : RaisesOn L (v.syn m) (kind k)) :
    ∃ e, ((fixitFile ((o.walking v).env options) p autofix hook).run ss w).1 = [⟨o.base.resolve p, none, some e⟩] ∧
      (((fixitFile ((o.walking v).env options) p autofix hook).run ss w).2.2).files = w.files := by
  obtain ⟨x, hx⟩ := (C121_raises hl (v.names w.files cfg.root cfg.path m) (kind k)).mpr hx
  exact C116_raises o v horder options autofix hook ss w p content cfg c m hf hr hcfg hc hp (fun k h => by rw [hrules k h]; exact C121_independent L _) k ha x (by rw [hrules k ha]; exact hx)

end
end Fixit
