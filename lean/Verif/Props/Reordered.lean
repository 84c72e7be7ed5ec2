import Verif.Props.Walk
import Verif.Props.YesToAll
import Verif.Props.Links
import Verif.Props.ApiErrors
import Verif.Props.Commands

/-!
# The order in which Python's sets are iterated shows only as the order of the results
-/

namespace Fixit
open Py Spec Gen Cst

variable {V M : Type} (o : Outside V M)

/-- C136: the configuration is the same. -/
theorem C136_config (hco : ∀ l, (o.configOrder l).Perm l) (ro : List Nat → List Nat) (co : List QualifiedRule → List QualifiedRule) (hco' : ∀ l, (co l).Perm l)
    (options : Option Options) (files : Path → Option Bytes) (path : Path) : (o.reordered ro co).config options files path = o.config options files path := by
  have key : ∀ raws, mergeConfigs o.cfg co path raws none = mergeConfigs o.cfg o.configOrder path raws none :=
    fun raws => C26_order_independent o.cfg path co o.configOrder hco' hco raws none
  show generateConfig o.cfg co (o.fs files) (o.load files) path none options = generateConfig o.cfg o.configOrder (o.fs files) (o.load files) path none options
  unfold generateConfig
  simp only [key]

/-- C136: rule selection succeeds or fails alike, and selects the same rules. -/
theorem C136_collect (horder : ∀ l, (o.ruleOrder l).Perm l) (ro : List Nat → List Nat) (hro : ∀ l, (ro l).Perm l) (files : Path → Option Bytes) (cfg : Config V)
    (c : Collected Nat M) (hc : (collectRules (o.rules files) o.ruleOrder cfg o.sysPath o.mods).1 = .ok c) :
    ∃ c', (collectRules (o.rules files) ro cfg o.sysPath o.mods).1 = .ok c' ∧ c'.rules.Perm c.rules ∧ c'.warned = c.warned := by
  obtain ⟨c', hc'⟩ := (C28_succeeds_iff (o.rules files) hro cfg o.sysPath o.mods).mpr
    ((C28_succeeds_iff (o.rules files) horder cfg o.sysPath o.mods).mp ⟨c, hc⟩)
  obtain ⟨h1, h2⟩ := C28_collected_exact (o.rules files) horder cfg o.sysPath o.mods c hc
  obtain ⟨h1', h2'⟩ := C28_collected_exact (o.rules files) hro cfg o.sysPath o.mods c' hc'
  refine ⟨c', hc', (List.perm_ext_iff_of_nodup h1' h1).mpr (fun k => (h2' k).trans (h2 k).symm), ?_⟩
  rw [C29_warnings_exact (o.rules files) horder cfg o.sysPath o.mods c hc, C29_warnings_exact (o.rules files) hro cfg o.sysPath o.mods c' hc']

theorem sortStrs_perm {l l' : List PStr} (h : l.Perm l') : sortStrs l = sortStrs l' := sortBy_eq_of_perm id (fun _ _ _ _ e => e) h

theorem perm_flatMap_ids {α β : Type} (f g : α → List β) : ∀ {l l' : List α}, l.Perm l' → (∀ a ∈ l, f a = g a) → (l.flatMap f).Perm (l'.flatMap g) := by
  intro l l' hp hfg
  have : l.flatMap f = l.flatMap g := by
    clear hp
    induction l with
    | nil => rfl
    | cons a l ih =>
      rw [List.flatMap_cons, List.flatMap_cons, hfg a List.mem_cons_self, ih (fun b hb => hfg b (List.mem_cons_of_mem _ hb))]
  rw [this]
  exact hp.flatMap_right g

variable (v : Visits)

/-- The calls of one rule in a visit that goes through are those it makes when it visits alone. -/
theorem calls_alone (files : Path → Option Bytes) (cfg : Config V) (m : Node) (ks : List Nat) (hnd : ks.Nodup)
    (hraised : ((o.walking v).visitors files cfg m (ks.map o.inst)).raised = none)
    (hk : ∀ k ∈ ks, KeepsMetadata (v.rule files cfg.root cfg.path m k)) (k : Nat) (hm : k ∈ ks) :
    ∃ reps, (v.rule files cfg.root cfg.path m k).alone (v.names files cfg.root cfg.path m) (v.syn m) = .ok reps ∧
      ((((o.walking v).visitors files cfg m (ks.map o.inst)).calls.filter (fun x => x.1 = o.inst k)).map Prod.snd) = reps.map (v.call m) := by
  obtain ⟨i, hi⟩ := List.mem_iff_getElem?.mp hm
  have hir : (ks.map o.inst)[i]? = some (o.inst k) := by rw [List.getElem?_map, hi]; rfl
  have hdef : (o.walking v).visitors files cfg m (ks.map o.inst) = v.visitors o.className files cfg m (ks.map o.inst) := rfl
  rw [hdef] at hraised ⊢
  unfold Visits.visitors at hraised ⊢
  split at hraised
  · cases hraised
  · split at hraised
    · cases hraised
    · simp only at hraised
      have hvb := visitBatched_trace ((ks.map o.inst).map (fun r => v.rule files cfg.root cfg.path m r.id)) (v.names files cfg.root cfg.path m) (v.syn m)
      rw [hraised] at hvb
      refine ⟨_, C96_independent _ _ _ _ ?_ hvb i (v.rule files cfg.root cfg.path m k) ?_, ?_⟩
      · intro r hr
        rw [List.map_map] at hr
        obtain ⟨k', hk', rfl⟩ := List.mem_map.mp hr
        exact hk k' hk'
      · rw [List.getElem?_map, hir]; rfl
      · exact filter_calls (ks.map o.inst) (inst_nodup o ks hnd) (v.call m) i (o.inst k) hir _

/-- A visit goes through exactly when the metadata can be made and each rule alone goes through. -/
theorem raised_iff (files : Path → Option Bytes) (cfg : Config V) (m : Node) (ks : List Nat) (hk : ∀ k ∈ ks, KeepsMetadata (v.rule files cfg.root cfg.path m k)) :
    ((o.walking v).visitors files cfg m (ks.map o.inst)).raised = none ↔
      v.repo files cfg.root cfg.path ks = none ∧ v.resolveRaises files cfg.root cfg.path m (ks.flatMap v.deps) = none ∧
      ∀ k ∈ ks, ∃ reps, (v.rule files cfg.root cfg.path m k).alone (v.names files cfg.root cfg.path m) (v.syn m) = .ok reps := by
  have hids : (ks.map o.inst).map RuleInst.id = ks := by rw [List.map_map]; exact List.map_id ks
  have hdeps : (ks.map o.inst).flatMap (fun r => v.deps r.id) = ks.flatMap v.deps := by rw [List.flatMap_map]; rfl
  have hrules : (ks.map o.inst).map (fun r => v.rule files cfg.root cfg.path m r.id) = ks.map (v.rule files cfg.root cfg.path m) := by rw [List.map_map]; rfl
  have hdef : (o.walking v).visitors files cfg m (ks.map o.inst) = v.visitors o.className files cfg m (ks.map o.inst) := rfl
  rw [hdef]
  unfold Visits.visitors
  rw [hids, hdeps]
  cases hrepo : v.repo files cfg.root cfg.path ks with
  | some e => simp
  | none =>
    cases hres : v.resolveRaises files cfg.root cfg.path m (ks.flatMap v.deps) with
    | some e => simp
    | none =>
      simp only [true_and]
      rw [hrules]
      have hkeep : ∀ r ∈ ks.map (v.rule files cfg.root cfg.path m), KeepsMetadata r := by
        intro r hr
        obtain ⟨k, hk', rfl⟩ := List.mem_map.mp hr
        exact hk k hk'
      have h96 := C96_raises (ks.map (v.rule files cfg.root cfg.path m)) (v.names files cfg.root cfg.path m) (v.syn m) hkeep
      rw [visitBatched_trace] at h96
      constructor
      · intro hr k hm
        rw [hr] at h96
        cases ha : (v.rule files cfg.root cfg.path m k).alone (v.names files cfg.root cfg.path m) (v.syn m) with
        | ok reps => exact ⟨reps, rfl⟩
        | error x =>
          obtain ⟨y, hy⟩ := h96.mpr ⟨_, List.mem_map.mpr ⟨k, hm, rfl⟩, x, ha⟩
          cases hy
      · intro hall
        cases hr : (batchTrace (ks.map (v.rule files cfg.root cfg.path m)) (v.syn m).events (v.names files cfg.root cfg.path m) (States.init (ks.map (v.rule files cfg.root cfg.path m)))).2 with
        | none => rfl
        | some x =>
          rw [hr] at h96
          obtain ⟨r, hr', y, hy⟩ := h96.mp ⟨x, rfl⟩
          obtain ⟨k, hk', rfl⟩ := List.mem_map.mp hr'
          obtain ⟨reps, hreps⟩ := hall k hk'
          rw [hreps] at hy
          cases hy

/-- Which calls are made, when the visit goes through. -/
theorem calls_mem (files : Path → Option Bytes) (cfg : Config V) (m : Node) (ks : List Nat) (hnd : ks.Nodup)
    (hraised : ((o.walking v).visitors files cfg m (ks.map o.inst)).raised = none)
    (hk : ∀ k ∈ ks, KeepsMetadata (v.rule files cfg.root cfg.path m k)) (r : RuleInst) (call : ReportCall) :
    (r, call) ∈ ((o.walking v).visitors files cfg m (ks.map o.inst)).calls ↔ ∃ k ∈ ks, r = o.inst k ∧
      ∃ reps, (v.rule files cfg.root cfg.path m k).alone (v.names files cfg.root cfg.path m) (v.syn m) = .ok reps ∧ call ∈ reps.map (v.call m) := by
  constructor
  · intro h
    have hr : ∃ k ∈ ks, r = o.inst k := by
      have hdef : (o.walking v).visitors files cfg m (ks.map o.inst) = v.visitors o.className files cfg m (ks.map o.inst) := rfl
      rw [hdef] at h
      unfold Visits.visitors at h
      split at h
      · cases h
      · split at h
        · cases h
        · obtain ⟨x, -, hx⟩ := List.mem_filterMap.mp h
          rw [Option.map_eq_some_iff] at hx
          obtain ⟨r', hr', he⟩ := hx
          cases he
          obtain ⟨k, hk', rfl⟩ := List.mem_map.mp (List.mem_of_getElem? hr')
          exact ⟨k, hk', rfl⟩
    obtain ⟨k, hm, rfl⟩ := hr
    obtain ⟨reps, h1, h2⟩ := calls_alone o v files cfg m ks hnd hraised hk k hm
    refine ⟨k, hm, rfl, reps, h1, ?_⟩
    rw [← h2]
    exact List.mem_map.mpr ⟨_, List.mem_filter.mpr ⟨h, by simp⟩, rfl⟩
  · rintro ⟨k, hm, rfl, reps, h1, h2⟩
    obtain ⟨reps', h1', h2'⟩ := calls_alone o v files cfg m ks hnd hraised hk k hm
    rw [h1] at h1'
    cases h1'
    rw [← h2'] at h2
    obtain ⟨x, hx, rfl⟩ := List.mem_map.mp h2
    obtain ⟨hx, he⟩ := List.mem_filter.mp hx
    simp only [decide_eq_true_eq] at he
    rw [← he]
    exact hx

variable (horder : ∀ l, (o.ruleOrder l).Perm l) (hco : ∀ l, (o.configOrder l).Perm l)
  (ro : List Nat → List Nat) (hro : ∀ l, (ro l).Perm l) (co : List QualifiedRule → List QualifiedRule) (hco' : ∀ l, (co l).Perm l)
include horder hco hro hco'

/-- C136: if linting a file goes through, it goes through in every process. -/
theorem C136_lints (hsets : ProviderSets v) (options : Option Options) (files : Path → Option Bytes) (path : Path) (content : Bytes) (cfg : Config V) (m : Node)
    (h : Lints (o.walking v) options files path content cfg m) (hk : ∀ k, Active o files cfg k → KeepsMetadata (v.rule files cfg.root cfg.path m k)) :
    Lints ((o.reordered ro co).walking v) options files path content cfg m := by
  obtain ⟨h1, h2, h3, ⟨c, hc, hraised, hall⟩, h5⟩ := h
  obtain ⟨c', hc', hperm, -⟩ := C136_collect o horder ro hro files cfg c hc
  obtain ⟨hnd, hact⟩ := selected_iff o horder files cfg c hc
  have hk1 : ∀ k ∈ c.rules, KeepsMetadata (v.rule files cfg.root cfg.path m k) := fun k hm => hk k ((hact k).mp hm)
  have hk2 : ∀ k ∈ c'.rules, KeepsMetadata (v.rule files cfg.root cfg.path m k) := fun k hm => hk1 k (hperm.mem_iff.mp hm)
  have hraised : ((o.walking v).visitors files cfg m (c.rules.map o.inst)).raised = none := hraised
  obtain ⟨r1, r2, r3⟩ := (raised_iff o v files cfg m c.rules hk1).mp hraised
  have hraised' : ((o.walking v).visitors files cfg m (c'.rules.map o.inst)).raised = none := by
    refine (raised_iff o v files cfg m c'.rules hk2).mpr ⟨?_, ?_, fun k hm => r3 k (hperm.mem_iff.mp hm)⟩
    · have hmem : ∀ p, p ∈ v.needs c'.rules ↔ p ∈ v.needs c.rules := by
        intro p
        rw [needs_mem, needs_mem]
        exact ⟨fun ⟨g, k, a, b⟩ => ⟨g, k, hperm.mem_iff.mp a, b⟩, fun ⟨g, k, a, b⟩ => ⟨g, k, hperm.mem_iff.mpr a, b⟩⟩
      unfold Visits.repo at r1 ⊢
      rw [hsets.repo files cfg.root cfg.path _ _ hmem]
      by_cases he : v.needs c.rules = []
      · have : v.needs c'.rules = [] := by
          rw [List.eq_nil_iff_forall_not_mem]
          intro p hp
          rw [hmem, he] at hp
          cases hp
        rw [if_pos this]
      · rw [if_neg he] at r1
        split
        · rfl
        · exact r1
    · rw [hsets.resolve files cfg.root cfg.path m _ (c.rules.flatMap v.deps) (fun p => (hperm.flatMap_right v.deps).mem_iff)]
      exact r2
  refine ⟨h1, h2, ?_, ⟨c', hc', hraised', ?_⟩, h5⟩
  · have := C136_config o hco ro co hco' options files path
    exact this.trans h3
  · intro r call hm hs
    have hm : (r, call) ∈ ((o.walking v).visitors files cfg m (c'.rules.map o.inst)).calls := hm
    rw [calls_mem o v files cfg m c'.rules (hperm.nodup_iff.mpr hnd) hraised' hk2] at hm
    obtain ⟨k, hm, hr⟩ := hm
    exact hall r call ((calls_mem o v files cfg m c.rules hnd hraised hk1 r call).mpr ⟨k, hperm.mem_iff.mp hm, hr⟩) hs

omit hco hro hco' in
/-- The violations found, rule by rule. -/
theorem found_blocks (options : Option Options) (files : Path → Option Bytes) (path : Path) (content : Bytes) (cfg : Config V) (m : Node)
    (h : Lints (o.walking v) options files path content cfg m) (hk : ∀ k, Active o files cfg k → KeepsMetadata (v.rule files cfg.root cfg.path m k)) :
    ∃ (c : Collected Nat M) (F : Nat → List LintViolation), (collectRules (o.rules files) o.ruleOrder cfg o.sysPath o.mods).1 = .ok c ∧
      foundIn ((o.walking v).env options) files path = c.rules.flatMap F ∧
      ∀ k ∈ c.rules, ∃ reps vs, (v.rule files cfg.root cfg.path m k).alone (v.names files cfg.root cfg.path m) (v.syn m) = .ok reps ∧
        Recorded (o.walking v) m k (reps.map (v.call m)) vs ∧ Shown ((o.walking v).env options) path m vs (F k) := by
  obtain ⟨hl, c, st, durs, hc, -, hvis, hf, hshow, -⟩ := system_found (o.walking v) horder options files path content cfg m h
  obtain ⟨hnd, hact⟩ := selected_iff o horder files cfg c hc
  obtain ⟨c', hc', hraised, -⟩ := h.collect
  rw [hc] at hc'
  cases hc'
  have hraised : ((o.walking v).visitors files cfg m (c.rules.map o.inst)).raised = none := hraised
  have hvis : (o.walking v).visit files cfg m (c.rules.map o.inst) = .ok (st, durs) := hvis
  unfold Outside.visit at hvis
  cases hrun : (o.walking v).runCalls m ((o.walking v).visitors files cfg m (c.rules.map o.inst)).calls (fun _ => []) with
  | error e => rw [hrun] at hvis; cases hvis
  | ok st' =>
    rw [hrun] at hvis
    simp only [hraised, Except.ok.injEq, Prod.mk.injEq] at hvis
    obtain ⟨rfl, -⟩ := hvis
    have hblocks : ∀ ks : List Nat, (∀ k ∈ ks, ∀ v' ∈ st' (o.inst k), ∃ lv, display ((o.walking v).env options) path m v' = .ok lv) →
        displayed ((o.walking v).env options) path m ((ks.map o.inst).flatMap st') =
          (ks.flatMap (fun k => (displayed ((o.walking v).env options) path m (st' (o.inst k))).1), none) := by
      intro ks
      induction ks with
      | nil => intro _; rfl
      | cons k ks ih =>
        intro hd
        rw [List.map_cons, List.flatMap_cons, displayed_append, (displayed_fine _ _ _ _).mpr (hd k List.mem_cons_self), ih (fun k' hk' => hd k' (List.mem_cons_of_mem _ hk'))]
        rfl
    have hd : ∀ k ∈ c.rules, ∀ v' ∈ st' (o.inst k), ∃ lv, display ((o.walking v).env options) path m v' = .ok lv :=
      fun k hm v' hv' => hshow v' (List.mem_flatMap.mpr ⟨o.inst k, List.mem_map.mpr ⟨k, hm, rfl⟩, hv'⟩)
    refine ⟨c, fun k => (displayed ((o.walking v).env options) path m (st' (o.inst k))).1, hc, ?_, ?_⟩
    · unfold foundIn
      rw [hl]
      exact hf.trans (congrArg Prod.fst (hblocks c.rules hd))
    · intro k hm
      obtain ⟨vs, hrec, hst⟩ := runCalls_recorded (o.walking v) m k _ _ _ hrun
      have hst : st' (o.inst k) = [] ++ vs := hst
      rw [List.nil_append] at hst
      obtain ⟨reps, h1, h2⟩ := calls_alone o v files cfg m c.rules hnd hraised (fun k hm => hk k ((hact k).mp hm)) k hm
      have h2 : ((((o.walking v).visitors files cfg m (c.rules.map o.inst)).calls.filter (fun x => x.1 = (o.walking v).inst k)).map Prod.snd) = reps.map (v.call m) := h2
      refine ⟨reps, vs, h1, h2 ▸ hrec, ?_⟩
      have := shown_displayed ((o.walking v).env options) path m (fun _ => true) (st' (o.inst k)) (hd k hm)
      have ht : ∀ {α : Type} (l : List α), l.filter (fun _ => true) = l := fun l => List.filter_eq_self.mpr (fun _ _ => rfl)
      rw [ht, ht] at this
      rw [hst] at this
      simp only [hst]
      exact this

/-- C136: the same violations are found. -/
theorem C136_found (hsets : ProviderSets v) (options : Option Options) (files : Path → Option Bytes) (path : Path) (content : Bytes) (cfg : Config V) (m : Node)
    (h : Lints (o.walking v) options files path content cfg m) (hk : ∀ k, Active o files cfg k → KeepsMetadata (v.rule files cfg.root cfg.path m k)) :
    (foundIn (((o.reordered ro co).walking v).env options) files path).Perm (foundIn ((o.walking v).env options) files path) := by
  have h' := C136_lints o v horder hco ro hro co hco' hsets options files path content cfg m h hk
  obtain ⟨c, F, hc, hf, hb⟩ := found_blocks o v horder options files path content cfg m h hk
  obtain ⟨c', F', hc', hf', hb'⟩ := found_blocks (o.reordered ro co) v hro options files path content cfg m h'
    (fun k ha => hk k ⟨ha.enabled, ha.notDisabled, ha.tags, ha.version⟩)
  rw [hf, hf']
  obtain ⟨c'', hc'', hperm, -⟩ := C136_collect o horder ro hro files cfg c hc
  have hc' : (collectRules (o.rules files) ro cfg o.sysPath o.mods).1 = .ok c' := hc'
  rw [hc''] at hc'
  cases hc'
  refine perm_flatMap_ids _ _ hperm (fun k hm => ?_)
  obtain ⟨reps, vs, a1, a2, a3⟩ := hb k (hperm.mem_iff.mp hm)
  obtain ⟨reps', vs', b1, b2, b3⟩ := hb' k hm
  rw [a1] at b1
  cases b1
  have hrec : ∀ calls vs, Recorded ((o.reordered ro co).walking v) m k calls vs → Recorded (o.walking v) m k calls vs := by
    intro calls vs h
    induction h with
    | nil => exact .nil
    | silenced call calls vs h _ ih => exact .silenced call calls vs h ih
    | says call calls v vs h hs _ ih => exact .says call calls v vs h ⟨hs.rule, hs.node, hs.fix, hs.message, hs.own, hs.range, hs.point⟩ ih
  cases Recorded.unique (o.walking v) a2 (hrec _ _ b2)
  have hsh : ∀ vs l, Shown (((o.reordered ro co).walking v).env options) path m vs l → Shown ((o.walking v).env options) path m vs l := by
    intro vs l h
    induction h with
    | nil => exact .nil
    | cons v vs lv lvs h _ ih => exact .cons v vs lv lvs h ih
  exact (Shown.unique a3 (hsh _ _ b3)).symm

omit horder hco hro hco'

/-- How linting or fixing everything ends, when the file can be linted. -/
def wholeFinish {C : Type} (env : Env C) (path : Path) (content : Bytes) (cfg : C) (autofix : Bool) (vs : List LintViolation) : Finish Unit :=
  if vs = [] then ⟨id, some (cleanResult path), ()⟩
  else if autofix then match fixedContent env path content cfg vs with
    | .error e => ⟨id, some (errorResult path e), ()⟩
    | .ok b => writeFinish env path content (some b)
  else ⟨id, none, ()⟩

theorem writeFinish_files {C : Type} (env : Env C) (path : Path) (content : Bytes) (b : Option Bytes) (w w' : World) (h : w.files = w'.files) :
    ((writeFinish env path content b).upd w).files = ((writeFinish env path content b).upd w').files := by
  unfold writeFinish
  repeat' split
  all_goals simp [World.put, World.note, h]

theorem logged_files (es : List Event) (w : World) : (logged es w).files = w.files := rfl

/-- The end of linting, or of fixing everything, when the metrics hook does not raise. -/
theorem fileFinish_whole {C : Type} (env : Env C) (files : Path → Option Bytes) (path : Path) (content : Bytes) (cfg : C) (m : Node) (rules : List RuleInst)
    (st : RuleInst → List (Violation Nat Repl)) (durs : Metrics) (hl : loaded env files path = .ok (content, cfg)) (hc : env.collect files cfg = .ok rules)
    (hp : env.parse content = .ok m) (hv : env.visit files cfg m rules = .ok (st, durs)) (hd : ∀ v ∈ rules.flatMap st, ∃ lv, display env path m v = .ok lv)
    (autofix hook : Bool) (hhook : hook = true → ∀ μ, env.hookRaises μ = none) (ss : List Answer) (hss : ∀ s ∈ ss, s = none) (hlen : (foundIn env files path).length ≤ ss.length) :
    (fileFinish env files path autofix hook ss).last = (wholeFinish env path content cfg autofix (foundIn env files path)).last ∧
    ∀ w : World, ((fileFinish env files path autofix hook ss).upd w).files = ((wholeFinish env path content cfg autofix (foundIn env files path)).upd w).files := by
  have hfound : foundIn env files path = (displayed env path m (rules.flatMap st)).1 := by
    unfold foundIn found
    simp only [hl, hc]
    cases rules with
    | nil => rfl
    | cons r rs => simp only [hp, hv]
  rw [hfound] at hlen ⊢
  have hdn := (displayed_fine env path m _).mpr hd
  unfold fileFinish
  simp only [hl]
  unfold bytesFinish
  simp only [hc]
  cases rules with
  | nil => exact ⟨rfl, fun _ => rfl⟩
  | cons r rs =>
    simp only [hp, hv]
    have hh : ∀ μ, (if hook = true then env.hookRaises μ else none) = none := by
      intro μ
      cases hook with
      | false => rfl
      | true => exact hhook rfl μ
    simp only [hdn, hh]
    unfold wholeFinish
    generalize (displayed env path m ((r :: rs).flatMap st)).1 = vs at hlen ⊢
    cases vs with
    | nil => exact ⟨rfl, fun _ => rfl⟩
    | cons x xs =>
      simp only [List.isEmpty_cons, Bool.false_eq_true, if_false, reduceCtorEq]
      cases autofix with
      | false =>
        have ha : (accepted false (x :: xs) ss) = [] := accepted_none _ ss (fun s hs => by rw [hss s hs]; simp)
        simp only [ha, List.isEmpty_nil, if_true, Bool.false_eq_true, if_false]
        exact ⟨rfl, fun _ => rfl⟩
      | true =>
        have ha : (accepted true (x :: xs) ss) = x :: xs := accepted_all _ ss hlen
        simp only [ha, List.isEmpty_cons, Bool.false_eq_true, if_false, if_true]
        cases fixedContent env path content cfg (x :: xs) with
        | error e => exact ⟨rfl, fun _ => rfl⟩
        | ok b => exact ⟨rfl, fun w => writeFinish_files env path content (some b) _ w rfl⟩

/-- A complete run of linting, or of fixing everything. -/
theorem alone_whole {C : Type} (env : Env C) (w : World) (p : Path) (autofix hook : Bool) (F : Finish Unit)
    (hF : ∀ ss : List Answer, (∀ s ∈ ss, s = none) → (foundIn env w.files (env.resolve p)).length ≤ ss.length →
      (fileFinish env w.files (env.resolve p) autofix hook ss).last = F.last ∧ ∀ w' : World, ((fileFinish env w.files (env.resolve p) autofix hook ss).upd w').files = (F.upd w').files) :
    (alone env autofix hook w p).1 = (foundIn env w.files (env.resolve p)).map (reporting (env.resolve p)) ++ F.last.toList ∧
    (alone env autofix hook w p).2.2.files = (F.upd w).files := by
  have h1 := run_replicate none (fixitFile env p autofix hook) w _ (Nat.le_refl _)
  have h2 : (drain none (fixitFile env p autofix hook) w).2.1 = .returned () := alone_returns env autofix hook w p
  have h3 : (fixitFile env p autofix hook).run (List.replicate (drain none (fixitFile env p autofix hook) w).1.length none) w = _ :=
    run_lintFile env (env.resolve p) autofix hook _ w
  rw [h1] at h3
  unfold alone
  rw [h3] at h2
  unfold script at h2 h3
  split at h2
  · cases h2
  · rename_i hlt
    rw [if_neg hlt] at h3
    have := hF _ (fun s hs => (List.mem_replicate.mp hs).2) (Nat.le_of_not_lt hlt)
    rw [h3]
    rw [← this.1]
    cases hlast : (fileFinish env w.files (env.resolve p) autofix hook (List.replicate (drain none (fixitFile env p autofix hook) w).1.length none)).last with
    | none => simp only [hlast]; exact ⟨by simp, this.2 w⟩
    | some r => simp only [hlast]; exact ⟨rfl, this.2 w⟩

/-- Linting a file, or fixing everything in it, in terms of the violations found. -/
theorem lints_whole (horder : ∀ l, (o.ruleOrder l).Perm l) (options : Option Options) (w : World) (p : Path) (content : Bytes) (cfg : Config V) (m : Node)
    (h : Lints o options w.files (o.base.resolve p) content cfg m) (autofix hook : Bool) (hhook : hook = true → ∀ μ, o.base.hookRaises μ = none) :
    (alone (o.env options) autofix hook w p).1 = (foundIn (o.env options) w.files (o.base.resolve p)).map (reporting (o.base.resolve p)) ++
        (wholeFinish (o.env options) (o.base.resolve p) content cfg autofix (foundIn (o.env options) w.files (o.base.resolve p))).last.toList ∧
    (alone (o.env options) autofix hook w p).2.2.files = ((wholeFinish (o.env options) (o.base.resolve p) content cfg autofix (foundIn (o.env options) w.files (o.base.resolve p))).upd w).files := by
  obtain ⟨hl, c, st, durs, hc, hcol, hvis, hf, hshow, -⟩ := system_found o horder options w.files (o.base.resolve p) content cfg m h
  exact alone_whole (o.env options) w p autofix hook _ (fun ss hss hlen =>
    fileFinish_whole (o.env options) w.files (o.base.resolve p) content cfg m _ st durs hl hcol h.parse hvis hshow autofix hook hhook ss hss hlen)

include horder hco hro hco'

/-- C136: linting a file gives the same results, perhaps in another order. -/
theorem C136_results (hsets : ProviderSets v) (options : Option Options) (w : World) (p : Path) (content : Bytes) (cfg : Config V) (m : Node)
    (h : Lints (o.walking v) options w.files (o.base.resolve p) content cfg m) (hk : ∀ k, Active o w.files cfg k → KeepsMetadata (v.rule w.files cfg.root cfg.path m k))
    (hook : Bool) (hhook : hook = true → ∀ μ, o.base.hookRaises μ = none) :
    (alone (((o.reordered ro co).walking v).env options) false hook w p).1.Perm (alone ((o.walking v).env options) false hook w p).1 := by
  have h' := C136_lints o v horder hco ro hro co hco' hsets options w.files _ content cfg m h hk
  have hp := C136_found o v horder hco ro hro co hco' hsets options w.files _ content cfg m h hk
  rw [(lints_whole (o.walking v) horder options w p content cfg m h false hook hhook).1,
    (lints_whole ((o.reordered ro co).walking v) hro options w p content cfg m h' false hook hhook).1]
  have hp : (foundIn (((o.reordered ro co).walking v).env options) w.files (((o.reordered ro co).walking v).base.resolve p)).Perm
    (foundIn ((o.walking v).env options) w.files ((o.walking v).base.resolve p)) := hp
  refine List.Perm.append (hp.map _) ?_
  unfold wholeFinish
  by_cases he : foundIn ((o.walking v).env options) w.files ((o.walking v).base.resolve p) = []
  · rw [if_pos he, if_pos (by rw [he] at hp; exact hp.eq_nil)]
    exact List.Perm.refl _
  · rw [if_neg he, if_neg (fun e => he (by rw [e] at hp; exact hp.symm.eq_nil))]
    exact List.Perm.refl _

/-- C136: if no two fixes are for the same node, fixing everything gives the same results, perhaps in another order, and leaves the same files. -/
theorem C136_fix (hsets : ProviderSets v) (options : Option Options) (w : World) (p : Path) (content : Bytes) (cfg : Config V) (m : Node)
    (h : Lints (o.walking v) options w.files (o.base.resolve p) content cfg m) (hk : ∀ k, Active o w.files cfg k → KeepsMetadata (v.rule w.files cfg.root cfg.path m k))
    (hook : Bool) (hhook : hook = true → ∀ μ, o.base.hookRaises μ = none)
    (hnd : ((((foundIn ((o.walking v).env options) w.files (o.base.resolve p)).map LintViolation.fix).filter (fun f => f.usable.isSome)).map (·.node)).Nodup) :
    (alone (((o.reordered ro co).walking v).env options) true hook w p).1.Perm (alone ((o.walking v).env options) true hook w p).1 ∧
    (alone (((o.reordered ro co).walking v).env options) true hook w p).2.2.files = (alone ((o.walking v).env options) true hook w p).2.2.files := by
  have h' := C136_lints o v horder hco ro hro co hco' hsets options w.files _ content cfg m h hk
  have hp := C136_found o v horder hco ro hro co hco' hsets options w.files _ content cfg m h hk
  obtain ⟨a1, a2⟩ := lints_whole (o.walking v) horder options w p content cfg m h true hook hhook
  obtain ⟨b1, b2⟩ := lints_whole ((o.reordered ro co).walking v) hro options w p content cfg m h' true hook hhook
  rw [a1, a2, b1, b2]
  have hp : (foundIn (((o.reordered ro co).walking v).env options) w.files (((o.reordered ro co).walking v).base.resolve p)).Perm
    (foundIn ((o.walking v).env options) w.files ((o.walking v).base.resolve p)) := hp
  have hnd : ((((foundIn ((o.walking v).env options) w.files ((o.walking v).base.resolve p)).map LintViolation.fix).filter (fun f => f.usable.isSome)).map (·.node)).Nodup := hnd
  have hfin : wholeFinish (((o.reordered ro co).walking v).env options) (((o.reordered ro co).walking v).base.resolve p) content cfg true
        (foundIn (((o.reordered ro co).walking v).env options) w.files (((o.reordered ro co).walking v).base.resolve p)) =
      wholeFinish ((o.walking v).env options) ((o.walking v).base.resolve p) content cfg true (foundIn ((o.walking v).env options) w.files ((o.walking v).base.resolve p)) := by
    generalize foundIn (((o.reordered ro co).walking v).env options) w.files (((o.reordered ro co).walking v).base.resolve p) = vs' at hp ⊢
    generalize foundIn ((o.walking v).env options) w.files ((o.walking v).base.resolve p) = vs at hp hnd ⊢
    have happ : ∀ m : Node, applyReplacements m (vs.map LintViolation.fix) = applyReplacements m (vs'.map LintViolation.fix) :=
      fun m => C36_order_irrelevant m _ _ (hp.symm.map _) hnd
    have hfc : fixedContent (((o.reordered ro co).walking v).env options) (((o.reordered ro co).walking v).base.resolve p) content cfg vs' =
        fixedContent ((o.walking v).env options) ((o.walking v).base.resolve p) content cfg vs := by
      unfold fixedContent
      simp only [happ]
      rfl
    unfold wholeFinish
    by_cases he : vs = []
    · rw [if_pos he, if_pos (by rw [he] at hp; exact hp.eq_nil)]
      rfl
    · rw [if_neg he, if_neg (fun e => he (by rw [e] at hp; exact hp.symm.eq_nil)), hfc]
      rfl
  rw [hfin]
  exact ⟨List.Perm.append (hp.map _) (List.Perm.refl _), rfl⟩

/-- C136: `fixit lint` exits with the same status. -/
theorem C136_exit (con : Console) (walk : (Path → Option Bytes) → Path → Except Err (List Path)) (hsets : ProviderSets v) (options : Option Options) (diff diff' hook : Bool)
    (out out' : Except Err (OutputFormat × Toml)) (paths : List Path) (w w1 w2 : World) (outs outs' : List Out) (code code' : Nat) (fs : List Path)
    (hh : (if paths = [] then [con.cwd] else paths).head? ≠ some [py "-"])
    (hf : filesUnder (walk w.files) ((if paths = [] then [con.cwd] else paths).filter (· ≠ [py "-"])) = .ok fs)
    (hall : ∀ p ∈ fs, ∃ content cfg m, Lints (o.walking v) options w.files (o.base.resolve p) content cfg m ∧
      ∀ k, Active o w.files cfg k → KeepsMetadata (v.rule w.files cfg.root cfg.path m k))
    (hhook : hook = true → ∀ μ, o.base.hookRaises μ = none)
    (h : LintRun ((o.walking v).env options) con walk diff hook out paths w (outs, .exit code, w1))
    (h' : LintRun (((o.reordered ro co).walking v).env options) con walk diff' hook out' paths w (outs', .exit code', w2)) : code = code' := by
  obtain ⟨a1, a2, -, a4⟩ := C55_exit_status_files _ con walk diff hook out paths w w1 outs code fs hh hf h
  obtain ⟨b1, b2, -, b4⟩ := C55_exit_status_files _ con walk diff' hook out' paths w w2 outs' code' fs hh hf h'
  have hmem : ∀ p ∈ fs, ∀ r, r ∈ (alone (((o.reordered ro co).walking v).env options) false hook w p).1 ↔ r ∈ (alone ((o.walking v).env options) false hook w p).1 := by
    intro p hp r
    obtain ⟨content, cfg, m, hl, hk⟩ := hall p hp
    exact (C136_results o v horder hco ro hro co hco' hsets options w p content cfg m hl hk hook hhook).mem_iff
  have c1 : code % 2 = 1 ↔ code' % 2 = 1 := by
    rw [a1, b1]
    exact ⟨fun ⟨p, hp, x, hx⟩ => ⟨p, hp, x, (hmem p hp _).mpr hx⟩, fun ⟨p, hp, x, hx⟩ => ⟨p, hp, x, (hmem p hp _).mp hx⟩⟩
  have c2 : code / 2 = 1 ↔ code' / 2 = 1 := by
    rw [a2, b2]
    exact ⟨fun ⟨p, hp, x, hx⟩ => ⟨p, hp, x, (hmem p hp _).mpr hx⟩, fun ⟨p, hp, x, hx⟩ => ⟨p, hp, x, (hmem p hp _).mp hx⟩⟩
  omega

/-- C136: `fixit debug` prints the same. -/
theorem C136_debug (str : Nat → PStr) (options : Options) (files : Path → Option Bytes) (path : Path) (cfg : Config V)
    (hcfg : generateConfig o.cfg o.configOrder (o.fs files) (o.load files) (o.base.resolve path) none (some options) = .ok cfg)
    (c : Collected Nat M) (hc : (collectRules (o.rules files) o.ruleOrder cfg o.sysPath o.mods).1 = .ok c)
    (hmake : ∀ k y, DroppedFor o files cfg k y → (o.rules files).make k = .ok ()) :
    (o.reordered ro co).debugPath true str options files path = o.debugPath true str options files path := by
  obtain ⟨c', hc', hperm, -⟩ := C136_collect o horder ro hro files cfg c hc
  have hcfg' : (o.reordered ro co).config (some options) files (o.base.resolve path) = .ok cfg :=
    (C136_config o hco ro co hco' (some options) files (o.base.resolve path)).trans hcfg
  have hcfg : o.config (some options) files (o.base.resolve path) = .ok cfg := hcfg
  have hd := describeDisabled_ok (o.rules files).make str c.reasons (fun e he => hmake e.1 e.2 ((reasons_iff o horder files cfg c hc e.1 e.2).mp he))
  have hmem : ∀ e, e ∈ c'.reasons ↔ e ∈ c.reasons := by
    rintro ⟨k, y⟩
    rw [reasons_iff o horder files cfg c hc]
    exact reasons_iff (o.reordered ro co) hro files cfg c' hc' k y
  have hd' := describeDisabled_ok (o.rules files).make str c'.reasons (fun e he => hmake e.1 e.2 ((reasons_iff o horder files cfg c hc e.1 e.2).mp ((hmem e).mp he)))
  have hnodup : ∀ l : List (Nat × Reason), (l.map (·.1)).Nodup → l.Nodup := by
    intro l
    induction l with
    | nil => simp
    | cons a l ih =>
      intro h
      rw [List.map_cons, List.nodup_cons] at h
      exact List.nodup_cons.mpr ⟨fun hm => h.1 (List.mem_map.mpr ⟨a, hm, rfl⟩), ih h.2⟩
  have hn := hnodup _ (collect_ok (o.rules files) horder cfg o.sysPath o.mods c hc).2.2.2.2.1
  have hn' := hnodup _ (collect_ok (o.rules files) hro cfg o.sysPath o.mods c' hc').2.2.2.2.1
  have hpr : c'.reasons.Perm c.reasons := (List.perm_ext_iff_of_nodup hn' hn).mpr hmem
  have e1 : (collectRules ((o.reordered ro co).rules files) (o.reordered ro co).ruleOrder cfg (o.reordered ro co).sysPath (o.reordered ro co).mods).1 = .ok c' := hc'
  have e2 : describeDisabled ((o.reordered ro co).rules files).make str c'.reasons = _ := hd'
  have e0 : (o.reordered ro co).config (some options) files ((o.reordered ro co).base.resolve path) = .ok cfg := hcfg'
  unfold Outside.debugPath
  rw [e0, hcfg]
  simp only [e1, hc]
  simp only [e2, hd]
  rw [sortStrs_perm (hperm.map str), sortStrs_perm (hpr.map _)]
  rfl

end Fixit
