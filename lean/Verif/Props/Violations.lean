import Verif.Proof.Engine

/-!
# C39–C41: collecting violations and metrics
-/

namespace Fixit
open Py Spec Gen

variable {C : Type} (env : Env C)

/-- The hook's part in the log. -/
def hookEvents (hook : Bool) (μ : Metrics) : List Event := if hook then [.hook μ] else []

/-- The status after the hook ran. -/
def hookStatus (hook : Bool) (μ : Metrics) (n : Nat) : Status Nat :=
  match (if hook then env.hookRaises μ else none) with
  | some e => .raised e
  | none => .returned n

theorem run_callHook (hook : Bool) (μ : Metrics) (n : Nat) (us : List Unit) (w : World) :
    ((callHook env hook μ).bind (fun _ => .ret n) : Gen World LintViolation Unit Nat).run us w =
      ([], hookStatus env hook μ n, { w with log := w.log ++ hookEvents hook μ }) := by
  cases hook with
  | false => simp [callHook, Gen.bind, run, hookStatus, hookEvents]
  | true =>
    simp only [callHook, if_true, Gen.bind, run, hookStatus, hookEvents]
    cases env.hookRaises μ <;> simp [Gen.bind, run]

/-- The whole of `collect_violations` in one formula. -/
theorem run_collect (path : Path) (m : Node) (rules : List RuleInst) (cfg : C) (hook : Bool) (recorded : RuleInst → List (Violation Nat Repl))
    (durs : Metrics) (us : List Unit) (w : World) (hv : env.visit w.files cfg m rules = .ok (recorded, durs)) :
    (collectViolations env path m rules cfg hook).run us w =
      match loopStatus (displayed env path m (rules.flatMap recorded)) us.length (tally recorded rules (0, durs)) with
      | .suspended => ((displayed env path m (rules.flatMap recorded)).1.take (us.length + 1), .suspended, w)
      | .raised e => ((displayed env path m (rules.flatMap recorded)).1, .raised e, w)
      | .returned (n, μ) => ((displayed env path m (rules.flatMap recorded)).1, hookStatus env hook (dictSet totalKey n μ) n,
          { w with log := w.log ++ hookEvents hook (dictSet totalKey n μ) }) := by
  unfold collectViolations look
  simp only [run, id, hv, Gen.ofExcept, Gen.bind]
  rw [run_bind, run_ruleLoop]
  by_cases hk : us.length < (displayed env path m (rules.flatMap recorded)).1.length
  · simp [loopStatus, hk]
  · have h2 : (displayed env path m (rules.flatMap recorded)).1.take (us.length + 1) = (displayed env path m (rules.flatMap recorded)).1 :=
      List.take_of_length_le (by omega)
    simp only [loopStatus, hk, if_false, h2]
    cases (displayed env path m (rules.flatMap recorded)).2 with
    | some e => rfl
    | none =>
      simp only
      obtain ⟨n, μ⟩ := tally recorded rules (0, durs)
      simp only
      rw [run_callHook]
      simp

/-! ## C39 -/

theorem displayed_base (path : Path) (m : Node) (vs : List (Violation Nat Repl)) (h : (displayed env path m vs).2 = none) :
    (displayed env path m vs).1.map (·.base) = vs := by
  induction vs with
  | nil => rfl
  | cons v vs ih =>
    simp only [displayed] at *
    cases hd : display env path m v with
    | error e => rw [hd] at h; simp at h
    | ok lv =>
      rw [hd] at h
      simp only at h
      simp only [List.map_cons, ih h]
      congr 1
      unfold display at hd
      split at hd
      · cases ha : applyReplacements m [⟨v.node, v.replacement⟩] with
        | error e => rw [ha] at hd; simp [Bind.bind, Except.bind] at hd
        | ok m' =>
          rw [ha] at hd
          simp only [Bind.bind, Except.bind] at hd
          cases hu : env.unifiedDiff (moduleCode m) (moduleCode m') path with
          | error e => rw [hu] at hd; simp at hd
          | ok d =>
            rw [hu] at hd
            simp only [pure, Except.pure, Except.ok.injEq] at hd
            rw [← hd]
      · simp only [Except.ok.injEq] at hd; rw [← hd]

theorem displayed_prefix (path : Path) (m : Node) (vs : List (Violation Nat Repl)) :
    (displayed env path m vs).1.map (·.base) = vs.take (displayed env path m vs).1.length := by
  induction vs with
  | nil => rfl
  | cons v vs ih =>
    simp only [displayed]
    cases hd : display env path m v with
    | error e => simp
    | ok lv =>
      have h1 : (displayed env path m [v]).2 = none := by simp [displayed, hd]
      have h2 := displayed_base env path m [v] h1
      simp only [displayed, hd, List.map_cons, List.map_nil, List.cons.injEq, and_true] at h2
      simp [ih, h2]

/-- **C39** However far the consumer goes, the values are the recorded violations in rule order and recording order, each shown with its
own diff; `k + 1` of them after `k` further steps. -/
theorem C39_yields_recorded (path : Path) (m : Node) (rules : List RuleInst) (cfg : C) (hook : Bool) (recorded : RuleInst → List (Violation Nat Repl))
    (durs : Metrics) (k : Nat) (w : World) (hv : env.visit w.files cfg m rules = .ok (recorded, durs)) :
    ((collectViolations env path m rules cfg hook).run (List.replicate k ()) w).1 = (displayed env path m (rules.flatMap recorded)).1.take (k + 1) := by
  rw [run_collect env path m rules cfg hook recorded durs _ w hv, List.length_replicate]
  by_cases hk : k < (displayed env path m (rules.flatMap recorded)).1.length
  · simp [loopStatus, hk]
  · simp only [loopStatus, hk, if_false]
    rw [List.take_of_length_le (by omega)]
    cases (displayed env path m (rules.flatMap recorded)).2 <;> rfl

/-- **C39** When every diff can be made, the values are exactly the recorded violations (same rule name, range, message, node, replacement),
each exactly once, and the return value is their number (unless the metrics hook raises). -/
theorem C39_all_and_count (path : Path) (m : Node) (rules : List RuleInst) (cfg : C) (hook : Bool) (recorded : RuleInst → List (Violation Nat Repl))
    (durs : Metrics) (k : Nat) (w : World) (hv : env.visit w.files cfg m rules = .ok (recorded, durs))
    (hd : ∀ v ∈ rules.flatMap recorded, ∃ lv, display env path m v = .ok lv) (hh : hook = true → ∀ μ, env.hookRaises μ = none)
    (hk : (rules.flatMap recorded).length ≤ k) :
    ((collectViolations env path m rules cfg hook).run (List.replicate k ()) w).1.map (·.base) = rules.flatMap recorded ∧
    ((collectViolations env path m rules cfg hook).run (List.replicate k ()) w).2.1 = .returned (rules.flatMap recorded).length := by
  have hnone : ∀ vs : List (Violation Nat Repl), (∀ v ∈ vs, ∃ lv, display env path m v = .ok lv) → (displayed env path m vs).2 = none := by
    intro vs
    induction vs with
    | nil => intro _; rfl
    | cons v vs ih =>
      intro h
      rw [List.forall_mem_cons] at h
      obtain ⟨lv, hlv⟩ := h.1
      simp only [displayed, hlv]
      exact ih h.2
  have h0 := hnone _ hd
  have hb := displayed_base env path m _ h0
  have hl : (displayed env path m (rules.flatMap recorded)).1.length = (rules.flatMap recorded).length := by
    rw [← List.length_map (f := fun (x : LintViolation) => x.base), hb]
  have ht : ∀ (rs : List RuleInst) (st : Nat × Metrics), (tally recorded rs st).1 = st.1 + (rs.flatMap recorded).length := by
    intro rs
    induction rs with
    | nil => intro st; simp [tally]
    | cons r rs ih => intro st; rw [tally, ih]; simp [tallyRule]; omega
  rw [run_collect env path m rules cfg hook recorded durs _ w hv, List.length_replicate]
  have hs : loopStatus (displayed env path m (rules.flatMap recorded)) k (tally recorded rules (0, durs)) = .returned (tally recorded rules (0, durs)) := by
    simp [loopStatus, h0]; omega
  rw [hs]
  constructor
  · exact hb
  · have := ht rules (0, durs)
    simp only [hookStatus]
    have hz : (if hook = true then env.hookRaises (dictSet totalKey (tally recorded rules (0, durs)).1 (tally recorded rules (0, durs)).2) else none) = none := by
      split
      · rename_i h; exact hh h _
      · rfl
    rw [hz]
    simp only [Nat.zero_add] at this
    simp only [this]

/-- **C39** If a rule or the metadata raises, nothing is yielded and the exception goes to the consumer. -/
theorem C39_visit_raises (path : Path) (m : Node) (rules : List RuleInst) (cfg : C) (hook : Bool) (us : List Unit) (w : World) (e : Err)
    (hv : env.visit w.files cfg m rules = .error e) : (collectViolations env path m rules cfg hook).run us w = ([], .raised e, w) := by
  unfold collectViolations look
  simp only [run, id, hv, Gen.ofExcept, Gen.bind]

/-! ## C40 -/

theorem metric_dictSet (k k' : PStr) (v : Nat) (μ : Metrics) : metric k (dictSet k' v μ) = if k' = k then v else metric k μ := by
  induction μ with
  | nil => by_cases h : k' = k <;> simp [dictSet, metric, h]
  | cons e rest ih =>
    obtain ⟨a, b⟩ := e
    simp only [dictSet]
    by_cases h1 : a = k'
    · subst h1
      by_cases h2 : a = k
      · simp [metric, h2]
      · simp [metric, h2]
    · simp only [h1, if_false, metric, ih]
      by_cases h2 : a = k
      · have : ¬ k' = k := fun e => h1 (h2.trans e.symm)
        simp [h2, this]
      · simp [h2]

theorem metric_bumps (name k : PStr) : ∀ (n : Nat) (μ : Metrics), metric k (bumps name n μ) = if fixCountKey name = k then metric k μ + n else metric k μ := by
  intro n
  induction n with
  | zero => intro μ; simp [bumps]
  | succ n ih =>
    intro μ
    rw [bumps, ih, metric_dictSet]
    by_cases h : fixCountKey name = k
    · simp [h]; omega
    · simp [h]

theorem count_ne_fix (a b : PStr) : countKey a ≠ fixCountKey b := by simp [countKey, fixCountKey]
theorem fix_ne_count (a b : PStr) : fixCountKey a ≠ countKey b := by simp [countKey, fixCountKey]
theorem countKey_inj {a b : PStr} (h : countKey a = countKey b) : a = b := by simpa [countKey] using h
theorem fixCountKey_inj {a b : PStr} (h : fixCountKey a = fixCountKey b) : a = b := by simpa [fixCountKey] using h
theorem total_eq (a : PStr) : totalKey = countKey a ↔ a = py "Total" := by
  constructor
  · intro h; exact (countKey_inj (a := py "Total") (b := a) h).symm
  · rintro rfl; rfl
theorem total_ne_fix (a : PStr) : totalKey ≠ fixCountKey a := by simp [totalKey, fixCountKey]

/-- Rules that do not share the name leave its counters alone. -/
theorem tally_other (recorded : RuleInst → List (Violation Nat Repl)) (name : PStr) : ∀ (rs : List RuleInst) (st : Nat × Metrics), name ∉ rs.map (·.name) →
    metric (countKey name) (tally recorded rs st).2 = metric (countKey name) st.2 ∧
    metric (fixCountKey name) (tally recorded rs st).2 = metric (fixCountKey name) st.2 := by
  intro rs
  induction rs with
  | nil => intro st _; exact ⟨rfl, rfl⟩
  | cons r rs ih =>
    intro st h
    simp only [List.map_cons, List.mem_cons] at h
    rw [not_or] at h
    rw [tally]
    obtain ⟨h1, h2⟩ := ih (tallyRule r.name (recorded r) (st.1, dictSet (fixCountKey r.name) 0 (dictSet (countKey r.name) (recorded r).length st.2))) h.2
    rw [h1, h2]
    have hn : ¬ r.name = name := fun e => h.1 e.symm
    have hc : ¬ countKey r.name = countKey name := fun e => hn (countKey_inj e)
    have hf : ¬ fixCountKey r.name = fixCountKey name := fun e => hn (fixCountKey_inj e)
    constructor
    · simp [tallyRule, metric_bumps, metric_dictSet, fix_ne_count, hc]
    · simp [tallyRule, metric_bumps, metric_dictSet, count_ne_fix, hf]

theorem tally_rule (recorded : RuleInst → List (Violation Nat Repl)) : ∀ (rs : List RuleInst) (st : Nat × Metrics), (rs.map (·.name)).Nodup → ∀ r ∈ rs,
    metric (countKey r.name) (tally recorded rs st).2 = (recorded r).length ∧
    metric (fixCountKey r.name) (tally recorded rs st).2 = (fixable (recorded r)).length := by
  intro rs
  induction rs with
  | nil => intro st _ r h; simp at h
  | cons a rs ih =>
    intro st hn r hr
    rw [List.map_cons, List.nodup_cons] at hn
    rw [tally]
    rw [List.mem_cons] at hr
    rcases hr with rfl | hr
    · obtain ⟨h1, h2⟩ := tally_other recorded r.name rs (tallyRule r.name (recorded r) (st.1, dictSet (fixCountKey r.name) 0 (dictSet (countKey r.name) (recorded r).length st.2))) hn.1
      rw [h1, h2]
      constructor
      · simp [tallyRule, metric_bumps, metric_dictSet, fix_ne_count]
      · simp [tallyRule, metric_bumps, metric_dictSet]
    · exact ih _ hn.2 r hr

theorem tally_count (recorded : RuleInst → List (Violation Nat Repl)) : ∀ (rs : List RuleInst) (st : Nat × Metrics),
    (tally recorded rs st).1 = st.1 + (rs.flatMap recorded).length := by
  intro rs
  induction rs with
  | nil => intro st; simp [tally]
  | cons r rs ih => intro st; rw [tally, ih]; simp [tallyRule]; omega

/-- **C40** The hook runs at most once, only when the consumer has taken every violation and asked for more and nothing raised; until then the log
is untouched, and files never change. -/
theorem C40_hook_at_the_end (path : Path) (m : Node) (rules : List RuleInst) (cfg : C) (hook : Bool) (recorded : RuleInst → List (Violation Nat Repl))
    (durs : Metrics) (k : Nat) (w : World) (hv : env.visit w.files cfg m rules = .ok (recorded, durs)) :
    let w' := ((collectViolations env path m rules cfg hook).run (List.replicate k ()) w).2.2
    w'.files = w.files ∧
    (if hook = true ∧ (displayed env path m (rules.flatMap recorded)).2 = none ∧ (displayed env path m (rules.flatMap recorded)).1.length ≤ k
      then ∃ μ, w'.log = w.log ++ [.hook μ] else w'.log = w.log) := by
  intro w'
  have hw : w' = ((collectViolations env path m rules cfg hook).run (List.replicate k ()) w).2.2 := rfl
  clear_value w'
  rw [run_collect env path m rules cfg hook recorded durs _ w hv, List.length_replicate] at hw
  by_cases hk : k < (displayed env path m (rules.flatMap recorded)).1.length
  · simp only [loopStatus, hk, if_true] at hw
    subst hw
    refine ⟨rfl, ?_⟩
    rw [if_neg (by omega)]
  · simp only [loopStatus, hk, if_false] at hw
    cases he : (displayed env path m (rules.flatMap recorded)).2 with
    | some e =>
      rw [he] at hw
      subst hw
      refine ⟨rfl, ?_⟩
      rw [if_neg (by simp)]
    | none =>
      rw [he] at hw
      subst hw
      refine ⟨rfl, ?_⟩
      cases hook with
      | false => simp [hookEvents]
      | true => simp [hookEvents, Nat.le_of_not_lt hk]

/-- **C40** What the hook gets: for rules with distinct names, the number of violations and of fixable violations of each rule, and the total.
(`Total` must not be the name of a rule, see `C41_total_overwrites_rule_count`.) -/
theorem C40_metrics_exact (path : Path) (m : Node) (rules : List RuleInst) (cfg : C) (hook : Bool) (recorded : RuleInst → List (Violation Nat Repl))
    (durs : Metrics) (k : Nat) (w : World) (hv : env.visit w.files cfg m rules = .ok (recorded, durs)) (hn : (rules.map (·.name)).Nodup)
    (μ : Metrics) (hl : ((collectViolations env path m rules cfg hook).run (List.replicate k ()) w).2.2.log = w.log ++ [.hook μ]) :
    metric (py "Count.Total") μ = (rules.flatMap recorded).length ∧
    ∀ r ∈ rules, metric (py "FixCount." ++ r.name) μ = (fixable (recorded r)).length ∧
      (r.name ≠ py "Total" → metric (py "Count." ++ r.name) μ = (recorded r).length) := by
  rw [run_collect env path m rules cfg hook recorded durs _ w hv, List.length_replicate] at hl
  by_cases hk : k < (displayed env path m (rules.flatMap recorded)).1.length
  · simp [loopStatus, hk] at hl
  · simp only [loopStatus, hk, if_false] at hl
    cases he : (displayed env path m (rules.flatMap recorded)).2 with
    | some e => rw [he] at hl; simp at hl
    | none =>
      rw [he] at hl
      simp only at hl
      cases hook with
      | false => simp [hookEvents] at hl
      | true =>
        simp only [hookEvents, if_true, List.append_cancel_left_eq, List.cons.injEq, Event.hook.injEq, and_true] at hl
        subst hl
        constructor
        · show metric totalKey _ = _
          rw [metric_dictSet, if_pos rfl, tally_count]
          simp
        · intro r hr
          obtain ⟨h1, h2⟩ := tally_rule recorded rules (0, durs) hn r hr
          constructor
          · show metric (fixCountKey r.name) _ = _
            rw [metric_dictSet, if_neg (total_ne_fix _), h2]
          · intro ht
            show metric (countKey r.name) _ = _
            rw [metric_dictSet, if_neg (fun e => ht ((total_eq _).1 e)), h1]

/-! ## C41 -/

/-- **C41** With distinct names, none of them `Total`, the per-rule counts add up to the total. -/
theorem C41_counts_add_up (path : Path) (m : Node) (rules : List RuleInst) (cfg : C) (hook : Bool) (recorded : RuleInst → List (Violation Nat Repl))
    (durs : Metrics) (k : Nat) (w : World) (hv : env.visit w.files cfg m rules = .ok (recorded, durs)) (hn : (rules.map (·.name)).Nodup)
    (ht : py "Total" ∉ rules.map (·.name))
    (μ : Metrics) (hl : ((collectViolations env path m rules cfg hook).run (List.replicate k ()) w).2.2.log = w.log ++ [.hook μ]) :
    (rules.map (fun r => metric (py "Count." ++ r.name) μ)).sum = metric (py "Count.Total") μ := by
  obtain ⟨h1, h2⟩ := C40_metrics_exact env path m rules cfg hook recorded durs k w hv hn μ hl
  rw [h1, List.length_flatMap]
  congr 1
  apply List.map_congr_left
  intro r hr
  exact (h2 r hr).2 (fun e => ht (List.mem_map.2 ⟨r, hr, e⟩))

/-- A small environment for examples: rule `i` records `n i` violations without fixes. -/
def countEnv (rules : List RuleInst) (n : RuleInst → Nat) : Env Unit where
  resolve := id
  config := fun _ _ => .ok ()
  collect := fun _ _ => .ok rules
  parse := fun _ => .ok (.mk 0 false false .nil)
  visit := fun _ _ _ _ => .ok (fun r => List.replicate (n r) ⟨r.name, ⟨⟨1, 0⟩, ⟨1, 1⟩⟩, py "msg", 0, none⟩, [])
  unifiedDiff := fun _ _ _ => .ok []
  hookRaises := fun _ => none
  formatter := fun _ => none
  styles := []
  bytes := fun _ => .ok []
  readRaises := fun _ => none
  openRaises := fun _ => none
  writeRaises := fun _ _ => none
  stdin := .ok []
  stdoutRaises := fun _ => none

/-- The hook calls of a log. -/
def hookCalls (l : List Event) : List Metrics := l.filterMap (fun e => match e with | .hook μ => some μ | _ => none)

/-- (finding) The metrics are keyed by the rule's name without the `Rule` suffix, so two rules `Foo` and `FooRule` share their counters: the second
overwrites the first and the counts no longer add up to the total. -/
theorem C41_shared_name_overwrites :
    let rules : List RuleInst := [⟨0, ruleName (py "Foo")⟩, ⟨1, ruleName (py "FooRule")⟩]
    let env := countEnv rules (fun r => if r.id = 0 then 2 else 1)
    hookCalls ((collectViolations env [] (.mk 0 false false .nil) rules () true).run (List.replicate 3 ()) ⟨fun _ => none, []⟩).2.2.log =
      [[(py "Count.Foo", 1), (py "FixCount.Foo", 0), (py "Count.Total", 3)]] := by
  rfl

/-- (finding) A rule called `Total` (or `TotalRule`) loses its own count. -/
theorem C41_total_overwrites_rule_count :
    let rules : List RuleInst := [⟨0, py "Total"⟩, ⟨1, py "A"⟩]
    let env := countEnv rules (fun _ => 1)
    hookCalls ((collectViolations env [] (.mk 0 false false .nil) rules () true).run (List.replicate 3 ()) ⟨fun _ => none, []⟩).2.2.log =
      [[(py "Count.Total", 2), (py "FixCount.Total", 0), (py "Count.A", 1), (py "FixCount.A", 0)]] := by
  rfl

/-- The hypotheses of C39–C41 are met by a run with two rules and three violations. -/
example :
    let rules : List RuleInst := [⟨0, py "A"⟩, ⟨1, py "B"⟩]
    let env := countEnv rules (fun r => r.id + 1)
    (rules.map (·.name)).Nodup ∧ py "Total" ∉ rules.map (·.name) ∧
    hookCalls ((collectViolations env [] (.mk 0 false false .nil) rules () true).run (List.replicate 3 ()) ⟨fun _ => none, []⟩).2.2.log =
      [[(py "Count.A", 1), (py "FixCount.A", 0), (py "Count.B", 2), (py "FixCount.B", 0), (py "Count.Total", 3)]] := by
  refine ⟨by decide, by decide, rfl⟩

/-- With one answer only, two violations were handed out and the hook has not run. -/
example :
    let rules : List RuleInst := [⟨0, py "A"⟩, ⟨1, py "B"⟩]
    let env := countEnv rules (fun r => r.id + 1)
    let out := (collectViolations env [] (.mk 0 false false .nil) rules () true).run [()] ⟨fun _ => none, []⟩
    out.1.map (·.base.ruleName) = [py "A", py "B"] ∧ hookCalls out.2.2.log = [] := by
  exact ⟨rfl, rfl⟩

/-! ## C38 -/

theorem mem_displayed {C : Type} (env : Env C) (path : Path) (m : Node) : ∀ (vs : List (Violation Nat Repl)) (lv : LintViolation), lv ∈ (displayed env path m vs).1 →
    ∃ v ∈ vs, display env path m v = .ok lv
  | [], lv, h => by simp [displayed] at h
  | v :: vs, lv, h => by
    unfold displayed at h
    cases hd : display env path m v with
    | error e => rw [hd] at h; cases h
    | ok x =>
      rw [hd] at h
      rcases List.mem_cons.mp h with rfl | h
      · exact ⟨v, List.mem_cons_self, hd⟩
      · obtain ⟨u, hu, hu'⟩ := mem_displayed env path m vs lv h
        exact ⟨u, List.mem_cons_of_mem _ hu, hu'⟩

/-- **C38** Every violation handed out by `collect_violations` that has a replacement (not an empty `FlattenSentinel`) carries the diff between the file and the file with only its own fix
applied; a violation without one carries no diff. -/
theorem C38_shown {C : Type} (env : Env C) (path : Path) (m : Node) (rules : List RuleInst) (cfg : C) (hook : Bool) (recorded : RuleInst → List (Violation Nat Repl))
    (durs : Metrics) (k : Nat) (w : World) (hv : env.visit w.files cfg m rules = .ok (recorded, durs)) (lv : LintViolation)
    (h : lv ∈ ((collectViolations env path m rules cfg hook).run (List.replicate k ()) w).1) :
    (lv.base.replacement = none → lv.diff = []) ∧
    ∀ r, lv.base.replacement = some r → (r = .flatten [] → lv.diff = []) ∧
      (r ≠ .flatten [] → ∃ m', applyReplacements m [⟨lv.base.node, some r⟩] = .ok m' ∧ env.unifiedDiff (moduleCode m) (moduleCode m') path = .ok lv.diff) := by
  rw [C39_yields_recorded env path m rules cfg hook recorded durs k w hv] at h
  obtain ⟨v, -, hd⟩ := mem_displayed env path m _ lv (List.mem_of_mem_take h)
  unfold display at hd
  cases hr : v.replacement with
  | none =>
    rw [hr] at hd
    simp only [Fix.usable, Option.isSome_none, Bool.false_eq_true, if_false] at hd
    cases hd
    exact ⟨fun _ => rfl, fun r h => by rw [hr] at h; cases h⟩
  | some r =>
    rw [hr] at hd
    by_cases ht : r = .flatten []
    · subst ht
      simp [Fix.usable, Repl.truthy] at hd
      subst hd
      exact ⟨fun _ => rfl, fun r h => ⟨fun _ => rfl, fun hn => by rw [hr] at h; cases h; exact absurd rfl hn⟩⟩
    · have htr : r.truthy = true := by
        cases r with
        | flatten l => cases l with
          | nil => exact absurd rfl ht
          | cons a l => rfl
        | _ => rfl
      simp only [Fix.usable, htr, if_true, Option.isSome_some] at hd
      cases ha : applyReplacements m [⟨v.node, some r⟩] with
      | error e => rw [ha] at hd; cases hd
      | ok m' =>
        rw [ha] at hd
        simp only [Bind.bind, Except.bind] at hd
        cases hu : env.unifiedDiff (moduleCode m) (moduleCode m') path with
        | error e => rw [hu] at hd; cases hd
        | ok d =>
          rw [hu] at hd
          cases hd
          refine ⟨fun h => by rw [hr] at h; (cases h), fun r' h => ?_⟩
          rw [hr] at h
          cases h
          exact ⟨fun h => absurd h ht, fun _ => ⟨m', ha, hu⟩⟩

end Fixit
