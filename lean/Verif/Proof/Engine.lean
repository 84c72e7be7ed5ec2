import Verif.Spec.Engine
import Verif.Proof.Gen
import Verif.Props.Engine

/-!
# The loops of `collect_violations`
-/

namespace Fixit
open Py Spec Gen

variable {C : Type} (env : Env C)

theorem diffViolation_eq (path : Path) (m : Node) (v : Violation Nat Repl) (r : Repl) (h : (⟨v.node, v.replacement⟩ : Fix).usable = some r) :
    display env path m v = (diffViolation env path m v.node r).map (fun d => ⟨v, d⟩) := by
  obtain ⟨r', h1, h2⟩ : ∃ r', v.replacement = some r' ∧ r'.truthy = true ∧ r' = r := by
    unfold Fix.usable at h
    cases hv : v.replacement with
    | none => simp [hv] at h
    | some r' =>
      simp only [hv] at h
      by_cases ht : r'.truthy = true
      · simp only [ht, if_true, Option.some.injEq] at h
        exact ⟨r', rfl, ht, h⟩
      · simp [ht] at h
  obtain ⟨ht, rfl⟩ := h2
  unfold display diffViolation
  rw [h]; simp only [Option.isSome_some, if_true]; rw [C38_diff_is_single_fix m ⟨v.node, v.replacement⟩ r' h1 ht]
  cases applyReplacements m [⟨v.node, v.replacement⟩] with
  | error e => rfl
  | ok m' =>
    simp only [Except.map, Bind.bind, Except.bind]
    cases env.unifiedDiff (moduleCode m) (moduleCode m') path <;> rfl

theorem display_none (path : Path) (m : Node) (v : Violation Nat Repl) (h : (⟨v.node, v.replacement⟩ : Fix).usable = none) :
    display env path m v = .ok ⟨v, []⟩ := by
  unfold display
  rw [h]; rfl

/-- The metrics after one rule. -/
def bumps (name : PStr) : Nat → Metrics → Metrics
  | 0, μ => μ
  | n + 1, μ => bumps name n (dictSet (fixCountKey name) (metric (fixCountKey name) μ + 1) μ)

/-- What the loops return, by pure recursion. -/
def tallyRule (name : PStr) (vs : List (Violation Nat Repl)) (st : Nat × Metrics) : Nat × Metrics :=
  (st.1 + vs.length, bumps name (fixable vs).length st.2)

def tally (recorded : RuleInst → List (Violation Nat Repl)) : List RuleInst → Nat × Metrics → Nat × Metrics
  | [], st => st
  | r :: rs, st => tally recorded rs
      (tallyRule r.name (recorded r) (st.1, dictSet (fixCountKey r.name) 0 (dictSet (countKey r.name) (recorded r).length st.2)))

/-- The status of a loop that shows `D` and would return `r`, after `k` answers. -/
def loopStatus {R : Type} (D : List LintViolation × Option Err) (k : Nat) (r : R) : Status R :=
  if k < D.1.length then .suspended else match D.2 with
    | some e => .raised e
    | none => .returned r

theorem run_violationLoop (path : Path) (m : Node) (name : PStr) : ∀ (vs : List (Violation Nat Repl)) (st : Nat × Metrics) (us : List Unit) (w : World),
    (violationLoop env path m name vs st).run us w =
      ((displayed env path m vs).1.take (us.length + 1), loopStatus (displayed env path m vs) us.length (tallyRule name vs st), w)
  | [], (n, μ), us, w => by simp [violationLoop, run, displayed, loopStatus, tallyRule, fixable, bumps]
  | v :: vs, (n, μ), us, w => by
    unfold violationLoop
    cases hu : (⟨v.node, v.replacement⟩ : Fix).usable with
    | none =>
      have hd := display_none env path m v hu
      have hf : fixable (v :: vs) = fixable vs := by unfold fixable; rw [List.filter_cons_of_neg (by simp [hu])]
      cases us with
      | nil => simp [run, displayed, hd, loopStatus]
      | cons u us =>
        simp only [run, displayed, hd]
        rw [run_violationLoop path m name vs]
        simp [loopStatus, tallyRule, hf, Nat.add_assoc, Nat.add_comm 1]
    | some r =>
      have hd := diffViolation_eq env path m v r hu
      have hf : fixable (v :: vs) = v :: fixable vs := by unfold fixable; rw [List.filter_cons_of_pos (by simp [hu])]
      cases hdv : diffViolation env path m v.node r with
      | error e =>
        rw [hdv] at hd
        simp [hdv, run, displayed, hd, Except.map, loopStatus]
      | ok d =>
        rw [hdv] at hd
        simp only [Except.map] at hd
        cases us with
        | nil => simp [hdv, run, displayed, hd, loopStatus]
        | cons u us =>
          simp only [hdv, run, displayed, hd]
          rw [run_violationLoop path m name vs]
          simp [loopStatus, tallyRule, hf, bumps, Nat.add_assoc, Nat.add_comm 1]

theorem displayed_append (path : Path) (m : Node) (a b : List (Violation Nat Repl)) :
    displayed env path m (a ++ b) = match (displayed env path m a).2 with
      | some e => ((displayed env path m a).1, some e)
      | none => ((displayed env path m a).1 ++ (displayed env path m b).1, (displayed env path m b).2) := by
  induction a with
  | nil => simp [displayed]
  | cons v vs ih =>
    simp only [List.cons_append, displayed]
    cases display env path m v with
    | error e => rfl
    | ok lv =>
      simp only [ih]
      cases (displayed env path m vs).2 <;> rfl

theorem run_ruleLoop (path : Path) (m : Node) (recorded : RuleInst → List (Violation Nat Repl)) : ∀ (rs : List RuleInst) (st : Nat × Metrics) (us : List Unit) (w : World),
    (ruleLoop env path m recorded rs st).run us w =
      ((displayed env path m (rs.flatMap recorded)).1.take (us.length + 1),
        loopStatus (displayed env path m (rs.flatMap recorded)) us.length (tally recorded rs st), w)
  | [], st, us, w => by simp [ruleLoop, run, displayed, loopStatus, tally]
  | r :: rs, (n, μ), us, w => by
    rw [ruleLoop, run_bind, run_violationLoop, List.flatMap_cons, displayed_append]
    generalize hD : displayed env path m (recorded r) = D
    obtain ⟨good, err⟩ := D
    by_cases hk : us.length < good.length
    · have h1 : loopStatus (good, err) us.length (tallyRule r.name (recorded r) (n, dictSet (fixCountKey r.name) 0 (dictSet (countKey r.name) (recorded r).length μ))) = .suspended := by
        simp [loopStatus, hk]
      rw [h1]
      cases err with
      | some e => simp [loopStatus, hk]
      | none =>
        simp only [loopStatus, List.length_append]
        rw [if_pos (by omega), List.take_append_of_le_length (by omega)]
    · cases err with
      | some e => simp [loopStatus, hk]
      | none =>
        simp only [loopStatus, hk, if_false]
        rw [run_ruleLoop path m recorded rs]
        have h2 : good.take (us.length + 1) = good := List.take_of_length_le (by omega)
        simp only [h2, List.length_drop]
        rw [List.take_append, h2]
        have h3 : us.length + 1 - good.length = us.length - good.length + 1 := by omega
        rw [h3]
        simp only [tally, loopStatus, List.length_append]
        by_cases hj : us.length - good.length < (displayed env path m (rs.flatMap recorded)).1.length
        · rw [if_pos hj, if_pos (by omega)]
        · rw [if_neg hj, if_neg (by omega)]

end Fixit
