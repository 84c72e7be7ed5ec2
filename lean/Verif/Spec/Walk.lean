import Verif.Model.Walk
import Verif.Spec.System

/-!
# What a rule records
-/

namespace Spec
open Py Fixit Cst

section
variable {V M : Type} (o : Outside V M)

/-- What is recorded when the rule of class `k` makes these calls, in this order: a violation for each that is not silenced. -/
inductive Recorded (m : Node) (k : Nat) : List ReportCall → List (Violation Nat Repl) → Prop
  | nil : Recorded m k [] []
  | silenced (call : ReportCall) (calls : List ReportCall) (vs : List (Violation Nat Repl)) (h : Silenced o m call.node (ruleName (o.className k))) (rest : Recorded m k calls vs) :
      Recorded m k (call :: calls) vs
  | says (call : ReportCall) (calls : List ReportCall) (v : Violation Nat Repl) (vs : List (Violation Nat Repl)) (h : ¬ Silenced o m call.node (ruleName (o.className k)))
      (hs : Says o m k call v) (rest : Recorded m k calls vs) : Recorded m k (call :: calls) (v :: vs)

/-- These are the violations as they are shown, one by one. -/
inductive Shown {C : Type} (env : Env C) (path : Path) (m : Node) : List (Violation Nat Repl) → List LintViolation → Prop
  | nil : Shown env path m [] []
  | cons (v : Violation Nat Repl) (vs : List (Violation Nat Repl)) (lv : LintViolation) (lvs : List LintViolation) (h : display env path m v = .ok lv)
      (rest : Shown env path m vs lvs) : Shown env path m (v :: vs) (lv :: lvs)

/-- No two selected classes have the same rule name. -/
def NamesApart (files : Path → Option Bytes) (cfg : Config V) : Prop :=
  ∀ k k', Active o files cfg k → Active o files cfg k' → ruleName (o.className k) = ruleName (o.className k') → k = k'

/-- The violations that carry the name of the rule of class `k`. -/
def ofRule (k : Nat) (lvs : List LintViolation) : List LintViolation := lvs.filter (fun lv => lv.base.ruleName = ruleName (o.className k))

/-- The same program in a process where Python's sets are iterated in other orders (another `PYTHONHASHSEED`, or classes at other addresses): of the classes in
`collect_rules` and of the references in `merge_configs`. -/
def _root_.Fixit.Outside.reordered (ro : List Nat → List Nat) (co : List QualifiedRule → List QualifiedRule) : Outside V M := { o with ruleOrder := ro, configOrder := co }

end

/-- What preparing the metadata raises depends on the set of providers only. -/
structure ProviderSets (v : Visits) : Prop where
  repo : ∀ files root path ps ps', (∀ p : Nat, p ∈ ps ↔ p ∈ ps') → v.repoRaises files root path ps = v.repoRaises files root path ps'
  resolve : ∀ files root path m ps ps', (∀ p : Nat, p ∈ ps ↔ p ∈ ps') → v.resolveRaises files root path m ps = v.resolveRaises files root path m ps'

end Spec
