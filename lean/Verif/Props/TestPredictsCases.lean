import Verif.Props.TestPredicts
import Verif.Props.WalkCases
import Verif.Props.TestingFix

/-!
# Concrete runs for C141
-/

namespace Fixit
open Py Spec Gen Cst

/-- `fixit test` in `/work`. -/
def workBench : Bench (Config Nat) where
  cwd := [py "work"]
  config := fun p => ⟨p, [py "work"], .off, [], [], [], some 12, {}, none, .fixit, .str []⟩
  encode := fun s => .ok (benchEncode s)
  decode := fun b => .ok (benchDecode b)
  noneNode := .other 9

/-- There is nothing in `/work`. -/
def emptyWork : World := ⟨fun _ => none, []⟩

/-- The third rule reports names `z`. -/
def zRule : VRule := nameRule [py "z"] none false

def tested (t : Case) (k : Nat) : Except Failure Unit := testMethod ((toyOutside.walking (toyVisits zRule)).env none) workBench emptyWork t (toyOutside.inst k)

theorem toy_onlyCode (third : VRule) (m : Node) (k : Nat) : OnlyCode (toyVisits third) m k := ⟨fun _ _ _ _ _ _ => rfl, fun _ _ _ _ _ _ => rfl⟩

/-- The three cases that pass, and one that does not. -/
theorem tested_valid : tested (.valid (py "\n    abcu")) 2 = .ok () := by rfl

def invalidA : Invalid := { code := py "abcu", range := some ⟨⟨1, 1⟩, ⟨1, 2⟩⟩, message := some (py "see a") }
def invalidB : Invalid := { code := py "  abcu", message := some (py "found"), replacement := some (py "aBcu") }

theorem tested_invalid : tested (.invalid invalidA) 1 = .ok () := by rfl
theorem tested_fix : tested (.invalid invalidB) 0 = .ok () := by rfl
example : ∃ x, tested (.valid (py "abcu")) 0 = .error (.assertion (.reports [x])) := ⟨_, rfl⟩

theorem z_keeps : KeepsMetadata zRule := nameRule_keeps _ _ _

theorem z_lints : Lints (toyOutside.walking (toyVisits zRule)) (some allOptions) (systemWorld abcu).files [py "root", py "f"] abcu allConfig abcuNode :=
  C116_lints toyOutside (toyVisits zRule) (fun l => .refl l) (some allOptions) _ _ abcu _ _ abcuNode (by decide) rfl all_config rfl rfl
    (fun k _ => toyVisits_keeps _ z_keeps _ _ _ _ k) (fun _ => rfl) (fun _ => rfl) (fun k hk => by
      rcases (all_active k).mp hk with rfl | rfl | rfl
      · exact toy_reports _ 0 (.inl rfl) _
      · exact toy_reports _ 1 (.inr rfl) _
      · exact ⟨[], rfl, fun rep hrep => by cases hrep⟩)

theorem all_apart : NamesApart toyOutside (systemWorld abcu).files allConfig := by
  intro k k' h h' hn
  rcases (all_active k).mp h with rfl | rfl | rfl <;> rcases (all_active k').mp h' with rfl | rfl | rfl
  all_goals first | rfl | exact absurd hn (by decide +kernel)

theorem z_inProject (code : PStr) (h : benchEncode (dedent code) = abcu) (k : Nat) (hk : k = 0 ∨ k = 1 ∨ k = 2) :
    InProject toyOutside (toyVisits zRule) workBench (some allOptions) (systemWorld abcu).files [py "root", py "f"] code allConfig abcuNode k :=
  ⟨⟨abcu, by rw [← h]; rfl, z_lints⟩, (all_active k).mpr hk, fun k' _ => toyVisits_keeps _ z_keeps _ _ _ _ k'⟩

/-- C141: the hypotheses of `C141_valid` are met, with two other rules that find something in the file. -/
example : ofRule toyOutside 2 (foundIn ((toyOutside.walking (toyVisits zRule)).env (some allOptions)) (systemWorld abcu).files [py "root", py "f"]) = [] :=
  C141_valid toyOutside (toyVisits zRule) (fun l => .refl l) workBench tested_valid (z_inProject _ (by decide) 2 (.inr (.inr rfl))) (toy_onlyCode _ _ _) all_apart

example : (foundIn ((toyOutside.walking (toyVisits zRule)).env (some allOptions)) (systemWorld abcu).files [py "root", py "f"]).length = 2 := by decide +kernel

/-- C141: and those of `C141_invalid`. -/
example : ofRule toyOutside 1 (foundIn ((toyOutside.walking (toyVisits zRule)).env (some allOptions)) (systemWorld abcu).files [py "root", py "f"]) ≠ [] ∧
    ∀ lv ∈ ofRule toyOutside 1 (foundIn ((toyOutside.walking (toyVisits zRule)).env (some allOptions)) (systemWorld abcu).files [py "root", py "f"]), AsExpected invalidA lv.base :=
  C141_invalid toyOutside (toyVisits zRule) (fun l => .refl l) workBench rfl tested_invalid (z_inProject _ (by decide) 1 (.inr (.inl rfl))) (toy_onlyCode _ _ _) all_apart

/-- C141: and those of `C141_fix`: only the first rule is selected, and the file is fixed as the case says. -/
example : ∃ b, workBench.decode b = .ok (dedent (py "aBcu")) ∧
    (b ≠ [] → (alone ((toyOutside.walking (toyVisits zRule)).env (some {})) true false (systemWorld abcu) [py "f"]).2.2.files =
      fun q => if q = [py "root", py "f"] then some b else (systemWorld abcu).files q) ∧
    (b = [] → (alone ((toyOutside.walking (toyVisits zRule)).env (some {})) true false (systemWorld abcu) [py "f"]).2.2.files = (systemWorld abcu).files) :=
  (C141_fix toyOutside (toyVisits zRule) (fun l => .refl l) workBench (topts := none) (options := some {}) (w := emptyWork) (k := 0) (i := invalidB) (wp := systemWorld abcu) (p := [py "f"])
    tested_fix rfl (by decide)
    ⟨⟨abcu, rfl, one_lints _ z_keeps⟩, (one_active 0).mpr rfl, fun k' _ => toyVisits_keeps _ z_keeps _ _ _ _ k'⟩ (toy_onlyCode _ _ _)
    (fun k' hk => (one_active k').mp hk) rfl rfl (fun _ => rfl) false (fun h => by cases h)).2

example : ((alone ((toyOutside.walking (toyVisits zRule)).env (some {})) true false (systemWorld abcu) [py "f"]).2.2.files [py "root", py "f"]) = some [97, 66, 99, 117] := by decide +kernel

/-- A rule that reports only in the directory `/work`. -/
def workRule : Visits := { toyVisits zRule with rule := fun _ root _ _ _ => if root = [py "work"] then nameRule [py "b"] none true else nameRule [] none true }

/-- C141: the condition on the rule is needed. Metadata can depend on where the file is, and `fixit test` lints its code as `invalid.py` in the working directory. -/
theorem C141_elsewhere : testMethod ((toyOutside.walking workRule).env none) workBench emptyWork (.invalid invalidB) (toyOutside.inst 0) = .ok () ∧
    foundIn ((toyOutside.walking workRule).env (some {})) (systemWorld abcu).files [py "root", py "f"] = [] := ⟨rfl, List.length_eq_zero_iff.mp (by decide +kernel)⟩

end Fixit
