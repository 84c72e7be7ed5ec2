import Verif.Props.Reordered
import Verif.Props.WalkCases

/-!
# Concrete runs for C136
-/

namespace Fixit
open Py Spec Gen Cst

theorem toyVisits_sets (third : VRule) : ProviderSets (toyVisits third) := ⟨fun _ _ _ _ _ _ => rfl, fun _ _ _ _ _ _ _ => rfl⟩

def reversedFound (options : Options) : List (PStr × PStr × Nat) :=
  (foundIn (((toyOutside.reordered List.reverse List.reverse).walking (toyVisits raisingRule)).env (some options)) (systemWorld abcu).files [py "root", py "f"]).map
    (fun v => (v.base.ruleName, v.base.message, v.base.range.start.column))

/-- C136: the other order shows. -/
example : reversedFound bothOptions = [(py "Other", py "see a", 1), (py "Toy", py "found", 2)] := by decide +kernel
example : walkFound raisingRule bothOptions = [(py "Toy", py "found", 2), (py "Other", py "see a", 1)] := by decide +kernel

/-- C136: the hypotheses are met; the two processes leave the same content. -/
example : (alone (((toyOutside.reordered List.reverse List.reverse).walking (toyVisits raisingRule)).env (some bothOptions)) true false (systemWorld abcu) [py "f"]).1.Perm
      (alone ((toyOutside.walking (toyVisits raisingRule)).env (some bothOptions)) true false (systemWorld abcu) [py "f"]).1 ∧
    (alone (((toyOutside.reordered List.reverse List.reverse).walking (toyVisits raisingRule)).env (some bothOptions)) true false (systemWorld abcu) [py "f"]).2.2.files =
      (alone ((toyOutside.walking (toyVisits raisingRule)).env (some bothOptions)) true false (systemWorld abcu) [py "f"]).2.2.files :=
  C136_fix toyOutside (toyVisits raisingRule) (fun l => .refl l) (fun l => .refl l) List.reverse List.reverse_perm List.reverse List.reverse_perm (toyVisits_sets _)
    (some bothOptions) (systemWorld abcu) [py "f"] abcu bothConfig abcuNode (both_lints _ raisingRule_keeps) (fun k _ => toyVisits_keeps _ raisingRule_keeps _ _ _ _ k) false
    (fun e => by cases e) (by decide +kernel)
example : (alone (((toyOutside.reordered List.reverse List.reverse).walking (toyVisits raisingRule)).env (some bothOptions)) true false (systemWorld abcu) [py "f"]).2.2.files [py "root", py "f"] =
    some [97, 66, 99, 117] := by decide +kernel

/-- The rule that reports names with this text, to replace them by another name. -/
def renameRule (text new : PStr) : VRule where
  State := Unit
  init := ()
  methods := [py "visit_Name"]
  on := fun st n e => match e with
    | .visit i (.name s) => .ok (st, n, if s = text then [⟨i, none, some (.rename new)⟩] else [])
    | _ => .ok (st, n, [])

/-- The replacement for a name. -/
def renamed : Change → Repl
  | .rename s => .node (toyLeaf 99 (if s = py "Z" then 90 else 66))
  | _ => .node (toyLeaf 99 66)

/-- Two rules with a fix for the same names. -/
def clashVisits : Visits where
  rule := fun _ _ _ _ k => if k = 0 then renameRule (py "b") (py "B") else renameRule (py "b") (py "Z")
  syn := fun m => .node 0 .module (nameSyns 1 (toyBytes m))
  names := fun _ _ _ _ _ => []
  deps := fun _ => []
  genCache := fun _ => false
  repoRaises := fun _ _ _ _ => none
  resolveRaises := fun _ _ _ _ _ => none
  replacement := fun _ _ c => renamed c
  clock := fun _ _ => []

/-- What `fixit fix --automatic` leaves of the file in a process with this order. -/
def clashContent (ro : List Nat → List Nat) : Option Bytes :=
  (alone (((toyOutside.reordered ro id).walking clashVisits).env (some bothOptions)) true false (systemWorld abcu) [py "f"]).2.2.files [py "root", py "f"]

/-- C136: without the hypothesis the fixed file depends on the process: of two fixes for one node only one is applied, that of the rule that comes last. -/
theorem C136_clash : clashContent id = some [97, 90, 99, 117] ∧ clashContent List.reverse = some [97, 66, 99, 117] := by decide +kernel

end Fixit
