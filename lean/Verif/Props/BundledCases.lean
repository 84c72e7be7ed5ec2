import Verif.Props.BundledSystem
import Verif.Props.WalkCases
import Verif.Props.RulesIsinstanceCases

/-!
# A file for C121
-/

namespace Cst
open Py Fixit Spec

mutual
/-- The nodes and their kinds. -/
def Syn.kindList : Syn → List (Nat × PStr)
  | .node i l ks => (i, l.typeName) :: Syn.kindLists ks
def Syn.kindLists : List Syn → List (Nat × PStr)
  | [] => []
  | k :: ks => k.kindList ++ Syn.kindLists ks
end

mutual
/-- The nodes that are first children, with their parents. -/
def Syn.firstList : Syn → List (Nat × Nat)
  | .node i _ ks => (match ks with | [] => [] | k :: _ => [(k.id, i)]) ++ Syn.firstLists ks
def Syn.firstLists : List Syn → List (Nat × Nat)
  | [] => []
  | k :: ks => k.firstList ++ Syn.firstLists ks
end

theorem kindLists_append (a b : List Syn) : Syn.kindLists (a ++ b) = Syn.kindLists a ++ Syn.kindLists b := by
  induction a with
  | nil => rfl
  | cons x a ih => rw [List.cons_append, Syn.kindLists, ih, Syn.kindLists, List.append_assoc]

theorem firstLists_append (a b : List Syn) : Syn.firstLists (a ++ b) = Syn.firstLists a ++ Syn.firstLists b := by
  induction a with
  | nil => rfl
  | cons x a ih => rw [List.cons_append, Syn.firstLists, ih, Syn.firstLists, List.append_assoc]

theorem kind_mem {way : List Frame} {n t : Syn} (h : At way n t) : (n.id, n.label.typeName) ∈ t.kindList := by
  induction h with
  | here t => cases t; simp [Syn.id, Syn.label, Syn.kindList]
  | down i l before after k way n h ih => rw [Syn.kindList, kindLists_append, Syn.kindLists]; simp [ih]

theorem first_mem {i p : Nat} {t : Syn} (h : FirstChild t i p) : (i, p) ∈ t.firstList := by
  obtain ⟨way, f, l, ks, hat, rfl, hb⟩ := h
  have key : ∀ (way : List Frame) (n t : Syn), At (way ++ [f]) n t → (n.id, f.id) ∈ t.firstList := by
    intro way
    induction way with
    | nil =>
      intro n t hat
      cases hat with
      | down j l' before after k way' _ h =>
        cases h
        have hb : before = [] := hb
        subst hb
        rw [Syn.firstList.eq_def]
        simp
    | cons g way ih =>
      intro n t hat
      cases hat with
      | down j l' before after k way' _ h =>
        rw [Syn.firstList.eq_def]
        simp only
        rw [firstLists_append, Syn.firstLists]
        simp [ih _ _ h]
  exact key way _ t hat

end Cst

namespace Fixit
open Py Spec Gen Cst

/-- `isinstance(x, A) or isinstance(x, B) or z`, the same without `z` in a line that is silenced, and a comment `# NoQA: E501`. -/
def caseTree : Syn :=
  .node 0 .module
    [.node 1 (.other (py "BooleanOperation")) [.node 2 (.other (py "BooleanOperation")) [.node 10 (.other (py "Call")) [], .node 11 (.other (py "Call")) []], .node 12 (.other (py "Name")) []],
     .node 3 (.other (py "BooleanOperation")) [.node 13 (.other (py "Call")) [], .node 14 (.other (py "Call")) []],
     .node 4 (.other (py "Comment")) []]

def caseShort : Expr := .bool .or (chk (py "A")) (chk (py "B"))
def caseLong : Expr := .bool .or caseShort (nm (py "z"))

/-- What the rules see of it. -/
noncomputable def caseLooks : Looks where
  root := caseTree
  expr := fun i => if i = 1 then caseLong else caseShort
  handlers := fun _ => []
  test := fun _ => nm []
  fstring := fun _ => ⟨[], [], []⟩
  percent := fun _ => none
  decorators := fun _ => []
  lines := fun _ => []
  annotation := fun _ => .other
  method := fun _ => ⟨[], [], 0, [], [], [], []⟩
  hasScope := fun _ => true
  around := fun _ => []
  fresh := fun _ => 0
  comment := fun _ => py "# NoQA: E501"
  qual := fun _ => []
  names := fun _ s => if s = py "None" ∨ s = py "True" ∨ s = py "False" then [(py "builtins." ++ s, true)] else []
  isinstance := fun _ => ⟨fun a b => @decide (a = b) (Classical.propDecidable _), nameOracle.isBuiltin⟩
  spine := fun i => if i = 1 then [1, 2] else [i]
  isClassmethod := fun _ => false
  isDataclass := fun _ => false
  isNamedTuple := fun _ => false
  scope := fun _ => .ok none
  optionalKnown := fun _ => false
  code := fun _ => []
  fullName := fun _ => none
  value := fun _ => .ok (.inl [])
  decoded := fun _ => .ok []
  parse := fun _ => none

theorem case_kind {kind : PStr} {i : Nat} (h : OfKind caseTree kind i) : (i, kind) ∈ caseTree.kindList := by
  obtain ⟨way, l, ks, hat, rfl⟩ := h
  exact kind_mem hat

theorem case_bool {i : Nat} : OfKind caseTree (py "BooleanOperation") i ↔ i = 1 ∨ i = 2 ∨ i = 3 := by
  constructor
  · intro h
    have := case_kind h
    simp [caseTree, Syn.kindList, Syn.kindLists, Label.typeName] at this
    exact this
  · rintro (rfl | rfl | rfl)
    · exact ⟨_, _, _, .down 0 _ [] _ _ _ _ (.here _), rfl⟩
    · exact ⟨_, _, _, .down 0 _ [] _ _ _ _ (.down 1 _ [] _ _ _ _ (.here _)), rfl⟩
    · exact ⟨_, _, _, .down 0 _ [_] _ _ _ _ (.here _), rfl⟩

theorem case_isOr (i : Nat) (h : i = 1 ∨ i = 2 ∨ i = 3) : IsOr caseLooks caseTree i := by
  refine ⟨case_bool.mpr h, ?_⟩
  rcases h with rfl | rfl | rfl <;> exact ⟨_, _, rfl⟩

theorem case_first {i p : Nat} (h : FirstChild caseTree i p) : (i = 1 ∧ p = 0) ∨ (i = 2 ∧ p = 1) ∨ (i = 10 ∧ p = 2) ∨ (i = 13 ∧ p = 3) := by
  have := first_mem h
  simp [caseTree, Syn.firstList, Syn.firstLists, Syn.id] at this
  exact this

theorem case_left : FirstChild caseTree 2 1 :=
  ⟨[⟨0, _, []⟩], ⟨1, _, []⟩, _, _, .down 0 _ [] _ _ _ _ (.down 1 _ [] _ _ _ _ (.here _)), rfl, rfl⟩

theorem case_chain {i j : Nat} (h : LeftChain caseLooks caseTree i j) : j = i ∨ (i = 1 ∧ j = 2) := by
  induction h with
  | here i h => exact .inl rfl
  | left i k j h hk hj ih =>
    have hi := case_bool.mp h.1
    have hkk := case_bool.mp (leftChain_or hj).1.1
    rcases case_first hk with ⟨rfl, rfl⟩ | ⟨rfl, rfl⟩ | ⟨rfl, rfl⟩ | ⟨rfl, rfl⟩
    · simp at hi
    · rcases ih with rfl | ⟨h, -⟩
      · exact .inr ⟨rfl, rfl⟩
      · cases h
    · simp at hkk
    · simp at hkk

/-- C121: what the rules see of this module fits it. -/
theorem case_right : LooksRight caseLooks caseTree where
  root := rfl
  module := by
    refine ⟨rfl, ?_⟩
    intro k hk i ks hw
    simp only [caseTree, Syn.kids, List.mem_cons, List.not_mem_nil, or_false] at hk
    obtain ⟨way, hw⟩ := hw
    have := kind_mem hw
    rcases hk with rfl | rfl | rfl <;> simp [Syn.kindList, Syn.kindLists, Label.typeName, Syn.label, Syn.id] at this
  nodup := by decide
  exprs := by
    intro n hw hl
    obtain ⟨way, hw⟩ := hw
    have := kind_mem hw
    rcases hl with hl | hl <;> rw [hl] at this <;> simp [caseTree, Syn.kindList, Syn.kindLists, Label.typeName] at this
  keywords := by
    intro i
    refine ⟨fun s hs => if_pos hs, fun s q hq _ => ?_⟩
    simp only [caseLooks] at hq
    split at hq
    · assumption
    · cases hq
  equal := by intro i a b; simp [caseLooks]
  bool := by
    intro i h
    rcases case_bool.mp h with rfl | rfl | rfl <;> exact ⟨_, _, _, rfl⟩
  spine := by
    intro i j h
    have h := case_bool.mp h
    constructor
    · intro hj
      simp only [caseLooks] at hj
      split at hj
      · rename_i hi
        subst hi
        simp only [List.mem_cons, List.not_mem_nil, or_false] at hj
        rcases hj with rfl | rfl
        · exact .here _ (case_isOr _ h)
        · exact .left 1 2 2 (case_isOr 1 (.inl rfl)) case_left (.here _ (case_isOr 2 (.inr (.inl rfl))))
      · rw [List.mem_singleton.mp hj]
        exact .here _ (case_isOr _ h)
    · intro hj
      rcases case_chain hj with rfl | ⟨rfl, rfl⟩
      · simp only [caseLooks]; split <;> simp_all
      · simp [caseLooks]
  lines := by intro i; simp [caseLooks]
  decorators := by intro c _; simp [caseLooks]
  apart := by intro c c' _ _ _; simp [caseLooks]

theorem chk_check (i : Nat) (s : PStr) : Check (caseLooks.isinstance i) (chk s) (nm (py "x")) := ⟨nm (py "isinstance"), .pos (nm (py "x")), .pos (nm s), rfl, fun es h => by (cases h), rfl, rfl⟩

/-- C121: the whole chain is reported, its left part is not, and the other chain is. -/
theorem case_chains : Offends caseLooks caseTree .collapseIsinstanceChecks 1 ∧ ¬ Offends caseLooks caseTree .collapseIsinstanceChecks 2 ∧
    Offends caseLooks caseTree .collapseIsinstanceChecks 3 := by
  refine ⟨⟨case_bool.mpr (.inl rfl), ?_, ?_⟩, ?_, ⟨case_bool.mpr (.inr (.inr rfl)), ?_, ?_⟩⟩
  · rintro ⟨k, hk, -, hf⟩
    rcases case_first hf with ⟨-, rfl⟩ | ⟨h, -⟩ | ⟨h, -⟩ | ⟨h, -⟩
    · have := case_bool.mp hk.1
      simp at this
    all_goals cases h
  · exact ⟨_, .or (es := [chk (py "A"), chk (py "B")]) rfl (.or (es := [chk (py "A")]) rfl (.leaf (by intro l r h; cases h))), 0, 1, _, _, _, by decide, rfl, rfl, chk_check _ _, chk_check _ _⟩
  · rintro ⟨-, hn, -⟩
    exact hn ⟨1, case_isOr 1 (.inl rfl), case_isOr 2 (.inr (.inl rfl)), case_left⟩
  · rintro ⟨k, hk, -, hf⟩
    rcases case_first hf with ⟨h, -⟩ | ⟨h, -⟩ | ⟨h, -⟩ | ⟨h, -⟩ <;> cases h
  · exact ⟨_, .or (es := [chk (py "A")]) rfl (.leaf (by intro l r h; cases h)), 0, 1, _, _, _, by decide, rfl, rfl, chk_check _ _, chk_check _ _⟩

theorem case_noqa (i : Nat) : Offends caseLooks caseTree .useLintFixmeComment i ↔ i = 4 := by
  constructor
  · rintro ⟨h, -⟩
    have := case_kind h
    simp [caseTree, Syn.kindList, Syn.kindLists, Label.typeName] at this
    exact this
  · rintro rfl
    exact ⟨⟨_, _, _, .down 0 _ [_, _] _ _ _ _ (.here _), rfl⟩, 'N', 'o', 'Q', 'A', _, rfl, .inr rfl, .inl rfl, .inr rfl, .inr rfl⟩

def caseKind (k : Nat) : Bundled := if k = 0 then .collapseIsinstanceChecks else .useLintFixmeComment

/-- The program of `CommandsCases` with two bundled rules. -/
def caseOutside : Outside Nat Nat := { toyOutside with classMessage := fun k => (caseKind k).message }
noncomputable def caseVisits : Visits := { toyVisits raisingRule with rule := fun _ _ _ _ k => bundled caseLooks (caseKind k), syn := fun _ => caseTree }

theorem case_active (k : Nat) : Active caseOutside (systemWorld abcu).files bothConfig k ↔ k = 0 ∨ k = 1 := by
  have h := (selected_iff caseOutside (fun l => .refl l) (systemWorld abcu).files bothConfig _ rfl).2 k
  rw [← h]
  show k ∈ [0, 1] ↔ _
  simp

theorem case_lints : Lints (caseOutside.walking caseVisits) (some bothOptions) (systemWorld abcu).files [py "root", py "f"] abcu bothConfig abcuNode := by
  refine C121_lints caseOutside caseVisits (fun l => .refl l) (some bothOptions) _ _ abcu bothConfig _ abcuNode (by decide) rfl both_config rfl rfl (fun _ => rfl) (fun _ => rfl)
    caseLooks case_right caseKind (fun k _ => ⟨rfl, rfl⟩) ?_ ?_
  · intro k hk
    rcases (case_active k).mp hk with rfl | rfl <;> exact id
  · intro k hk w change ho _ _ hr
    obtain ⟨rn, rg, ms, nd, rp⟩ := w
    have hn : nd = 1 ∨ nd = 2 ∨ nd = 3 ∨ nd = 4 := by
      rcases (case_active k).mp hk with rfl | rfl
      · rcases case_bool.mp ho.1 with h | h | h
        · exact .inl h
        · exact .inr (.inl h)
        · exact .inr (.inr (.inl h))
      · exact .inr (.inr (.inr ((case_noqa nd).mp ho)))
    simp only at hr
    cases change with
    | none => cases hr; exact ⟨_, rfl⟩
    | some c =>
      cases hr
      rcases hn with rfl | rfl | rfl | rfl <;> exact ⟨_, rfl⟩

/-- C121: linting this file finds the first chain and the comment, and nothing about the left part of the chain or the line that is silenced. -/
theorem case_found : (∃ lv ∈ foundIn ((caseOutside.walking caseVisits).env (some bothOptions)) (systemWorld abcu).files [py "root", py "f"], lv.base.ruleName = py "Toy" ∧ lv.base.node = 1 ∧
      lv.base.message = py "Multiple isinstance calls with the same target but different types can be collapsed into a single call with a tuple of types.") ∧
    (∀ lv ∈ foundIn ((caseOutside.walking caseVisits).env (some bothOptions)) (systemWorld abcu).files [py "root", py "f"], lv.base.ruleName = py "Toy" → lv.base.node = 1) ∧
    ∃ lv ∈ foundIn ((caseOutside.walking caseVisits).env (some bothOptions)) (systemWorld abcu).files [py "root", py "f"], lv.base.ruleName = py "Other" ∧ lv.base.node = 4 := by
  have hap : NamesApart caseOutside (systemWorld abcu).files bothConfig := by
    intro k k' h h' hn
    rcases (case_active k).mp h with rfl | rfl <;> rcases (case_active k').mp h' with rfl | rfl
    · rfl
    · exact absurd hn (by decide +kernel)
    · exact absurd hn (by decide +kernel)
    · rfl
  have hfound := C121_found caseOutside caseVisits (fun l => .refl l) (some bothOptions) _ _ abcu bothConfig abcuNode case_lints hap caseLooks case_right caseKind (fun k _ => ⟨rfl, rfl⟩)
  obtain ⟨h0, hm0⟩ := hfound 0 ((case_active 0).mpr (.inl rfl))
  obtain ⟨h1, -⟩ := hfound 1 ((case_active 1).mpr (.inr rfl))
  have e0 : ruleName (caseOutside.className 0) = py "Toy" := by decide +kernel
  have e1 : ruleName (caseOutside.className 1) = py "Other" := by decide +kernel
  rw [e0] at h0 hm0
  rw [e1] at h1
  have hs : ∀ i name, Silenced caseOutside abcuNode i name ↔ Silenced toyOutside abcuNode i name := fun _ _ => Iff.rfl
  simp only [hs] at h0 h1
  refine ⟨?_, ?_, ?_⟩
  · obtain ⟨lv, hlv, hn, hi⟩ := (h0 1).mpr ⟨case_chains.1, by rw [silenced_iff]; decide +kernel⟩
    refine ⟨lv, hlv, hn, hi, ?_⟩
    rcases (hm0 lv hlv hn).1 with h | ⟨-, h⟩
    · cases h
    · exact (Option.some.inj h).symm
  · intro lv hlv hn
    obtain ⟨ho, hns⟩ := (h0 lv.base.node).mp ⟨lv, hlv, hn, rfl⟩
    rcases case_bool.mp ho.1 with h | h | h
    · exact h
    · rw [h] at ho; exact absurd ho case_chains.2.1
    · rw [h] at hns
      exact absurd (by rw [silenced_iff]; decide +kernel) hns
  · exact (h1 4).mpr ⟨(case_noqa 4).mpr rfl, by rw [silenced_iff]; decide +kernel⟩

end Fixit
