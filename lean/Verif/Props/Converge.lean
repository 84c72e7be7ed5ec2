import Verif.Spec.Converge
import Verif.Props.RulesCompare

/-! # C114: fixing with several rules comes to an end -/

namespace Cst
open Py

/-- What an operator weighs: the operators that the enabled rule replaces weigh one. -/
def opWeight (c : Comparing) : CompOp → Nat
  | .is => match c with | .primitives => 1 | .singletons => 0
  | .isNot => match c with | .primitives => 1 | .singletons => 0
  | .eq => match c with | .primitives => 0 | .singletons => 1
  | .ne => match c with | .primitives => 0 | .singletons => 1
  | _ => 0

/-- The operators of a comparison. -/
def opWeights (c : Comparing) : List Target → Nat
  | [] => 0
  | .mk op _ :: ts => opWeight c op + opWeights c ts

/-- Method names that are replaced. -/
def heavyMethods : List PStr := py "assertTrue" :: deprecatedAsserts.map (·.1)

/-- What a node weighs. -/
def nodeWeight (c : Comparing) : Expr → Nat
  | .name s => if s ∈ builtinsToReplace then 2 else 1
  | .fstr _ => 2
  | .attr _ a => if a ∈ heavyMethods then 2 else 1
  | .call _ _ => 3
  | .comp _ ts => 1 + opWeights c ts
  | .listComp _ _ => 2
  | .other _ _ => 2
  | _ => 1

/-- What an expression weighs. -/
abbrev Expr.weight (c : Comparing) (e : Expr) : Nat := e.total (nodeWeight c)

section
variable (g : Expr → Nat)

theorem totalExprs_append (a b : List Expr) : totalExprs g (a ++ b) = totalExprs g a + totalExprs g b := by
  induction a with
  | nil => simp [totalExprs]
  | cons x a ih => simp [totalExprs, ih]; omega

theorem totalParts_append (a b : List FPart) : totalParts g (a ++ b) = totalParts g a + totalParts g b := by
  induction a with
  | nil => simp [totalParts]
  | cons x a ih => cases x <;> simp [totalParts, ih]; omega

theorem totalArgs_append (a b : List Arg) : totalArgs g (a ++ b) = totalArgs g a + totalArgs g b := by
  induction a with
  | nil => simp [totalArgs]
  | cons x a ih => cases x; simp [totalArgs, ih]; omega

theorem totalTargets_append (a b : List Target) : totalTargets g (a ++ b) = totalTargets g a + totalTargets g b := by
  induction a with
  | nil => simp [totalTargets]
  | cons x a ih => cases x; simp [totalTargets, ih]; omega

theorem totalElems_append (a b : List Elem) : totalElems g (a ++ b) = totalElems g a + totalElems g b := by
  induction a with
  | nil => simp [totalElems]
  | cons x a ih => cases x <;> simp [totalElems, ih] <;> omega

theorem totalDict_append (a b : List DictElem) : totalDict g (a ++ b) = totalDict g a + totalDict g b := by
  induction a with
  | nil => simp [totalDict]
  | cons x a ih => cases x <;> simp [totalDict, ih] <;> omega

theorem totalClauses_append (a b : List Clause) : totalClauses g (a ++ b) = totalClauses g a + totalClauses g b := by
  induction a with
  | nil => simp [totalClauses]
  | cons x a ih => cases x; simp [totalClauses, ih]; omega

end

theorem opWeights_append (c : Comparing) (a b : List Target) : opWeights c (a ++ b) = opWeights c a + opWeights c b := by
  induction a with
  | nil => simp [opWeights]
  | cons x a ih => cases x; simp [opWeights, ih]; omega

theorem hole_weight (c : Comparing) {w : Expr → Expr} (h : Hole w) {e e' : Expr} (hl : e'.weight c < e.weight c) : (w e').weight c < (w e).weight c := by
  unfold Expr.weight at hl ⊢
  cases h with
  | tuple h => cases h <;> simp only [Expr.total, nodeWeight, totalElems_append, totalElems] <;> omega
  | list h => cases h <;> simp only [Expr.total, nodeWeight, totalElems_append, totalElems] <;> omega
  | set h => cases h <;> simp only [Expr.total, nodeWeight, totalElems_append, totalElems] <;> omega
  | dict h => cases h <;> simp only [Expr.total, nodeWeight, totalDict_append, totalDict] <;> omega
  | genClause e h => cases h <;> simp only [Expr.total, nodeWeight, totalClauses_append, totalClauses, totalExprs_append, totalExprs] <;> omega
  | listClause e h => cases h <;> simp only [Expr.total, nodeWeight, totalClauses_append, totalClauses, totalExprs_append, totalExprs] <;> omega
  | setClause e h => cases h <;> simp only [Expr.total, nodeWeight, totalClauses_append, totalClauses, totalExprs_append, totalExprs] <;> omega
  | dictClause k v h => cases h <;> simp only [Expr.total, nodeWeight, totalClauses_append, totalClauses, totalExprs_append, totalExprs] <;> omega
  | _ =>
    simp only [Expr.total, nodeWeight, totalParts_append, totalParts, totalArgs_append, totalArgs, totalTargets_append, totalTargets, opWeights_append, opWeights,
      totalExprs_append, totalExprs]
    omega

theorem step_weight (c : Comparing) {R : Expr → Expr → Prop} (hR : ∀ e e', R e e' → e'.weight c < e.weight c) {e e' : Expr} (h : Step R e e') :
    e'.weight c < e.weight c := by
  induction h with
  | here h => exact hR _ _ h
  | inside hw _ ih => exact hole_weight c hw ih

theorem steps_weight (c : Comparing) {R : Expr → Expr → Prop} (hR : ∀ e e', R e e' → e'.weight c < e.weight c) {n : Nat} {e e' : Expr} (h : Steps R n e e') :
    n + e'.weight c ≤ e.weight c := by
  induction h with
  | done => omega
  | next h _ ih => have := step_weight c hR h; omega

mutual
theorem weight_size (c : Comparing) : ∀ e : Expr, e.weight c + 1 ≤ 4 * e.size
  | .name s => by simp only [Expr.weight, Expr.size, Expr.total, nodeWeight]; split <;> omega
  | .num _ => by simp only [Expr.weight, Expr.size, Expr.total, nodeWeight]; omega
  | .str _ => by simp only [Expr.weight, Expr.size, Expr.total, nodeWeight]; omega
  | .fstr ps => by have := fparts_size c ps; simp only [Expr.weight, Expr.size, Expr.total, nodeWeight]; omega
  | .attr v a => by have := weight_size c v; simp only [Expr.weight, Expr.size, Expr.total, nodeWeight] at *; split <;> omega
  | .call f as => by have := weight_size c f; have := args_size c as; simp only [Expr.weight, Expr.size, Expr.total, nodeWeight] at *; omega
  | .lam _ b => by have := weight_size c b; simp only [Expr.weight, Expr.size, Expr.total, nodeWeight] at *; omega
  | .bool _ l r => by have := weight_size c l; have := weight_size c r; simp only [Expr.weight, Expr.size, Expr.total, nodeWeight] at *; omega
  | .not e => by have := weight_size c e; simp only [Expr.weight, Expr.size, Expr.total, nodeWeight] at *; omega
  | .comp l ts => by have := weight_size c l; have := targets_size c ts; simp only [Expr.weight, Expr.size, Expr.total, nodeWeight] at *; omega
  | .tuple es => by have := elems_size c es; simp only [Expr.weight, Expr.size, Expr.total, nodeWeight] at *; omega
  | .list es => by have := elems_size c es; simp only [Expr.weight, Expr.size, Expr.total, nodeWeight] at *; omega
  | .set es => by have := elems_size c es; simp only [Expr.weight, Expr.size, Expr.total, nodeWeight] at *; omega
  | .dict es => by have := dict_size c es; simp only [Expr.weight, Expr.size, Expr.total, nodeWeight] at *; omega
  | .genExp e cs => by have := weight_size c e; have := clauses_size c cs; simp only [Expr.weight, Expr.size, Expr.total, nodeWeight] at *; omega
  | .listComp e cs => by have := weight_size c e; have := clauses_size c cs; simp only [Expr.weight, Expr.size, Expr.total, nodeWeight] at *; omega
  | .setComp e cs => by have := weight_size c e; have := clauses_size c cs; simp only [Expr.weight, Expr.size, Expr.total, nodeWeight] at *; omega
  | .dictComp k v cs => by
    have := weight_size c k; have := weight_size c v; have := clauses_size c cs; simp only [Expr.weight, Expr.size, Expr.total, nodeWeight] at *; omega
  | .await e => by have := weight_size c e; simp only [Expr.weight, Expr.size, Expr.total, nodeWeight] at *; omega
  | .other _ es => by have := exprs_size c es; simp only [Expr.weight, Expr.size, Expr.total, nodeWeight] at *; omega
  | .paren e => by have := weight_size c e; simp only [Expr.weight, Expr.size, Expr.total, nodeWeight] at *; omega
theorem exprs_size (c : Comparing) : ∀ es : List Expr, totalExprs (nodeWeight c) es ≤ 4 * totalExprs (fun _ => 1) es
  | [] => by simp [totalExprs]
  | e :: es => by have := weight_size c e; have := exprs_size c es; simp only [Expr.weight, Expr.size, totalExprs] at *; omega
theorem fparts_size (c : Comparing) : ∀ es : List FPart, totalParts (nodeWeight c) es ≤ 4 * totalParts (fun _ => 1) es
  | [] => by simp [totalParts]
  | .text _ :: es => by have := fparts_size c es; simp only [totalParts] at *; omega
  | .expr e _ :: es => by have := weight_size c e; have := fparts_size c es; simp only [Expr.weight, Expr.size, totalParts] at *; omega
theorem args_size (c : Comparing) : ∀ es : List Arg, totalArgs (nodeWeight c) es ≤ 4 * totalArgs (fun _ => 1) es
  | [] => by simp [totalArgs]
  | .mk _ _ e :: es => by have := weight_size c e; have := args_size c es; simp only [Expr.weight, Expr.size, totalArgs] at *; omega
theorem targets_size (c : Comparing) : ∀ ts : List Target, opWeights c ts + totalTargets (nodeWeight c) ts ≤ 4 * totalTargets (fun _ => 1) ts
  | [] => by simp [totalTargets, opWeights]
  | .mk op e :: es => by
    have := weight_size c e; have := targets_size c es
    have : opWeight c op ≤ 1 := by cases op <;> cases c <;> simp [opWeight]
    simp only [Expr.weight, Expr.size, totalTargets, opWeights] at *; omega
theorem elems_size (c : Comparing) : ∀ es : List Elem, totalElems (nodeWeight c) es ≤ 4 * totalElems (fun _ => 1) es
  | [] => by simp [totalElems]
  | .plain e :: es => by have := weight_size c e; have := elems_size c es; simp only [Expr.weight, Expr.size, totalElems] at *; omega
  | .starred e :: es => by have := weight_size c e; have := elems_size c es; simp only [Expr.weight, Expr.size, totalElems] at *; omega
theorem dict_size (c : Comparing) : ∀ es : List DictElem, totalDict (nodeWeight c) es ≤ 4 * totalDict (fun _ => 1) es
  | [] => by simp [totalDict]
  | .pair k v :: es => by
    have := weight_size c k; have := weight_size c v; have := dict_size c es; simp only [Expr.weight, Expr.size, totalDict] at *; omega
  | .starred e :: es => by have := weight_size c e; have := dict_size c es; simp only [Expr.weight, Expr.size, totalDict] at *; omega
theorem clauses_size (c : Comparing) : ∀ es : List Clause, totalClauses (nodeWeight c) es ≤ 4 * totalClauses (fun _ => 1) es
  | [] => by simp [totalClauses]
  | .mk _ t i ifs :: es => by
    have := weight_size c t; have := weight_size c i; have := exprs_size c ifs; have := clauses_size c es
    simp only [Expr.weight, Expr.size, totalClauses] at *; omega
end

/-! ## The weight goes down with every fix -/

theorem weight_pos (c : Comparing) (e : Expr) : 1 ≤ e.weight c := by
  cases e <;> simp only [Expr.weight, Expr.total, nodeWeight] <;> (try split) <;> omega

theorem weight_core (c : Comparing) : ∀ e : Expr, e.core.weight c ≤ e.weight c
  | .paren e => by have := weight_core c e; simp only [Expr.core, Expr.weight, Expr.total, nodeWeight] at *; omega
  | .name _ => Nat.le_refl _ | .num _ => Nat.le_refl _ | .str _ => Nat.le_refl _ | .fstr _ => Nat.le_refl _ | .attr _ _ => Nat.le_refl _ | .call _ _ => Nat.le_refl _ | .lam _ _ => Nat.le_refl _
  | .bool _ _ _ => Nat.le_refl _ | .not _ => Nat.le_refl _ | .comp _ _ => Nat.le_refl _ | .tuple _ => Nat.le_refl _ | .list _ => Nat.le_refl _ | .set _ => Nat.le_refl _ | .dict _ => Nat.le_refl _
  | .genExp _ _ => Nat.le_refl _ | .listComp _ _ => Nat.le_refl _ | .setComp _ _ => Nat.le_refl _ | .dictComp _ _ _ => Nat.le_refl _ | .await _ => Nat.le_refl _ | .other _ _ => Nat.le_refl _

/-- The weight of the parentheses around a node. -/
theorem weight_withCore (c : Comparing) (f : Expr → Expr) : ∀ e : Expr, (e.withCore f).weight c + e.core.weight c = e.weight c + (f e.core).weight c
  | .paren e => by
    have := weight_withCore c f e
    simp only [Expr.core, Expr.withCore, Expr.weight, Expr.total, nodeWeight] at *; omega
  | .name _ => Nat.add_comm _ _ | .num _ => Nat.add_comm _ _ | .str _ => Nat.add_comm _ _ | .fstr _ => Nat.add_comm _ _ | .attr _ _ => Nat.add_comm _ _ | .call _ _ => Nat.add_comm _ _
  | .lam _ _ => Nat.add_comm _ _ | .bool _ _ _ => Nat.add_comm _ _ | .not _ => Nat.add_comm _ _ | .comp _ _ => Nat.add_comm _ _ | .tuple _ => Nat.add_comm _ _ | .list _ => Nat.add_comm _ _
  | .set _ => Nat.add_comm _ _ | .dict _ => Nat.add_comm _ _
  | .genExp _ _ => Nat.add_comm _ _ | .listComp _ _ => Nat.add_comm _ _ | .setComp _ _ => Nat.add_comm _ _ | .dictComp _ _ _ => Nat.add_comm _ _ | .await _ => Nat.add_comm _ _ | .other _ _ => Nat.add_comm _ _

theorem withCore_lt (c : Comparing) {e x y : Expr} (h : e.core = x) (hl : y.weight c < x.weight c) : (e.withCore fun _ => y).weight c < e.weight c := by
  have := weight_withCore c (fun _ => y) e
  rw [h] at this
  omega

theorem core_lt (c : Comparing) {e x y : Expr} (h : e.core = x) (hl : y.weight c < x.weight c) : y.weight c < e.weight c := by
  have := weight_core c e
  rw [h] at this
  omega


theorem isName_weight (c : Comparing) {e : Expr} {s : PStr} (h : e.isName s = true) : (Expr.name s).weight c ≤ e.weight c := by
  have := weight_core c e
  unfold Expr.isName at h
  split at h
  · rename_i t ht; simp at h; subst h; rw [ht] at this; exact this
  · cases h

theorem lambda_lt (c : Comparing) {e e' : Expr} (h : noRedundantLambda e = .fix e') : e'.weight c < e.weight c := by
  unfold noRedundantLambda at h
  split at h
  · rename_i ps body hc
    split at h
    · rename_i f as hb
      split at h
      · cases h
        have := weight_core c body
        refine core_lt c hc ?_
        rw [hb] at this
        simp only [Expr.weight, Expr.total, nodeWeight] at *
        omega
      · cases h
    · cases h
  · cases h

theorem listComprehension_lt (c : Comparing) {e e' : Expr} (h : noRedundantListComprehension e = .fix e') : e'.weight c < e.weight c := by
  unfold noRedundantListComprehension at h
  split at h
  · rename_i f st kw v hc
    split at h
    · rename_i elt cs hv
      split at h
      · cases h
        refine withCore_lt c hc ?_
        have := weight_core c v
        rw [hv] at this
        simp only [Expr.weight, Expr.total, nodeWeight, totalArgs] at *
        omega
      · cases h
    · cases h
  · cases h

theorem displayElems_weight (c : Comparing) {e : Expr} {es : List Elem} (h : displayElems e = some es) : 1 + totalElems (nodeWeight c) es ≤ e.weight c := by
  have := weight_core c e
  unfold displayElems at h
  split at h <;> rename_i hx <;> cases h <;> rw [hx] at this <;> simp only [Expr.weight, Expr.total, nodeWeight] at * <;> omega

theorem elem_weight (c : Comparing) (x : Elem) (xs : List Elem) : totalElems (nodeWeight c) (x :: xs) = x.value.weight c + totalElems (nodeWeight c) xs := by
  cases x <;> rfl

theorem pairElems_weight (c : Comparing) : ∀ (es : List Elem) (ps : List DictElem), pairElems es = some ps → totalDict (nodeWeight c) ps ≤ totalElems (nodeWeight c) es
  | [], ps, h => by cases h; simp [totalDict]
  | e :: es, ps, h => by
    rw [pairElems] at h
    cases hp : pairElem e with
    | none => rw [hp] at h; cases h
    | some p =>
      rw [hp] at h
      simp only [Option.map_eq_some_iff] at h
      obtain ⟨qs, hq, rfl⟩ := h
      have ih := pairElems_weight c es qs hq
      unfold pairElem at hp
      split at hp
      · cases hp
      · rename_i x
        split at hp
        · rename_i a b hd
          cases hp
          have := displayElems_weight c hd
          rw [elem_weight, elem_weight] at this
          simp only [totalDict, totalElems, Expr.weight] at *
          omega
        · cases hp

theorem literal_lt (c : Comparing) {e e' : Expr} (h : rewriteToLiteral e = .fix e') : e'.weight c < e.weight c := by
  unfold rewriteToLiteral at h
  split at h
  · rename_i f hc
    have hf := weight_pos c f
    refine core_lt c hc ?_
    split at h
    · cases h; simp only [Expr.weight, Expr.total, nodeWeight, totalArgs, totalElems, totalDict] at *; omega
    · split at h
      · cases h; simp only [Expr.weight, Expr.total, nodeWeight, totalArgs, totalElems, totalDict] at *; omega
      · split at h
        · cases h; simp only [Expr.weight, Expr.total, nodeWeight, totalArgs, totalElems, totalDict] at *; omega
        · cases h
  · rename_i f st kw v hc
    have hf := weight_pos c f
    refine core_lt c hc ?_
    split at h
    · cases h
    · rename_i es hes
      have := displayElems_weight c hes
      split at h
      · cases h; simp only [Expr.weight, Expr.total, nodeWeight, totalArgs, totalElems, totalDict] at *; omega
      · split at h
        · cases h; simp only [Expr.weight, Expr.total, nodeWeight, totalArgs, totalElems, totalDict] at *; omega
        · split at h
          · rename_i hset
            have hf := isName_weight c hset
            cases h
            split
            · simp only [Expr.weight, Expr.total, nodeWeight, totalArgs] at *; omega
            · simp only [Expr.weight, Expr.total, nodeWeight, totalArgs, totalElems, totalDict] at *; omega
          · split at h
            · split at h
              · rename_i ps hps
                have := pairElems_weight c _ _ hps
                cases h; simp only [Expr.weight, Expr.total, nodeWeight, totalArgs, totalElems, totalDict] at *; omega
              · cases h
            · cases h
  · cases h

theorem compParts_weight (c : Comparing) {e elt : Expr} {cs : List Clause} (h : compParts e = some (elt, cs)) :
    1 + elt.weight c + totalClauses (nodeWeight c) cs ≤ e.weight c := by
  have := weight_core c e
  unfold compParts at h
  split at h <;> rename_i hx <;> cases h <;> rw [hx] at this <;> simp only [Expr.weight, Expr.total, nodeWeight] at * <;> omega

theorem comprehension_lt (c : Comparing) {e e' : Expr} (h : rewriteToComprehension e = .fix e') : e'.weight c < e.weight c := by
  unfold rewriteToComprehension at h
  split at h
  · rename_i f st kw v hc
    have hf := weight_pos c f
    refine core_lt c hc ?_
    split at h
    · cases h
    · rename_i elt cs hcp
      have := compParts_weight c hcp
      split at h
      · cases h; simp only [Expr.weight, Expr.total, nodeWeight, totalArgs] at *; omega
      · split at h
        · cases h; simp only [Expr.weight, Expr.total, nodeWeight, totalArgs] at *; omega
        · split at h
          · split at h
            · rename_i a b r hd
              have hd := displayElems_weight c hd
              rw [elem_weight, elem_weight] at hd
              cases h; simp only [Expr.weight, Expr.total, nodeWeight, totalArgs] at *; omega
            · cases h
            · cases h
          · cases h
  · cases h

/-- A renamed method loses weight when the new name is not replaced again. -/
theorem rename_lt (c : Comparing) {f : Expr} {old new : PStr} (h : isSelfMethod old f = true) (ho : old ∈ heavyMethods) (hn : new ∉ heavyMethods) :
    (renameMethod new f).weight c < f.weight c := by
  unfold isSelfMethod at h
  split at h
  · rename_i v a hc
    simp only [Bool.and_eq_true, beq_iff_eq] at h
    obtain ⟨-, rfl⟩ := h
    have := weight_withCore c (fun c => match c with | .attr v _ => .attr v new | c => c) f
    rw [hc] at this
    have h1 : (Expr.attr v a).weight c = 2 + v.weight c := by simp only [Expr.weight, Expr.total, nodeWeight, if_pos ho]
    have h2 : (Expr.attr v new).weight c = 1 + v.weight c := by simp only [Expr.weight, Expr.total, nodeWeight, if_neg hn]
    have h3 : (renameMethod new f).weight c + (Expr.attr v a).weight c = f.weight c + (Expr.attr v new).weight c := this
    omega
  · cases h

theorem deprecated_some_of {f : Expr} {new : PStr} : ∀ ps : List (PStr × PStr), findDeprecated f ps = some new → ∃ p ∈ ps, isSelfMethod p.1 f = true ∧ new = p.2
  | [], h => by cases h
  | (old, n) :: ps, h => by
    rw [findDeprecated] at h
    split at h
    · rename_i hm; cases h; exact ⟨(old, new), by simp, hm, rfl⟩
    · obtain ⟨p, hp, h1⟩ := deprecated_some_of ps h
      exact ⟨p, by simp [hp], h1⟩

theorem deprecated_not_heavy : ∀ p ∈ deprecatedAsserts, p.1 ∈ heavyMethods ∧ p.2 ∉ heavyMethods := by decide

theorem deprecated_lt (c : Comparing) {e e' : Expr} (h : deprecatedUnittestAsserts e = .fix e') : e'.weight c < e.weight c := by
  unfold deprecatedUnittestAsserts at h
  split at h
  · rename_i f as hc
    split at h
    · rename_i new hn
      cases h
      obtain ⟨p, hp, hm, rfl⟩ := deprecated_some_of _ hn
      obtain ⟨h1, h2⟩ := deprecated_not_heavy p hp
      have := rename_lt c hm h1 h2
      refine withCore_lt c hc ?_
      simp only [Expr.weight, Expr.total, nodeWeight] at *; omega
    · cases h
  · cases h

theorem arg_weight (c : Comparing) (x : Arg) (xs : List Arg) : totalArgs (nodeWeight c) (x :: xs) = x.value.weight c + totalArgs (nodeWeight c) xs := by
  cases x; rfl

theorem assertTrue_lt (c : Comparing) {e e' : Expr} (h : noAssertTrueForComparisons e = .fix e') : e'.weight c < e.weight c := by
  unfold noAssertTrueForComparisons at h
  split at h
  · rename_i f a b hc
    split at h
    · rename_i hm
      simp only [Bool.and_eq_true] at hm
      have hb := weight_pos c b.value
      have hr : ∀ new, new ∉ heavyMethods → (renameMethod new f).weight c < f.weight c := fun new hn => rename_lt c hm.1 (by decide) hn
      split at h
      · cases h
        refine withCore_lt c hc ?_
        simp only [Expr.weight, Expr.total, nodeWeight, arg_weight, totalArgs] at *; omega
      · split at h
        · cases h
          have := hr (py "assertIsNone") (by decide)
          refine withCore_lt c hc ?_
          simp only [Expr.weight, Expr.total, nodeWeight, arg_weight, totalArgs] at *; omega
        · split at h
          · cases h
            have := hr (py "assertFalse") (by decide)
            refine withCore_lt c hc ?_
            simp only [Expr.weight, Expr.total, nodeWeight, arg_weight, totalArgs] at *; omega
          · cases h
            have := hr (py "assertEqual") (by decide)
            refine withCore_lt c hc ?_
            simp only [Expr.weight, Expr.total, nodeWeight, arg_weight, totalArgs] at *; omega
    · cases h
  · cases h

theorem isSelfMethod_weight (c : Comparing) {f : Expr} {m : PStr} (h : isSelfMethod m f = true) : 2 ≤ f.weight c := by
  have hw := weight_core c f
  unfold isSelfMethod at h
  split at h
  · rename_i v a hc
    have := weight_pos c v
    rw [hc] at hw
    simp only [Expr.weight, Expr.total, nodeWeight] at *
    split at hw <;> omega
  · cases h

theorem singleLink_weight (c : Comparing) {op : CompOp} {e x y : Expr} (h : singleLink op e = some (x, y)) : 1 + x.weight c + y.weight c ≤ e.weight c := by
  have hw := weight_core c e
  unfold singleLink at h
  split at h
  · rename_i l o r hc
    split at h
    · cases h
      rw [hc] at hw
      simp only [Expr.weight, Expr.total, nodeWeight, totalTargets, opWeights] at *; omega
    · cases h
  · cases h

theorem negated_weight (c : Comparing) {e x : Expr} (h : negated e = some x) : x.weight c ≤ e.weight c := by
  have hw := weight_core c e
  unfold negated at h
  split at h
  · rename_i y hc
    cases h
    rw [hc] at hw
    simp only [Expr.weight, Expr.total, nodeWeight] at *; omega
  · cases h

theorem selfMethod_weight (c : Comparing) {m : PStr} (h : m ∉ heavyMethods) : (selfMethod m).weight c = 2 := by
  have : py "self" ∉ builtinsToReplace := by decide
  simp only [selfMethod, Expr.weight, Expr.total, nodeWeight, if_neg h, if_neg this]

theorem assertIn_lt (c : Comparing) {e e' : Expr} (h : useAssertIn e = .fix e') : e'.weight c < e.weight c := by
  unfold useAssertIn at h
  split at h
  · rename_i f a hc
    simp only [] at h
    have fin : ∀ m x y, m ∉ heavyMethods → 2 ≤ f.weight c → 1 + x.weight c + y.weight c ≤ a.value.weight c →
        (Expr.call (selfMethod m) [.pos x, .pos y]).weight c < (Expr.call f [a]).weight c := by
      intro m x y hm hf hxy
      have := selfMethod_weight c hm
      simp only [Expr.weight, Expr.total, nodeWeight, arg_weight, totalArgs, Arg.pos, Arg.value] at *; omega
    split at h
    · rename_i x y hl
      cases h
      split at hl
      · rename_i ht
        exact withCore_lt c hc (fin _ x y (by decide) (isSelfMethod_weight c ht) (singleLink_weight c hl))
      · cases hl
    · split at h
      · rename_i x y hl
        cases h
        refine withCore_lt c hc (fin _ x y (by decide) ?_ ?_)
        · by_cases ht : isSelfMethod (py "assertTrue") f = true
          · exact isSelfMethod_weight c ht
          · by_cases hf : isSelfMethod (py "assertFalse") f = true
            · exact isSelfMethod_weight c hf
            · simp [ht, hf] at hl
        · simp only [Option.or_eq_some_iff] at hl
          rcases hl with hl | ⟨-, hl | ⟨-, hl⟩⟩
          · split at hl
            · simp only [Option.bind_eq_some_iff] at hl
              obtain ⟨z, hz, hl⟩ := hl
              have := negated_weight c hz
              have := singleLink_weight c hl
              omega
            · cases hl
          · split at hl
            · exact singleLink_weight c hl
            · cases hl
          · split at hl
            · exact singleLink_weight c hl
            · cases hl
      · cases h
  · cases h

theorem noneCheck_weight (c : Comparing) {e x : Expr} {b : Bool} (h : noneCheck e = some (x, b)) : 1 + x.weight c ≤ e.weight c := by
  have hw := weight_core c e
  unfold noneCheck at h
  split at h
  · rename_i l r hc
    split at h
    · cases h; rw [hc] at hw; simp only [Expr.weight, Expr.total, nodeWeight, totalTargets, opWeights] at *; omega
    · cases h
  · rename_i l r hc
    split at h
    · cases h; rw [hc] at hw; simp only [Expr.weight, Expr.total, nodeWeight, totalTargets, opWeights] at *; omega
    · cases h
  · cases h

theorem noneArgument_weight (c : Comparing) {e x : Expr} {b d : Bool} (h : noneArgument e = some (x, b, d)) : 1 + x.weight c ≤ e.weight c := by
  unfold noneArgument at h
  split at h
  · rename_i y n hn
    cases h
    exact noneCheck_weight c hn
  · simp only [Option.map_eq_some_iff, Option.bind_eq_some_iff] at h
    obtain ⟨⟨y, n⟩, ⟨z, hz, hn⟩, heq⟩ := h
    cases heq
    have := negated_weight c hz
    have := noneCheck_weight c hn
    exact Nat.le_trans this (by assumption)

theorem assertIsNotNone_lt (c : Comparing) {e e' : Expr} (h : useAssertIsNotNone e = .fix e') : e'.weight c < e.weight c := by
  unfold useAssertIsNotNone at h
  split at h
  · rename_i f a hc
    split at h
    · rename_i hm
      have hf : 2 ≤ f.weight c := by
        rw [Bool.or_eq_true] at hm
        rcases hm with hm | hm <;> exact isSelfMethod_weight c hm
      split at h
      · rename_i x hasNot isNot hn
        have hn := noneArgument_weight c hn
        cases h
        refine withCore_lt c hc ?_
        have key : ∀ m, m ∉ heavyMethods → (Expr.call (selfMethod m) [.pos x]).weight c < (Expr.call f [a]).weight c := by
          intro m hm
          have := selfMethod_weight c hm
          simp only [Expr.weight, Expr.total, nodeWeight, arg_weight, totalArgs, Arg.pos, Arg.value] at *; omega
        apply key
        generalize (if isSelfMethod (py "assertFalse") f = true then 1 else 0) + (if hasNot = true then 1 else 0) + (if isNot = true then 1 else 0) = k
        by_cases hk : k % 2 = 0
        · rw [if_pos hk]; decide
        · rw [if_neg hk]; decide
      · cases h
    · cases h
  · cases h

/-! ### The comparisons -/

theorem replace_weight (c : Comparing) (hc : c = .primitives) : ∀ (ts : List Target) (l : Expr),
    totalTargets (nodeWeight c) (replaceOperators l ts) = totalTargets (nodeWeight c) ts ∧
    opWeights c (replaceOperators l ts) + (if hasPrimitiveIdentity l ts then 1 else 0) ≤ opWeights c ts
  | [], l => by simp [replaceOperators, hasPrimitiveIdentity, opWeights]
  | .mk op x :: ts, l => by
    obtain ⟨h1, h2⟩ := replace_weight c hc ts x
    rw [replaceOperators, hasPrimitiveIdentity]
    cases hi : op.isIdentity <;> cases hp : (isPrimitive l || isPrimitive x)
    · simp only [Bool.false_eq_true, if_false, totalTargets, opWeights, h1, Bool.and_false, Bool.false_or]; exact ⟨trivial, by omega⟩
    · simp only [Bool.false_eq_true, if_false, totalTargets, opWeights, h1, Bool.and_true, Bool.false_or]; exact ⟨trivial, by omega⟩
    · simp only [Bool.false_eq_true, if_false, if_true, totalTargets, opWeights, h1, Bool.and_false, Bool.false_or]; exact ⟨trivial, by omega⟩
    · simp only [if_true, totalTargets, opWeights, h1, Bool.and_true, Bool.true_or]
      refine ⟨trivial, ?_⟩
      have : opWeight c (toEquality op) + 1 = opWeight c op := by
        subst hc
        cases op <;> simp [CompOp.isIdentity] at hi <;> rfl
      split at h2 <;> omega

theorem primitives_lt {e e' : Expr} (h : comparePrimitivesByEqual e = .fix e') : e'.weight .primitives < e.weight .primitives := by
  unfold comparePrimitivesByEqual at h
  split at h
  · rename_i l ts hc
    split at h
    · rename_i hp
      cases h
      refine withCore_lt _ hc ?_
      obtain ⟨h1, h2⟩ := replace_weight .primitives rfl ts l
      rw [if_pos hp] at h2
      simp only [Expr.weight, Expr.total, nodeWeight, h1]
      omega
    · cases h
  · cases h

theorem alter_weight (c : Comparing) (hc : c = .singletons) (quals : PStr → List QName) : ∀ (ts : List Target) (l : Expr),
    totalTargets (nodeWeight c) (alterComparisons quals l ts).2 = totalTargets (nodeWeight c) ts ∧
    opWeights c (alterComparisons quals l ts).2 + (if (alterComparisons quals l ts).1 then 1 else 0) ≤ opWeights c ts
  | [], l => by simp [alterComparisons, opWeights]
  | .mk op x :: ts, l => by
    obtain ⟨h1, h2⟩ := alter_weight c hc quals ts x
    rw [alterComparisons]
    split
    · rename_i hp
      simp only [Bool.and_eq_true] at hp
      simp only [totalTargets, opWeights, h1, if_true]
      refine ⟨trivial, ?_⟩
      have : opWeight c (toIdentity op) + 1 = opWeight c op := by
        subst hc
        have hi := hp.1
        cases op <;> simp [CompOp.isEquality] at hi <;> rfl
      split at h2 <;> omega
    · simp only [totalTargets, opWeights, h1]
      exact ⟨trivial, by omega⟩

theorem singletons_lt {quals : PStr → List QName} {e e' : Expr} (h : compareSingletonByIs quals e = .fix e') : e'.weight .singletons < e.weight .singletons := by
  unfold compareSingletonByIs at h
  split at h
  · rename_i l ts hc
    split at h
    · rename_i hp
      cases h
      refine withCore_lt _ hc ?_
      obtain ⟨h1, h2⟩ := alter_weight .singletons rfl quals ts l
      rw [if_pos hp] at h2
      simp only [Expr.weight, Expr.total, nodeWeight, h1]
      omega
    · cases h
  · cases h

/-! ### Chains of `isinstance` -/

/-- The sum of the weights. -/
def weights (c : Comparing) (es : List Expr) : Nat := totalExprs (nodeWeight c) es

theorem unwrap_weight (c : Comparing) : ∀ e : Expr, weights c (unwrapOr e) + (unwrapOr e).length ≤ e.weight c + 1 ∧ 1 ≤ (unwrapOr e).length
  | .paren e => by
    rw [unwrapOr]
    split
    · obtain ⟨h1, h2⟩ := unwrap_weight c e
      simp only [Expr.weight, Expr.total, nodeWeight] at *
      omega
    · simp [weights, totalExprs]
  | .bool .or l r => by
    obtain ⟨h1, h2⟩ := unwrap_weight c l
    simp only [unwrapOr, weights, totalExprs_append, totalExprs, List.length_append, List.length_singleton, Expr.weight, Expr.total, nodeWeight] at *
    omega
  | .bool .and l r => by simp [unwrapOr, weights, totalExprs]
  | .name _ => by simp [unwrapOr, weights, totalExprs] | .num _ => by simp [unwrapOr, weights, totalExprs] | .str _ => by simp [unwrapOr, weights, totalExprs]
  | .fstr _ => by simp [unwrapOr, weights, totalExprs] | .attr _ _ => by simp [unwrapOr, weights, totalExprs] | .call _ _ => by simp [unwrapOr, weights, totalExprs]
  | .lam _ _ => by simp [unwrapOr, weights, totalExprs] | .not _ => by simp [unwrapOr, weights, totalExprs] | .comp _ _ => by simp [unwrapOr, weights, totalExprs]
  | .tuple _ => by simp [unwrapOr, weights, totalExprs] | .list _ => by simp [unwrapOr, weights, totalExprs] | .set _ => by simp [unwrapOr, weights, totalExprs]
  | .dict _ => by simp [unwrapOr, weights, totalExprs] | .genExp _ _ => by simp [unwrapOr, weights, totalExprs] | .listComp _ _ => by simp [unwrapOr, weights, totalExprs]
  | .setComp _ _ => by simp [unwrapOr, weights, totalExprs] | .dictComp _ _ _ => by simp [unwrapOr, weights, totalExprs] | .await _ => by simp [unwrapOr, weights, totalExprs]
  | .other _ _ => by simp [unwrapOr, weights, totalExprs]

theorem joinOr_weight (c : Comparing) : ∀ (es : List Expr) (e : Expr), (es.foldl (fun l r => Expr.bool .or l r) e).weight c = e.weight c + weights c es + es.length
  | [], e => by simp [weights, totalExprs]
  | x :: es, e => by
    rw [List.foldl_cons, joinOr_weight c es]
    simp only [weights, totalExprs, Expr.weight, Expr.total, nodeWeight, List.length_cons]
    omega

/-- The weight of what is kept. -/
def keepWeight (c : Comparing) : List Operand → Nat
  | [] => 0
  | .keep e :: os => e.weight c + keepWeight c os
  | .target _ :: os => keepWeight c os

/-- The weight of the targets written out. -/
def targetsWeight (c : Comparing) : List (Expr × List Expr) → Nat
  | [] => 0
  | p :: ps => (newIsinstance p).weight c + targetsWeight c ps

/-- The numbers of the targets, in order. -/
def operandPlaces : List Operand → List Nat
  | [] => []
  | .keep _ :: os => operandPlaces os
  | .target i :: os => i :: operandPlaces os

theorem operandPlaces_append (a b : List Operand) : operandPlaces (a ++ b) = operandPlaces a ++ operandPlaces b := by
  induction a with
  | nil => rfl
  | cons x a ih => cases x <;> simp [operandPlaces, ih]

theorem keepWeight_append (c : Comparing) (a b : List Operand) : keepWeight c (a ++ b) = keepWeight c a + keepWeight c b := by
  induction a with
  | nil => simp [keepWeight]
  | cons x a ih => cases x <;> simp [keepWeight, ih]; omega

theorem targetsWeight_append (c : Comparing) (a b : List (Expr × List Expr)) : targetsWeight c (a ++ b) = targetsWeight c a + targetsWeight c b := by
  induction a with
  | nil => simp [targetsWeight]
  | cons x a ih => simp [targetsWeight, ih]; omega

theorem isinstanceCall_weight (c : Comparing) {o : IsinstanceOracle} {e t ty : Expr} (h : isinstanceCall o e = some (t, ty)) : 4 + t.weight c + ty.weight c ≤ e.weight c := by
  have hw := weight_core c e
  unfold isinstanceCall at h
  split at h
  · rename_i f a b hc
    have := weight_pos c f
    split at h
    · cases h
    · split at h
      · cases h
        rw [hc] at hw
        simp only [Expr.weight, Expr.total, nodeWeight, arg_weight, totalArgs] at *; omega
      · cases h
  · cases h

theorem plain_weight (c : Comparing) : ∀ es : List Expr, totalElems (nodeWeight c) (es.map .plain) = weights c es
  | [] => rfl
  | e :: es => by have := plain_weight c es; simp only [List.map_cons, totalElems, weights, totalExprs] at *; omega

theorem newIsinstance_one (c : Comparing) (t ty : Expr) : (newIsinstance (t, [ty])).weight c = 4 + t.weight c + ty.weight c := by
  have : py "isinstance" ∉ builtinsToReplace := by decide
  simp only [newIsinstance, Expr.weight, Expr.total, nodeWeight, totalArgs, Arg.pos, if_neg this]
  omega

theorem newIsinstance_many (c : Comparing) (t ty ty' : Expr) (tys : List Expr) :
    (newIsinstance (t, ty :: ty' :: tys)).weight c = 6 + t.weight c + weights c (ty :: ty' :: tys) := by
  have : py "isinstance" ∉ builtinsToReplace := by decide
  have h := plain_weight c (ty :: ty' :: tys)
  simp only [newIsinstance, Expr.weight, Expr.total, nodeWeight, totalArgs, Arg.pos, if_neg this] at *
  omega

/-- One more type in a check. -/
theorem more_weight (c : Comparing) (p : Expr × List Expr) (hp : p.2 ≠ []) (ty : Expr) :
    (newIsinstance (p.1, p.2 ++ [ty])).weight c ≤ (newIsinstance p).weight c + ty.weight c + 2 := by
  obtain ⟨t, tys⟩ := p
  match tys, hp with
  | [a], _ => simp only [List.cons_append, List.nil_append, newIsinstance_many, newIsinstance_one, weights, totalExprs, Expr.weight]; omega
  | a :: b :: tys, _ => simp only [List.cons_append, newIsinstance_many, weights, totalExprs, totalExprs_append, Expr.weight]; omega

theorem modify_weight (c : Comparing) (ty : Expr) : ∀ (ts : List (Expr × List Expr)) (i : Nat), (∀ p ∈ ts, p.2 ≠ []) →
    targetsWeight c (ts.modify i (fun p => (p.1, p.2 ++ [ty]))) ≤ targetsWeight c ts + ty.weight c + 2
  | [], i, _ => by cases i <;> simp [targetsWeight]
  | p :: ts, 0, h => by
    have := more_weight c p (h p (by simp)) ty
    simp only [List.modify_zero_cons, targetsWeight]; omega
  | p :: ts, i + 1, h => by
    have := modify_weight c ty ts i (fun q hq => h q (by simp [hq]))
    simp only [List.modify_succ_cons, targetsWeight]; omega

theorem collect_weight (c : Comparing) (o : IsinstanceOracle) : ∀ (es : List Expr) (ops : List Operand) (ts : List (Expr × List Expr)),
    operandPlaces ops = List.range ts.length → (∀ p ∈ ts, p.2 ≠ []) →
    operandPlaces (collectTargets o es (ops, ts)).1 = List.range (collectTargets o es (ops, ts)).2.length ∧
    keepWeight c (collectTargets o es (ops, ts)).1 + targetsWeight c (collectTargets o es (ops, ts)).2 ≤ keepWeight c ops + targetsWeight c ts + weights c es ∧
    (collectTargets o es (ops, ts)).1.length ≤ ops.length + es.length
  | [], ops, ts, h1, h2 => by rw [collectTargets]; simp [h1, weights, totalExprs]
  | e :: es, ops, ts, h1, h2 => by
    rw [collectTargets]
    cases hi : isinstanceCall o e with
    | none =>
      obtain ⟨a, b, d⟩ := collect_weight c o es (ops ++ [.keep e]) ts (by simp [operandPlaces_append, operandPlaces, h1]) h2
      simp only [keepWeight_append, keepWeight, List.length_append, List.length_singleton] at b d
      refine ⟨a, ?_, ?_⟩
      · simp only [weights, totalExprs, Expr.weight] at *; omega
      · simp only [List.length_cons]; omega
    | some p =>
      obtain ⟨t, ty⟩ := p
      have hw := isinstanceCall_weight c hi
      have ht := weight_pos c t
      cases hf : findTarget o t ts with
      | none =>
        simp only [hf]
        obtain ⟨a, b, d⟩ := collect_weight c o es (ops ++ [.target ts.length]) (ts ++ [(t, [ty])])
          (by simp [operandPlaces_append, operandPlaces, h1, List.range_succ])
          (by intro q hq; simp at hq; rcases hq with hq | rfl; exact h2 q hq; simp)
        simp only [keepWeight_append, keepWeight, targetsWeight_append, targetsWeight, newIsinstance_one, List.length_append, List.length_singleton] at b d
        refine ⟨a, ?_, ?_⟩
        · simp only [weights, totalExprs, Expr.weight] at *; omega
        · simp only [List.length_cons]; omega
      | some i =>
        simp only [hf]
        have hm := modify_weight c ty ts i h2
        obtain ⟨a, b, d⟩ := collect_weight c o es ops (ts.modify i (fun p => (p.1, p.2 ++ [ty]))) (by simp [h1])
          (by intro q hq; rcases mem_modify hq with hq | ⟨r, hr, rfl⟩; exact h2 q hq; simp)
        refine ⟨a, ?_, ?_⟩
        · simp only [weights, totalExprs, Expr.weight] at *; omega
        · simp only [List.length_cons]; omega

/-- Operands written out: what is kept and each of the targets with these numbers. -/
theorem exprs_weight (c : Comparing) (ts : List (Expr × List Expr)) : ∀ ops : List Operand,
    weights c (ops.map (Operand.expr ts)) = keepWeight c ops + weights c ((operandPlaces ops).map (fun i => Operand.expr ts (.target i)))
  | [] => by simp [weights, totalExprs, keepWeight, operandPlaces]
  | .keep e :: ops => by
    have := exprs_weight c ts ops
    simp only [List.map_cons, weights, totalExprs, keepWeight, operandPlaces, Operand.expr, Expr.weight] at *; omega
  | .target i :: ops => by
    have := exprs_weight c ts ops
    simp only [List.map_cons, weights, totalExprs, keepWeight, operandPlaces] at *; omega

theorem written_weight (c : Comparing) (ts : List (Expr × List Expr)) : weights c ((List.range ts.length).map (fun i => Operand.expr ts (.target i))) = targetsWeight c ts := by
  have h : (List.range ts.length).map (fun i => Operand.expr ts (.target i)) = ts.map newIsinstance := by
    apply List.ext_getElem?
    intro i
    rw [List.getElem?_map, List.getElem?_map]
    by_cases hi : i < ts.length
    · rw [List.getElem?_range hi]
      simp [Operand.expr, List.getElem?_eq_getElem hi]
    · rw [List.getElem?_eq_none (by simpa using hi), List.getElem?_eq_none (by simpa using hi)]
      rfl
  rw [h]
  clear h
  induction ts with
  | nil => rfl
  | cons p ts ih => simp only [List.map_cons, weights, totalExprs, targetsWeight, Expr.weight] at *; omega

theorem collapse_lt (c : Comparing) {o : IsinstanceOracle} {e e' : Expr} (h : collapseIsinstance o e = .fix e') : e'.weight c < e.weight c := by
  obtain ⟨hj, hlen⟩ := fix_eq h
  obtain ⟨a, b, d⟩ := collect_weight c o (unwrapOr e) [] [] rfl (by simp)
  obtain ⟨u1, u2⟩ := unwrap_weight c e
  generalize collectTargets o (unwrapOr e) ([], []) = r at *
  obtain ⟨ops, ts⟩ := r
  simp only at *
  have hx := exprs_weight c ts ops
  rw [a, written_weight] at hx
  cases hm : ops.map (Operand.expr ts) with
  | nil => rw [hm] at hj; cases hj
  | cons x xs =>
    rw [hm] at hj hx
    rw [joinOr] at hj
    cases hj
    have hl : ops.length = xs.length + 1 := by have := congrArg List.length hm; simpa using this
    rw [joinOr_weight]
    simp only [weights, totalExprs, keepWeight, targetsWeight, List.length_nil, Expr.weight] at *
    omega


/-! ### Strings -/

section
variable (c : Comparing) (f : PStr → Option PStr)

mutual
theorem escape_weight : ∀ e e' : Expr, escapeExpr f e = some e' → e'.weight c ≤ e.weight c
  | .name s, e', h => by cases h; exact Nat.le_refl _
  | .num s, e', h => by cases h; exact Nat.le_refl _
  | .str t, e', h => by
    simp only [escapeExpr, Option.map_eq_some_iff] at h
    obtain ⟨x', h, rfl⟩ := h
    exact Nat.le_refl _
  | .fstr x, e', h => by
    simp only [escapeExpr, Option.map_eq_some_iff] at h
    obtain ⟨x', h, rfl⟩ := h
    have := escape_parts_weight x x' h
    simp only [Expr.weight, Expr.total, nodeWeight] at *; omega
  | .attr x a, e', h => by
    simp only [escapeExpr, Option.map_eq_some_iff] at h
    obtain ⟨x', h, rfl⟩ := h
    have := escape_weight x x' h
    simp only [Expr.weight, Expr.total, nodeWeight] at *; omega
  | .call x y, e', h => by
    simp only [escapeExpr, Option.map_eq_some_iff, Option.bind_eq_some_iff] at h
    obtain ⟨x', h1, y', h2, rfl⟩ := h
    have := escape_weight x x' h1
    have := escape_args_weight y y' h2
    simp only [Expr.weight, Expr.total, nodeWeight] at *; omega
  | .lam ps x, e', h => by
    simp only [escapeExpr, Option.map_eq_some_iff] at h
    obtain ⟨x', h, rfl⟩ := h
    have := escape_weight x x' h
    simp only [Expr.weight, Expr.total, nodeWeight] at *; omega
  | .bool op x y, e', h => by
    simp only [escapeExpr, Option.map_eq_some_iff, Option.bind_eq_some_iff] at h
    obtain ⟨x', h1, y', h2, rfl⟩ := h
    have := escape_weight x x' h1
    have := escape_weight y y' h2
    simp only [Expr.weight, Expr.total, nodeWeight] at *; omega
  | .not x, e', h => by
    simp only [escapeExpr, Option.map_eq_some_iff] at h
    obtain ⟨x', h, rfl⟩ := h
    have := escape_weight x x' h
    simp only [Expr.weight, Expr.total, nodeWeight] at *; omega
  | .comp x y, e', h => by
    simp only [escapeExpr, Option.map_eq_some_iff, Option.bind_eq_some_iff] at h
    obtain ⟨x', h1, y', h2, rfl⟩ := h
    have := escape_weight x x' h1
    obtain ⟨_, ho⟩ := escape_targets_weight y y' h2
    simp only [Expr.weight, Expr.total, nodeWeight, ho] at *; omega
  | .tuple x, e', h => by
    simp only [escapeExpr, Option.map_eq_some_iff] at h
    obtain ⟨x', h, rfl⟩ := h
    have := escape_elems_weight x x' h
    simp only [Expr.weight, Expr.total, nodeWeight] at *; omega
  | .list x, e', h => by
    simp only [escapeExpr, Option.map_eq_some_iff] at h
    obtain ⟨x', h, rfl⟩ := h
    have := escape_elems_weight x x' h
    simp only [Expr.weight, Expr.total, nodeWeight] at *; omega
  | .set x, e', h => by
    simp only [escapeExpr, Option.map_eq_some_iff] at h
    obtain ⟨x', h, rfl⟩ := h
    have := escape_elems_weight x x' h
    simp only [Expr.weight, Expr.total, nodeWeight] at *; omega
  | .dict x, e', h => by
    simp only [escapeExpr, Option.map_eq_some_iff] at h
    obtain ⟨x', h, rfl⟩ := h
    have := escape_dict_weight x x' h
    simp only [Expr.weight, Expr.total, nodeWeight] at *; omega
  | .genExp x y, e', h => by
    simp only [escapeExpr, Option.map_eq_some_iff, Option.bind_eq_some_iff] at h
    obtain ⟨x', h1, y', h2, rfl⟩ := h
    have := escape_weight x x' h1
    have := escape_clauses_weight y y' h2
    simp only [Expr.weight, Expr.total, nodeWeight] at *; omega
  | .listComp x y, e', h => by
    simp only [escapeExpr, Option.map_eq_some_iff, Option.bind_eq_some_iff] at h
    obtain ⟨x', h1, y', h2, rfl⟩ := h
    have := escape_weight x x' h1
    have := escape_clauses_weight y y' h2
    simp only [Expr.weight, Expr.total, nodeWeight] at *; omega
  | .setComp x y, e', h => by
    simp only [escapeExpr, Option.map_eq_some_iff, Option.bind_eq_some_iff] at h
    obtain ⟨x', h1, y', h2, rfl⟩ := h
    have := escape_weight x x' h1
    have := escape_clauses_weight y y' h2
    simp only [Expr.weight, Expr.total, nodeWeight] at *; omega
  | .dictComp x y z, e', h => by
    simp only [escapeExpr, Option.map_eq_some_iff, Option.bind_eq_some_iff] at h
    obtain ⟨x', h1, y', h2, z', h3, rfl⟩ := h
    have := escape_weight x x' h1
    have := escape_weight y y' h2
    have := escape_clauses_weight z z' h3
    simp only [Expr.weight, Expr.total, nodeWeight] at *; omega
  | .await x, e', h => by
    simp only [escapeExpr, Option.map_eq_some_iff] at h
    obtain ⟨x', h, rfl⟩ := h
    have := escape_weight x x' h
    simp only [Expr.weight, Expr.total, nodeWeight] at *; omega
  | .other k x, e', h => by
    simp only [escapeExpr, Option.map_eq_some_iff] at h
    obtain ⟨x', h, rfl⟩ := h
    have := escape_exprs_weight x x' h
    simp only [Expr.weight, Expr.total, nodeWeight] at *; omega
  | .paren x, e', h => by
    cases hc : x.core with
    | str t =>
      simp only [escapeExpr, hc, Option.map_eq_some_iff] at h
      obtain ⟨t', h, rfl⟩ := h
      have := weight_pos c x
      unfold escapeParen
      split <;> simp only [Expr.weight, Expr.total, nodeWeight] at * <;> omega
    | _ =>
      simp only [escapeExpr, hc, Option.map_eq_some_iff] at h
      obtain ⟨x', h, rfl⟩ := h
      have := escape_weight x x' h
      simp only [Expr.weight, Expr.total, nodeWeight] at *; omega
theorem escape_exprs_weight : ∀ es es', escapeExprs f es = some es' → totalExprs (nodeWeight c) es' ≤ totalExprs (nodeWeight c) es
  | [], es', h => by cases h; exact Nat.le_refl _
  | x :: es, es', h => by
    simp only [escapeExprs, Option.map_eq_some_iff, Option.bind_eq_some_iff] at h
    obtain ⟨x', hx, r', h, rfl⟩ := h
    have := escape_weight x x' hx
    have := escape_exprs_weight es r' h
    simp only [totalExprs, Expr.weight] at *; omega
theorem escape_parts_weight : ∀ es es', escapeParts f es = some es' → totalParts (nodeWeight c) es' ≤ totalParts (nodeWeight c) es
  | [], es', h => by cases h; exact Nat.le_refl _
  | .text t :: es, es', h => by
    simp only [escapeParts, Option.map_eq_some_iff] at h
    obtain ⟨r', h, rfl⟩ := h
    have := escape_parts_weight es r' h
    simp only [totalParts] at *; omega
  | .expr x s :: es, es', h => by
    simp only [escapeParts, Option.map_eq_some_iff, Option.bind_eq_some_iff] at h
    obtain ⟨x', hx, r', h, rfl⟩ := h
    have := escape_weight x x' hx
    have := escape_parts_weight es r' h
    simp only [totalParts, Expr.weight] at *; omega
theorem escape_args_weight : ∀ es es', escapeArgs f es = some es' → totalArgs (nodeWeight c) es' ≤ totalArgs (nodeWeight c) es
  | [], es', h => by cases h; exact Nat.le_refl _
  | .mk st kw x :: es, es', h => by
    simp only [escapeArgs, Option.map_eq_some_iff, Option.bind_eq_some_iff] at h
    obtain ⟨x', hx, r', h, rfl⟩ := h
    have := escape_weight x x' hx
    have := escape_args_weight es r' h
    simp only [totalArgs, Expr.weight] at *; omega
theorem escape_targets_weight : ∀ es es', escapeTargets f es = some es' →
    totalTargets (nodeWeight c) es' ≤ totalTargets (nodeWeight c) es ∧ opWeights c es' = opWeights c es
  | [], es', h => by cases h; exact ⟨Nat.le_refl _, rfl⟩
  | .mk op x :: es, es', h => by
    simp only [escapeTargets, Option.map_eq_some_iff, Option.bind_eq_some_iff] at h
    obtain ⟨x', hx, r', h, rfl⟩ := h
    have := escape_weight x x' hx
    obtain ⟨_, h2⟩ := escape_targets_weight es r' h
    simp only [totalTargets, opWeights, Expr.weight, h2] at *
    exact ⟨by omega, trivial⟩
theorem escape_elems_weight : ∀ es es', escapeElems f es = some es' → totalElems (nodeWeight c) es' ≤ totalElems (nodeWeight c) es
  | [], es', h => by cases h; exact Nat.le_refl _
  | .plain x :: es, es', h => by
    simp only [escapeElems, Option.map_eq_some_iff, Option.bind_eq_some_iff] at h
    obtain ⟨x', hx, r', h, rfl⟩ := h
    have := escape_weight x x' hx
    have := escape_elems_weight es r' h
    simp only [totalElems, Expr.weight] at *; omega
  | .starred x :: es, es', h => by
    simp only [escapeElems, Option.map_eq_some_iff, Option.bind_eq_some_iff] at h
    obtain ⟨x', hx, r', h, rfl⟩ := h
    have := escape_weight x x' hx
    have := escape_elems_weight es r' h
    simp only [totalElems, Expr.weight] at *; omega
theorem escape_dict_weight : ∀ es es', escapeDict f es = some es' → totalDict (nodeWeight c) es' ≤ totalDict (nodeWeight c) es
  | [], es', h => by cases h; exact Nat.le_refl _
  | .pair x y :: es, es', h => by
    simp only [escapeDict, Option.map_eq_some_iff, Option.bind_eq_some_iff] at h
    obtain ⟨x', hx, y', hy, r', h, rfl⟩ := h
    have := escape_weight x x' hx
    have := escape_weight y y' hy
    have := escape_dict_weight es r' h
    simp only [totalDict, Expr.weight] at *; omega
  | .starred x :: es, es', h => by
    simp only [escapeDict, Option.map_eq_some_iff, Option.bind_eq_some_iff] at h
    obtain ⟨x', hx, r', h, rfl⟩ := h
    have := escape_weight x x' hx
    have := escape_dict_weight es r' h
    simp only [totalDict, Expr.weight] at *; omega
theorem escape_clauses_weight : ∀ es es', escapeClauses f es = some es' → totalClauses (nodeWeight c) es' ≤ totalClauses (nodeWeight c) es
  | [], es', h => by cases h; exact Nat.le_refl _
  | .mk a x y ifs :: es, es', h => by
    simp only [escapeClauses, Option.map_eq_some_iff, Option.bind_eq_some_iff] at h
    obtain ⟨x', hx, y', hy, z', hz, r', h, rfl⟩ := h
    have := escape_weight x x' hx
    have := escape_weight y y' hy
    have := escape_exprs_weight ifs z' hz
    have := escape_clauses_weight es r' h
    simp only [totalClauses, Expr.weight] at *; omega
end

theorem buildParts_weight : ∀ (tokens : List PStr) (es : List Expr) (ps : List FPart), buildParts (escapeExpr f) tokens es = some ps →
    totalParts (nodeWeight c) ps ≤ totalExprs (nodeWeight c) es
  | [], es, ps, h => by cases h; simp [totalParts]
  | _ :: _, [], ps, h => by cases h
  | t :: ts, e :: es, ps, h => by
    rw [buildParts] at h
    split at h
    · cases h
    · rename_i e' he
      simp only [Option.map_eq_some_iff] at h
      obtain ⟨qs, h, rfl⟩ := h
      have := escape_weight c f e e' he
      have := buildParts_weight ts es qs h
      have ht : totalParts (nodeWeight c) (textPart t) = 0 := by unfold textPart; split <;> simp [totalParts]
      simp only [totalParts, totalParts_append, totalExprs, Expr.weight, ht] at *; omega
end

theorem values_weight (c : Comparing) : ∀ es : List Elem, totalExprs (nodeWeight c) (es.map Elem.value) = totalElems (nodeWeight c) es
  | [] => rfl
  | e :: es => by rw [List.map_cons, totalExprs, elem_weight, values_weight c es]

theorem expressionsOf_weight (c : Comparing) (e : Expr) : totalExprs (nodeWeight c) (expressionsOf e) ≤ e.weight c := by
  have hw := weight_core c e
  unfold expressionsOf
  split
  · rename_i es hc
    rw [hc] at hw
    rw [values_weight]
    simp only [Expr.weight, Expr.total, nodeWeight] at *; omega
  · simp [totalExprs]

theorem useFstring_lt (c : Comparing) {L : Type} [DecidableEq L] {codegen : Expr → PStr} {value : PStr → Option L} {isText : L → Bool} {e l r : Expr} {kind : PStr} {n : FNode}
    (hc : e.core = .other kind [l, r]) (h : useFstring codegen value isText l r = .fix n) : (Expr.fstr n.parts).weight c < e.weight c := by
  refine core_lt c hc ?_
  have hl := weight_pos c l
  unfold useFstring at h
  split at h
  · rename_i text ht
    split at h
    · split at h
      · rename_i ps hps
        cases h
        simp only [fstringParts, Option.map_eq_some_iff] at hps
        obtain ⟨qs, hq, rfl⟩ := hps
        have hb := buildParts_weight c _ _ _ _ hq
        have hx := expressionsOf_weight c r
        have ht : ∀ t, totalParts (nodeWeight c) (textPart t) = 0 := by intro t; unfold textPart; split <;> simp [totalParts]
        simp only [Expr.weight, Expr.total, nodeWeight, totalParts_append, totalExprs, ht] at *; omega
      · cases h
    · split at h
      · split at h <;> cases h
      · cases h
  · cases h

theorem title_light : ∀ s ∈ builtinsToReplace, titleWord s ∉ builtinsToReplace := by decide

/-- Every fix that is offered makes the expression lighter. -/
theorem offered_lt (c : Comparing) {e e' : Expr} (h : Offered c e e') : e'.weight c < e.weight c := by
  cases h with
  | collapseIsinstance o h => exact collapse_lt c h
  | comparePrimitives hc h => subst hc; exact primitives_lt h
  | compareSingletons q hc h => subst hc; exact singletons_lt h
  | redundantLambda h => exact lambda_lt c h
  | redundantListComprehension h => exact listComprehension_lt c h
  | toLiteral h => exact literal_lt c h
  | toComprehension h => exact comprehension_lt c h
  | deprecatedAsserts h => exact deprecated_lt c h
  | assertTrue h => exact assertTrue_lt c h
  | assertIn h => exact assertIn_lt c h
  | assertIsNotNone h => exact assertIsNotNone_lt c h
  | redundantSuper classes hc h =>
    rename_i f as
    refine withCore_lt c hc ?_
    unfold isRedundantSuper at h
    split at h
    · rename_i a b
      have := weight_pos c a.value
      simp only [Expr.weight, Expr.total, nodeWeight, arg_weight, totalArgs] at *; omega
    · simp at h
  | typing qual hc h =>
    rename_i s
    refine withCore_lt c hc ?_
    simp only [isBuiltinType, Bool.and_eq_true, List.contains_iff_mem] at h
    have h1 : s ∈ builtinsToReplace := h.1
    have h2 := title_light s h1
    simp only [Expr.weight, Expr.total, nodeWeight, if_pos h1, if_neg h2]; omega
  | redundantFString start stop hc h =>
    refine core_lt c hc ?_
    simp only [Expr.weight, Expr.total, nodeWeight]; omega
  | useFString codegen value isText hc h => exact useFstring_lt c hc h

/-! ## The property -/

/-- **C114.** Fixing comes to an end: whatever fixes the bundled rules about expressions offer are applied, at whatever nodes and in whatever order, with one of the two rules about
comparisons, there are fewer fixes than four times the number of nodes of the expression. -/
theorem C114_terminates (c : Comparing) (n : Nat) (e e' : Expr) (h : Steps (Offered c) n e e') : n < 4 * e.size := by
  have h1 := steps_weight c (fun _ _ h => offered_lt c h) h
  have h2 := weight_size c e
  have h3 := weight_pos c e'
  omega

theorem Steps.one_more {R : Expr → Expr → Prop} {n : Nat} {a b d : Expr} (h : Steps R n a b) (hs : Step R b d) : Steps R (n + 1) a d := by
  induction h with
  | done => exact .next hs (.done _)
  | next h _ ih => exact .next h (ih hs)

/-- **C114.** So there is always an expression at the end for which no rule offers anything, at any node. -/
theorem C114_finishes (c : Comparing) (e : Expr) : ∃ n e', Steps (Offered c) n e e' ∧ ∀ e'', ¬ Step (Offered c) e' e'' := by
  suffices H : ∀ (k : Nat) (e : Expr), e.weight c ≤ k → ∃ n e', Steps (Offered c) n e e' ∧ ∀ e'', ¬ Step (Offered c) e' e'' from H _ e (Nat.le_refl _)
  intro k
  induction k with
  | zero => intro e h; have := weight_pos c e; omega
  | succ k ih =>
    intro e h
    by_cases hs : ∃ e', Step (Offered c) e e'
    · obtain ⟨e', hs⟩ := hs
      have := step_weight c (fun _ _ h => offered_lt c h) hs
      obtain ⟨n, e2, h1, h2⟩ := ih e' (by omega)
      exact ⟨n + 1, e2, .next hs h1, h2⟩
    · exact ⟨0, e, .done e, fun e' he => hs ⟨e', he⟩⟩

/-- **C114.** With both rules about comparisons it need not come to an end: there are expressions that can be fixed any number of times. -/
theorem C114_both_never (n : Nat) : ∃ e', Steps (fun a b => Offered .primitives a b ∨ Offered .singletons a b) n
    (.comp (.name (py "None")) [.mk .is (.num (py "1"))]) e' := by
  suffices H : ∀ (n : Nat) (e : Expr), Disputed e → ∃ e', Steps (fun a b => Offered .primitives a b ∨ Offered .singletons a b) n e e' from
    H n _ ⟨(.name (py "None"), .is, .num (py "1")), by simp [Expr.links, Expr.core, linksOf, Target.both], .inl rfl, .inr ⟨.none rfl, .num rfl⟩⟩
  intro n
  induction n with
  | zero => intro e _; exact ⟨e, .done e⟩
  | succ n ih =>
    intro e h
    obtain ⟨h1, h2⟩ := C84_disputed keywordQuals keywordQuals_ok e h
    rcases h1 with h1 | h1
    · obtain ⟨l, ts, l', ts', -, hf, -⟩ := (C83_primitives e).2 h1
      obtain ⟨e', he'⟩ := ih _ (h2 _ (.inl hf))
      exact ⟨e', .next (.here (.inl (.comparePrimitives rfl hf))) he'⟩
    · obtain ⟨l, ts, l', ts', -, hf, -⟩ := (C83_singletons keywordQuals keywordQuals_ok e).2 h1
      obtain ⟨e', he'⟩ := ih _ (h2 _ (.inr hf))
      exact ⟨e', .next (.here (.inr (.compareSingletons keywordQuals rfl hf))) he'⟩

/-! ## Examples -/

/-- `any([x for x in e])`. -/
def exampleList (e : Expr) : Expr := .call (.name (py "any")) [.pos (.listComp (.name (py "x")) [.mk false (.name (py "x")) e []])]

/-- `any(x for x in e)`. -/
def exampleGen (e : Expr) : Expr := .call (.name (py "any")) [.pos (.genExp (.name (py "x")) [.mk false (.name (py "x")) e []])]

theorem exampleList_step {R : Expr → Expr → Prop} {e e' : Expr} (h : Step R e e') : Step R (exampleList e) (exampleList e') :=
by
  have h1 := Step.inside (.listClause (.name (py "x")) (.iter false (.name (py "x")) []) [] []) h
  have h2 := Step.inside (.arg (.name (py "any")) [] [] .none none) h1
  exact h2

theorem exampleGen_step {R : Expr → Expr → Prop} {e e' : Expr} (h : Step R e e') : Step R (exampleGen e) (exampleGen e') :=
by
  have h1 := Step.inside (.genClause (.name (py "x")) (.iter false (.name (py "x")) []) [] []) h
  have h2 := Step.inside (.arg (.name (py "any")) [] [] .none none) h1
  exact h2

/-- `any([x for x in list(tuple([1]))])`: three fixes by two rules. -/
example : Steps (Offered .primitives) 3
    (exampleList (.call (.name (py "list")) [.pos (.call (.name (py "tuple")) [.pos (.list [.plain (.num (py "1"))])])]))
    (exampleGen (.list [.plain (.num (py "1"))])) :=
  .next (b := exampleList (.call (.name (py "list")) [.pos (.paren (.tuple [.plain (.num (py "1"))]))]))
    (exampleList_step (.inside (.arg (.name (py "list")) [] [] .none none) (.here (.toLiteral rfl))))
    (.next (b := exampleGen (.call (.name (py "list")) [.pos (.paren (.tuple [.plain (.num (py "1"))]))])) (.here (.redundantListComprehension rfl))
      (.next (exampleGen_step (.here (.toLiteral rfl))) (.done _)))

/-- A fix can make another node reportable: `list(tuple([1]))` has one report, for `tuple([1])`, and after the fix there is one for `list((1,))`, which there was not. -/
theorem C114_new_violation :
    rewriteToLiteral (.call (.name (py "list")) [.pos (.call (.name (py "tuple")) [.pos (.list [.plain (.num (py "1"))])])]) = .silent ∧
    rewriteToLiteral (.call (.name (py "tuple")) [.pos (.list [.plain (.num (py "1"))])]) = .fix (.paren (.tuple [.plain (.num (py "1"))])) ∧
    rewriteToLiteral (.call (.name (py "list")) [.pos (.paren (.tuple [.plain (.num (py "1"))]))]) = .fix (.list [.plain (.num (py "1"))]) := ⟨rfl, rfl, rfl⟩

end Cst
