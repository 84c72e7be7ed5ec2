import Verif.Spec.Percent
import Verif.Props.RulesIsinstance

/-!
# Changing the quotes of literals does not change the value of an expression
-/

namespace Cst
open Py

theorem awaits_core : ∀ e : Expr, e.core.awaits = e.awaits
  | .paren e => by rw [Expr.core, Expr.awaits]; exact awaits_core e
  | .name _ => rfl | .num _ => rfl | .str _ => rfl | .fstr _ => rfl | .attr _ _ => rfl | .call _ _ => rfl | .lam _ _ => rfl
  | .bool _ _ _ => rfl | .not _ => rfl | .comp _ _ => rfl | .tuple _ => rfl | .list _ => rfl | .set _ => rfl | .dict _ => rfl
  | .genExp _ _ => rfl | .listComp _ _ => rfl | .setComp _ _ => rfl | .dictComp _ _ _ => rfl | .await _ => rfl | .other _ _ => rfl

section
variable (I : Interp) (f : PStr → Option PStr) (hf : ∀ t t', f t = some t' → I.str t' = I.str t)
  (ha : ∀ t t', escapeExpr f t = some t' → I.assign t' = I.assign t)
include hf ha

mutual
theorem escapeExpr_same : ∀ e e' : Expr, escapeExpr f e = some e' → (∀ ρ, eval I ρ e' = eval I ρ e) ∧ e'.awaits = e.awaits
  | .name s, e', h => by cases h; exact ⟨fun _ => rfl, rfl⟩
  | .num t, e', h => by cases h; exact ⟨fun _ => rfl, rfl⟩
  | .str t, e', h => by
    simp only [escapeExpr, Option.map_eq_some_iff] at h
    obtain ⟨t', h, rfl⟩ := h
    exact ⟨fun ρ => by simp only [eval, hf t t' h], rfl⟩
  | .fstr ps, e', h => by
    simp only [escapeExpr, Option.map_eq_some_iff] at h
    obtain ⟨ps', h, rfl⟩ := h
    obtain ⟨h1, h2⟩ := escapeParts_same ps ps' h
    exact ⟨fun ρ => by simp only [eval, h1], by simp only [Expr.awaits, h2]⟩
  | .attr v a, e', h => by
    simp only [escapeExpr, Option.map_eq_some_iff] at h
    obtain ⟨v', h, rfl⟩ := h
    obtain ⟨h1, h2⟩ := escapeExpr_same v v' h
    exact ⟨fun ρ => by simp only [eval, h1], by simp only [Expr.awaits, h2]⟩
  | .call g as, e', h => by
    simp only [escapeExpr, Option.map_eq_some_iff, Option.bind_eq_some_iff] at h
    obtain ⟨g', hg, as', h, rfl⟩ := h
    obtain ⟨h1, h2⟩ := escapeExpr_same g g' hg
    obtain ⟨h3, h4⟩ := escapeArgs_same as as' h
    exact ⟨fun ρ => by simp only [eval, h1, h3], by simp only [Expr.awaits, h2, h4]⟩
  | .lam ps b, e', h => by
    simp only [escapeExpr, Option.map_eq_some_iff] at h
    obtain ⟨b', h, rfl⟩ := h
    obtain ⟨h1, h2⟩ := escapeExpr_same b b' h
    exact ⟨fun ρ => by simp only [eval, h1], rfl⟩
  | .bool op l r, e', h => by
    simp only [escapeExpr, Option.map_eq_some_iff, Option.bind_eq_some_iff] at h
    obtain ⟨l', hl, r', h, rfl⟩ := h
    obtain ⟨h1, h2⟩ := escapeExpr_same l l' hl
    obtain ⟨h3, h4⟩ := escapeExpr_same r r' h
    exact ⟨fun ρ => by simp only [eval, h1, h3], by simp only [Expr.awaits, h2, h4]⟩
  | .not x, e', h => by
    simp only [escapeExpr, Option.map_eq_some_iff] at h
    obtain ⟨b', h, rfl⟩ := h
    obtain ⟨h1, h2⟩ := escapeExpr_same x b' h
    exact ⟨fun ρ => by simp only [eval, h1], by simp only [Expr.awaits, h2]⟩
  | .comp l ts, e', h => by
    simp only [escapeExpr, Option.map_eq_some_iff, Option.bind_eq_some_iff] at h
    obtain ⟨l', hl, r', h, rfl⟩ := h
    obtain ⟨h1, h2⟩ := escapeExpr_same l l' hl
    obtain ⟨h3, h4, h5⟩ := escapeTargets_same ts r' h
    exact ⟨fun ρ => by simp only [eval, h1, h3], by simp only [Expr.awaits, h2, h4]⟩
  | .tuple es, e', h => by
    simp only [escapeExpr, Option.map_eq_some_iff] at h
    obtain ⟨b', h, rfl⟩ := h
    obtain ⟨h1, h2⟩ := escapeElems_same es b' h
    exact ⟨fun ρ => by simp only [eval, h1], by simp only [Expr.awaits, h2]⟩
  | .list es, e', h => by
    simp only [escapeExpr, Option.map_eq_some_iff] at h
    obtain ⟨b', h, rfl⟩ := h
    obtain ⟨h1, h2⟩ := escapeElems_same es b' h
    exact ⟨fun ρ => by simp only [eval, h1], by simp only [Expr.awaits, h2]⟩
  | .set es, e', h => by
    simp only [escapeExpr, Option.map_eq_some_iff] at h
    obtain ⟨b', h, rfl⟩ := h
    obtain ⟨h1, h2⟩ := escapeElems_same es b' h
    exact ⟨fun ρ => by simp only [eval, h1], by simp only [Expr.awaits, h2]⟩
  | .dict es, e', h => by
    simp only [escapeExpr, Option.map_eq_some_iff] at h
    obtain ⟨b', h, rfl⟩ := h
    obtain ⟨h1, h2⟩ := escapeDict_same es b' h
    exact ⟨fun ρ => by simp only [eval, h1], by simp only [Expr.awaits, h2]⟩
  | .genExp e cs, e', h => by
    simp only [escapeExpr, Option.map_eq_some_iff, Option.bind_eq_some_iff] at h
    obtain ⟨l', hl, r', h, rfl⟩ := h
    obtain ⟨h1, h2⟩ := escapeExpr_same e l' hl
    obtain ⟨h3, h4, h5⟩ := escapeClauses_same cs r' h
    exact ⟨fun ρ => by simp only [eval, h1, h4, h2, h5], by simp only [Expr.awaits]⟩
  | .listComp e cs, e', h => by
    simp only [escapeExpr, Option.map_eq_some_iff, Option.bind_eq_some_iff] at h
    obtain ⟨l', hl, r', h, rfl⟩ := h
    obtain ⟨h1, h2⟩ := escapeExpr_same e l' hl
    obtain ⟨h3, h4, h5⟩ := escapeClauses_same cs r' h
    exact ⟨fun ρ => by simp only [eval, h1, h3], by simp only [Expr.awaits, h2, h5]⟩
  | .setComp e cs, e', h => by
    simp only [escapeExpr, Option.map_eq_some_iff, Option.bind_eq_some_iff] at h
    obtain ⟨l', hl, r', h, rfl⟩ := h
    obtain ⟨h1, h2⟩ := escapeExpr_same e l' hl
    obtain ⟨h3, h4, h5⟩ := escapeClauses_same cs r' h
    exact ⟨fun ρ => by simp only [eval, h1, h3], by simp only [Expr.awaits, h2, h5]⟩
  | .dictComp k v cs, e', h => by
    simp only [escapeExpr, Option.map_eq_some_iff, Option.bind_eq_some_iff] at h
    obtain ⟨k', hk, v', hv, r', h, rfl⟩ := h
    obtain ⟨h1, h2⟩ := escapeExpr_same k k' hk
    obtain ⟨g1, g2⟩ := escapeExpr_same v v' hv
    obtain ⟨h3, h4, h5⟩ := escapeClauses_same cs r' h
    exact ⟨fun ρ => by simp only [eval, h1, g1, h3], by simp only [Expr.awaits, h2, g2, h5]⟩
  | .await x, e', h => by
    simp only [escapeExpr, Option.map_eq_some_iff] at h
    obtain ⟨b', h, rfl⟩ := h
    obtain ⟨h1, h2⟩ := escapeExpr_same x b' h
    exact ⟨fun ρ => by simp only [eval, h1], rfl⟩
  | .other k es, e', h => by
    simp only [escapeExpr, Option.map_eq_some_iff] at h
    obtain ⟨b', h, rfl⟩ := h
    obtain ⟨h1, h2, -⟩ := escapeExprs_same es b' h
    exact ⟨fun ρ => by simp only [eval, h1], by simp only [Expr.awaits, h2]⟩
  | .paren x, e', h => by
    rw [escapeExpr] at h
    split at h
    · rename_i t hx
      simp only [Option.map_eq_some_iff] at h
      obtain ⟨t', h, rfl⟩ := h
      unfold escapeParen
      split
      · exact ⟨fun _ => rfl, rfl⟩
      · refine ⟨fun ρ => ?_, ?_⟩
        · simp only [eval, hf t t' h]
          rw [← eval_core, hx, eval]
        · simp only [Expr.awaits]
          rw [← awaits_core, hx, Expr.awaits]
    · simp only [Option.map_eq_some_iff] at h
      obtain ⟨b', h, rfl⟩ := h
      obtain ⟨h1, h2⟩ := escapeExpr_same x b' h
      exact ⟨fun ρ => by simp only [eval, h1], by simp only [Expr.awaits, h2]⟩
theorem escapeExprs_same : ∀ es es' : List Expr, escapeExprs f es = some es' → (∀ ρ, evalExprs I ρ es' = evalExprs I ρ es) ∧ awaitsExprs es' = awaitsExprs es ∧ ∀ ρ, evalIfs I ρ es' = evalIfs I ρ es
  | [], es', h => by cases h; exact ⟨fun _ => rfl, rfl, fun _ => rfl⟩
  | e :: es, es', h => by
    simp only [escapeExprs, Option.map_eq_some_iff, Option.bind_eq_some_iff] at h
    obtain ⟨l', hl, r', h, rfl⟩ := h
    obtain ⟨h1, h2⟩ := escapeExpr_same e l' hl
    obtain ⟨h3, h4, h5⟩ := escapeExprs_same es r' h
    exact ⟨fun ρ => by simp only [evalExprs, h1, h3], by simp only [awaitsExprs, h2, h4], fun ρ => by simp only [evalIfs, h1, h5]⟩
theorem escapeParts_same : ∀ ps ps' : List FPart, escapeParts f ps = some ps' → (∀ ρ, evalParts I ρ ps' = evalParts I ρ ps) ∧ awaitsParts ps' = awaitsParts ps
  | [], es', h => by cases h; exact ⟨fun _ => rfl, rfl⟩
  | .text t :: ps, es', h => by
    simp only [escapeParts, Option.map_eq_some_iff] at h
    obtain ⟨r', h, rfl⟩ := h
    obtain ⟨h3, h4⟩ := escapeParts_same ps r' h
    exact ⟨fun ρ => by simp only [evalParts, h3], by simp only [awaitsParts, h4]⟩
  | .expr e s :: ps, es', h => by
    simp only [escapeParts, Option.map_eq_some_iff, Option.bind_eq_some_iff] at h
    obtain ⟨l', hl, r', h, rfl⟩ := h
    obtain ⟨h1, h2⟩ := escapeExpr_same e l' hl
    obtain ⟨h3, h4⟩ := escapeParts_same ps r' h
    exact ⟨fun ρ => by simp only [evalParts, h1, h3], by simp only [awaitsParts, h2, h4]⟩
theorem escapeArgs_same : ∀ as as' : List Arg, escapeArgs f as = some as' → (∀ ρ, evalArgs I ρ as' = evalArgs I ρ as) ∧ awaitsArgs as' = awaitsArgs as
  | [], es', h => by cases h; exact ⟨fun _ => rfl, rfl⟩
  | .mk s k e :: as, es', h => by
    simp only [escapeArgs, Option.map_eq_some_iff, Option.bind_eq_some_iff] at h
    obtain ⟨l', hl, r', h, rfl⟩ := h
    obtain ⟨h1, h2⟩ := escapeExpr_same e l' hl
    obtain ⟨h3, h4⟩ := escapeArgs_same as r' h
    exact ⟨fun ρ => by cases s <;> cases k <;> simp only [evalArgs, h1, h3], by simp only [awaitsArgs, h2, h4]⟩
theorem escapeTargets_same : ∀ ts ts' : List Target, escapeTargets f ts = some ts' → (∀ ρ v, evalTargets I ρ v ts' = evalTargets I ρ v ts) ∧ awaitsTargets ts' = awaitsTargets ts ∧ ts'.isEmpty = ts.isEmpty
  | [], es', h => by cases h; exact ⟨fun _ _ => rfl, rfl, rfl⟩
  | .mk o e :: ts, es', h => by
    simp only [escapeTargets, Option.map_eq_some_iff, Option.bind_eq_some_iff] at h
    obtain ⟨l', hl, r', h, rfl⟩ := h
    obtain ⟨h1, h2⟩ := escapeExpr_same e l' hl
    obtain ⟨h3, h4, h5⟩ := escapeTargets_same ts r' h
    exact ⟨fun ρ v => by simp only [evalTargets, h1, h3, h5], by simp only [awaitsTargets, h2, h4], rfl⟩
theorem escapeElems_same : ∀ ts ts' : List Elem, escapeElems f ts = some ts' → (∀ ρ, evalElems I ρ ts' = evalElems I ρ ts) ∧ awaitsElems ts' = awaitsElems ts
  | [], es', h => by cases h; exact ⟨fun _ => rfl, rfl⟩
  | .plain e :: ts, es', h => by
    simp only [escapeElems, Option.map_eq_some_iff, Option.bind_eq_some_iff] at h
    obtain ⟨l', hl, r', h, rfl⟩ := h
    obtain ⟨h1, h2⟩ := escapeExpr_same e l' hl
    obtain ⟨h3, h4⟩ := escapeElems_same ts r' h
    exact ⟨fun ρ => by simp only [evalElems, h1, h3], by simp only [awaitsElems, h2, h4]⟩
  | .starred e :: ts, es', h => by
    simp only [escapeElems, Option.map_eq_some_iff, Option.bind_eq_some_iff] at h
    obtain ⟨l', hl, r', h, rfl⟩ := h
    obtain ⟨h1, h2⟩ := escapeExpr_same e l' hl
    obtain ⟨h3, h4⟩ := escapeElems_same ts r' h
    exact ⟨fun ρ => by simp only [evalElems, h1, h3], by simp only [awaitsElems, h2, h4]⟩
theorem escapeDict_same : ∀ ts ts' : List DictElem, escapeDict f ts = some ts' → (∀ ρ, evalDict I ρ ts' = evalDict I ρ ts) ∧ awaitsDict ts' = awaitsDict ts
  | [], es', h => by cases h; exact ⟨fun _ => rfl, rfl⟩
  | .pair k v :: ts, es', h => by
    simp only [escapeDict, Option.map_eq_some_iff, Option.bind_eq_some_iff] at h
    obtain ⟨k', hk, l', hl, r', h, rfl⟩ := h
    obtain ⟨g1, g2⟩ := escapeExpr_same k k' hk
    obtain ⟨h1, h2⟩ := escapeExpr_same v l' hl
    obtain ⟨h3, h4⟩ := escapeDict_same ts r' h
    exact ⟨fun ρ => by simp only [evalDict, g1, h1, h3], by simp only [awaitsDict, g2, h2, h4]⟩
  | .starred e :: ts, es', h => by
    simp only [escapeDict, Option.map_eq_some_iff, Option.bind_eq_some_iff] at h
    obtain ⟨l', hl, r', h, rfl⟩ := h
    obtain ⟨h1, h2⟩ := escapeExpr_same e l' hl
    obtain ⟨h3, h4⟩ := escapeDict_same ts r' h
    exact ⟨fun ρ => by simp only [evalDict, h1, h3], by simp only [awaitsDict, h2, h4]⟩
theorem escapeClauses_same : ∀ ts ts' : List Clause, escapeClauses f ts = some ts' → (∀ ρ, evalClauses I ρ ts' = evalClauses I ρ ts) ∧ (∀ ρ, evalFirst I ρ ts' = evalFirst I ρ ts) ∧ awaitsClauses ts' = awaitsClauses ts
  | [], es', h => by cases h; exact ⟨fun _ => rfl, fun _ => rfl, rfl⟩
  | .mk a t i ifs :: ts, es', h => by
    simp only [escapeClauses, Option.map_eq_some_iff, Option.bind_eq_some_iff] at h
    obtain ⟨t', ht, i', hi, ifs', hifs, r', h, rfl⟩ := h
    have g := ha t t' ht
    obtain ⟨h1, h2⟩ := escapeExpr_same i i' hi
    obtain ⟨h3, h4, h5⟩ := escapeExprs_same ifs ifs' hifs
    obtain ⟨h6, h7, h8⟩ := escapeClauses_same ts r' h
    exact ⟨fun ρ => by simp only [evalClauses, g, h1, h5, h6], fun ρ => by simp only [evalFirst, g, h1, h5, h6], by simp only [awaitsClauses, h2, h4, h8]⟩
end
end

end Cst
