import Verif.Props.Converge
import Verif.Model.Rules.Classes

/-! # C115: applying a fix makes the violation go away -/

namespace Cst
open Py Fixit

/-- "Replacing `node` with `replacement` should make the lint violation go away": the rule has nothing to say about its own replacement. -/
def GoesAway (rule : Expr → Report Expr) : Prop := ∀ e e', rule e = .fix e' → rule e' = .silent

theorem core_callWith (e f : Expr) (as : List Arg) : (e.withCore fun _ => .call f as).core = .call f as := core_withCore (f := fun _ => .call f as) (fun _ => rfl) e

theorem core_callWith2 (e f : Expr) (as : List Arg) : ∀ x, (e.withCore fun _ => .call f as).core = x → x = .call f as := by
  intro x h; rw [← h, core_callWith]

theorem goesAway_listComprehension : GoesAway noRedundantListComprehension := by
  intro e e' h
  unfold noRedundantListComprehension at h
  split at h
  · split at h
    · split at h
      · cases h
        unfold noRedundantListComprehension
        rw [core_callWith]
        rfl
      · cases h
    · cases h
  · cases h

theorem goesAway_literal : GoesAway rewriteToLiteral := by
  intro e e' h
  unfold rewriteToLiteral at h
  split at h
  · split at h
    · cases h; rfl
    · split at h
      · cases h; rfl
      · split at h <;> cases h; rfl
  · split at h
    · cases h
    · split at h
      · cases h; rfl
      · split at h
        · cases h; rfl
        · split at h
          · cases h
            split <;> rfl
          · split at h
            · split at h <;> cases h; rfl
            · cases h
  · cases h

theorem goesAway_comprehension : GoesAway rewriteToComprehension := by
  intro e e' h
  unfold rewriteToComprehension at h
  split at h
  · split at h
    · cases h
    · split at h
      · cases h; rfl
      · split at h
        · cases h; rfl
        · split at h
          · split at h <;> cases h; rfl
          · cases h
  · cases h

theorem renameMethod_core (new a : PStr) (v : Expr) : ∀ f : Expr, f.core = .attr v a → (renameMethod new f).core = .attr v new
  | .paren f, h => by
    rw [Expr.core] at h
    exact renameMethod_core new a v f h
  | .attr v' a', h => by cases h; rfl
  | .name _, h => by cases h
  | .num _, h => by cases h
  | .str _, h => by cases h
  | .fstr _, h => by cases h
  | .call _ _, h => by cases h
  | .lam _ _, h => by cases h
  | .bool _ _ _, h => by cases h
  | .not _, h => by cases h
  | .comp _ _, h => by cases h
  | .tuple _, h => by cases h
  | .list _, h => by cases h
  | .set _, h => by cases h
  | .dict _, h => by cases h
  | .genExp _ _, h => by cases h
  | .listComp _ _, h => by cases h
  | .setComp _ _, h => by cases h
  | .dictComp _ _ _, h => by cases h
  | .await _, h => by cases h
  | .other _ _, h => by cases h

theorem isSelfMethod_rename (new m : PStr) (f : Expr) (hne : new ≠ m) (old : PStr) (h : isSelfMethod old f = true) : isSelfMethod m (renameMethod new f) = false := by
  unfold isSelfMethod at h
  split at h
  · rename_i v a hc
    unfold isSelfMethod
    rw [renameMethod_core new a v f hc]
    simp only [Bool.and_eq_false_iff, beq_eq_false_iff_ne]
    exact .inr hne
  · cases h

theorem deprecated_none_of {f : Expr} : ∀ ps : List (PStr × PStr), (∀ p ∈ ps, isSelfMethod p.1 f = false) → findDeprecated f ps = none
  | [], _ => rfl
  | (old, new) :: ps, h => by
    rw [findDeprecated, h (old, new) (by simp)]
    exact deprecated_none_of ps (fun p hp => h p (by simp [hp]))

theorem deprecated_new_not_old : ∀ p ∈ deprecatedAsserts, ∀ q ∈ deprecatedAsserts, p.2 ≠ q.1 := by decide

theorem goesAway_deprecated : GoesAway deprecatedUnittestAsserts := by
  intro e e' h
  unfold deprecatedUnittestAsserts at h
  split at h
  · rename_i f as hc
    split at h
    · rename_i new hn
      cases h
      obtain ⟨p, hp, hm, rfl⟩ := deprecated_some_of _ hn
      unfold deprecatedUnittestAsserts
      rw [core_callWith]
      simp only []
      rw [deprecated_none_of _ (fun q hq => isSelfMethod_rename p.2 q.1 f (deprecated_new_not_old p hp q hq) p.1 hm)]
    · cases h
  · cases h

theorem goesAway_assertTrue : GoesAway noAssertTrueForComparisons := by
  intro e e' h
  unfold noAssertTrueForComparisons at h
  split at h
  · rename_i f a b hc
    split at h
    · rename_i hm
      simp only [Bool.and_eq_true] at hm
      split at h
      · cases h
        unfold noAssertTrueForComparisons
        rw [core_callWith]
      · split at h
        · cases h
          unfold noAssertTrueForComparisons
          rw [core_callWith]
        · split at h
          · cases h
            unfold noAssertTrueForComparisons
            rw [core_callWith]
          · cases h
            unfold noAssertTrueForComparisons
            rw [core_callWith]
            simp only []
            rw [isSelfMethod_rename _ _ f (by decide) _ hm.1]
            rfl
    · cases h
  · cases h

theorem goesAway_assertIn : GoesAway useAssertIn := by
  intro e e' h
  unfold useAssertIn at h
  split at h
  · simp only [] at h
    split at h
    · cases h
      unfold useAssertIn
      rw [core_callWith]
    · split at h
      · cases h
        unfold useAssertIn
        rw [core_callWith]
      · cases h
  · cases h

theorem isSelfMethod_self (m n : PStr) : isSelfMethod m (selfMethod n) = (n == m) := by
  simp [isSelfMethod, selfMethod, Expr.core, Expr.isName]

theorem goesAway_assertIsNotNone : GoesAway useAssertIsNotNone := by
  intro e e' h
  unfold useAssertIsNotNone at h
  split at h
  · split at h
    · split at h
      · rename_i x hasNot isNot hn
        cases h
        unfold useAssertIsNotNone
        rw [core_callWith]
        simp only [isSelfMethod_self]
        rw [if_neg]
        generalize (if isSelfMethod (py "assertFalse") _ = true then 1 else 0) + (if hasNot = true then 1 else 0) + (if isNot = true then 1 else 0) = k
        by_cases hk : k % 2 = 0
        · rw [if_pos hk]; decide
        · rw [if_neg hk]; decide
      · cases h
    · cases h
  · cases h

/-! ### Chains of `isinstance` -/

theorem unwrap_leaf {e : Expr} (h : ∀ l r, e.core ≠ .bool .or l r) : unwrapOr e = [e] := operands_unique (unwrap_operands e) (.leaf h)

theorem operands_head {e : Expr} {es : List Expr} (h : Operands e es) : ∃ x xs, es = x :: xs ∧ ∀ l r, x.core ≠ .bool .or l r := by
  induction h with
  | leaf h => exact ⟨_, _, rfl, h⟩
  | or _ _ ih => obtain ⟨x, xs, rfl, hx⟩ := ih; exact ⟨x, xs ++ _, rfl, hx⟩

theorem unwrap_join : ∀ (xs : List Expr) (acc : Expr) (es : List Expr), unwrapOr acc = es → unwrapOr (xs.foldl (fun l r => Expr.bool .or l r) acc) = es ++ xs
  | [], acc, es, h => by simpa using h
  | x :: xs, acc, es, h => by
    rw [List.foldl_cons, unwrap_join xs _ (es ++ [x]) (by rw [unwrapOr, h])]
    simp

/-- The check that a new call is. -/
theorem isinstanceCall_new {o : IsinstanceOracle} {p : Expr × List Expr} {t ty : Expr} (h : isinstanceCall o (newIsinstance p) = some (t, ty)) : t = p.1 := by
  unfold isinstanceCall at h
  generalize hb : (Arg.pos (match p.2 with | [ty] => ty | tys => .paren (.tuple (tys.map .plain)))) = b at h
  have hc : (newIsinstance p).core = .call (.name (py "isinstance")) [.pos p.1, b] := by rw [← hb]; rfl
  rw [hc] at h
  simp only [] at h
  split at h
  · cases h
  · by_cases hx : o.isBuiltin (newIsinstance p) = true
    · rw [if_pos hx] at h
      cases h
      rfl
    · rw [if_neg hx] at h
      cases h

/-- What the operands of a rewritten chain are: no two targets are equal, and what is kept is not a check. -/
structure SettledOps (o : IsinstanceOracle) (ops : List Operand) (ts : List (Expr × List Expr)) : Prop where
  places : operandPlaces ops = List.range ts.length
  kept : ∀ e, .keep e ∈ ops → isinstanceCall o e = none
  apart : ∀ (i j : Nat) (p q : Expr × List Expr), ts[i]? = some p → ts[j]? = some q → j < i → o.deepEquals p.1 q.1 = false

theorem modify_fst {ts : List (Expr × List Expr)} {k : Nat} {ty : Expr} {i : Nat} {p : Expr × List Expr}
    (h : (ts.modify k (fun p => (p.1, p.2 ++ [ty])))[i]? = some p) : ∃ q, ts[i]? = some q ∧ q.1 = p.1 := by
  rw [List.getElem?_modify] at h
  cases hx : ts[i]? with
  | none => simp [hx] at h
  | some q =>
    refine ⟨q, rfl, ?_⟩
    rw [hx] at h
    split at h <;> (cases h; rfl)

theorem collect_settled (o : IsinstanceOracle) : ∀ (es : List Expr) (ops : List Operand) (ts : List (Expr × List Expr)), SettledOps o ops ts →
    SettledOps o (collectTargets o es (ops, ts)).1 (collectTargets o es (ops, ts)).2
  | [], ops, ts, h => h
  | e :: es, ops, ts, h => by
    rw [collectTargets]
    cases hi : isinstanceCall o e with
    | none =>
      simp only []
      apply collect_settled
      refine ⟨by simp [operandPlaces_append, Cst.operandPlaces, h.places], ?_, h.apart⟩
      intro x hx
      simp at hx
      rcases hx with hx | rfl
      · exact h.kept x hx
      · exact hi
    | some p =>
      obtain ⟨t, ty⟩ := p
      simp only []
      cases hf : findTarget o t ts with
      | none =>
        simp only []
        apply collect_settled
        refine ⟨by simp [operandPlaces_append, Cst.operandPlaces, h.places, List.range_succ], ?_, ?_⟩
        · intro x hx
          simp at hx
          exact h.kept x hx
        · intro i j p q hp hq hji
          have hj : j < ts.length := by
            have : i < (ts ++ [(t, [ty])]).length := (List.getElem?_eq_some_iff.1 hp).1
            simp at this
            omega
          rw [List.getElem?_append_left hj] at hq
          by_cases hi' : i < ts.length
          · rw [List.getElem?_append_left hi'] at hp
            exact h.apart i j p q hp hq hji
          · have hlen : i < (ts ++ [(t, [ty])]).length := (List.getElem?_eq_some_iff.1 hp).1
            simp at hlen
            have : i = ts.length := by omega
            subst this
            simp at hp
            subst hp
            unfold findTarget at hf
            rw [List.findIdx?_eq_none_iff] at hf
            exact hf q (List.mem_iff_getElem?.2 ⟨j, hq⟩)
      | some k =>
        simp only []
        apply collect_settled
        refine ⟨by simp [h.places], h.kept, ?_⟩
        intro i j p q hp hq hji
        obtain ⟨p', hp', h1⟩ := modify_fst hp
        obtain ⟨q', hq', h2⟩ := modify_fst hq
        rw [← h1, ← h2]
        exact h.apart i j p' q' hp' hq' hji

/-- A list of operands in which no check's target equals that of an earlier check is left as it is. -/
theorem collect_same (o : IsinstanceOracle) : ∀ (es : List Expr) (ops : List Operand) (ts : List (Expr × List Expr)),
    (∀ p ∈ ts, ∀ e ∈ es, ∀ t ty, isinstanceCall o e = some (t, ty) → o.deepEquals t p.1 = false) →
    es.Pairwise (fun a b => ∀ t ty t' ty', isinstanceCall o a = some (t, ty) → isinstanceCall o b = some (t', ty') → o.deepEquals t' t = false) →
    (collectTargets o es (ops, ts)).1.length = ops.length + es.length
  | [], ops, ts, _, _ => by simp [collectTargets]
  | e :: es, ops, ts, h1, h2 => by
    rw [List.pairwise_cons] at h2
    rw [collectTargets]
    cases hi : isinstanceCall o e with
    | none =>
      simp only []
      rw [collect_same o es _ _ (fun p hp x hx => h1 p hp x (by simp [hx])) h2.2]
      simp; omega
    | some p =>
      obtain ⟨t, ty⟩ := p
      simp only []
      have hf : findTarget o t ts = none := by
        unfold findTarget
        rw [List.findIdx?_eq_none_iff]
        intro p hp
        exact h1 p hp e (by simp) t ty hi
      rw [hf]
      simp only []
      rw [collect_same o es _ _ ?_ h2.2]
      · simp; omega
      · intro p hp x hx t' ty' hx'
        simp at hp
        rcases hp with hp | rfl
        · exact h1 p hp x (by simp [hx]) t' ty' hx'
        · exact h2.1 x hx t ty t' ty' hi hx'

theorem places_pairwise (o : IsinstanceOracle) (ts : List (Expr × List Expr))
    (hap : ∀ (i j : Nat) (p q : Expr × List Expr), ts[i]? = some p → ts[j]? = some q → j < i → o.deepEquals p.1 q.1 = false) :
    ∀ ops : List Operand, (operandPlaces ops).Pairwise (· < ·) → (∀ i ∈ operandPlaces ops, i < ts.length) → (∀ e, .keep e ∈ ops → isinstanceCall o e = none) →
    (ops.map (Operand.expr ts)).Pairwise (fun a b => ∀ t ty t' ty', isinstanceCall o a = some (t, ty) → isinstanceCall o b = some (t', ty') → o.deepEquals t' t = false)
  | [], _, _, _ => .nil
  | x :: ops, hs, hl, hk => by
    rw [List.map_cons, List.pairwise_cons]
    have rest : (operandPlaces ops).Pairwise (· < ·) ∧ (∀ i ∈ operandPlaces ops, i < ts.length) := by
      cases x with
      | keep e => exact ⟨hs, hl⟩
      | target i =>
        rw [operandPlaces, List.pairwise_cons] at hs
        exact ⟨hs.2, fun j hj => hl j (by simp [operandPlaces, hj])⟩
    refine ⟨?_, places_pairwise o ts hap ops rest.1 rest.2 (fun e he => hk e (by simp [he]))⟩
    intro b hb t ty t' ty' ha hb'
    cases x with
    | keep e =>
      rw [Operand.expr, hk e (by simp)] at ha
      cases ha
    | target i =>
      have hi : i < ts.length := hl i (by simp [operandPlaces])
      simp only [Operand.expr, List.getElem?_eq_getElem hi] at ha
      have ht := isinstanceCall_new ha
      rw [List.mem_map] at hb
      obtain ⟨y, hy, rfl⟩ := hb
      cases y with
      | keep e =>
        rw [Operand.expr, hk e (by simp [hy])] at hb'
        cases hb'
      | target j =>
        have hj' : j ∈ operandPlaces ops := by
          clear hs hl hk rest
          induction ops with
          | nil => simp at hy
          | cons z ops ih =>
            simp at hy
            rcases hy with rfl | hy
            · simp [operandPlaces]
            · cases z <;> simp [operandPlaces, ih hy]
        have hj : j < ts.length := rest.2 j hj'
        simp only [Operand.expr, List.getElem?_eq_getElem hj] at hb'
        have ht' := isinstanceCall_new hb'
        have hij : i < j := by
          rw [operandPlaces, List.pairwise_cons] at hs
          exact hs.1 j hj'
        rw [ht, ht']
        exact hap j i _ _ (List.getElem?_eq_getElem hj) (List.getElem?_eq_getElem hi) hij

theorem collect_head {o : IsinstanceOracle} : ∀ (es : List Expr) (ops : List Operand) (ts : List (Expr × List Expr)) (x : Operand) (xs : List Operand), ops = x :: xs →
    ∃ ys, (collectTargets o es (ops, ts)).1 = x :: ys
  | [], ops, ts, x, xs, h => ⟨xs, h⟩
  | e :: es, ops, ts, x, xs, h => by
    rw [collectTargets]
    cases hi : isinstanceCall o e with
    | none => simp only []; exact collect_head es _ _ x (xs ++ [.keep e]) (by rw [h]; rfl)
    | some p =>
      obtain ⟨t, ty⟩ := p
      simp only []
      cases hf : findTarget o t ts with
      | none => simp only []; exact collect_head es _ _ x (xs ++ [.target ts.length]) (by rw [h]; rfl)
      | some k => simp only []; exact collect_head es _ _ x xs h

theorem goesAway_collapse (o : IsinstanceOracle) : GoesAway (collapseIsinstance o) := by
  intro e e' h
  obtain ⟨hj, -⟩ := fix_eq h
  have hset := collect_settled o (unwrapOr e) [] [] ⟨rfl, by simp, by simp⟩
  obtain ⟨x0, xs0, hes, hx0⟩ := operands_head (unwrap_operands e)
  have hhead : ∃ x ys, (collectTargets o (unwrapOr e) ([], [])).1 = x :: ys ∧ (x = .keep x0 ∨ ∃ i, x = .target i) := by
    rw [hes, collectTargets]
    cases hi : isinstanceCall o x0 with
    | none => simp only []; obtain ⟨ys, hy⟩ := collect_head (o := o) xs0 [.keep x0] [] _ [] rfl; exact ⟨_, ys, hy, .inl rfl⟩
    | some p =>
      obtain ⟨t, ty⟩ := p
      simp only [findTarget, List.findIdx?_nil]
      obtain ⟨ys, hy⟩ := collect_head (o := o) xs0 [.target 0] [(t, [ty])] _ [] rfl
      exact ⟨_, ys, hy, .inr ⟨0, rfl⟩⟩
  generalize collectTargets o (unwrapOr e) ([], []) = r at *
  obtain ⟨ops, ts⟩ := r
  simp only at *
  have hpw := places_pairwise o ts hset.apart ops (by rw [hset.places]; exact List.pairwise_lt_range) (by rw [hset.places]; simp) hset.kept
  obtain ⟨x, ys, rfl, hx⟩ := hhead
  rw [List.map_cons, joinOr] at hj
  cases hj
  have hleaf : unwrapOr (Operand.expr ts x) = [Operand.expr ts x] := by
    apply unwrap_leaf
    rcases hx with rfl | ⟨i, rfl⟩
    · exact hx0
    · intro l r hc
      simp only [Operand.expr] at hc
      split at hc
      · simp [newIsinstance, Expr.core] at hc
      · simp [Expr.core] at hc
  have hun := unwrap_join (ys.map (Operand.expr ts)) _ _ hleaf
  unfold collapseIsinstance
  split
  · simp only []
    rw [if_pos]
    rw [hun, collect_same o _ _ _ (by simp) (by simpa using hpw)]
    simp
  · rfl

/-- **C115.** For each of these rules, what the rule offers is not reported again. -/
theorem C115_expressions (o : IsinstanceOracle) (quals : PStr → List QName) (hq : KeywordScopes quals) :
    GoesAway (collapseIsinstance o) ∧ GoesAway comparePrimitivesByEqual ∧ GoesAway (compareSingletonByIs quals) ∧ GoesAway noRedundantListComprehension ∧
    GoesAway rewriteToLiteral ∧ GoesAway rewriteToComprehension ∧ GoesAway deprecatedUnittestAsserts ∧ GoesAway noAssertTrueForComparisons ∧ GoesAway useAssertIn ∧
    GoesAway useAssertIsNotNone :=
  ⟨goesAway_collapse o, fun e e' => (C83_stable quals hq e e').1, fun e e' => (C83_stable quals hq e e').2, goesAway_listComprehension, goesAway_literal,
    goesAway_comprehension, goesAway_deprecated, goesAway_assertTrue, goesAway_assertIn, goesAway_assertIsNotNone⟩


/-- **C115.** `NoRedundantLambda`: what is offered is the called expression, which stood in the lambda before; it is reported again exactly when it is itself a lambda that was reported. -/
theorem C115_lambda (e e' : Expr) (h : noRedundantLambda e = .fix e') :
    (∃ ps body as, e.core = .lam ps body ∧ body.core = .call e' as) ∧ (noRedundantLambda e' = .silent ∨ ∃ e'', noRedundantLambda e' = .fix e'') := by
  unfold noRedundantLambda at h
  split at h
  · rename_i ps body hc
    split at h
    · rename_i f as hb
      split at h
      · cases h
        refine ⟨⟨ps, body, as, hc, hb⟩, ?_⟩
        unfold noRedundantLambda
        split
        · split
          · split
            · exact .inr ⟨_, rfl⟩
            · exact .inl rfl
          · exact .inl rfl
        · exact .inl rfl
      · cases h
    · cases h
  · cases h

/-- **C115.** Finding: `lambda: (lambda: f())()` becomes `lambda: f()`, which is reported at the same place. -/
theorem C115_lambda_again : ∃ e e' e'', noRedundantLambda e = .fix e' ∧ noRedundantLambda e' = .fix e'' :=
  ⟨.lam ⟨[], 0, 0, false, false⟩ (.call (.paren (.lam ⟨[], 0, 0, false, false⟩ (.call (.name (py "f")) []))) []),
    .paren (.lam ⟨[], 0, 0, false, false⟩ (.call (.name (py "f")) [])), .name (py "f"), rfl, rfl⟩

/-! ### The rules that walk -/

/-- The rule says nothing at this step of a walk, whatever it remembers and whatever the metadata are. -/
def SaysNothing (r : VRule) (e : Ev) : Prop := ∀ (st : Store) (s : r.State), ∃ st' s', r.on st s e = .ok (st', s', [])

/-- **C115.** `NoRedundantArgumentsSuper`: the call without arguments is not reported, in whatever class. -/
theorem C115_super (st : Store) (classes : List PStr) (i j : Nat) (f : Expr) (args as : List Arg) (st' : Store) (s' : List PStr) (out : List Rep) (rep : Rep)
    (h : superRule.on st classes (.leave i (.call f args)) = .ok (st', s', out)) (hr : rep ∈ out) (hc : rep.change = some (.args as)) :
    SaysNothing superRule (.leave j (.call f as)) := by
  have has : as = [] := by
    simp only [superRule, VRule.simple] at h
    cases hx : isRedundantSuper classes f args with
    | false => rw [hx] at h; simp at h; rw [h.2.2] at hr; simp at hr
    | true =>
      rw [hx] at h
      simp at h
      rw [← h.2.2] at hr
      simp at hr
      subst hr
      simp at hc
      exact hc
  subst has
  intro st s
  refine ⟨st, s, ?_⟩
  simp [superRule, VRule.simple, isRedundantSuper]

/-- **C115.** `UseTypesFromTyping`: the new name is not reported, whatever it means there. -/
theorem C115_typing (qual qual' : Nat → List PStr) (scope scope' : Nat → Except Err (Option (PStr → Bool))) (st st' : Store) (n s' : Int) (i j : Nat) (s t : PStr) (out : List Rep)
    (rep : Rep) (h : (typingRule qual scope).on st n (.visit i (.name s)) = .ok (st', s', out)) (hr : rep ∈ out) (hc : rep.change = some (.rename t)) :
    SaysNothing (typingRule qual' scope') (.visit j (.name t)) := by
  have key : ∃ u ∈ builtinsToReplace, t = titleWord u := by
    simp only [typingRule] at h
    split at h
    · rename_i hb
      have hb' : s ∈ builtinsToReplace := by
        have := hb.2
        simp only [isBuiltinType, Bool.and_eq_true, List.contains_iff_mem] at this
        exact this.1
      refine ⟨s, hb', ?_⟩
      split at h
      · cases h
      · cases h
        simp at hr
        subst hr
        cases hc
      · rename_i known _
        cases h
        simp at hr
        subst hr
        simp only at hc
        split at hc
        · cases hc; rfl
        · cases hc
    · cases h
      simp at hr
  obtain ⟨u, hu, rfl⟩ := key
  have hn : (builtinsToReplace.contains (titleWord u)) = false := by
    have := title_light u hu
    cases hx : builtinsToReplace.contains (titleWord u) with
    | false => rfl
    | true => exact absurd (List.contains_iff_mem.1 hx) this
  intro st n
  refine ⟨st, n, ?_⟩
  simp only [typingRule, isBuiltinType, hn, Bool.false_and, Bool.false_eq_true, and_false, if_false]

/-- **C115.** `DeprecatedABCImport`: neither the new module of an import, nor the new name of an imported module, nor the new base classes are reported, in whatever module they are. -/
theorem C115_abc (root : Syn) (i dots : Nat) (names : Option (List ImportName)) (id : Nat) (a : PStr) (asname : Option Expr) (name : PStr) (nameId : Nat)
    (bases : List Arg) (new : List (Nat × Arg)) (hn : new.map (·.2) = bases.map newBase) :
    SaysNothing (abcRule root) (.visit i (.importFrom dots (some collectionsAbc) names)) ∧
    SaysNothing (abcRule root) (.visit i (.importAlias ⟨id, collectionsAbcDot a, asname⟩)) ∧
    SaysNothing (abcRule root) (.visit i (.classDef name nameId new)) := by
  have hab : ∀ a, collectionsDot (collectionsAbcDot a) = none := fun a => by
    simp [collectionsDot, collectionsAbcDot, collectionsAbc, Expr.core, Expr.isName]
  refine ⟨?_, ?_, ?_⟩
  · intro st s
    have : fromCollections (some collectionsAbc) = false := rfl
    refine ⟨st, s, ?_⟩
    simp only [abcRule, VRule.simple, this, Bool.false_and, Bool.false_eq_true, if_false]
    split <;> rfl
  · intro st s
    refine ⟨st, s, ?_⟩
    simp only [abcRule, VRule.simple, hab]
  · intro st s
    refine ⟨st, s, ?_⟩
    have hnone : ∀ b ∈ new, (collectionsDot b.2.value).isSome = false := by
      intro b hb
      have hm : b.2 ∈ bases.map newBase := by rw [← hn]; exact List.mem_map_of_mem hb
      obtain ⟨c, -, hc⟩ := List.mem_map.1 hm
      rw [← hc]
      unfold newBase
      split
      · rename_i x hx; rw [Arg.pos, Arg.value, hab]; rfl
      · rename_i hx; rw [hx]; rfl
    have : new.filter (fun b => (collectionsDot b.2.value).isSome) = [] := by
      rw [List.filter_eq_nil_iff]
      intro b hb
      simp [hnone b hb]
    simp only [abcRule, VRule.simple, this]
    rfl

/-- **C115.** `DeprecatedABCImport`, when an import mixes names: in the module that is offered no statement imports exactly these names from `collections`. -/
theorem C115_abc_module (names : List PStr) (hmix : names.any (abcs.contains ·) = true) : ∀ body : List Syn, hasImportAny names (splitImports names body) = false
  | [] => rfl
  | s :: body => by
    rw [splitImports]
    have h1 : ∀ ns, hasImport names (newImport collectionsAbc ns) = false := by
      intro ns
      simp [newImport, hasImport, hasImportAny, Label.importsExactly, collectionsAbc, Expr.isName, Expr.core]
    have h2 : hasImport names (newImport (.name (py "collections")) (names.filter (fun n => !abcs.contains n))) = false := by
      have hlen : (names.filter (fun n => !abcs.contains n)).length ≠ names.length := by
        intro h
        rw [List.length_filter_eq_length_iff] at h
        rw [List.any_eq_true] at hmix
        obtain ⟨n, hn, hc⟩ := hmix
        have := h n hn
        rw [hc] at this
        cases this
      simp only [newImport, hasImport, hasImportAny, Label.importsExactly, Expr.isName, Expr.core, List.length_map, Bool.or_false, Bool.false_or]
      rw [show ((names.filter (fun n => !abcs.contains n)).length == names.length) = false from by simpa using hlen]
      simp
    split
    · rw [hasImportAny, hasImportAny, h1, h2, C115_abc_module names hmix body]; rfl
    · rename_i hs
      rw [hasImportAny, C115_abc_module names hmix body]
      simpa using hs

/-- An import statement. -/
def importLine (names : List PStr) : Syn := newImport (.name (py "collections")) names

/-- **C115.** Finding: with two imports that mix names, only the last is replaced; the module is reported again. -/
theorem C115_abc_again : ((abcRule (.node 1 .module [importLine [py "Mapping", py "deque"], importLine [py "Set", py "Counter"]])).alone (fun _ => [])
      (.node 1 .module [importLine [py "Mapping", py "deque"], importLine [py "Set", py "Counter"]])).toOption.map (fun r => r.map Rep.node) = some [1] ∧
    hasImportAny [py "Mapping", py "deque"] (splitImports [py "Set", py "Counter"] [importLine [py "Mapping", py "deque"], importLine [py "Set", py "Counter"]]) = true := by decide

/-- **C115.** `FixitDeprecatedTestCaseKeywords`: the call with the new arguments is not reported, whatever it means. -/
theorem C115_testcase (qual qual' : Nat → List PStr) (code code' : Expr → PStr) (parse parse' : PStr → Except Err Expr) (st st' : Store) (i j : Nat) (f : Expr)
    (args as : List Arg) (out : List Rep) (rep : Rep)
    (h : (testCaseRule qual code parse).on st () (.visit i (.call f args)) = .ok (st', (), out)) (hr : rep ∈ out) (hc : rep.change = some (.args as)) :
    SaysNothing (testCaseRule qual' code' parse') (.visit j (.call f as)) := by
  have key : ∀ (qs : List PStr) (out : List Rep), convertEach code parse i args qs = .ok out → rep ∈ out → as.any (·.keywordIn oldKeywords) = false := by
    intro qs
    induction qs with
    | nil => intro out h hr; cases h; simp at hr
    | cons q qs ih =>
      intro out h hr
      rw [convertEach] at h
      split at h
      · split at h
        · cases h
        · rename_i o1 h1
          split at h
          · cases h
          · rename_i o2 h2
            cases h
            rw [List.mem_append] at hr
            rcases hr with hr | hr
            · unfold convertArgs at h1
              split at h1
              · cases h1
              · rename_i new hnew
                split at h1
                · cases h1
                  simp at hr
                  subst hr
                  simp at hc
                  subst hc
                  have hold : ∀ a ∈ new, Arg.keywordIn a oldKeywords = false := by
                    intro a ha
                    unfold rangeArgs at hnew
                    split at hnew
                    · cases hnew; simp at ha
                    · rename_i l hl
                      generalize parse _ = pr at hnew
                      cases pr with
                      | error x => cases hnew
                      | ok e =>
                        cases hnew
                        simp at ha
                        subst ha
                        rfl
                  rw [List.any_eq_false]
                  intro a ha
                  rw [List.mem_append] at ha
                  rcases ha with ha | ha
                  · simp at ha; simp [ha.2]
                  · simp [hold a ha]
                · cases h1; simp at hr
            · exact ih o2 h2 hr
      · exact ih out h hr
  have hold : as.any (·.keywordIn oldKeywords) = false := by
    simp only [testCaseRule] at h
    cases hx : convertEach code parse i args (qual i) with
    | error x => rw [hx] at h; cases h
    | ok o => rw [hx] at h; cases h; exact key _ _ hx hr
  have hline : ∀ l : List Arg, l.any (·.keywordIn oldKeywords) = false → lastKeyword (py "line") l = none := by
    intro l
    induction l with
    | nil => intro _; rfl
    | cons a l ih =>
      intro h
      rw [List.any_cons, Bool.or_eq_false_iff] at h
      rw [lastKeyword, ih h.2]
      simp only []
      rw [if_neg]
      intro hk
      have := h.1
      rw [Arg.keywordIn, hk] at this
      revert this
      decide
  intro st s
  refine ⟨st, s, ?_⟩
  have each : ∀ qs : List PStr, convertEach code' parse' j as qs = .ok [] := by
    intro qs
    induction qs with
    | nil => rfl
    | cons q qs ih =>
      rw [convertEach]
      split
      · have : convertArgs code' parse' j as = .ok [] := by
          unfold convertArgs rangeArgs
          rw [hline as hold]
          simp only []
          rw [if_neg (by rw [hold]; simp)]
        rw [this, ih]
        rfl
      · exact ih
  simp only [testCaseRule, each]
  rfl

theorem deprecation_some {n old new : PStr} (h : deprecation n = some (old, new)) : (n, old, new) ∈ deprecations := by
  unfold deprecation at h
  simp only [Option.map_eq_some_iff] at h
  obtain ⟨d, hd, hdo⟩ := h
  have h1 := List.find?_some hd
  have h2 := List.mem_of_find?_eq_some hd
  simp at h1
  have : d = (n, old, new) := by rw [← h1, ← hdo]
  rw [← this]
  exact h2

theorem deprecations_new : ∀ d ∈ deprecations, ∀ d' ∈ deprecations, (py "." ++ d.2.2).isSuffixOf d'.1 = false ∧ d'.2.1 ≠ d.2.2 := by decide

/-- **C115.** `FixitDeprecatedImport`: neither the new name of an import nor the new name in the code is reported, whatever module it comes from and whatever it means. -/
theorem C115_deprecated_import (module module' : PStr) (a : ImportName) (id : Nat) (rep : Rep) (name : Expr) (asname : Option Expr)
    (hr : rep ∈ deprecatedAlias module a) (hc : rep.change = some (.alias name asname)) : deprecatedAlias module' ⟨id, name, asname⟩ = [] := by
  unfold deprecatedAlias at hr
  split at hr
  · simp at hr
  · rename_i n hn
    split at hr
    · simp at hr
    · rename_i old new hd
      simp only [List.mem_singleton] at hr
      subst hr
      cases hc
      have hmem := deprecation_some hd
      unfold deprecatedAlias
      simp only [Expr.nameText, Expr.core]
      cases hx : deprecation (module' ++ py "." ++ new) with
      | none => rfl
      | some p =>
        have hm := deprecation_some (old := p.1) (new := p.2) hx
        have := (deprecations_new _ hmem _ hm).1
        simp only [List.isSuffixOf_iff_suffix, ← Bool.not_eq_true] at this
        exact absurd ⟨module', by simp⟩ this

theorem C115_deprecated_name (st st' : Store) (i j : Nat) (v new : PStr) (out : List Rep) (rep : Rep)
    (h : deprecatedImportRule.on st () (.visit i (.name v)) = .ok (st', (), out)) (hr : rep ∈ out) (hc : rep.change = some (.rename new)) :
    SaysNothing deprecatedImportRule (.visit j (.name new)) := by
  have key : ∃ d ∈ deprecations, d.2.2 = new := by
    simp only [deprecatedImportRule] at h
    split at h
    · cases h; simp at hr
    · rename_i n rest hst
      cases h
      split at hr
      · rename_i old new' hd
        split at hr
        · simp at hr
          subst hr
          simp at hc
          exact ⟨_, deprecation_some hd, hc⟩
        · simp at hr
      · simp at hr
  obtain ⟨d, hd, rfl⟩ := key
  intro st s
  cases hst : st j with
  | nil => exact ⟨st, s, by simp only [deprecatedImportRule, hst]⟩
  | cons n rest =>
    refine ⟨fun k => if k = j then rest else st k, s, ?_⟩
    simp only [deprecatedImportRule, hst]
    cases hx : deprecation n with
    | none => rfl
    | some p =>
      obtain ⟨old, new'⟩ := p
      simp only []
      rw [if_neg]
      intro he
      exact (deprecations_new _ hd _ (deprecation_some hx)).2 he.symm

/-- **C115.** `FixitRemoveRuleSuffix`: the new name of the class is reported exactly when the old one ends with `RuleRule`. -/
theorem C115_suffix (name new : PStr) (h : withoutSuffix name = some new) : (withoutSuffix new).isSome = true ↔ (py "RuleRule").isSuffixOf name = true := by
  unfold withoutSuffix at h
  split at h
  · rename_i hs
    cases h
    rw [List.isSuffixOf_iff_suffix] at hs
    obtain ⟨pre, rfl⟩ := hs
    have : (pre ++ py "Rule").take ((pre ++ py "Rule").length - 4) = pre := by
      have : (pre ++ py "Rule").length - 4 = pre.length := by simp
      rw [this, List.take_left]
    rw [this]
    have hb : (py "RuleRule").isSuffixOf (pre ++ py "Rule") = true ↔ py "RuleRule" <:+ pre ++ py "Rule" := List.isSuffixOf_iff_suffix
    rw [hb]
    unfold withoutSuffix
    constructor
    · intro h
      split at h
      · rename_i hp
        rw [List.isSuffixOf_iff_suffix] at hp
        obtain ⟨q, rfl⟩ := hp
        exact ⟨q, by simp⟩
      · cases h
    · rintro ⟨q, hq⟩
      have : pre = q ++ py "Rule" := by
        have h2 : q ++ py "RuleRule" = (q ++ py "Rule") ++ py "Rule" := by simp
        rw [h2] at hq
        exact (List.append_cancel_right hq).symm
      subst this
      rw [if_pos (List.isSuffixOf_iff_suffix.2 ⟨q, rfl⟩)]
      rfl
  · cases h

/-- **C115.** Finding: `NoStringTypeAnnotation` offers what is in the string; when that is again a string, it is reported at the same place. -/
theorem C115_quoted_again (qual : Nat → List PStr) (value : PStr → Except Err PStr) (parse : PStr → Option Expr) (st : Store) (q : Quoted) (i j : Nat) (s v t w : PStr)
    (hq : q.future = true ∧ q.annotations ≠ [] ∧ q.literals = []) (hs : value s = .ok v) (hp : parse v = some (.str t)) (ht : value t = .ok w) :
    (quotedRule qual value parse).on st q (.visit i (.simpleString s)) = .ok (st, q, [{ node := i, change := some (.expr (.str t)) }]) ∧
    ∃ rep, (quotedRule qual value parse).on st q (.visit j (.simpleString t)) = .ok (st, q, [rep]) ∧ rep.node = j := by
  have hcond : (q.future && !q.annotations.isEmpty && q.literals.isEmpty) = true := by
    rw [hq.1, hq.2.2]
    cases hx : q.annotations with
    | nil => exact absurd hx hq.2.1
    | cons _ _ => rfl
  constructor
  · simp only [quotedRule, hcond, if_true, hs, unquote, hp]
  · refine ⟨unquote parse j w, ?_, ?_⟩
    · simp only [quotedRule, hcond, if_true, ht]
    · unfold unquote; split <;> rfl

/-! ### The rules about classes and annotations -/

/-- **C115.** `NoInheritFromObject` and `ReplaceUnionWithOptional`: what is offered is not reported. -/
theorem C115_object_union (bases new : List Arg) (known known' : Bool) (a a' : Ann) :
    (withoutObject bases = some new → withoutObject new = none) ∧ (replaceUnion known a = .fix a' → replaceUnion known' a' = .silent) := by
  constructor
  · intro h
    unfold withoutObject at h
    split at h
    · cases h
      unfold withoutObject
      rw [if_neg]
      simp [newBases]
    · cases h
  · intro h
    unfold replaceUnion at h
    split at h
    · split at h
      · split at h
        · unfold toOptional at h
          split at h
          · split at h
            · cases h; rfl
            · cases h
          · cases h
        · cases h
      · cases h
    · cases h

/-! ### Examples -/

/-- `isinstance(x, A) or isinstance(y, B) or isinstance(x, C)` becomes `isinstance(x, (A, C)) or isinstance(y, B)`. -/
example : collapseIsinstance ⟨fun a b => match a, b with | .name s, .name t => s == t | _, _ => false, fun _ => true⟩
    (.bool .or (.bool .or (.call (.name (py "isinstance")) [.pos (.name (py "x")), .pos (.name (py "A"))]) (.call (.name (py "isinstance")) [.pos (.name (py "y")), .pos (.name (py "B"))]))
      (.call (.name (py "isinstance")) [.pos (.name (py "x")), .pos (.name (py "C"))])) =
    .fix (.bool .or (.call (.name (py "isinstance")) [.pos (.name (py "x")), .pos (.paren (.tuple [.plain (.name (py "A")), .plain (.name (py "C"))]))])
      (.call (.name (py "isinstance")) [.pos (.name (py "y")), .pos (.name (py "B"))])) := rfl

/-- `MyRuleRule` becomes `MyRule`, which is reported. -/
example : withoutSuffix (py "MyRuleRule") = some (py "MyRule") ∧ withoutSuffix (py "MyRule") = some (py "My") := by decide

/-- A call with old keywords is reported, and so the hypotheses of `C115_testcase` can be met. -/
example : ((testCaseRule (fun _ => [py "fixit.InvalidTestCase"]) (fun _ => py "1") (fun _ => .ok (.name (py "r")))).on (fun _ => []) ()
    (.visit 3 (.call (.name (py "Invalid")) [.pos (.str (py "''")), .mk .none (some (py "line")) (.num (py "1"))]))).toOption.map (fun r => r.2.2.map Rep.node) = some [3] := by decide

end Cst
