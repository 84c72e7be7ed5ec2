import Verif.Props.RulesStatic

/-! # C82: collapsing chains of `isinstance` calls -/

namespace Cst
open Py

theorem core_core (e : Expr) : e.core.core = e.core := by
  match e with
  | .paren e => rw [Expr.core]; exact core_core e
  | .name _ => rfl | .num _ => rfl | .str _ => rfl | .fstr _ => rfl | .attr _ _ => rfl | .call _ _ => rfl | .lam _ _ => rfl
  | .bool _ _ _ => rfl | .not _ => rfl | .comp _ _ => rfl | .tuple _ => rfl | .list _ => rfl | .set _ => rfl | .dict _ => rfl
  | .genExp _ _ => rfl | .listComp _ _ => rfl | .setComp _ _ => rfl | .dictComp _ _ _ => rfl | .await _ => rfl | .other _ _ => rfl

/-- Parentheses do not change the value. -/
theorem eval_core (I : Interp) (ρ : I.Locals) : ∀ e : Expr, eval I ρ e.core = eval I ρ e
  | .paren e => by rw [Expr.core, eval]; exact eval_core I ρ e
  | .name _ => rfl | .num _ => rfl | .str _ => rfl | .fstr _ => rfl | .attr _ _ => rfl | .call _ _ => rfl | .lam _ _ => rfl
  | .bool _ _ _ => rfl | .not _ => rfl | .comp _ _ => rfl | .tuple _ => rfl | .list _ => rfl | .set _ => rfl | .dict _ => rfl
  | .genExp _ _ => rfl | .listComp _ _ => rfl | .setComp _ _ => rfl | .dictComp _ _ _ => rfl | .await _ => rfl | .other _ _ => rfl

theorem evalCond_core (I : Interp) (ρ : I.Locals) : ∀ e : Expr, evalCond I ρ e.core = evalCond I ρ e
  | .paren e => by rw [Expr.core, evalCond]; exact evalCond_core I ρ e
  | .name _ => rfl | .num _ => rfl | .str _ => rfl | .fstr _ => rfl | .attr _ _ => rfl | .call _ _ => rfl | .lam _ _ => rfl
  | .bool _ _ _ => rfl | .not _ => rfl | .comp _ _ => rfl | .tuple _ => rfl | .list _ => rfl | .set _ => rfl | .dict _ => rfl
  | .genExp _ _ => rfl | .listComp _ _ => rfl | .setComp _ _ => rfl | .dictComp _ _ _ => rfl | .await _ => rfl | .other _ _ => rfl

/-- The rule's unfolding is the list of operands. -/
theorem unwrap_operands : ∀ e : Expr, Operands e (unwrapOr e)
  | .paren e => by
    have ih := unwrap_operands e
    rw [unwrapOr]
    split
    · rename_i l r h
      revert ih
      generalize unwrapOr e = es
      intro ih
      cases ih with
      | leaf hl => exact absurd h (hl l r)
      | or hc hl => exact .or (by rw [Expr.core]; exact hc) hl
    · rename_i h
      refine .leaf ?_
      intro l r hx
      rw [Expr.core] at hx
      exact h l r hx
  | .bool .or l r => by rw [unwrapOr]; exact .or rfl (unwrap_operands l)
  | .bool .and l r => .leaf (by intro l r h; cases h)
  | .name _ => .leaf (by intro l r h; cases h) | .num _ => .leaf (by intro l r h; cases h)
  | .str _ => .leaf (by intro l r h; cases h) | .fstr _ => .leaf (by intro l r h; cases h)
  | .attr _ _ => .leaf (by intro l r h; cases h) | .call _ _ => .leaf (by intro l r h; cases h)
  | .lam _ _ => .leaf (by intro l r h; cases h) | .not _ => .leaf (by intro l r h; cases h)
  | .comp _ _ => .leaf (by intro l r h; cases h) | .tuple _ => .leaf (by intro l r h; cases h)
  | .list _ => .leaf (by intro l r h; cases h) | .set _ => .leaf (by intro l r h; cases h)
  | .dict _ => .leaf (by intro l r h; cases h) | .genExp _ _ => .leaf (by intro l r h; cases h)
  | .listComp _ _ => .leaf (by intro l r h; cases h) | .setComp _ _ => .leaf (by intro l r h; cases h)
  | .dictComp _ _ _ => .leaf (by intro l r h; cases h) | .await _ => .leaf (by intro l r h; cases h)
  | .other _ _ => .leaf (by intro l r h; cases h)

theorem operands_unique {e : Expr} {es fs : List Expr} (h1 : Operands e es) (h2 : Operands e fs) : es = fs := by
  induction h1 generalizing fs with
  | leaf hl =>
    cases h2 with
    | leaf => rfl
    | or hc _ => exact absurd hc (hl _ _)
  | or hc _ ih =>
    cases h2 with
    | leaf hl => exact absurd hc (hl _ _)
    | or hc' h' =>
      rw [hc] at hc'
      cases hc'
      rw [ih h']

/-- Testing a chain of effect-free operands: is one of them true? -/
theorem cond_operands {I : Interp} {ρ : I.Locals} {tv : Expr → Bool} {e : Expr} {es : List Expr} (h : Operands e es)
    (hp : ∀ x ∈ es, evalCond I ρ x = Run.pure (tv x)) : evalCond I ρ e = Run.pure (es.any tv) := by
  induction h with
  | leaf _ => rw [hp _ (by simp)]; simp
  | @or e l r es hc _ ih =>
    rw [← evalCond_core, hc, evalCond, ih (fun x hx => hp x (by simp [hx])), hp r (by simp)]
    funext s
    simp only [Run.bind, Run.pure, Run.andThen, List.any_append, List.any_cons, List.any_nil, Bool.or_false]
    cases es.any tv <;> simp [Run.pure]

/-- What a collected state stands for. -/
def collectedTrue (tv : Expr → Bool) (it : Expr → Expr → Bool) (targets : List (Expr × List Expr)) : Operand → Bool
  | .keep e => tv e
  | .target i => match targets[i]? with | some p => p.2.any (it p.1) | none => false

/-- Every target has its place, and places exist. -/
structure Placed (acc : List Operand × List (Expr × List Expr)) : Prop where
  has : ∀ i, i < acc.2.length → Operand.target i ∈ acc.1
  ok : ∀ i, Operand.target i ∈ acc.1 → i < acc.2.length
  some : ∀ p ∈ acc.2, p.2 ≠ []

theorem Placed.new {ops : List Operand} {ts : List (Expr × List Expr)} (h : Placed (ops, ts)) (t ty : Expr) :
    Placed (ops ++ [.target ts.length], ts ++ [(t, [ty])]) where
  has := by
    intro i hi
    simp at hi ⊢
    rcases Nat.lt_or_ge i ts.length with h' | h'
    · exact .inl (h.has i h')
    · right; omega
  ok := by
    intro i hi
    simp at hi ⊢
    rcases hi with hi | hi
    · have := h.ok i hi; simp at this; omega
    · omega
  some := by
    intro p hp
    simp at hp
    rcases hp with hp | hp
    · exact h.some p hp
    · subst hp; simp

theorem mem_modify {α : Type} {l : List α} {i : Nat} {f : α → α} {x : α} (h : x ∈ l.modify i f) : x ∈ l ∨ ∃ y ∈ l, x = f y := by
  rw [List.mem_iff_getElem?] at h
  obtain ⟨j, hj⟩ := h
  rw [List.getElem?_modify] at hj
  cases hx : l[j]? with
  | none => simp [hx] at hj
  | some y =>
    have hy : y ∈ l := List.mem_iff_getElem?.2 ⟨j, hx⟩
    simp [hx] at hj
    split at hj
    · exact .inr ⟨y, hy, hj.symm⟩
    · exact .inl (hj ▸ hy)

theorem Placed.more {ops : List Operand} {ts : List (Expr × List Expr)} (h : Placed (ops, ts)) (i : Nat) (ty : Expr) :
    Placed (ops, ts.modify i (fun p => (p.1, p.2 ++ [ty]))) where
  has := by intro j hj; exact h.has j (by simpa using hj)
  ok := by intro j hj; simpa using h.ok j hj
  some := by
    intro p hp
    rcases mem_modify hp with hp | ⟨q, hq, rfl⟩
    · exact h.some p hp
    · simp

theorem Placed.keep {ops : List Operand} {ts : List (Expr × List Expr)} (h : Placed (ops, ts)) (e : Expr) :
    Placed (ops ++ [.keep e], ts) where
  has := by intro j hj; simp; exact h.has j hj
  ok := by
    intro j hj
    simp at hj
    exact h.ok j hj
  some := h.some

theorem any_congr_mem {α : Type} {l : List α} {f g : α → Bool} (h : ∀ x ∈ l, f x = g x) : l.any f = l.any g := by
  induction l with
  | nil => rfl
  | cons a l ih => simp only [List.any_cons]; rw [h a (by simp), ih (fun x hx => h x (by simp [hx]))]

theorem any_modify_target {ops : List Operand} {ts : List (Expr × List Expr)} {tv : Expr → Bool} {it : Expr → Expr → Bool} {i : Nat} {ty : Expr}
    {p : Expr × List Expr} (hp : ts[i]? = some p) (hm : Operand.target i ∈ ops) :
    ops.any (collectedTrue tv it (ts.modify i (fun p => (p.1, p.2 ++ [ty])))) = (ops.any (collectedTrue tv it ts) || it p.1 ty) := by
  have hstep : ∀ op, collectedTrue tv it (ts.modify i (fun p => (p.1, p.2 ++ [ty]))) op =
      (collectedTrue tv it ts op || (match op with | .target j => j == i && it p.1 ty | .keep _ => false)) := by
    intro op
    cases op with
    | keep e => simp [collectedTrue]
    | target j =>
      simp only [collectedTrue, List.getElem?_modify]
      by_cases hj : i = j
      · subst hj; simp [hp]
      · cases hx : ts[j]? with
        | none => simp [hj]; intro h; exact absurd h.symm hj
        | some q => simp [hj]; intro h; exact absurd h.symm hj
  rw [Bool.eq_iff_iff]
  constructor
  · intro h
    rw [List.any_eq_true] at h
    obtain ⟨op, ho, h⟩ := h
    rw [hstep, Bool.or_eq_true] at h
    rw [Bool.or_eq_true, List.any_eq_true]
    rcases h with h | h
    · exact .inl ⟨op, ho, h⟩
    · cases op with
      | keep e => simp at h
      | target j => simp at h; exact .inr h.2
  · intro h
    rw [Bool.or_eq_true, List.any_eq_true] at h
    rw [List.any_eq_true]
    rcases h with ⟨op, ho, h⟩ | h
    · exact ⟨op, ho, by rw [hstep, h]; rfl⟩
    · exact ⟨_, hm, by rw [hstep]; simp [h]⟩

theorem any_new_target {ops : List Operand} {ts : List (Expr × List Expr)} {tv : Expr → Bool} {it : Expr → Expr → Bool} {t ty : Expr}
    (hok : ∀ i, Operand.target i ∈ ops → i < ts.length) :
    (ops ++ [Operand.target ts.length]).any (collectedTrue tv it (ts ++ [(t, [ty])])) = (ops.any (collectedTrue tv it ts) || it t ty) := by
  rw [List.any_append]
  congr 1
  · apply any_congr_mem
    intro op ho
    cases op with
    | keep e => rfl
    | target i => simp only [collectedTrue]; rw [List.getElem?_append_left (hok i ho)]
  · simp [collectedTrue]

theorem findTarget_some {o : IsinstanceOracle} {t : Expr} {ts : List (Expr × List Expr)} {i : Nat} (h : findTarget o t ts = some i) :
    ∃ p, ts[i]? = some p ∧ o.deepEquals t p.1 = true := by
  unfold findTarget at h
  rw [List.findIdx?_eq_some_iff_getElem] at h
  obtain ⟨hi, hp, _⟩ := h
  exact ⟨ts[i], List.getElem?_eq_getElem hi, hp⟩

/-- Collecting keeps the disjunction. -/
theorem collect_any {o : IsinstanceOracle} (heq : ∀ a b, o.deepEquals a b = true → a = b) {tv : Expr → Bool} {it : Expr → Expr → Bool} :
    ∀ (es : List Expr) (acc : List Operand × List (Expr × List Expr)), Placed acc →
      (∀ e ∈ es, ∀ t ty, isinstanceCall o e = some (t, ty) → tv e = it t ty) →
      Placed (collectTargets o es acc) ∧
      (collectTargets o es acc).1.any (collectedTrue tv it (collectTargets o es acc).2) = (acc.1.any (collectedTrue tv it acc.2) || es.any tv)
  | [], acc, hp, _ => by simp [collectTargets, hp]
  | e :: es, (ops, ts), hp, ht => by
    have ht' : ∀ e ∈ es, ∀ t ty, isinstanceCall o e = some (t, ty) → tv e = it t ty := fun x hx => ht x (by simp [hx])
    rw [collectTargets]
    cases hc : isinstanceCall o e with
    | none =>
      obtain ⟨h1, h2⟩ := collect_any heq es (ops ++ [.keep e], ts) (hp.keep e) ht'
      refine ⟨h1, ?_⟩
      simp only []
      rw [h2]
      simp [List.any_append, collectedTrue, Bool.or_assoc]
    | some q =>
      obtain ⟨t, ty⟩ := q
      have hte := ht e (by simp) t ty hc
      simp only []
      cases hf : findTarget o t ts with
      | none =>
        obtain ⟨h1, h2⟩ := collect_any heq es (ops ++ [.target ts.length], ts ++ [(t, [ty])]) (hp.new t ty) ht'
        refine ⟨h1, ?_⟩
        simp only []
        rw [h2, any_new_target hp.ok]
        simp [hte, Bool.or_assoc]
      | some i =>
        obtain ⟨p, hpi, hd⟩ := findTarget_some hf
        have hpe := heq _ _ hd
        have hi : i < ts.length := (List.getElem?_eq_some_iff.1 hpi).1
        obtain ⟨h1, h2⟩ := collect_any heq es (ops, ts.modify i (fun p => (p.1, p.2 ++ [ty]))) (hp.more i ty) ht'
        refine ⟨h1, ?_⟩
        simp only []
        rw [h2, any_modify_target hpi (hp.has i hi)]
        simp [hte, hpe, Bool.or_assoc]

/-- The targets and types collected come from the calls of the chain. -/
theorem collect_source {o : IsinstanceOracle} {P : Expr → Prop} {Q : Expr → Prop} :
    ∀ (es : List Expr) (acc : List Operand × List (Expr × List Expr)),
      (∀ p ∈ acc.2, P p.1 ∧ ∀ ty ∈ p.2, Q ty) → (∀ e ∈ es, ∀ t ty, isinstanceCall o e = some (t, ty) → P t ∧ Q ty) →
      ∀ p ∈ (collectTargets o es acc).2, P p.1 ∧ ∀ ty ∈ p.2, Q ty
  | [], _, h, _ => h
  | e :: es, (ops, ts), h, ht => by
    have ht' : ∀ e ∈ es, ∀ t ty, isinstanceCall o e = some (t, ty) → P t ∧ Q ty := fun x hx => ht x (by simp [hx])
    rw [collectTargets]
    cases hc : isinstanceCall o e with
    | none => exact collect_source es _ h ht'
    | some q =>
      obtain ⟨t, ty⟩ := q
      have hte := ht e (by simp) t ty hc
      simp only []
      cases hf : findTarget o t ts with
      | none =>
        refine collect_source es _ ?_ ht'
        intro p hp
        simp at hp
        rcases hp with hp | hp
        · exact h p hp
        · subst hp; exact ⟨hte.1, by simpa using hte.2⟩
      | some i =>
        refine collect_source es _ ?_ ht'
        intro p hp
        rcases mem_modify hp with hp | ⟨q, hq, rfl⟩
        · exact h p hp
        · refine ⟨(h q hq).1, ?_⟩
          intro x hx
          simp at hx
          rcases hx with hx | hx
          · exact (h q hq).2 x hx
          · subst hx; exact hte.2

/-- What is kept comes from the chain. -/
theorem collect_keep {o : IsinstanceOracle} {P : Expr → Prop} :
    ∀ (es : List Expr) (acc : List Operand × List (Expr × List Expr)), (∀ e, Operand.keep e ∈ acc.1 → P e) → (∀ e ∈ es, isinstanceCall o e = none → P e) →
      ∀ e, Operand.keep e ∈ (collectTargets o es acc).1 → P e
  | [], _, h, _ => h
  | e :: es, (ops, ts), h, ht => by
    have ht' : ∀ e ∈ es, isinstanceCall o e = none → P e := fun x hx => ht x (by simp [hx])
    rw [collectTargets]
    cases hc : isinstanceCall o e with
    | none =>
      refine collect_keep es _ ?_ ht'
      intro x hx
      simp at hx
      rcases hx with hx | hx
      · exact h x hx
      · subst hx; exact ht x (by simp) hc
    | some q =>
      obtain ⟨t, ty⟩ := q
      simp only []
      cases hf : findTarget o t ts with
      | none =>
        refine collect_keep es _ ?_ ht'
        intro x hx
        simp at hx
        exact h x hx
      | some i => exact collect_keep es _ h ht'

theorem eval_newIsinstance {I : Interp} {ρ : I.Locals} {isin : I.Val} {inst : I.Val → I.Val → Bool} {tup : List I.Val → I.Val}
    (laws : IsinstanceLaws I isin inst tup) (hn : I.lookup ρ (py "isinstance") = Run.pure isin) {v : Expr → I.Val} (t : Expr) (tys : List Expr)
    (ht : Evaluates I ρ t (v t)) (hty : ∀ ty ∈ tys, Evaluates I ρ ty (v ty)) :
    eval I ρ (newIsinstance (t, tys)) = Run.pure (I.ofBool (tys.any (fun ty => inst (v t) (v ty)))) := by
  have helems : ∀ l : List Expr, (∀ ty ∈ l, Evaluates I ρ ty (v ty)) → evalElems I ρ (l.map .plain) = Run.pure (l.map v) := by
    intro l
    induction l with
    | nil => intro _; rfl
    | cons a l ih =>
      intro h
      simp only [List.map_cons, evalElems]
      rw [h a (by simp), ih (fun x hx => h x (by simp [hx]))]
      rfl
  have hargs : ∀ (a : Expr) (w : I.Val), eval I ρ a = Run.pure w →
      evalArgs I ρ [.pos t, .pos a] = Run.pure ([v t, w], []) := by
    intro a w ha
    simp only [Arg.pos, evalArgs]
    rw [ht, ha]
    rfl
  have hgen : ∀ (a : Expr) (w : I.Val), eval I ρ a = Run.pure w →
      eval I ρ (.call (.name (py "isinstance")) [.pos t, .pos a]) = Run.pure (I.ofBool (inst (v t) w)) := by
    intro a w ha
    rw [eval, eval, hn, hargs a w ha, ← laws.call]
    rfl
  match tys, hty with
  | [ty], hty =>
    show eval I ρ (.call (.name (py "isinstance")) [.pos t, .pos ty]) = _
    rw [hgen ty (v ty) (hty ty (by simp))]
    simp
  | [], hty =>
    show eval I ρ (.call (.name (py "isinstance")) [.pos t, .pos (.paren (.tuple []))]) = _
    rw [hgen _ (tup []) (by rw [eval, eval, evalElems, ← laws.tuple]; rfl), laws.any]
    rfl
  | a :: b :: l, hty =>
    show eval I ρ (.call (.name (py "isinstance")) [.pos t, .pos (.paren (.tuple ((a :: b :: l).map .plain)))]) = _
    rw [hgen _ (tup ((a :: b :: l).map v)) (by rw [eval, eval, helems _ hty, ← laws.tuple]; rfl), laws.any, List.any_map]
    rfl

theorem cond_foldl {I : Interp} {ρ : I.Locals} {c : Expr → Bool} :
    ∀ (es : List Expr) (e : Expr) (b : Bool), evalCond I ρ e = Run.pure b → (∀ x ∈ es, evalCond I ρ x = Run.pure (c x)) →
      evalCond I ρ (es.foldl (fun l r => .bool .or l r) e) = Run.pure (b || es.any c)
  | [], e, b, he, _ => by simpa using he
  | x :: es, e, b, he, hx => by
    rw [List.foldl_cons]
    have h1 : evalCond I ρ (.bool .or e x) = Run.pure (b || c x) := by
      rw [evalCond, he, hx x (by simp)]
      funext s
      simp only [Run.bind, Run.pure, Run.andThen]
      cases b <;> simp [Run.pure]
    rw [cond_foldl es _ _ h1 (fun y hy => hx y (by simp [hy]))]
    simp [Bool.or_assoc]

theorem evalCond_call (I : Interp) (ρ : I.Locals) (f : Expr) (as : List Arg) : evalCond I ρ (.call f as) = (eval I ρ (.call f as)).bind I.truth := rfl

theorem fix_eq {o : IsinstanceOracle} {node e' : Expr} (h : collapseIsinstance o node = .fix e') :
    joinOr ((collectTargets o (unwrapOr node) ([], [])).1.map (Operand.expr (collectTargets o (unwrapOr node) ([], [])).2)) = some e' ∧
    (collectTargets o (unwrapOr node) ([], [])).1.length ≠ (unwrapOr node).length := by
  unfold collapseIsinstance at h
  split at h
  · simp only [] at h
    split at h
    · cases h
    · rename_i hlen
      split at h
      · rename_i e he
        cases h
        exact ⟨he, hlen⟩
      · cases h
  · cases h

/-- **C82.** A chain of `or` whose operands have no effect tests the same after the rewrite, in every program where `isinstance` is the
builtin. The operands may be anything; the rewritten calls must have two plain arguments. -/
theorem C82_truth (o : IsinstanceOracle) (node e' : Expr) (es : List Expr)
    (hfix : collapseIsinstance o node = .fix e') (hes : Operands node es)
    -- what the program is like
    (I : Interp) (ρ : I.Locals) (isin : I.Val) (inst : I.Val → I.Val → Bool) (tup : List I.Val → I.Val)
    (hconst : ConstTruth I) (laws : IsinstanceLaws I isin inst tup)
    (hname : I.lookup ρ (py "isinstance") = Run.pure isin)
    -- what libCST says is right
    (heq : ∀ a b, o.deepEquals a b = true → a = b)
    (hbuiltin : ∀ e ∈ es, o.isBuiltin e = true → ∀ f args, e.core = .call f args → Evaluates I ρ f isin)
    -- the operands have no effects
    (tv : Expr → Bool) (hpure : ∀ e ∈ es, evalCond I ρ e = Run.pure (tv e))
    (hargs : ∀ e ∈ es, ∀ f a b, e.core = .call f [a, b] → o.isBuiltin e = true →
      (∃ t ty, a = .pos t ∧ b = .pos ty) ∧ (∃ x, Evaluates I ρ a.value x) ∧ (∃ y, Evaluates I ρ b.value y)) :
    evalCond I ρ e' = evalCond I ρ node := by
  funext st
  have hes' := operands_unique (unwrap_operands node) hes
  obtain ⟨hj, -⟩ := fix_eq hfix
  rw [hes'] at hj
  classical
  let v : Expr → I.Val := fun e => if h : ∃ x, Evaluates I ρ e x then h.choose else I.none
  have hv : ∀ e, (∃ x, Evaluates I ρ e x) → Evaluates I ρ e (v e) := by
    intro e h
    have : v e = h.choose := by simp only [v]; rw [dif_pos h]
    rw [this]
    exact h.choose_spec
  let it : Expr → Expr → Bool := fun t ty => inst (v t) (v ty)
  have htruth : ∀ b, I.truth (I.ofBool b) = Run.pure b := by
    intro b; cases b <;> simp [Interp.ofBool, hconst.true, hconst.false]
  have hcall : ∀ e ∈ es, ∀ t ty, isinstanceCall o e = some (t, ty) →
      Evaluates I ρ t (v t) ∧ Evaluates I ρ ty (v ty) ∧ tv e = it t ty := by
    intro e he t ty h
    unfold isinstanceCall at h
    split at h
    · rename_i f a b hcore
      split at h
      · cases h
      · split at h
        · rename_i hb
          cases h
          obtain ⟨⟨t, ty, rfl, rfl⟩, hx, hy⟩ := hargs e he f a b hcore hb
          have ht := hv _ hx
          have hty := hv _ hy
          refine ⟨ht, hty, ?_⟩
          have hf := hbuiltin e he hb f _ hcore
          have h1 : eval I ρ e = Run.pure (I.ofBool (it t ty)) := by
            rw [← eval_core, hcore, eval, hf]
            simp only [Arg.pos, evalArgs]
            rw [show eval I ρ t = Run.pure (v t) from ht, show eval I ρ ty = Run.pure (v ty) from hty, ← laws.call]
            rfl
          have h2 : evalCond I ρ e = Run.pure (it t ty) := by
            rw [← evalCond_core, hcore, evalCond_call, ← hcore, eval_core, h1, ← htruth]
            rfl
          rw [hpure e he] at h2
          have := congrFun h2 st
          simp only [Run.pure, Prod.mk.injEq, Except.ok.injEq] at this
          exact this.1
        · cases h
    · cases h
  obtain ⟨hplaced, hany⟩ := collect_any (o := o) heq (tv := tv) (it := it) es ([], [])
    ⟨by intro i hi; simp at hi, by intro i hi; simp at hi, by intro p hp; simp at hp⟩ (fun e he t ty h => (hcall e he t ty h).2.2)
  have hsrc := collect_source (o := o) (P := fun t => Evaluates I ρ t (v t)) (Q := fun ty => Evaluates I ρ ty (v ty)) es ([], [])
    (by intro p hp; simp at hp) (fun e he t ty h => ⟨(hcall e he t ty h).1, (hcall e he t ty h).2.1⟩)
  have hkeep := collect_keep (o := o) (P := fun e => evalCond I ρ e = Run.pure (tv e)) es ([], []) (by intro e he; simp at he)
    (fun e he _ => hpure e he)
  generalize collectTargets o es ([], []) = acc at *
  obtain ⟨ops, ts⟩ := acc
  have hop : ∀ op ∈ ops, evalCond I ρ (op.expr ts) = Run.pure (collectedTrue tv it ts op) := by
    intro op ho
    cases op with
    | keep e => exact hkeep e ho
    | target i =>
      have hi := hplaced.ok i ho
      simp only [Operand.expr, collectedTrue]
      have hg : ts[i]? = some ts[i] := List.getElem?_eq_getElem hi
      rw [hg]
      simp only []
      obtain ⟨h1, h2⟩ := hsrc ts[i] (List.getElem_mem hi)
      have := eval_newIsinstance laws hname (v := v) ts[i].1 ts[i].2 h1 h2
      rw [show newIsinstance ts[i] = newIsinstance (ts[i].1, ts[i].2) from rfl]
      show (eval I ρ (newIsinstance (ts[i].1, ts[i].2))).bind I.truth = _
      rw [this, ← htruth]
      rfl
  have hnode := cond_operands hes hpure
  rw [hnode]
  have hany' : ops.any (collectedTrue tv it ts) = es.any tv := by simpa using hany
  rw [← hany']
  cases ops with
  | nil => simp [joinOr] at hj
  | cons op ops =>
    simp only [List.map_cons, joinOr, Option.some.injEq] at hj
    subst hj
    have h1 := cond_foldl (I := I) (ρ := ρ) (c := fun e => decide (evalCond I ρ e = Run.pure true)) (ops.map (Operand.expr ts)) (op.expr ts)
      (collectedTrue tv it ts op) (hop op (by simp)) (by
        intro x hx
        rw [List.mem_map] at hx
        obtain ⟨q, hq, rfl⟩ := hx
        rw [hop q (by simp [hq])]
        congr 1
        cases collectedTrue tv it ts q
        · have : ¬ ((Run.pure false : Run I.St I.Exc Bool) = Run.pure true) := by
            intro hc; have := congrFun hc st; simp [Run.pure] at this
          simp [this]
        · simp)
    rw [h1]
    congr 2
    rw [List.any_map]
    apply any_congr_mem
    intro q hq
    simp only [Function.comp]
    rw [hop q (by simp [hq])]
    cases collectedTrue tv it ts q
    · have : ¬ ((Run.pure false : Run I.St I.Exc Bool) = Run.pure true) := by
        intro hc; have := congrFun hc st; simp [Run.pure] at this
      simp [this]
    · simp

end Cst
