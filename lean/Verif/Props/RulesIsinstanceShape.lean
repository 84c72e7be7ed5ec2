import Verif.Props.RulesIsinstance

/-! # C82, continued: what the rewritten chain looks like -/

namespace Cst
open Py

def build (t : Expr) (tys : List Expr) : Expr := newIsinstance (t, tys)

/-- The types that are still to come are added to each target. -/
def extend (o : IsinstanceOracle) (es : List Expr) (p : Expr × List Expr) : Expr × List Expr :=
  (p.1, p.2 ++ typesFor (isinstanceCall o) o.deepEquals p.1 es)

section
variable {o : IsinstanceOracle} (hd : ∀ a b, o.deepEquals a b = true ↔ a = b)

theorem typesFor_none {e : Expr} (h : isinstanceCall o e = none) (t : Expr) (es : List Expr) :
    typesFor (isinstanceCall o) o.deepEquals t (e :: es) = typesFor (isinstanceCall o) o.deepEquals t es := by
  simp [typesFor, h]

include hd in
theorem typesFor_same {e t ty : Expr} (h : isinstanceCall o e = some (t, ty)) (es : List Expr) :
    typesFor (isinstanceCall o) o.deepEquals t (e :: es) = ty :: typesFor (isinstanceCall o) o.deepEquals t es := by
  simp [typesFor, h, (hd t t).2 rfl]

include hd in
theorem typesFor_ne {e t ty u : Expr} (h : isinstanceCall o e = some (t, ty)) (hne : t ≠ u) (es : List Expr) :
    typesFor (isinstanceCall o) o.deepEquals u (e :: es) = typesFor (isinstanceCall o) o.deepEquals u es := by
  have : o.deepEquals t u = false := by
    cases h' : o.deepEquals t u with
    | false => rfl
    | true => exact absurd ((hd t u).1 h') hne
  simp [typesFor, h, this]

theorem findTarget_none {t : Expr} {ts : List (Expr × List Expr)} (h : findTarget o t ts = none) : ∀ p ∈ ts, o.deepEquals t p.1 = false := by
  unfold findTarget at h
  rw [List.findIdx?_eq_none_iff] at h
  exact h

theorem expr_congr {ops : List Operand} {ts us : List (Expr × List Expr)} (h : ∀ i, Operand.target i ∈ ops → ts[i]? = us[i]?) :
    ops.map (Operand.expr ts) = ops.map (Operand.expr us) := by
  apply List.map_congr_left
  intro op ho
  cases op with
  | keep e => rfl
  | target i => simp only [Operand.expr]; rw [h i ho]

include hd in
theorem collect_gathered : ∀ (es : List Expr) (ops : List Operand) (ts : List (Expr × List Expr)), Placed (ops, ts) → (ts.map (·.1)).Nodup →
    (collectTargets o es (ops, ts)).1.map (Operand.expr (collectTargets o es (ops, ts)).2) =
      ops.map (Operand.expr (ts.map (extend o es))) ++ gathered (isinstanceCall o) o.deepEquals build (ts.map (·.1)) es
  | [], ops, ts, hp, hn => by
    have : ts.map (extend o []) = ts := by
      rw [List.map_congr_left (g := id)]
      · simp
      · intro p _; simp [extend, typesFor]
    simp [collectTargets, gathered, this]
  | e :: es, ops, ts, hp, hn => by
    rw [collectTargets, gathered]
    cases hc : isinstanceCall o e with
    | none =>
      simp only []
      rw [collect_gathered es _ _ (hp.keep e) hn]
      have : ts.map (extend o (e :: es)) = ts.map (extend o es) := by
        apply List.map_congr_left
        intro p _
        simp [extend, typesFor_none hc]
      rw [this]
      simp [Operand.expr]
    | some q =>
      obtain ⟨t, ty⟩ := q
      simp only []
      cases hf : findTarget o t ts with
      | none =>
        have hno := findTarget_none hf
        have hne : ∀ p ∈ ts, t ≠ p.1 := by
          intro p hp' he
          have := hno p hp'
          rw [(hd t p.1).2 he] at this
          cases this
        have hseen : (ts.map (·.1)).any (o.deepEquals t) = false := by
          rw [List.any_eq_false]
          intro x hx
          rw [List.mem_map] at hx
          obtain ⟨p, hp', rfl⟩ := hx
          simp [hno p hp']
        have hn' : ((ts ++ [(t, [ty])]).map (·.1)).Nodup := by
          rw [List.map_append, List.nodup_append]
          refine ⟨hn, by simp, ?_⟩
          intro a ha b hb
          rw [List.mem_map] at ha
          obtain ⟨p, hp', rfl⟩ := ha
          simp at hb
          subst hb
          exact fun h => hne p hp' h.symm
        simp only [hseen]
        rw [collect_gathered es _ _ (hp.new t ty) hn']
        have hold : ts.map (extend o (e :: es)) = ts.map (extend o es) := by
          apply List.map_congr_left
          intro p hp'
          simp [extend, typesFor_ne hd hc (hne p hp')]
        rw [hold]
        have hops : ops.map (Operand.expr ((ts ++ [(t, [ty])]).map (extend o es))) = ops.map (Operand.expr (ts.map (extend o es))) := by
          apply expr_congr
          intro i hi
          have := hp.ok i hi
          rw [List.map_append, List.getElem?_append_left (by simpa using this)]
        rw [List.map_append, hops]
        simp [Operand.expr, extend, build, typesFor_same hd hc]
      | some i =>
        obtain ⟨p, hpi, hde⟩ := findTarget_some hf
        have hpe : t = p.1 := (hd _ _).1 hde
        have hi : i < ts.length := (List.getElem?_eq_some_iff.1 hpi).1
        have hseen : (ts.map (·.1)).any (o.deepEquals t) = true := by
          rw [List.any_eq_true]
          exact ⟨p.1, List.mem_map.2 ⟨p, List.mem_of_getElem? hpi, rfl⟩, hde⟩
        have hfst : (ts.modify i (fun p => (p.1, p.2 ++ [ty]))).map (·.1) = ts.map (·.1) := by
          apply List.ext_getElem?
          intro j
          simp only [List.getElem?_map, List.getElem?_modify]
          cases ts[j]? with
          | none => rfl
          | some q => by_cases hij : i = j <;> simp [hij]
        simp only [hseen]
        rw [collect_gathered es _ _ (hp.more i ty) (by rw [hfst]; exact hn), hfst]
        have : (ts.modify i (fun p => (p.1, p.2 ++ [ty]))).map (extend o es) = ts.map (extend o (e :: es)) := by
          apply List.ext_getElem?
          intro j
          simp only [List.getElem?_map, List.getElem?_modify]
          by_cases hij : i = j
          · subst hij
            simp only [hpi]
            simp [extend, typesFor_same hd (hpe ▸ hc : isinstanceCall o e = some (p.1, ty))]
          · cases hj : ts[j]? with
            | none => simp [hij]
            | some q =>
              have hne : t ≠ q.1 := by
                intro h
                rw [hpe] at h
                have h1 : (ts.map (·.1))[i]? = some p.1 := by simp [hpi]
                have h2 : (ts.map (·.1))[j]? = some p.1 := by simp [hj, h]
                exact hij ((List.getElem?_inj (by simpa using hi) hn).1 (by rw [h1, h2]))
              simp [hij, extend, typesFor_ne hd hc hne]
        rw [this]
        simp

include hd in
theorem gathered_length : ∀ (es seen : List Expr), (gathered (isinstanceCall o) o.deepEquals build seen es).length ≤ es.length ∧
    ((gathered (isinstanceCall o) o.deepEquals build seen es).length = es.length ↔
      (targetsOf (isinstanceCall o) es).Nodup ∧ ∀ t ∈ targetsOf (isinstanceCall o) es, t ∉ seen)
  | [], seen => by simp [gathered, targetsOf]
  | e :: es, seen => by
    rw [gathered]
    cases hc : isinstanceCall o e with
    | none =>
      obtain ⟨h1, h2⟩ := gathered_length es seen
      have : targetsOf (isinstanceCall o) (e :: es) = targetsOf (isinstanceCall o) es := by simp [targetsOf, hc]
      rw [this]
      simp only [List.length_cons]
      refine ⟨by omega, ?_⟩
      rw [← h2]
      omega
    | some q =>
      obtain ⟨t, ty⟩ := q
      have ht : targetsOf (isinstanceCall o) (e :: es) = t :: targetsOf (isinstanceCall o) es := by simp [targetsOf, hc]
      simp only []
      rw [ht]
      split
      · rename_i hs
        rw [List.any_eq_true] at hs
        obtain ⟨u, hu, hue⟩ := hs
        have := (hd _ _).1 hue
        subst this
        obtain ⟨h1, _⟩ := gathered_length es seen
        simp only [List.length_cons]
        refine ⟨by omega, ?_⟩
        constructor
        · intro h; omega
        · intro h; exact absurd hu (h.2 t (by simp))
      · rename_i hs
        have hns : t ∉ seen := by
          intro h
          apply hs
          rw [List.any_eq_true]
          exact ⟨t, h, (hd _ _).2 rfl⟩
        obtain ⟨h1, h2⟩ := gathered_length es (seen ++ [t])
        simp only [List.length_cons]
        refine ⟨by omega, ?_⟩
        rw [Nat.add_right_cancel_iff, h2]
        constructor
        · rintro ⟨ha, hb⟩
          refine ⟨List.nodup_cons.2 ⟨fun h => hb t h (by simp), ha⟩, ?_⟩
          intro u hu
          simp at hu
          rcases hu with rfl | hu
          · exact hns
          · exact fun h => hb u hu (by simp [h])
        · rintro ⟨ha, hb⟩
          obtain ⟨ha1, ha2⟩ := List.nodup_cons.1 ha
          refine ⟨ha2, ?_⟩
          intro u hu h
          simp at h
          rcases h with h | h
          · exact hb u (by simp [hu]) h
          · subst h; exact ha1 hu

theorem isinstanceCall_call (f : Expr) (a b : Arg) :
    isinstanceCall o (.call f [a, b]) = none ∨ isinstanceCall o (.call f [a, b]) = some (a.value, b.value) := by
  unfold isinstanceCall
  simp only [Expr.core]
  split
  · exact .inl rfl
  · split
    · exact .inr rfl
    · exact .inl rfl

/-- The targets left after gathering are new and distinct. -/
theorem targets_gathered (hd : ∀ a b, o.deepEquals a b = true ↔ a = b) : ∀ (es seen : List Expr),
    (targetsOf (isinstanceCall o) (gathered (isinstanceCall o) o.deepEquals build seen es)).Nodup ∧
    ∀ t ∈ targetsOf (isinstanceCall o) (gathered (isinstanceCall o) o.deepEquals build seen es), t ∉ seen
  | [], seen => by simp [gathered, targetsOf]
  | e :: es, seen => by
    rw [gathered]
    cases hc : isinstanceCall o e with
    | none =>
      have := targets_gathered hd es seen
      simp only []
      have ht : ∀ l, targetsOf (isinstanceCall o) (e :: l) = targetsOf (isinstanceCall o) l := by intro l; simp [targetsOf, hc]
      rw [ht]
      exact this
    | some q =>
      obtain ⟨t, ty⟩ := q
      simp only []
      split
      · exact targets_gathered hd es seen
      · rename_i hs
        have hns : t ∉ seen := by
          intro h
          apply hs
          rw [List.any_eq_true]
          exact ⟨t, h, (hd _ _).2 rfl⟩
        obtain ⟨h1, h2⟩ := targets_gathered hd es (seen ++ [t])
        generalize gathered (isinstanceCall o) o.deepEquals build (seen ++ [t]) es = l at *
        have hb : ∀ tys, isinstanceCall o (build t tys) = none ∨ ∃ x, isinstanceCall o (build t tys) = some (t, x) := by
          intro tys
          rcases isinstanceCall_call (o := o) (.name (py "isinstance")) (.pos t) (.pos (match tys with | [ty] => ty | tys => .paren (.tuple (tys.map .plain)))) with h | h
          · exact .inl h
          · exact .inr ⟨_, h⟩
        rcases hb (typesFor (isinstanceCall o) o.deepEquals t (e :: es)) with hb | ⟨x, hb⟩
        · have : targetsOf (isinstanceCall o) (build t (typesFor (isinstanceCall o) o.deepEquals t (e :: es)) :: l) = targetsOf (isinstanceCall o) l := by
            simp [targetsOf, hb]
          rw [this]
          exact ⟨h1, fun u hu h => h2 u hu (by simp [h])⟩
        · have : targetsOf (isinstanceCall o) (build t (typesFor (isinstanceCall o) o.deepEquals t (e :: es)) :: l) = t :: targetsOf (isinstanceCall o) l := by
            simp [targetsOf, hb]
          rw [this]
          refine ⟨List.nodup_cons.2 ⟨fun h => h2 t h (by simp), h1⟩, ?_⟩
          intro u hu
          simp at hu
          rcases hu with rfl | hu
          · exact hns
          · exact fun h => h2 u hu (by simp [h])

theorem operands_ne {e : Expr} {es : List Expr} (h : Operands e es) : ∃ x xs, es = x :: xs ∧ ∀ l r, x.core ≠ .bool .or l r := by
  induction h with
  | leaf hl => exact ⟨_, _, rfl, hl⟩
  | @or e l r es hc _ ih =>
    obtain ⟨x, xs, rfl, hx⟩ := ih
    exact ⟨x, xs ++ [r], rfl, hx⟩

theorem operands_foldl : ∀ (xs : List Expr) (e : Expr) (es : List Expr), Operands e es →
    Operands (xs.foldl (fun l r => .bool .or l r) e) (es ++ xs)
  | [], e, es, h => by simpa using h
  | x :: xs, e, es, h => by
    rw [List.foldl_cons]
    have := operands_foldl xs (.bool .or e x) (es ++ [x]) (.or rfl h)
    simpa using this

/-- **C82.** What the rule does to a chain with operands `es`, when equality of subtrees is what libCST computes: it is silent exactly when
no two checks have the same target; otherwise it proposes the chain of the same operands in the same order in which the checks of each
target are gathered, at the place of the first one and with the types in their order; and it has nothing to say about its own result. -/
theorem C82_shape (hd : ∀ a b, o.deepEquals a b = true ↔ a = b) (node : Expr) (es : List Expr) (hb : ∃ op l r, node.core = .bool op l r)
    (hes : Operands node es) :
    ((targetsOf (isinstanceCall o) es).Nodup → collapseIsinstance o node = .silent) ∧
    (¬ (targetsOf (isinstanceCall o) es).Nodup → ∃ e', collapseIsinstance o node = .fix e' ∧
      Operands e' (gathered (isinstanceCall o) o.deepEquals build [] es) ∧ collapseIsinstance o e' = .silent) := by
  have hu := operands_unique (unwrap_operands node) hes
  have hp : Placed (([] : List Operand), ([] : List (Expr × List Expr))) :=
    ⟨by intro i hi; simp at hi, by intro i hi; simp at hi, by intro p hp; simp at hp⟩
  have hg := collect_gathered hd es [] [] hp (by simp)
  simp only [List.map_nil, List.nil_append] at hg
  have hlen : (collectTargets o es ([], [])).1.length = (gathered (isinstanceCall o) o.deepEquals build [] es).length := by
    rw [← hg]; simp
  obtain ⟨hle, hiff⟩ := gathered_length hd es []
  have hiff' : (gathered (isinstanceCall o) o.deepEquals build [] es).length = es.length ↔ (targetsOf (isinstanceCall o) es).Nodup := by
    rw [hiff]; simp
  have hrun : ∀ (node : Expr) (es : List Expr), (∃ op l r, node.core = .bool op l r) → unwrapOr node = es → collapseIsinstance o node =
      if (collectTargets o es ([], [])).1.length = es.length then .silent
      else match joinOr ((collectTargets o es ([], [])).1.map (Operand.expr (collectTargets o es ([], [])).2)) with
        | some e => .fix e | none => .silent := by
    intro node es ⟨op, l, r, h⟩ hu
    unfold collapseIsinstance
    rw [h]
    simp only [hu]
    rfl
  have hnode := hrun node es hb hu
  rw [hlen, hg] at hnode
  constructor
  · intro hn
    rw [hnode, if_pos (hiff'.2 hn)]
  · intro hn
    have hne : ¬ (gathered (isinstanceCall o) o.deepEquals build [] es).length = es.length := fun h => hn (hiff'.1 h)
    obtain ⟨x, xs, hx, hxor⟩ := operands_ne hes
    -- the first operand of the new chain
    obtain ⟨y, ys, hy, hyor⟩ : ∃ y ys, gathered (isinstanceCall o) o.deepEquals build [] es = y :: ys ∧ ∀ l r, y.core ≠ .bool .or l r := by
      rw [hx, gathered]
      cases hc : isinstanceCall o x with
      | none => exact ⟨_, _, rfl, hxor⟩
      | some q =>
        obtain ⟨t, ty⟩ := q
        refine ⟨_, _, by simp; exact ⟨rfl, rfl⟩, ?_⟩
        intro l r h
        simp [build, newIsinstance, Expr.core] at h
    rw [if_neg hne, hy] at hnode
    refine ⟨_, hnode, ?_, ?_⟩
    · rw [hy]
      exact operands_foldl ys y [y] (.leaf hyor)
    · have hops := operands_foldl ys y [y] (.leaf hyor)
      have hu' := operands_unique (unwrap_operands _) hops
      have htg := (targets_gathered hd es []).1
      rw [hy] at htg
      cases ys with
      | nil =>
        unfold collapseIsinstance
        simp only [List.foldl_nil]
        have hops' : unwrapOr y = [y] := operands_unique (unwrap_operands y) (.leaf hyor)
        have hl := (gathered_length hd [y] []).2
        split
        · simp only [hops']
          have hg' := collect_gathered hd [y] [] [] hp (by simp)
          have hl' : (collectTargets o [y] ([], [])).1.length = 1 := by
            have h1 : (collectTargets o [y] ([], [])).1.length = (gathered (isinstanceCall o) o.deepEquals build [] [y]).length := by
              simp only [List.map_nil, List.nil_append] at hg'
              rw [← hg']; simp
            rw [h1]
            exact hl.2 ⟨by simpa using htg, by simp⟩
          simp [hl']
        · rfl
      | cons z zs =>
        have hb' : ∃ op l r, ((z :: zs).foldl (fun l r => Expr.bool .or l r) y).core = .bool op l r := by
          rw [List.foldl_cons]
          have : ∀ (l : List Expr) (a b : Expr), ∃ op c d, (l.foldl (fun l r => Expr.bool .or l r) (.bool .or a b)).core = .bool op c d := by
            intro l
            induction l with
            | nil => intro a b; exact ⟨_, _, _, rfl⟩
            | cons c l ih => intro a b; rw [List.foldl_cons]; exact ih _ _
          exact this zs y z
        have hr := hrun _ _ hb' hu'
        have hg' := collect_gathered hd ([y] ++ (z :: zs)) [] [] hp (by simp)
        have hl := (gathered_length hd ([y] ++ (z :: zs)) []).2
        have h1 : (collectTargets o ([y] ++ (z :: zs)) ([], [])).1.length = (gathered (isinstanceCall o) o.deepEquals build [] ([y] ++ (z :: zs))).length := by
          simp only [List.map_nil, List.nil_append] at hg'
          rw [← hg']; simp
        rw [hr, h1, if_pos (hl.2 ⟨htg, by simp⟩)]

end

end Cst
