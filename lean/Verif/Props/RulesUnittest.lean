import Verif.Props.RulesComprehension

/-! # C89: rewriting unittest assertions -/

namespace Cst
open Py

theorem isSelfMethod_iff {m : PStr} {f : Expr} : isSelfMethod m f = true ↔ SelfMethod f m := by
  unfold isSelfMethod SelfMethod
  constructor
  · intro h
    cases hc : f.core with
    | attr v a =>
      rw [hc] at h
      simp only [Bool.and_eq_true, isName_iff, beq_iff_eq] at h
      exact ⟨v, by rw [h.2], h.1⟩
    | _ => rw [hc] at h; cases h
  · rintro ⟨v, hc, hv⟩
    rw [hc]
    simp only [Bool.and_eq_true, isName_iff, beq_iff_eq]
    exact ⟨hv, trivial⟩

theorem SelfMethod.unique {f : Expr} {m n : PStr} (h1 : SelfMethod f m) (h2 : SelfMethod f n) : m = n := by
  obtain ⟨v, hv, -⟩ := h1
  obtain ⟨w, hw, -⟩ := h2
  rw [hv] at hw
  cases hw
  rfl

theorem singleLink_iff {op : CompOp} {e x y : Expr} : singleLink op e = some (x, y) ↔ e.core = .comp x [.mk op y] := by
  unfold singleLink
  constructor
  · intro h
    split at h
    · rename_i l o r hc
      split at h
      · rename_i ho; cases h; rw [hc, ho]
      · cases h
    · cases h
  · intro h
    rw [h]
    simp

theorem negated_iff {e x : Expr} : negated e = some x ↔ e.core = .not x := by
  unfold negated
  constructor
  · intro h
    cases hc : e.core with
    | not y => rw [hc] at h; cases h; rfl
    | _ => rw [hc] at h; cases h
  · intro h; rw [h]

/-- The name of the method for a test of membership. -/
def membershipMethod (b : Bool) : PStr := if b then py "assertIn" else py "assertNotIn"

theorem in_fix {node e' : Expr} (h : useAssertIn node = .fix e') :
    ∃ x y b, MembershipTest node x y b ∧ e' = node.withCore fun _ => .call (selfMethod (membershipMethod b)) [.pos x, .pos y] := by
  unfold useAssertIn at h
  split at h
  · rename_i f a hc
    obtain ⟨st, kw, e⟩ := a
    simp only [Arg.value] at h
    split at h
    · rename_i x y hx
      cases h
      split at hx
      · rename_i ht
        exact ⟨x, y, true, .isIn hc (isSelfMethod_iff.1 ht) (singleLink_iff.1 hx), rfl⟩
      · cases hx
    · split at h
      · rename_i x y hx
        cases h
        refine ⟨x, y, false, ?_, rfl⟩
        cases h1 : (if isSelfMethod (py "assertTrue") f = true then (negated e).bind (singleLink .isIn) else none) with
        | some p =>
          rw [h1] at hx
          cases hx
          split at h1
          · rename_i ht
            rw [Option.bind_eq_some_iff] at h1
            obtain ⟨e1, hn, hl⟩ := h1
            exact .notIsIn hc (isSelfMethod_iff.1 ht) (negated_iff.1 hn) (singleLink_iff.1 hl)
          · cases h1
        | none =>
          rw [h1] at hx
          rw [Option.none_or] at hx
          cases h2 : (if isSelfMethod (py "assertTrue") f = true then singleLink .notIn e else none) with
          | some p =>
            rw [h2] at hx
            cases hx
            split at h2
            · rename_i ht; exact .notIn hc (isSelfMethod_iff.1 ht) (singleLink_iff.1 h2)
            · cases h2
          | none =>
            rw [h2, Option.none_or] at hx
            split at hx
            · rename_i ht; exact .falseIsIn hc (isSelfMethod_iff.1 ht) (singleLink_iff.1 hx)
            · cases hx
      · cases h
  · cases h

theorem isSelf_false {f : Expr} {m n : PStr} (h : SelfMethod f m) (hn : m ≠ n) : isSelfMethod n f = false := by
  cases hx : isSelfMethod n f with
  | false => rfl
  | true => exact absurd (h.unique (isSelfMethod_iff.1 hx)) hn

theorem singleLink_none {op op' : CompOp} {e x y : Expr} (h : e.core = .comp x [.mk op y]) (hn : op ≠ op') : singleLink op' e = none := by
  unfold singleLink
  rw [h]
  simp [hn]

theorem singleLink_not {op : CompOp} {e e1 : Expr} (h : e.core = .not e1) : singleLink op e = none := by
  unfold singleLink; rw [h]

theorem negated_comp {e x : Expr} {ts : List Target} (h : e.core = .comp x ts) : negated e = none := by
  unfold negated; rw [h]

theorem noneCheck_not {e e1 : Expr} (h : e.core = .not e1) : noneCheck e = none := by
  unfold noneCheck; rw [h]

theorem fix_in {node x y : Expr} {b : Bool} (h : MembershipTest node x y b) :
    useAssertIn node = .fix (node.withCore fun _ => .call (selfMethod (membershipMethod b)) [.pos x, .pos y]) := by
  cases h with
  | isIn hc hs hx =>
    unfold useAssertIn
    rw [hc]
    simp only [Arg.value, isSelfMethod_iff.2 hs, if_true, singleLink_iff.2 hx]
    rfl
  | notIsIn hc hs hn hx =>
    have h0 := singleLink_not (op := .isIn) hn
    unfold useAssertIn
    rw [hc]
    simp only [Arg.value, isSelfMethod_iff.2 hs, if_true, h0, negated_iff.2 hn, Option.bind_some, singleLink_iff.2 hx, Option.some_or]
    rfl
  | notIn hc hs hx =>
    have h0 := singleLink_none (op' := .isIn) hx (by simp)
    have h1 := negated_comp hx
    unfold useAssertIn
    rw [hc]
    simp only [Arg.value, isSelfMethod_iff.2 hs, if_true, h0, h1, Option.bind_none, Option.none_or, singleLink_iff.2 hx, Option.some_or]
    rfl
  | falseIsIn hc hs hx =>
    have hf := isSelf_false hs (n := py "assertTrue") (by decide)
    unfold useAssertIn
    rw [hc]
    simp only [Arg.value, isSelfMethod_iff.2 hs, hf, Bool.false_eq_true, if_false, if_true, Option.none_or, singleLink_iff.2 hx]
    rfl

/-- **C89.** UseAssertIn reports exactly the calls `self.assertTrue(x in y)`, `self.assertTrue(not x in y)`, `self.assertTrue(x not in y)`
and `self.assertFalse(x in y)`; the fix calls `self.assertIn(x, y)` or `self.assertNotIn(x, y)`. -/
theorem C89_in_shape (node : Expr) :
    (∀ x y b, MembershipTest node x y b →
      useAssertIn node = .fix (node.withCore fun _ => .call (.attr (.name (py "self")) (if b then py "assertIn" else py "assertNotIn")) [.pos x, .pos y])) ∧
    ((∀ x y b, ¬ MembershipTest node x y b) → useAssertIn node = .silent) := by
  refine ⟨fun x y b h => fix_in h, fun h => ?_⟩
  have h1 : ∀ e', useAssertIn node ≠ .fix e' := fun e' hx => by
    obtain ⟨x, y, b, hm, -⟩ := in_fix hx
    exact h x y b hm
  revert h1
  unfold useAssertIn
  split
  · simp only []
    split
    · intro h1; exact absurd rfl (h1 _)
    · split
      · intro h1; exact absurd rfl (h1 _)
      · intro _; rfl
  · intro _; rfl

/-! ## Meaning -/

theorem eval_self {I : Interp} {ρ : I.Locals} {me : I.Val} {meth : PStr → I.Val} {fail : I.Exc} (laws : UnittestLaws I me meth fail)
    (hself : I.lookup ρ (py "self") = Run.pure me) {f : Expr} {m : PStr} (h : SelfMethod f m) : Evaluates I ρ f (meth m) := by
  obtain ⟨v, hc, hv⟩ := h
  unfold Evaluates
  rw [← eval_core, hc, eval, ← eval_core I ρ v, show v.core = .name (py "self") from hv, eval, hself]
  exact laws.getattr m

theorem selfMethod_ok (m : PStr) : SelfMethod (selfMethod m) m := ⟨_, rfl, rfl⟩

theorem eval_call_two {I : Interp} {ρ : I.Locals} {f x y : Expr} {fv : I.Val} (hf : Evaluates I ρ f fv) :
    eval I ρ (.call f [.pos x, .pos y]) = (eval I ρ x).bind fun a => (eval I ρ y).bind fun b => I.call fv [a, b] [] := by
  show eval I ρ (.call f [.mk .none none x, .mk .none none y]) = _
  rw [eval, hf, evalArgs, evalArgs, evalArgs]
  simp only [Run.pure_bind, Run.bind_assoc]

theorem eval_link {I : Interp} {ρ : I.Locals} {e x y : Expr} {op : CompOp} (h : e.core = .comp x [.mk op y]) :
    eval I ρ e = (eval I ρ x).bind fun a => (eval I ρ y).bind fun b => I.link op a b := by
  rw [← eval_core, h, eval]
  congr 1; funext a
  rw [evalTargets]
  congr 1; funext b
  simp only [List.isEmpty_nil, if_true]
  exact Run.bind_pure _

theorem eval_not_core {I : Interp} {ρ : I.Locals} {e e1 : Expr} (h : e.core = .not e1) : eval I ρ e = I.negate (eval I ρ e1) := by
  rw [← eval_core, h, eval]

theorem ofBool_truth {I : Interp} (hc : ConstTruth I) (b : Bool) : I.truth (I.ofBool b) = Run.pure b := by
  cases b
  · exact hc.false
  · exact hc.true

/-- **C89.** In a program where `self` is a test case, the rewritten assertion does what the old one did: it passes or fails alike, with
the same effects and the same other exceptions. -/
theorem C89_in_meaning (node e' : Expr) (h : useAssertIn node = .fix e') (I : Interp) (ρ : I.Locals) (hconst : ConstTruth I) (me : I.Val)
    (meth : PStr → I.Val) (fail : I.Exc) (laws : UnittestLaws I me meth fail) (hself : I.lookup ρ (py "self") = Run.pure me)
    (hpos : ∀ f a, node.core = .call f [a] → ∃ v, a = .pos v) : eval I ρ e' = eval I ρ node := by
  obtain ⟨x, y, b, hm, rfl⟩ := in_fix h
  rw [eval_withCore I ρ node _ rfl, eval_call_two (eval_self laws hself (selfMethod_ok _))]
  cases hm with
  | isIn hc hs hx =>
    obtain ⟨v, hv⟩ := hpos _ _ hc; cases hv
    rw [← eval_core I ρ node, hc]
    show _ = eval I ρ (.call _ [.mk .none none _])
    rw [eval_call_one (eval_self laws hself hs), eval_link hx]
    simp only [Run.bind_assoc, Interp.link, Run.pure_bind]
    congr 1; funext a; congr 1; funext c
    rw [show membershipMethod true = py "assertIn" from rfl, laws.assertIn]
    congr 1; funext r
    rw [laws.assertTrue, ofBool_truth hconst]
    rfl
  | notIsIn hc hs hn hx =>
    obtain ⟨v, hv⟩ := hpos _ _ hc; cases hv
    rw [← eval_core I ρ node, hc]
    show _ = eval I ρ (.call _ [.mk .none none _])
    rw [eval_call_one (eval_self laws hself hs), eval_not_core hn, Interp.negate, eval_link hx]
    simp only [Run.bind_assoc, Interp.link, Run.pure_bind]
    congr 1; funext a; congr 1; funext c
    rw [show membershipMethod false = py "assertNotIn" from rfl, laws.assertNotIn]
    congr 1; funext r
    rw [ofBool_truth hconst, Run.pure_bind, laws.assertTrue, ofBool_truth hconst]
    cases r <;> rfl
  | notIn hc hs hx =>
    obtain ⟨v, hv⟩ := hpos _ _ hc; cases hv
    rw [← eval_core I ρ node, hc]
    show _ = eval I ρ (.call _ [.mk .none none _])
    rw [eval_call_one (eval_self laws hself hs), eval_link hx]
    simp only [Run.bind_assoc, Interp.link, Run.pure_bind]
    congr 1; funext a; congr 1; funext c
    rw [show membershipMethod false = py "assertNotIn" from rfl, laws.assertNotIn]
    congr 1; funext r
    rw [laws.assertTrue, ofBool_truth hconst]
    cases r <;> rfl
  | falseIsIn hc hs hx =>
    obtain ⟨v, hv⟩ := hpos _ _ hc; cases hv
    rw [← eval_core I ρ node, hc]
    show _ = eval I ρ (.call _ [.mk .none none _])
    rw [eval_call_one (eval_self laws hself hs), eval_link hx]
    simp only [Run.bind_assoc, Interp.link, Run.pure_bind]
    congr 1; funext a; congr 1; funext c
    rw [show membershipMethod false = py "assertNotIn" from rfl, laws.assertNotIn]
    congr 1; funext r
    rw [laws.assertFalse, ofBool_truth hconst]
    rfl

/-! ## UseAssertIsNotNone -/

theorem noneCheck_iff {e x : Expr} {b : Bool} : noneCheck e = some (x, b) ↔ NoneTest e x !b := by
  unfold noneCheck
  constructor
  · intro h
    split at h
    · rename_i l r hc
      split at h
      · rename_i hn; cases h; exact .is hc (isName_iff.1 hn)
      · cases h
    · rename_i l r hc
      split at h
      · rename_i hn; cases h; exact .isNot hc (isName_iff.1 hn)
      · cases h
    · cases h
  · intro h
    cases b with
    | false =>
      cases h with
      | is hc hn => rw [hc]; simp only []; rw [if_pos (isName_iff.2 hn)]
    | true =>
      cases h with
      | isNot hc hn => rw [hc]; simp only []; rw [if_pos (isName_iff.2 hn)]

theorem noneArgument_sound {e x : Expr} {neg isNot : Bool} (h : noneArgument e = some (x, neg, isNot)) :
    NoneCondition e x ((!isNot) != neg) := by
  unfold noneArgument at h
  split at h
  · rename_i y b hy
    cases h
    have := noneCheck_iff.1 hy
    simpa using NoneCondition.plain this
  · cases hn : negated e with
    | none => rw [hn] at h; cases h
    | some e1 =>
      rw [hn] at h
      simp only [Option.bind_some] at h
      cases hc : noneCheck e1 with
      | none => rw [hc] at h; cases h
      | some p =>
        rw [hc] at h
        cases h
        have := NoneCondition.not (negated_iff.1 hn) (noneCheck_iff.1 hc)
        simpa using this

theorem NoneTest.noNot {e x : Expr} {b : Bool} (h : NoneTest e x b) : negated e = none := by
  unfold negated
  cases h with
  | is hc _ => rw [hc]
  | isNot hc _ => rw [hc]

theorem noneArgument_complete {e x : Expr} {b : Bool} (h : NoneCondition e x b) :
    ∃ neg isNot, noneArgument e = some (x, neg, isNot) ∧ b = ((!isNot) != neg) := by
  cases h with
  | plain h =>
    refine ⟨false, !b, ?_, by simp⟩
    unfold noneArgument
    rw [(noneCheck_iff (x := x) (b := !b)).2 (by simpa using h)]
  | not hn h =>
    rename_i c
    refine ⟨true, !c, ?_, by simp⟩
    unfold noneArgument
    rw [noneCheck_not hn, negated_iff.2 hn]
    simp only [Option.bind_some]
    rw [(noneCheck_iff (x := x) (b := !c)).2 (by simpa using h)]
    rfl

/-- The name of the method for a test for `None`. -/
def noneMethod (b : Bool) : PStr := if b then py "assertIsNone" else py "assertIsNotNone"

theorem parity (p q r : Bool) : (if ((if p = true then 1 else 0) + (if q = true then 1 else 0) + (if r = true then 1 else 0)) % 2 = 0 then
    py "assertIsNone" else py "assertIsNotNone") = noneMethod (((!r) != q) != p) := by
  cases p <;> cases q <;> cases r <;> rfl

theorem none_fix {node e' : Expr} (h : useAssertIsNotNone node = .fix e') :
    ∃ x b, NoneAssertion node x b ∧ e' = node.withCore fun _ => .call (selfMethod (noneMethod b)) [.pos x] := by
  unfold useAssertIsNotNone at h
  split at h
  · rename_i f a hc
    obtain ⟨st, kw, e⟩ := a
    simp only [Arg.value] at h
    split at h
    · rename_i hs
      cases hn : noneArgument e with
      | none => rw [hn] at h; cases h
      | some p =>
        obtain ⟨x, neg, isNot⟩ := p
        rw [hn] at h
        simp only [] at h
        rw [parity] at h
        cases h
        have hcond := noneArgument_sound hn
        cases hf : isSelfMethod (py "assertFalse") f with
        | true =>
          refine ⟨x, _, .false hc (isSelfMethod_iff.1 hf) hcond, ?_⟩
          cases neg <;> cases isNot <;> rfl
        | false =>
          rw [hf, Bool.or_false] at hs
          refine ⟨x, _, .true hc (isSelfMethod_iff.1 hs) hcond, ?_⟩
          cases neg <;> cases isNot <;> rfl
    · cases h
  · cases h

theorem fix_none {node x : Expr} {b : Bool} (h : NoneAssertion node x b) :
    useAssertIsNotNone node = .fix (node.withCore fun _ => .call (selfMethod (noneMethod b)) [.pos x]) := by
  cases h with
  | true hc hs hcond =>
    obtain ⟨neg, isNot, hn, rfl⟩ := noneArgument_complete hcond
    have hf := isSelf_false hs (n := py "assertFalse") (by decide)
    unfold useAssertIsNotNone
    rw [hc]
    simp only [Arg.value, hn, isSelfMethod_iff.2 hs, Bool.true_or, if_true, hf, parity]
    cases neg <;> cases isNot <;> rfl
  | false hc hs hcond =>
    obtain ⟨neg, isNot, hn, rfl⟩ := noneArgument_complete hcond
    unfold useAssertIsNotNone
    rw [hc]
    simp only [Arg.value, hn, isSelfMethod_iff.2 hs, Bool.or_true, if_true]
    cases neg <;> cases isNot <;> rfl

/-- **C89.** UseAssertIsNotNone reports exactly the calls of `self.assertTrue` and `self.assertFalse` with a single condition `x is None` or
`x is not None`, possibly under one `not`; the fix is `self.assertIsNone(x)` or `self.assertIsNotNone(x)`, whichever is asserted. -/
theorem C89_none_shape (node : Expr) :
    (∀ x b, NoneAssertion node x b → useAssertIsNotNone node =
      .fix (node.withCore fun _ => .call (.attr (.name (py "self")) (if b then py "assertIsNone" else py "assertIsNotNone")) [.pos x])) ∧
    ((∀ x b, ¬ NoneAssertion node x b) → useAssertIsNotNone node = .silent) := by
  refine ⟨fun x b h => fix_none h, fun h => ?_⟩
  have h1 : ∀ e', useAssertIsNotNone node ≠ .fix e' := fun e' hx => by
    obtain ⟨x, b, hm, -⟩ := none_fix hx
    exact h x b hm
  revert h1
  unfold useAssertIsNotNone
  split
  · split
    · split
      · intro h1; exact absurd rfl (h1 _)
      · intro _; rfl
    · intro _; rfl
  · intro _; rfl

theorem lookup_none (I : Interp) (ρ : I.Locals) : I.lookup ρ (py "None") = Run.pure I.none := by
  unfold Interp.lookup
  simp

theorem eval_noneTest {I : Interp} {ρ : I.Locals} {e x : Expr} {b : Bool} (h : NoneTest e x b) :
    eval I ρ e = (eval I ρ x).bind fun a => Run.pure (I.ofBool (I.same a I.none == b)) := by
  have hr : ∀ r : Expr, Named r (py "None") → eval I ρ r = Run.pure I.none := by
    intro r hr
    rw [← eval_core, show r.core = .name (py "None") from hr, eval, lookup_none]
  cases h with
  | is hc hn =>
    rw [eval_link hc, hr _ hn]
    congr 1; funext a
    rw [Run.pure_bind, Interp.link]
    cases I.same a I.none <;> rfl
  | isNot hc hn =>
    rw [eval_link hc, hr _ hn]
    congr 1; funext a
    rw [Run.pure_bind, Interp.link]
    cases I.same a I.none <;> rfl

theorem eval_noneCondition {I : Interp} (hconst : ConstTruth I) {ρ : I.Locals} {e x : Expr} {b : Bool} (h : NoneCondition e x b) :
    eval I ρ e = (eval I ρ x).bind fun a => Run.pure (I.ofBool (I.same a I.none == b)) := by
  cases h with
  | plain h => exact eval_noneTest h
  | not hn h =>
    rw [← eval_core, hn, eval, Interp.negate, eval_noneTest h, Run.bind_assoc]
    congr 1; funext a
    rw [Run.pure_bind, ofBool_truth hconst, Run.pure_bind]
    cases I.same a I.none <;> rename_i b <;> cases b <;> rfl

/-- **C89.** The rewritten assertion does what the old one did: it passes or fails alike, with the same effects and the same other
exceptions. -/
theorem C89_none_meaning (node e' : Expr) (h : useAssertIsNotNone node = .fix e') (I : Interp) (ρ : I.Locals) (hconst : ConstTruth I) (me : I.Val)
    (meth : PStr → I.Val) (fail : I.Exc) (laws : UnittestLaws I me meth fail) (hself : I.lookup ρ (py "self") = Run.pure me)
    (hpos : ∀ f a, node.core = .call f [a] → ∃ v, a = .pos v) : eval I ρ e' = eval I ρ node := by
  obtain ⟨x, b, hm, rfl⟩ := none_fix h
  have hmeth : ∀ (b : Bool) (a : I.Val), I.call (meth (noneMethod b)) [a] [] =
      if (I.same a I.none == b) = true then Run.pure I.none else Run.raise fail := by
    intro b a
    cases b with
    | true =>
      rw [show noneMethod true = py "assertIsNone" from rfl, laws.assertIsNone]
      cases I.same a I.none <;> rfl
    | false =>
      rw [show noneMethod false = py "assertIsNotNone" from rfl, laws.assertIsNotNone]
      cases I.same a I.none <;> rfl
  rw [eval_withCore I ρ node _ rfl]
  show eval I ρ (.call _ [.mk .none none x]) = _
  rw [eval_call_one (eval_self laws hself (selfMethod_ok _))]
  cases hm with
  | true hc hs hcond =>
    obtain ⟨v, hv⟩ := hpos _ _ hc; cases hv
    rw [← eval_core I ρ node, hc]
    show _ = eval I ρ (.call _ [.mk .none none _])
    rw [eval_call_one (eval_self laws hself hs), eval_noneCondition hconst hcond, Run.bind_assoc]
    congr 1; funext a
    rw [Run.pure_bind, laws.assertTrue, ofBool_truth hconst, hmeth]
    rfl
  | false hc hs hcond =>
    rename_i b
    obtain ⟨v, hv⟩ := hpos _ _ hc; cases hv
    rw [← eval_core I ρ node, hc]
    show _ = eval I ρ (.call _ [.mk .none none _])
    rw [eval_call_one (eval_self laws hself hs), eval_noneCondition hconst hcond, Run.bind_assoc]
    congr 1; funext a
    rw [Run.pure_bind, laws.assertFalse, ofBool_truth hconst, hmeth, Run.pure_bind]
    cases I.same a I.none <;> cases b <;> rfl

/-! ## DeprecatedUnittestAsserts -/

theorem withCore_congr {g h : Expr → Expr} : ∀ e : Expr, g e.core = h e.core → e.withCore g = e.withCore h
  | .paren e, hx => by rw [Expr.withCore, Expr.withCore, withCore_congr e hx]
  | .name _, hx => hx | .num _, hx => hx | .str _, hx => hx | .fstr _, hx => hx | .attr _ _, hx => hx | .call _ _, hx => hx | .lam _ _, hx => hx
  | .bool _ _ _, hx => hx | .not _, hx => hx | .comp _ _, hx => hx | .tuple _, hx => hx | .list _, hx => hx | .set _, hx => hx | .dict _, hx => hx
  | .genExp _ _, hx => hx | .listComp _ _, hx => hx | .setComp _ _, hx => hx | .dictComp _ _ _, hx => hx | .await _, hx => hx | .other _ _, hx => hx

theorem withCore_self : ∀ e : Expr, (e.withCore fun _ => e.core) = e
  | .paren e => by rw [Expr.withCore]; exact congrArg Expr.paren (withCore_self e)
  | .name _ => rfl | .num _ => rfl | .str _ => rfl | .fstr _ => rfl | .attr _ _ => rfl | .call _ _ => rfl | .lam _ _ => rfl
  | .bool _ _ _ => rfl | .not _ => rfl | .comp _ _ => rfl | .tuple _ => rfl | .list _ => rfl | .set _ => rfl | .dict _ => rfl
  | .genExp _ _ => rfl | .listComp _ _ => rfl | .setComp _ _ => rfl | .dictComp _ _ _ => rfl | .await _ => rfl | .other _ _ => rfl

theorem rename_eq {f v : Expr} {a m : PStr} (h : f.core = .attr v a) : renameMethod m f = f.withCore fun _ => .attr v m := by
  unfold renameMethod
  refine withCore_congr f ?_
  rw [h]

theorem findDeprecated_some {f : Expr} {new : PStr} : ∀ {l : List (PStr × PStr)}, findDeprecated f l = some new →
    ∃ old, (old, new) ∈ l ∧ SelfMethod f old
  | [], h => by cases h
  | (o, n) :: rest, h => by
    rw [findDeprecated] at h
    split at h
    · rename_i hs; cases h; exact ⟨o, by simp, isSelfMethod_iff.1 hs⟩
    · obtain ⟨old, hm, hs⟩ := findDeprecated_some h
      exact ⟨old, by simp [hm], hs⟩

theorem findDeprecated_none {f : Expr} : ∀ {l : List (PStr × PStr)}, findDeprecated f l = none → ∀ old new, (old, new) ∈ l → ¬ SelfMethod f old
  | [], _, _, _, hm => by simp at hm
  | (o, n) :: rest, h, old, new, hm => by
    rw [findDeprecated] at h
    split at h
    · cases h
    · rename_i hs
      rw [List.mem_cons] at hm
      rcases hm with hm | hm
      · cases hm; rw [isSelfMethod_iff] at hs; exact hs
      · exact findDeprecated_none h old new hm

theorem alias_mem (old new : PStr) : (old, new) ∈ deprecatedAsserts ↔ Alias old new := by
  constructor
  · intro h
    simp only [deprecatedAsserts, List.mem_cons, List.not_mem_nil, or_false, Prod.mk.injEq] at h
    rcases h with ⟨rfl, rfl⟩ | ⟨rfl, rfl⟩ | ⟨rfl, rfl⟩ | ⟨rfl, rfl⟩ | ⟨rfl, rfl⟩ | ⟨rfl, rfl⟩ | ⟨rfl, rfl⟩
    · exact .equal
    · exact .notEqual
    · exact .almost
    · exact .notAlmost
    · exact .regex
    · exact .notRegex
    · exact .raisesRegex
  · intro h
    cases h <;> simp [deprecatedAsserts]

theorem alias_fun {old o2 n1 n2 : PStr} (h1 : Alias old n1) (h2 : Alias o2 n2) (ho : old = o2) : n1 = n2 := by
  cases h1 <;> cases h2 <;> first | rfl | (exact absurd ho (by decide))

/-- **C89.** DeprecatedUnittestAsserts reports exactly the calls of `self` methods with a deprecated name, whatever their arguments; the fix
changes the name of the method to the current one and nothing else. -/
theorem C89_deprecated_shape (node : Expr) :
    (∀ f' args, DeprecatedCall node f' args → deprecatedUnittestAsserts node = .fix (node.withCore fun _ => .call f' args)) ∧
    ((∀ f' args, ¬ DeprecatedCall node f' args) → deprecatedUnittestAsserts node = .silent) := by
  constructor
  · intro f' args h
    cases h with
    | @mk f v _ old new hc hf hv ha =>
      unfold deprecatedUnittestAsserts
      rw [hc]
      simp only []
      cases hd : findDeprecated f deprecatedAsserts with
      | none => exact absurd ⟨v, hf, hv⟩ (findDeprecated_none hd old new ((alias_mem _ _).2 ha))
      | some n2 =>
        obtain ⟨o2, hm, hs⟩ := findDeprecated_some hd
        have := hs.unique ⟨v, hf, hv⟩
        subst this
        have := alias_fun ha ((alias_mem _ _).1 hm) rfl
        subst this
        simp only []
        rw [rename_eq hf]
  · intro h
    unfold deprecatedUnittestAsserts
    split
    · rename_i f args hc
      cases hd : findDeprecated f deprecatedAsserts with
      | none => rfl
      | some n2 =>
        obtain ⟨o2, hm, v, hf, hv⟩ := findDeprecated_some hd
        exact absurd (.mk hc hf hv ((alias_mem _ _).1 hm)) (h _ _)
    · rfl

theorem deprecated_fix {node e' : Expr} (h : deprecatedUnittestAsserts node = .fix e') :
    ∃ f' args, DeprecatedCall node f' args ∧ e' = node.withCore fun _ => .call f' args := by
  by_cases hx : ∃ f' args, DeprecatedCall node f' args
  · obtain ⟨f', args, hd⟩ := hx
    have := (C89_deprecated_shape node).1 f' args hd
    rw [h] at this
    cases this
    exact ⟨f', args, hd, rfl⟩
  · have := (C89_deprecated_shape node).2 fun f' args hd => hx ⟨f', args, hd⟩
    rw [h] at this
    cases this

/-- **C89.** Where the deprecated names are aliases, the rewritten call does what the old one did. -/
theorem C89_deprecated_meaning (node e' : Expr) (h : deprecatedUnittestAsserts node = .fix e') (I : Interp) (ρ : I.Locals)
    (hself : ∀ x old new, Alias old new → I.getattr x old = I.getattr x new) : eval I ρ e' = eval I ρ node := by
  obtain ⟨f', args, hd, rfl⟩ := deprecated_fix h
  cases hd with
  | mk hc hf hv ha =>
    rename_i f v old new
    have h1 : eval I ρ (f.withCore fun _ => .attr v new) = eval I ρ f := by
      rw [eval_withCore I ρ _ _ rfl, ← eval_core I ρ f, hf, eval, eval]
      congr 1
      funext x
      exact (hself x _ _ ha).symm
    rw [eval_withCore I ρ node _ rfl, ← eval_core I ρ node, hc, eval, eval, h1]

/-! ## NoAssertTrueForComparisons -/

theorem isLiteralLike_iff {e : Expr} : isLiteralLike e = true ↔ LiteralValue e := by
  unfold isLiteralLike
  constructor
  · intro h
    cases hc : e.core with
    | num t => exact .num hc
    | tuple t => exact .tuple hc
    | list t => exact .list hc
    | set t => exact .set hc
    | dict t => exact .dict hc
    | name s =>
      rw [hc] at h
      simp only [Bool.or_eq_true, beq_iff_eq] at h
      rcases h with (rfl | rfl) | rfl
      · exact .singleton (.none hc)
      · exact .singleton (.true hc)
      · exact .singleton (.false hc)
    | _ => rw [hc] at h; cases h
  · intro h
    cases h with
    | num h => rw [h]
    | tuple h => rw [h]
    | list h => rw [h]
    | set h => rw [h]
    | dict h => rw [h]
    | singleton h => cases h with
      | none h => rw [h]; rfl
      | true h => rw [h]; rfl
      | false h => rw [h]; rfl

theorem Named.not {e : Expr} {s t : PStr} (h : Named e s) (hn : s ≠ t) : e.isName t = false := by
  rw [h.isName]; simpa using hn

/-- **C89.** NoAssertTrueForComparisons reports exactly the calls of `self.assertTrue` with two arguments of which the second is a number, a
tuple, list, set or dict display, or `None`, `True` or `False` (with any star or keyword); the fix is the call that was probably meant. -/
theorem C89_true_shape (node : Expr) :
    (∀ f v a b m args, node.core = .call f [a, b] → f.core = .attr v (py "assertTrue") → Named v (py "self") → MeantAs a b m args →
      noAssertTrueForComparisons node = .fix (node.withCore fun _ => .call (f.withCore fun _ => .attr v m) args)) ∧
    ((∀ f a b, node.core = .call f [a, b] → SelfMethod f (py "assertTrue") → ¬ LiteralValue b.value) → noAssertTrueForComparisons node = .silent) := by
  constructor
  · intro f v a b m args hc hf hv hm
    have hs := isSelfMethod_iff.2 (show SelfMethod f (py "assertTrue") from ⟨v, hf, hv⟩)
    have hlit : isLiteralLike b.value = true := by
      rw [isLiteralLike_iff]
      cases hm with
      | true h => exact .singleton (.true h)
      | none h => exact .singleton (.none h)
      | false h => exact .singleton (.false h)
      | value h _ => exact h
    unfold noAssertTrueForComparisons
    rw [hc]
    simp only [hs, hlit, Bool.and_self, if_true]
    cases hm with
    | true h =>
      rw [if_pos (isName_iff.2 h)]
      have : (f.withCore fun _ => .attr v (py "assertTrue")) = f := by
        conv => rhs; rw [← withCore_self f]
        rw [hf]
      rw [this]
    | none h =>
      rw [if_neg (by rw [h.not (by decide)]; simp), if_pos (isName_iff.2 h), rename_eq hf]
    | false h =>
      rw [if_neg (by rw [h.not (by decide)]; simp), if_neg (by rw [h.not (by decide)]; simp), if_pos (isName_iff.2 h), rename_eq hf]
    | value _ hn =>
      have h1 : ∀ s, (s = py "True" ∨ s = py "None" ∨ s = py "False") → ¬ b.value.isName s = true := by
        intro s hs hx
        rw [isName_iff] at hx
        rcases hs with rfl | rfl | rfl
        · exact hn (.true hx)
        · exact hn (.none hx)
        · exact hn (.false hx)
      rw [if_neg (h1 _ (by simp)), if_neg (h1 _ (by simp)), if_neg (h1 _ (by simp)), rename_eq hf]
  · intro h
    unfold noAssertTrueForComparisons
    split
    · rename_i f a b hc
      split
      · rename_i hs
        rw [Bool.and_eq_true, isSelfMethod_iff, isLiteralLike_iff] at hs
        exact absurd hs.2 (h f a b hc hs.1)
      · rfl
    · rfl

/-! ## Cases -/

/-- A program with a test case in `self`. -/
def testCase : Interp :=
  { demo xAB with
    call := fun f vs _ =>
      match vs with
      | [v] =>
        if f.1 = py "self.assertTrue" then if decide (v.1 ≠ py "False" ∧ v.1 ≠ py "None" ∧ v.1 ≠ py "0") then Run.pure (dval (py "None")) else Run.raise ()
        else if f.1 = py "self.assertFalse" then if decide (v.1 ≠ py "False" ∧ v.1 ≠ py "None" ∧ v.1 ≠ py "0") then Run.raise () else Run.pure (dval (py "None"))
        else if f.1 = py "self.assertIsNone" then if v.1 == py "None" then Run.pure (dval (py "None")) else Run.raise ()
        else if f.1 = py "self.assertIsNotNone" then if v.1 == py "None" then Run.raise () else Run.pure (dval (py "None"))
        else Run.pure (dval (py "None"))
      | [_, _] =>
        if f.1 = py "self.assertIn" then Run.raise () else Run.pure (dval (py "None"))
      | _ => Run.pure (dval (py "None")) }

theorem testCase_const : ConstTruth testCase := ⟨(demo_const xAB).true, (demo_const xAB).false⟩

theorem testCase_laws : UnittestLaws testCase (dval (py "self")) (fun m => dval (py "self." ++ m)) () where
  getattr := fun m => by simp [testCase, demo, dval]
  assertTrue := fun v => rfl
  assertFalse := fun v => rfl
  assertIn := fun x y => rfl
  assertNotIn := fun x y => rfl
  assertIsNone := fun v => rfl
  assertIsNotNone := fun v => rfl

/-- `self.assertFalse(not x is not None)` becomes `self.assertIsNotNone(x)` -/
def noneAssert : Expr :=
  .call (.attr (.name (py "self")) (py "assertFalse")) [.pos (.not (.comp (.name (py "x")) [.mk .isNot (.name (py "None"))]))]

example : useAssertIsNotNone noneAssert = .fix (.call (.attr (.name (py "self")) (py "assertIsNotNone")) [.pos (.name (py "x"))]) := rfl

theorem testCase_self : testCase.lookup [(py "self", dval (py "self"))] (py "self") = Run.pure (dval (py "self")) := rfl

example : eval testCase [(py "self", dval (py "self"))] (.call (.attr (.name (py "self")) (py "assertIsNotNone")) [.pos (.name (py "x"))]) =
    eval testCase [(py "self", dval (py "self"))] noneAssert :=
  C89_none_meaning noneAssert _ rfl testCase _ testCase_const _ _ _ testCase_laws testCase_self (by intro f a h; cases h; exact ⟨_, rfl⟩)

/-- `self.assertTrue(not x in y)` becomes `self.assertNotIn(x, y)` -/
example : eval testCase [(py "self", dval (py "self"))] (.call (.attr (.name (py "self")) (py "assertNotIn")) [.pos (.name (py "x")), .pos (.name (py "y"))]) =
    eval testCase [(py "self", dval (py "self"))]
      (.call (.attr (.name (py "self")) (py "assertTrue")) [.pos (.not (.comp (.name (py "x")) [.mk .isIn (.name (py "y"))]))]) :=
  C89_in_meaning _ _ rfl testCase _ testCase_const _ _ _ testCase_laws testCase_self (by intro f a h; cases h; exact ⟨_, rfl⟩)

/-- `self.assertEquals(x)` becomes `self.assertEqual(x)` -/
example : deprecatedUnittestAsserts (.call (.attr (.name (py "self")) (py "assertEquals")) [.pos (.name (py "x"))]) =
    .fix (.call (.attr (.name (py "self")) (py "assertEqual")) [.pos (.name (py "x"))]) := rfl

/-- **Finding.** The second argument may be a message given by keyword: `self.assertTrue(x, msg=None)`, which passes when `x` is true, is
replaced by `self.assertIsNone(x)`, which fails. -/
theorem C89_message : ∃ node e', noAssertTrueForComparisons node = .fix e' ∧
    eval testCase [(py "self", dval (py "self"))] node () = (.ok (dval (py "None")), ()) ∧
    eval testCase [(py "self", dval (py "self"))] e' () = (.error (), ()) :=
  ⟨.call (.attr (.name (py "self")) (py "assertTrue")) [.pos (.name (py "x")), .mk .none (some (py "msg")) (.name (py "None"))],
    .call (.attr (.name (py "self")) (py "assertIsNone")) [.pos (.name (py "x"))], rfl, rfl, rfl⟩

end Cst
