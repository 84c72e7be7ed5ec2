import Verif.Props.RulesIsinstance
import Verif.Props.RulesDemo

/-! # C83 and C84: comparing primitives by `==` and singletons by `is` -/

namespace Cst
open Py

theorem isPrimitive_iff (e : Expr) : isPrimitive e = true ↔ PrimitiveLiteral e := by
  unfold isPrimitive
  constructor
  · intro h
    split at h
    · rename_i h1; exact .num h1
    · rename_i h1; exact .str h1
    · rename_i h1; exact .fstr h1
    · rename_i h1; simp at h; subst h; exact .concat h1
    · cases h
  · intro h
    cases h with
    | num h => rw [h]
    | str h => rw [h]
    | fstr h => rw [h]
    | concat h => rw [h]; simp

theorem isSingleton_iff {quals : PStr → List QName} (hq : KeywordScopes quals) (e : Expr) : isSingleton quals e = true ↔ SingletonLiteral e := by
  unfold isSingleton
  constructor
  · intro h
    split at h
    · rename_i s hs
      simp only [Bool.and_eq_true, Bool.not_eq_true', List.isEmpty_eq_false_iff] at h
      obtain ⟨⟨hne, hall⟩, -⟩ := h
      cases hx : quals s with
      | nil => exact absurd hx hne
      | cons q qs =>
        rw [hx] at hall
        simp only [List.all_cons, Bool.and_eq_true] at hall
        have hq1 : q ∈ singletonNames := by simpa using hall.1
        have hq2 : q = (py "builtins.None", true) ∨ q = (py "builtins.True", true) ∨ q = (py "builtins.False", true) := by
          simp only [singletonNames, List.mem_cons, List.not_mem_nil, or_false] at hq1
          rcases hq1 with h | h | h
          · exact .inr (.inl h)
          · exact .inr (.inr h)
          · exact .inl h
        have := hq.only s q (by rw [hx]; simp) hq2
        rcases this with rfl | rfl | rfl
        · exact .none hs
        · exact .true hs
        · exact .false hs
    · cases h
  · intro h
    cases h with
    | none h => rw [h]; simp only []; rw [hq.keyword _ (.inl rfl)]; decide
    | true h => rw [h]; simp only []; rw [hq.keyword _ (.inr (.inl rfl))]; decide
    | false h => rw [h]; simp only []; rw [hq.keyword _ (.inr (.inr rfl))]; decide

theorem core_withCore {f : Expr → Expr} (hf : ∀ e, (f e).core = f e) : ∀ e : Expr, (e.withCore f).core = f e.core
  | .paren e => by rw [Expr.withCore, Expr.core, Expr.core]; exact core_withCore hf e
  | .name _ => hf _ | .num _ => hf _ | .str _ => hf _ | .fstr _ => hf _ | .attr _ _ => hf _ | .call _ _ => hf _ | .lam _ _ => hf _
  | .bool _ _ _ => hf _ | .not _ => hf _ | .comp _ _ => hf _ | .tuple _ => hf _ | .list _ => hf _ | .set _ => hf _ | .dict _ => hf _
  | .genExp _ _ => hf _ | .listComp _ _ => hf _ | .setComp _ _ => hf _ | .dictComp _ _ _ => hf _ | .await _ => hf _ | .other _ _ => hf _

theorem hasPrimitive_iff : ∀ (ts : List Target) (l : Expr), hasPrimitiveIdentity l ts = true ↔
    ∃ k ∈ linksOf l (ts.map Target.both), (k.2.1 = .is ∨ k.2.1 = .isNot) ∧ (PrimitiveLiteral k.1 ∨ PrimitiveLiteral k.2.2)
  | [], l => by simp [hasPrimitiveIdentity, linksOf]
  | .mk op c :: ts, l => by
    rw [hasPrimitiveIdentity, Bool.or_eq_true, hasPrimitive_iff ts c, Bool.and_eq_true, Bool.or_eq_true, isPrimitive_iff, isPrimitive_iff]
    have hid : op.isIdentity = true ↔ (op = .is ∨ op = .isNot) := by cases op <;> simp [CompOp.isIdentity]
    simp only [List.map_cons, Target.both, linksOf, List.mem_cons, hid]
    constructor
    · rintro (h | ⟨k, hk, h⟩)
      · exact ⟨(l, op, c), .inl rfl, h⟩
      · exact ⟨k, .inr hk, h⟩
    · rintro ⟨k, rfl | hk, h⟩
      · exact .inl h
      · exact .inr ⟨k, hk, h⟩

theorem replace_links : ∀ (ts : List Target) (l : Expr),
    LinkChanges (fun a op b => (op = .is ∨ op = .isNot) ∧ (PrimitiveLiteral a ∨ PrimitiveLiteral b)) Swap
      (linksOf l (ts.map Target.both)) (linksOf l ((replaceOperators l ts).map Target.both))
  | [], l => .nil
  | .mk op c :: ts, l => by
    rw [replaceOperators]
    have ih := replace_links ts c
    have hprim : (isPrimitive l || isPrimitive c) = true ↔ (PrimitiveLiteral l ∨ PrimitiveLiteral c) := by
      rw [Bool.or_eq_true, isPrimitive_iff, isPrimitive_iff]
    by_cases hop : op.isIdentity = true
    · rw [if_pos hop]
      have hid : op = .is ∨ op = .isNot := by revert hop; cases op <;> simp [CompOp.isIdentity]
      by_cases hp : (isPrimitive l || isPrimitive c) = true
      · rw [if_pos hp]
        refine .cons (.swap ⟨hid, hprim.1 hp⟩ ?_) ih
        rcases hid with rfl | rfl
        · exact .is
        · exact .isNot
      · rw [if_neg hp]
        exact .cons (.same (fun h => hp (hprim.2 h.2))) ih
    · rw [if_neg hop]
      refine .cons (.same ?_) ih
      rintro ⟨h, -⟩
      apply hop
      rcases h with rfl | rfl <;> rfl

/-- **C83.** The rule for primitives speaks up exactly when some link of the comparison uses `is` or `is not` with a number or string
literal on one of its sides; its replacement has the same operands in the same parentheses, and exactly those links are changed, `is` to
`==` and `is not` to `!=`. -/
theorem C83_primitives (node : Expr) :
    (comparePrimitivesByEqual node = .silent ↔
      ∀ k ∈ node.links, ¬ ((k.2.1 = .is ∨ k.2.1 = .isNot) ∧ (PrimitiveLiteral k.1 ∨ PrimitiveLiteral k.2.2))) ∧
    (comparePrimitivesByEqual node ≠ .silent → ∃ l ts l' ts', node.core = .comp l ts ∧
      comparePrimitivesByEqual node = .fix (node.withCore fun _ => .comp l' ts') ∧ l' = l ∧
      LinkChanges (fun a op b => (op = .is ∨ op = .isNot) ∧ (PrimitiveLiteral a ∨ PrimitiveLiteral b)) Swap
        (linksOf l (ts.map Target.both)) (linksOf l' (ts'.map Target.both))) := by
  have key : ∀ l ts, node.core = .comp l ts → (comparePrimitivesByEqual node =
      if hasPrimitiveIdentity l ts then .fix (node.withCore fun _ => .comp l (replaceOperators l ts)) else .silent) := by
    intro l ts h
    unfold comparePrimitivesByEqual
    rw [h]
  by_cases hc : ∃ l ts, node.core = .comp l ts
  · obtain ⟨l, ts, hc⟩ := hc
    have hl : node.links = linksOf l (ts.map Target.both) := by unfold Expr.links; rw [hc]
    rw [key l ts hc, hl]
    cases hp : hasPrimitiveIdentity l ts with
    | false =>
      simp only [Bool.false_eq_true, if_false, true_iff, ne_eq, not_true, false_implies, and_true]
      intro k hk h
      have := (hasPrimitive_iff ts l).2 ⟨k, hk, h⟩
      rw [hp] at this
      cases this
    | true =>
      refine ⟨⟨fun h => by simp at h, fun h => ?_⟩, fun _ => ⟨l, ts, l, replaceOperators l ts, hc, by simp, rfl, replace_links ts l⟩⟩
      obtain ⟨k, hk, hx⟩ := (hasPrimitive_iff ts l).1 hp
      exact absurd hx (h k hk)
  · have h1 : comparePrimitivesByEqual node = .silent := by
      unfold comparePrimitivesByEqual
      split
      · rename_i l ts h; exact absurd ⟨l, ts, h⟩ hc
      · rfl
    have h2 : node.links = [] := by
      unfold Expr.links
      split
      · rename_i l ts h; exact absurd ⟨l, ts, h⟩ hc
      · rfl
    rw [h1, h2]
    simp

/-- The swapped operators of the other rule. -/
def SwapBack (a b : CompOp) : Prop := Swap b a

theorem alter_links {quals : PStr → List QName} (hq : KeywordScopes quals) : ∀ (ts : List Target) (l : Expr),
    ((alterComparisons quals l ts).1 = true ↔
      ∃ k ∈ linksOf l (ts.map Target.both), (k.2.1 = .eq ∨ k.2.1 = .ne) ∧ (SingletonLiteral k.1 ∨ SingletonLiteral k.2.2)) ∧
    LinkChanges (fun a op b => (op = .eq ∨ op = .ne) ∧ (SingletonLiteral a ∨ SingletonLiteral b)) SwapBack
      (linksOf l (ts.map Target.both)) (linksOf l ((alterComparisons quals l ts).2.map Target.both))
  | [], l => by simp [alterComparisons, linksOf]; exact .nil
  | .mk op c :: ts, l => by
    obtain ⟨ih1, ih2⟩ := alter_links hq ts c
    rw [alterComparisons]
    have hs : (isSingleton quals l || isSingleton quals c) = true ↔ (SingletonLiteral l ∨ SingletonLiteral c) := by
      rw [Bool.or_eq_true, isSingleton_iff hq, isSingleton_iff hq]
    have heq : op.isEquality = true ↔ (op = .eq ∨ op = .ne) := by cases op <;> simp [CompOp.isEquality]
    by_cases h : (op.isEquality && (isSingleton quals l || isSingleton quals c)) = true
    · simp only [h, if_true]
      rw [Bool.and_eq_true, heq, hs] at h
      refine ⟨⟨fun _ => ⟨(l, op, c), by simp [linksOf, Target.both], h⟩, fun _ => trivial⟩, ?_⟩
      refine .cons (.swap h ?_) ih2
      rcases h.1 with rfl | rfl
      · exact Swap.is
      · exact Swap.isNot
    · simp only [h]
      rw [Bool.and_eq_true, heq, hs] at h
      constructor
      · show (alterComparisons quals c ts).1 = true ↔ _
        rw [ih1]
        simp only [List.map_cons, Target.both, linksOf, List.mem_cons]
        constructor
        · rintro ⟨k, hk, hx⟩
          exact ⟨k, .inr hk, hx⟩
        · rintro ⟨k, rfl | hk, hx⟩
          · exact absurd hx h
          · exact ⟨k, hk, hx⟩
      · exact .cons (.same h) ih2

/-- **C83.** The rule for singletons: the same with `None`, `True` and `False`, from `==` to `is` and from `!=` to `is not`. -/
theorem C83_singletons (quals : PStr → List QName) (hq : KeywordScopes quals) (node : Expr) :
    (compareSingletonByIs quals node = .silent ↔
      ∀ k ∈ node.links, ¬ ((k.2.1 = .eq ∨ k.2.1 = .ne) ∧ (SingletonLiteral k.1 ∨ SingletonLiteral k.2.2))) ∧
    (compareSingletonByIs quals node ≠ .silent → ∃ l ts l' ts', node.core = .comp l ts ∧
      compareSingletonByIs quals node = .fix (node.withCore fun _ => .comp l' ts') ∧ l' = l ∧
      LinkChanges (fun a op b => (op = .eq ∨ op = .ne) ∧ (SingletonLiteral a ∨ SingletonLiteral b)) (fun a b => Swap b a)
        (linksOf l (ts.map Target.both)) (linksOf l' (ts'.map Target.both))) := by
  have key : ∀ l ts, node.core = .comp l ts → (compareSingletonByIs quals node =
      if (alterComparisons quals l ts).1 then .fix (node.withCore fun _ => .comp l (alterComparisons quals l ts).2) else .silent) := by
    intro l ts h
    unfold compareSingletonByIs
    rw [h]
  by_cases hc : ∃ l ts, node.core = .comp l ts
  · obtain ⟨l, ts, hc⟩ := hc
    have hl : node.links = linksOf l (ts.map Target.both) := by unfold Expr.links; rw [hc]
    obtain ⟨ha, hb⟩ := alter_links hq ts l
    rw [key l ts hc, hl]
    cases hp : (alterComparisons quals l ts).1 with
    | false =>
      simp only [Bool.false_eq_true, if_false, true_iff, ne_eq, not_true, false_implies, and_true]
      intro k hk h
      have := ha.2 ⟨k, hk, h⟩
      rw [hp] at this
      cases this
    | true =>
      refine ⟨⟨fun h => by simp at h, fun h => ?_⟩, fun _ => ⟨l, ts, l, _, hc, by simp, rfl, hb⟩⟩
      obtain ⟨k, hk, hx⟩ := ha.1 hp
      exact absurd hx (h k hk)
  · have h1 : compareSingletonByIs quals node = .silent := by
      unfold compareSingletonByIs
      split
      · rename_i l ts h; exact absurd ⟨l, ts, h⟩ hc
      · rfl
    have h2 : node.links = [] := by
      unfold Expr.links
      split
      · rename_i l ts h; exact absurd ⟨l, ts, h⟩ hc
      · rfl
    rw [h1, h2]
    simp

theorem linkChanges_nth {P : Expr → CompOp → Expr → Prop} {S : CompOp → CompOp → Prop} {as bs} (h : LinkChanges P S as bs) :
    ∀ b ∈ bs, ∃ a ∈ as, LinkChange P S a b := by
  induction h with
  | nil => simp
  | @cons a b as bs hab _ ih =>
    intro x hx
    simp at hx
    rcases hx with rfl | hx
    · exact ⟨a, by simp, hab⟩
    · obtain ⟨y, hy, hxy⟩ := ih x hx
      exact ⟨y, by simp [hy], hxy⟩

theorem linkChanges_mem {P : Expr → CompOp → Expr → Prop} {S : CompOp → CompOp → Prop} {as bs} (h : LinkChanges P S as bs) :
    ∀ a ∈ as, ∃ b ∈ bs, LinkChange P S a b := by
  induction h with
  | nil => simp
  | @cons a b as bs hab _ ih =>
    intro x hx
    simp at hx
    rcases hx with rfl | hx
    · exact ⟨b, by simp, hab⟩
    · obtain ⟨y, hy, hxy⟩ := ih x hx
      exact ⟨y, by simp [hy], hxy⟩

theorem links_withCore (node l : Expr) (ts : List Target) : (node.withCore fun _ => .comp l ts).links = linksOf l (ts.map Target.both) := by
  unfold Expr.links
  rw [core_withCore (f := fun _ => .comp l ts) (fun _ => rfl)]

/-- **C83.** Each of the two rules has nothing to say about its own result. -/
theorem C83_stable (quals : PStr → List QName) (hq : KeywordScopes quals) (node e' : Expr) :
    (comparePrimitivesByEqual node = .fix e' → comparePrimitivesByEqual e' = .silent) ∧
    (compareSingletonByIs quals node = .fix e' → compareSingletonByIs quals e' = .silent) := by
  constructor
  · intro h
    obtain ⟨l, ts, l', ts', -, hf, -, hch⟩ := (C83_primitives node).2 (by rw [h]; simp)
    rw [h] at hf
    cases hf
    rw [(C83_primitives _).1, links_withCore]
    intro k hk ⟨hop, hprim⟩
    obtain ⟨a, _, hab⟩ := linkChanges_nth hch k hk
    cases hab with
    | same hn => exact hn ⟨hop, hprim⟩
    | swap _ hs => cases hs <;> simp at hop
  · intro h
    obtain ⟨l, ts, l', ts', -, hf, -, hch⟩ := (C83_singletons quals hq node).2 (by rw [h]; simp)
    rw [h] at hf
    cases hf
    rw [(C83_singletons quals hq _).1, links_withCore]
    intro k hk ⟨hop, hprim⟩
    obtain ⟨a, _, hab⟩ := linkChanges_nth hch k hk
    cases hab with
    | same hn => exact hn ⟨hop, hprim⟩
    | swap _ hs => cases hs <;> simp at hop

/-- The rewritten operator says the same about the two values. -/
theorem link_swap {I : Interp} {a b : I.Val} (h : EqualityIsIdentity I a b) {op op' : CompOp} (hs : Swap op op' ∨ Swap op' op) :
    I.link op a b = I.link op' a b := by
  rcases hs with hs | hs <;> cases hs
  · exact h.1.symm
  · exact h.2.symm
  · exact h.1
  · exact h.2

theorem links_cons (l : Expr) (op : CompOp) (c : Expr) (ts : List Target) :
    linksOf l ((Target.mk op c :: ts).map Target.both) = (l, op, c) :: linksOf c (ts.map Target.both) := rfl

theorem Run.bind_congr {S E α β : Type} {r : Run S E α} {f g : α → Run S E β} (h : ∀ s v s', r s = (.ok v, s') → f v = g v) :
    r.bind f = r.bind g := by
  funext s
  unfold Run.bind
  cases hr : r s with
  | mk x s' =>
    cases x with
    | error e => rfl
    | ok v => simp only [Run.andThen]; rw [h s v s' hr]

/-- The values that `e` can have. -/
def Yields (I : Interp) (ρ : I.Locals) (e : Expr) (v : I.Val) : Prop := ∃ s s', eval I ρ e s = (.ok v, s')

theorem evalTargets_links {I : Interp} {ρ : I.Locals} {P : Expr → CompOp → Expr → Prop} {S : CompOp → CompOp → Prop}
    (hS : ∀ a b, S a b → Swap a b ∨ Swap b a)
    (hI : ∀ a op b v w, P a op b → Yields I ρ a v → Yields I ρ b w → EqualityIsIdentity I v w) :
    ∀ (ts ts' : List Target) (l : Expr) (v : I.Val), Yields I ρ l v →
      LinkChanges P S (linksOf l (ts.map Target.both)) (linksOf l (ts'.map Target.both)) →
      evalTargets I ρ v ts' = evalTargets I ρ v ts
  | [], [], _, _, _, _ => rfl
  | [], .mk _ _ :: _, _, _, _, h => by simp [linksOf, Target.both] at h; cases h
  | .mk _ _ :: _, [], _, _, _, h => by simp [linksOf, Target.both] at h; cases h
  | .mk op c :: ts, .mk op' c' :: ts', l, v, hv, h => by
    rw [links_cons, links_cons] at h
    cases h with
    | cons hab hrest =>
      have hc : c' = c := by cases hab <;> rfl
      subst hc
      have hlen : ts'.isEmpty = ts.isEmpty := by
        cases ts with
        | nil =>
          cases ts' with
          | nil => rfl
          | cons t _ => cases t; simp [linksOf, Target.both] at hrest; cases hrest
        | cons t _ =>
          cases ts' with
          | nil => cases t; simp [linksOf, Target.both] at hrest; cases hrest
          | cons _ _ => rfl
      rw [evalTargets, evalTargets, hlen]
      refine Run.bind_congr fun s w s' hw => ?_
      have ih : evalTargets I ρ w ts' = evalTargets I ρ w ts := evalTargets_links hS hI ts ts' c' w ⟨s, s', hw⟩ hrest
      have hlink : I.link op' v w = I.link op v w := by
        cases hab with
        | same => rfl
        | swap hp hs => exact (link_swap (hI _ _ _ v w hp hv ⟨s, s', hw⟩) (hS _ _ hs)).symm
      rw [hlink]
      congr 1
      funext r
      split
      · rfl
      · congr 1; funext t; split
        · exact ih
        · rfl

theorem compare_meaning {I : Interp} {ρ : I.Locals} {P : Expr → CompOp → Expr → Prop} {S : CompOp → CompOp → Prop} {node e' : Expr}
    (l : Expr) (ts l' ts') (hS : ∀ a b, S a b → Swap a b ∨ Swap b a)
    (hI : ∀ a op b v w, P a op b → Yields I ρ a v → Yields I ρ b w → EqualityIsIdentity I v w)
    (hc : node.core = .comp l ts) (he : e' = (node.withCore fun _ => .comp l' ts')) (hl : l' = l)
    (hch : LinkChanges P S (linksOf l (ts.map Target.both)) (linksOf l' (ts'.map Target.both))) : eval I ρ e' = eval I ρ node := by
  subst hl
  subst he
  rw [← eval_core, core_withCore (f := fun _ => .comp l' ts') (fun _ => rfl), ← eval_core I ρ node, hc, eval, eval]
  refine Run.bind_congr fun s v s' hv => ?_
  exact evalTargets_links hS hI ts ts' l' v ⟨s, s', hv⟩ hch

/-- **C83.** The rewrite of `is` to `==` does not change what the comparison does (its value, its effects, its exceptions) in a program
where `==` against a number or string literal of the comparison says what `is` says; nothing is asked of any other comparison. -/
theorem C83_primitives_meaning (node e' : Expr) (h : comparePrimitivesByEqual node = .fix e') (I : Interp) (ρ : I.Locals)
    (hI : ∀ a b v w, (PrimitiveLiteral a ∨ PrimitiveLiteral b) → Yields I ρ a v → Yields I ρ b w → EqualityIsIdentity I v w) :
    eval I ρ e' = eval I ρ node := by
  obtain ⟨l, ts, l', ts', hc, hf, hl, hch⟩ := (C83_primitives node).2 (by rw [h]; simp)
  rw [h] at hf
  cases hf
  exact compare_meaning l ts l' ts' (fun a b h => .inl h) (fun a op b v w hp hv hw => hI a b v w hp.2 hv hw) hc rfl hl hch

theorem yields_singleton {I : Interp} {ρ : I.Locals} {e : Expr} {v : I.Val} (h : SingletonLiteral e) (hv : Yields I ρ e v) :
    v = I.none ∨ v = I.true ∨ v = I.false := by
  obtain ⟨s, s', hv⟩ := hv
  rw [← eval_core] at hv
  cases h with
  | none h => rw [h, eval, Interp.lookup] at hv; simp at hv; exact .inl (Run.pure_ok hv).1.symm
  | true h => rw [h, eval, Interp.lookup] at hv; simp at hv; exact .inr (.inl (Run.pure_ok hv).1.symm)
  | false h => rw [h, eval, Interp.lookup] at hv; simp at hv; exact .inr (.inr (Run.pure_ok hv).1.symm)

/-- **C83.** The rewrite of `==` to `is` does not change what the comparison does in a program where `==` with `None`, `True` or `False`
on one side says what `is` says. -/
theorem C83_singletons_meaning (quals : PStr → List QName) (hq : KeywordScopes quals) (node e' : Expr)
    (h : compareSingletonByIs quals node = .fix e') (I : Interp) (ρ : I.Locals)
    (hI : ∀ v w, (v = I.none ∨ v = I.true ∨ v = I.false) ∨ (w = I.none ∨ w = I.true ∨ w = I.false) → EqualityIsIdentity I v w) :
    eval I ρ e' = eval I ρ node := by
  obtain ⟨l, ts, l', ts', hc, hf, hl, hch⟩ := (C83_singletons quals hq node).2 (by rw [h]; simp)
  rw [h] at hf
  cases hf
  refine compare_meaning l ts l' ts' (fun a b h => .inr h) (fun a op b v w hp hv hw => hI v w ?_) hc rfl hl hch
  exact hp.2.imp (yields_singleton · hv) (yields_singleton · hw)

/-- A link between a literal and a singleton that one of the two rules wants changed. -/
def Disputed (e : Expr) : Prop :=
  ∃ k ∈ e.links, (k.2.1 = .is ∨ k.2.1 = .isNot ∨ k.2.1 = .eq ∨ k.2.1 = .ne) ∧
    ((PrimitiveLiteral k.1 ∧ SingletonLiteral k.2.2) ∨ (SingletonLiteral k.1 ∧ PrimitiveLiteral k.2.2))

/-- **C84.** The two rules contradict each other on a comparison that has an (in)equality or identity between a number or string literal
and `None`, `True` or `False`: one of them always speaks up, and whatever it proposes is such a comparison again. So no number of
rounds of automatic fixes ends with a file that is clean for both. -/
theorem C84_disputed (quals : PStr → List QName) (hq : KeywordScopes quals) (node : Expr) (h : Disputed node) :
    (comparePrimitivesByEqual node ≠ .silent ∨ compareSingletonByIs quals node ≠ .silent) ∧
    (∀ e', comparePrimitivesByEqual node = .fix e' ∨ compareSingletonByIs quals node = .fix e' → Disputed e') := by
  constructor
  · obtain ⟨k, hk, hop, hlit⟩ := h
    rcases hop with hop | hop | hop | hop
    · left; intro hs; exact ((C83_primitives node).1.1 hs k hk) ⟨.inl hop, hlit.elim (fun h => .inl h.1) (fun h => .inr h.2)⟩
    · left; intro hs; exact ((C83_primitives node).1.1 hs k hk) ⟨.inr hop, hlit.elim (fun h => .inl h.1) (fun h => .inr h.2)⟩
    · right; intro hs; exact ((C83_singletons quals hq node).1.1 hs k hk) ⟨.inl hop, hlit.elim (fun h => .inr h.2) (fun h => .inl h.1)⟩
    · right; intro hs; exact ((C83_singletons quals hq node).1.1 hs k hk) ⟨.inr hop, hlit.elim (fun h => .inr h.2) (fun h => .inl h.1)⟩
  · intro e' he
    have main : ∀ {P : Expr → CompOp → Expr → Prop} {S : CompOp → CompOp → Prop} (l : Expr) (ts l' ts'), (∀ a b, S a b → Swap a b ∨ Swap b a) →
        node.core = .comp l ts → e' = (node.withCore fun _ => .comp l' ts') →
        LinkChanges P S (linksOf l (ts.map Target.both)) (linksOf l' (ts'.map Target.both)) → Disputed e' := by
      intro P S l ts l' ts' hS hc he hch
      obtain ⟨k, hk, hop, hlit⟩ := h
      have hl : node.links = linksOf l (ts.map Target.both) := by unfold Expr.links; rw [hc]
      rw [hl] at hk
      obtain ⟨b, hb, hab⟩ := linkChanges_mem hch k hk
      refine ⟨b, by rw [he, links_withCore]; exact hb, ?_⟩
      cases hab with
      | same => exact ⟨hop, hlit⟩
      | swap _ hs =>
        refine ⟨?_, hlit⟩
        rcases hS _ _ hs with h | h <;> cases h <;> simp
    rcases he with he | he
    · obtain ⟨l, ts, l', ts', hc, hf, -, hch⟩ := (C83_primitives node).2 (by rw [he]; simp)
      rw [he] at hf
      cases hf
      exact main l ts l' ts' (fun a b h => .inl h) hc rfl hch
    · obtain ⟨l, ts, l', ts', hc, hf, -, hch⟩ := (C83_singletons quals hq node).2 (by rw [he]; simp)
      rw [he] at hf
      cases hf
      exact main l ts l' ts' (fun a b h => .inr h) hc rfl hch

/-! ## Cases -/

/-- Qualified names in a file where `None`, `True` and `False` are the only builtins used. -/
def keywordQuals (s : PStr) : List QName :=
  if s = py "None" ∨ s = py "True" ∨ s = py "False" then [(py "builtins." ++ s, true)] else []

theorem keywordQuals_ok : KeywordScopes keywordQuals where
  keyword := by intro s h; simp [keywordQuals, h]
  only := by
    intro s q hq _
    unfold keywordQuals at hq
    split at hq
    · assumption
    · simp at hq

/-- `(3 > a is 2)` becomes `(3 > a == 2)` -/
example : comparePrimitivesByEqual (.paren (.comp (.num (py "3")) [.mk .gt (.name (py "a")), .mk .is (.num (py "2"))])) =
    .fix (.paren (.comp (.num (py "3")) [.mk .gt (.name (py "a")), .mk .eq (.num (py "2"))])) := rfl

/-- `x is True == y` becomes `x is True is y` -/
example : compareSingletonByIs keywordQuals (.comp (.name (py "x")) [.mk .is (.name (py "True")), .mk .eq (.name (py "y"))]) =
    .fix (.comp (.name (py "x")) [.mk .is (.name (py "True")), .mk .is (.name (py "y"))]) := rfl

/-- `1 == None` → `1 is None` → `1 == None` → … -/
theorem C84_loop :
    compareSingletonByIs keywordQuals (.comp (.num (py "1")) [.mk .eq (.name (py "None"))]) = .fix (.comp (.num (py "1")) [.mk .is (.name (py "None"))]) ∧
    comparePrimitivesByEqual (.comp (.num (py "1")) [.mk .is (.name (py "None"))]) = .fix (.comp (.num (py "1")) [.mk .eq (.name (py "None"))]) :=
  ⟨rfl, rfl⟩

example : Disputed (.comp (.num (py "1")) [.mk .eq (.name (py "None"))]) :=
  ⟨_, List.mem_singleton.2 rfl, by simp, .inl ⟨.num rfl, .none rfl⟩⟩

/-- In the demo program, equality is identity. -/
theorem demo_equality (v w : DVal) : EqualityIsIdentity (demo xAB) v w := by
  constructor
  · show Run.pure (if (v.1 == w.1) != false then dval (py "True") else dval (py "False")) = Run.pure (if v.1 == w.1 then _ else _)
    rw [Bool.bne_false]; rfl
  · show Run.pure (if (v.1 == w.1) != true then dval (py "True") else dval (py "False")) = Run.pure (if !(v.1 == w.1) then _ else _)
    rw [Bool.bne_true]; rfl

example : eval (demo xAB) [] (.comp (.name (py "x")) [.mk .is (.name (py "None"))]) =
    eval (demo xAB) [] (.comp (.name (py "x")) [.mk .eq (.name (py "None"))]) :=
  C83_singletons_meaning keywordQuals keywordQuals_ok _ _ rfl (demo xAB) [] fun v w _ => demo_equality v w

example : eval (demo xAB) [] (.comp (.name (py "x")) [.mk .ne (.str (py "'x'"))]) =
    eval (demo xAB) [] (.comp (.name (py "x")) [.mk .isNot (.str (py "'x'"))]) :=
  C83_primitives_meaning _ _ rfl (demo xAB) [] fun _ _ v w _ _ _ => demo_equality v w

/-- A program in which, as in Python, `1 == True`. -/
def demoOne : Interp :=
  { demo xAB with rich := fun _ a b => Run.pure (if a.1 == b.1 || (a.1 == py "1" && b.1 == py "True") then dval (py "True") else dval (py "False")) }

/-- `x == True` is not `x is True`: with `x = 1` the fix turns a true comparison into a false one. -/
theorem C83_meaning_changes : ∃ e e', compareSingletonByIs keywordQuals e = .fix e' ∧ ∃ (ρ : demoOne.Locals),
    eval demoOne ρ e = Run.pure demoOne.true ∧ eval demoOne ρ e' = Run.pure demoOne.false :=
  ⟨.comp (.name (py "x")) [.mk .eq (.name (py "True"))], .comp (.name (py "x")) [.mk .is (.name (py "True"))], rfl,
    [(py "x", dval (py "1"))], by funext s; rfl, by funext s; rfl⟩

end Cst

namespace Cst
open Py

theorem fixes_differ (quals : PStr → List QName) : ∀ (ts : List Target) (l : Expr), hasPrimitiveIdentity l ts = true → replaceOperators l ts ≠ (alterComparisons quals l ts).2
  | [], _, h => by cases h
  | .mk op c :: ts, l, h => by
    intro he
    rw [hasPrimitiveIdentity, Bool.or_eq_true, Bool.and_eq_true] at h
    have htail : replaceOperators c ts = (alterComparisons quals c ts).2 := by
      rw [replaceOperators, alterComparisons] at he
      have := congrArg List.tail he
      by_cases hx : (op.isEquality && (isSingleton quals l || isSingleton quals c)) = true
      · rw [if_pos hx] at this; exact this
      · rw [if_neg hx] at this; exact this
    rcases h with ⟨ho, hp⟩ | h
    · rw [replaceOperators, alterComparisons, if_pos ho, if_pos hp] at he
      have hne : op.isEquality = false := by revert ho; cases op <;> simp [CompOp.isIdentity, CompOp.isEquality]
      simp only [hne, Bool.false_and, Bool.false_eq_true, if_false] at he
      have := (List.cons.inj he).1
      simp only [Target.mk.injEq, and_true] at this
      revert ho this
      cases op <;> simp [CompOp.isIdentity, toEquality]
    · exact fixes_differ quals ts c h htail

/-- C136: where both bundled rules on comparisons speak up, they are about the same node and their fixes differ, so which of them is applied depends on the order of the rules. -/
theorem C136_bundled (quals : PStr → List QName) (node e e' : Expr) (h : comparePrimitivesByEqual node = .fix e) (h' : compareSingletonByIs quals node = .fix e') : e ≠ e' := by
  intro he
  unfold comparePrimitivesByEqual at h
  unfold compareSingletonByIs at h'
  cases hc : node.core <;> simp only [hc, reduceCtorEq] at h h'
  rename_i l ts
  split at h
  · rename_i hp
    split at h'
    · simp only [Report.fix.injEq] at h h'
      subst h he
      have h1 := core_withCore (f := fun _ => Expr.comp l (replaceOperators l ts)) (fun _ => rfl) node
      have h2 := core_withCore (f := fun _ => Expr.comp l (alterComparisons quals l ts).2) (fun _ => rfl) node
      rw [← h', h2] at h1
      simp only [Expr.comp.injEq, true_and] at h1
      exact fixes_differ quals ts l hp h1.symm
    · cases h'
  · cases h

/-- C136: `x is 1 == None`. -/
example : comparePrimitivesByEqual (.comp (.name (py "x")) [.mk .is (.num (py "1")), .mk .eq (.name (py "None"))]) =
      .fix (.comp (.name (py "x")) [.mk .eq (.num (py "1")), .mk .eq (.name (py "None"))]) ∧
    compareSingletonByIs keywordQuals (.comp (.name (py "x")) [.mk .is (.num (py "1")), .mk .eq (.name (py "None"))]) =
      .fix (.comp (.name (py "x")) [.mk .is (.num (py "1")), .mk .is (.name (py "None"))]) := ⟨rfl, rfl⟩

end Cst
