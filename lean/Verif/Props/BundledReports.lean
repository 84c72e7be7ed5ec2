import Verif.Props.Bundled

/-!
# C121: what each bundled rule reports about a module, rule by rule
-/

namespace Cst
open Py Fixit Spec

theorem fix_or_warn {α : Type} {r : Cst.Report α} (hc : r ≠ .crash) : r ≠ .silent ↔ (r = .warn ∨ ∃ a, r = .fix a) := by
  cases r with
  | silent => exact ⟨fun h => absurd rfl h, fun h => by rcases h with h | ⟨a, h⟩ <;> cases h⟩
  | warn => exact ⟨fun _ => .inl rfl, fun _ h => by cases h⟩
  | fix a => exact ⟨fun _ => .inr ⟨a, rfl⟩, fun _ h => by cases h⟩
  | crash => exact absurd rfl hc

/-- A node is reported by a rule about expressions exactly when the method is not silent and does not raise. -/
theorem exprRule_node {L : Looks} {kind : PStr} {message : Expr → Option PStr} {f : Nat → Expr → Cst.Report Expr} {method : PStr} (hm : method = py "visit_" ++ kind) {st : Store} {t : Syn}
    {reps : List Rep} (h : (exprRule L method message f).alone st t = .ok reps) (P : Nat → Prop) (hP : ∀ i, P i ↔ (f i (L.expr i) = .warn ∨ ∃ a, f i (L.expr i) = .fix a)) (i : Nat) :
    (∃ rep ∈ reps, rep.node = i) ↔ OfKind t kind i ∧ P i := by
  rw [hP]
  constructor
  · rintro ⟨rep, hr, rfl⟩
    obtain ⟨h1, -, h2⟩ := (exprRule_mem hm h rep).mp hr
    refine ⟨h1, ?_⟩
    rcases h2 with ⟨h2, -⟩ | ⟨a, h2, -⟩
    · exact .inl h2
    · exact .inr ⟨a, h2⟩
  · rintro ⟨hk, h2 | ⟨a, h2⟩⟩
    · exact ⟨{ node := i, message := message (L.expr i) }, (exprRule_mem hm h _).mpr ⟨hk, rfl, .inl ⟨h2, rfl⟩⟩, rfl⟩
    · exact ⟨{ node := i, message := message (L.expr i), change := some (.expr a) }, (exprRule_mem hm h _).mpr ⟨hk, rfl, .inr ⟨a, h2, rfl⟩⟩, rfl⟩

/-- The same for other rules with one method. -/
theorem visit_node {kind : PStr} {ms : List PStr} (hms : ms = [py "visit_" ++ kind]) {f : Ev → Except Err (List Rep)} {st : Store} {t : Syn} {reps : List Rep}
    (h : (VRule.each ms f).alone st t = .ok reps) (P : Nat → Prop) (hP : ∀ i l, l.typeName = kind → ∀ j, (∃ out, f (.visit i l) = .ok out ∧ ∃ rep ∈ out, rep.node = j) ↔ j = i ∧ P i) (i : Nat) :
    (∃ rep ∈ reps, rep.node = i) ↔ OfKind t kind i ∧ P i := by
  constructor
  · rintro ⟨rep, hr, rfl⟩
    obtain ⟨way, j, l, ks, hat, hk, out, ho, hm⟩ := (visit_mem hms h rep).mp hr
    obtain ⟨h1, h2⟩ := (hP j l hk rep.node).mp ⟨out, ho, rep, hm, rfl⟩
    rw [h1]
    exact ⟨⟨way, l, ks, hat, hk⟩, h2⟩
  · rintro ⟨⟨way, l, ks, hat, hk⟩, h2⟩
    obtain ⟨out, ho, rep, hm, hn⟩ := (hP i l hk i).mpr ⟨rfl, h2⟩
    exact ⟨rep, (visit_mem hms h rep).mpr ⟨way, i, l, ks, hat, hk, out, ho, hm⟩, hn⟩

theorem leave_node {kind : PStr} {ms : List PStr} (hms : ms = [py "leave_" ++ kind]) {f : Ev → Except Err (List Rep)} {st : Store} {t : Syn} {reps : List Rep}
    (h : (VRule.each ms f).alone st t = .ok reps) (P : Nat → Prop) (hP : ∀ i l, l.typeName = kind → ∀ j, (∃ out, f (.leave i l) = .ok out ∧ ∃ rep ∈ out, rep.node = j) ↔ j = i ∧ P i) (i : Nat) :
    (∃ rep ∈ reps, rep.node = i) ↔ OfKind t kind i ∧ P i := by
  constructor
  · rintro ⟨rep, hr, rfl⟩
    obtain ⟨way, j, l, ks, hat, hk, out, ho, hm⟩ := (leave_mem hms h rep).mp hr
    obtain ⟨h1, h2⟩ := (hP j l hk rep.node).mp ⟨out, ho, rep, hm, rfl⟩
    rw [h1]
    exact ⟨⟨way, l, ks, hat, hk⟩, h2⟩
  · rintro ⟨⟨way, l, ks, hat, hk⟩, h2⟩
    obtain ⟨out, ho, rep, hm, hn⟩ := (hP i l hk i).mpr ⟨rfl, h2⟩
    exact ⟨rep, (leave_mem hms h rep).mpr ⟨way, i, l, ks, hat, hk, out, ho, hm⟩, hn⟩

theorem reported_node {α : Type} {x : Err} {change : α → Change} {i : Nat} {message : Option PStr} {r : Cst.Report α} {P : Prop} (hP : P ↔ (r = .warn ∨ ∃ a, r = .fix a)) (j : Nat) :
    (∃ out, reported x change i message r = .ok out ∧ ∃ rep ∈ out, rep.node = j) ↔ j = i ∧ P := by
  rw [hP]
  constructor
  · rintro ⟨out, ho, rep, hm, rfl⟩
    obtain ⟨h1, -, h2⟩ := mem_reported.mp ⟨out, ho, hm⟩
    refine ⟨h1, ?_⟩
    rcases h2 with ⟨h2, -⟩ | ⟨a, h2, -⟩
    · exact .inl h2
    · exact .inr ⟨a, h2⟩
  · rintro ⟨rfl, h | ⟨a, h⟩⟩
    · rw [h]; exact ⟨_, rfl, _, List.mem_singleton.mpr rfl, rfl⟩
    · rw [h]; exact ⟨_, rfl, _, List.mem_singleton.mpr rfl, rfl⟩

theorem classDef_of_typeName {l : Label} (h : l.typeName = py "ClassDef") : (∃ c n bs, l = .classDef c n bs) ∨ l = .other (py "ClassDef") := by
  cases l with
  | classDef c n bs => exact .inl ⟨c, n, bs, rfl⟩
  | other s => exact .inr (by rw [show s = py "ClassDef" from h])
  | _ => exact absurd h (by simp [Label.typeName])

section
variable {L : Looks} {t : Syn} (hl : LooksRight L t) (meta_ : Store) {reps : List Rep}

theorem offends_avoidOr (h : (bundled L .avoidOrInExcept).alone meta_ t = .ok reps) (i : Nat) : (∃ rep ∈ reps, rep.node = i) ↔ Offends L t .avoidOrInExcept i := by
  refine visit_node (kind := py "Try") rfl h (fun i => ∃ h l r, L.handlers i = [h] ∧ CatchesOr h l r) ?_ i
  intro i l _ j
  rw [← C107_reports]
  simp only [Ev.node]
  by_cases ha : avoidOrInExcept (L.handlers i) = true
  · simp only [ha, if_true]
    constructor
    · rintro ⟨_, ho, rep, hm, rfl⟩; cases ho; cases List.mem_singleton.mp hm; exact ⟨rfl, trivial⟩
    · rintro ⟨rfl, -⟩; exact ⟨_, rfl, _, List.mem_singleton.mpr rfl, rfl⟩
  · simp only [ha]
    constructor
    · rintro ⟨_, ho, rep, hm, rfl⟩; cases ho; cases hm
    · rintro ⟨-, h⟩; cases h

theorem offends_cls (h : (bundled L .useClsInClassmethod).alone meta_ t = .ok reps) (i : Nat) : (∃ rep ∈ reps, rep.node = i) ↔ Offends L t .useClsInClassmethod i := by
  refine visit_node (kind := py "FunctionDef") rfl h (fun i => (∃ d ∈ (L.method i).decorators, L.isClassmethod d = true) ∧ ∀ p rest, (L.method i).params = p :: rest → p.2 ≠ py "cls") ?_ i
  intro i l _ j
  refine reported_node ?_ j
  simp only [Ev.node]
  rw [← fix_or_warn, (C111_reports L.isClassmethod (L.hasScope i) (L.around i) (L.fresh i) (L.method i)).1]
  unfold useCls
  intro hc
  repeat' (split at hc)
  all_goals (cases hc)

theorem offends_equal (h : (bundled L .comparePrimitivesByEqual).alone meta_ t = .ok reps) (i : Nat) : (∃ rep ∈ reps, rep.node = i) ↔ Offends L t .comparePrimitivesByEqual i := by
  refine exprRule_node (kind := py "Comparison") rfl h (fun i => ∃ k ∈ (L.expr i).links, (k.2.1 = .is ∨ k.2.1 = .isNot) ∧ (PrimitiveLiteral k.1 ∨ PrimitiveLiteral k.2.2)) ?_ i
  intro i
  obtain ⟨h1, h2⟩ := C83_primitives (L.expr i)
  constructor
  · rintro ⟨k, hk, hp⟩
    have hs : comparePrimitivesByEqual (L.expr i) ≠ .silent := fun hs => h1.mp hs k hk hp
    obtain ⟨l, ts, l', ts', -, hf, -⟩ := h2 hs
    exact .inr ⟨_, hf⟩
  · intro hf
    have hs : comparePrimitivesByEqual (L.expr i) ≠ .silent := by rcases hf with h | ⟨a, h⟩ <;> rw [h] <;> intro h <;> cases h
    rw [Ne, h1] at hs
    have := Classical.not_forall.mp hs
    obtain ⟨k, hk⟩ := this
    exact ⟨k, Classical.byContradiction (fun hn => hk (fun hm => absurd hm hn)), Classical.byContradiction (fun hn => hk (fun _ => hn))⟩

include hl in
theorem offends_singleton (h : (bundled L .compareSingletonPrimitivesByIs).alone meta_ t = .ok reps) (i : Nat) : (∃ rep ∈ reps, rep.node = i) ↔ Offends L t .compareSingletonPrimitivesByIs i := by
  refine exprRule_node (kind := py "Comparison") rfl h (fun i => ∃ k ∈ (L.expr i).links, (k.2.1 = .eq ∨ k.2.1 = .ne) ∧ (SingletonLiteral k.1 ∨ SingletonLiteral k.2.2)) ?_ i
  intro i
  obtain ⟨h1, h2⟩ := C83_singletons (L.names i) (hl.keywords i) (L.expr i)
  constructor
  · rintro ⟨k, hk, hp⟩
    have hs : compareSingletonByIs (L.names i) (L.expr i) ≠ .silent := fun hs => h1.mp hs k hk hp
    obtain ⟨l, ts, l', ts', -, hf, -⟩ := h2 hs
    exact .inr ⟨_, hf⟩
  · intro hf
    have hs : compareSingletonByIs (L.names i) (L.expr i) ≠ .silent := by rcases hf with h | ⟨a, h⟩ <;> rw [h] <;> intro h <;> cases h
    rw [Ne, h1] at hs
    have := Classical.not_forall.mp hs
    obtain ⟨k, hk⟩ := this
    exact ⟨k, Classical.byContradiction (fun hn => hk (fun hm => absurd hm hn)), Classical.byContradiction (fun hn => hk (fun _ => hn))⟩

/-- A rule whose verdict is a fix exactly when there is something, and silence otherwise. -/
theorem fix_iff {α β : Type} {r : Cst.Report α} {Q : β → Prop} (h1 : ∀ b, Q b → ∃ a, r = .fix a) (h2 : (∀ b, ¬ Q b) → r = .silent) : (∃ b, Q b) ↔ (r = .warn ∨ ∃ a, r = .fix a) := by
  constructor
  · rintro ⟨b, hb⟩; exact .inr (h1 b hb)
  · intro h
    refine Classical.byContradiction (fun hn => ?_)
    rw [h2 (fun b hb => hn ⟨b, hb⟩)] at h
    rcases h with h | ⟨a, h⟩ <;> cases h

theorem offends_deprecated (h : (bundled L .deprecatedUnittestAsserts).alone meta_ t = .ok reps) (i : Nat) : (∃ rep ∈ reps, rep.node = i) ↔ Offends L t .deprecatedUnittestAsserts i := by
  refine exprRule_node (kind := py "Call") rfl h (fun i => ∃ f args, DeprecatedCall (L.expr i) f args) ?_ i
  intro i
  obtain ⟨h1, h2⟩ := C89_deprecated_shape (L.expr i)
  have := fix_iff (Q := fun p : Expr × List Arg => DeprecatedCall (L.expr i) p.1 p.2) (fun p hp => ⟨_, h1 p.1 p.2 hp⟩) (fun hn => h2 (fun f as hd => hn (f, as) hd))
  rw [← this]
  exact ⟨fun ⟨f, as, h⟩ => ⟨(f, as), h⟩, fun ⟨(f, as), h⟩ => ⟨f, as, h⟩⟩

theorem offends_assertTrue (h : (bundled L .noAssertTrueForComparisons).alone meta_ t = .ok reps) (i : Nat) : (∃ rep ∈ reps, rep.node = i) ↔ Offends L t .noAssertTrueForComparisons i := by
  refine exprRule_node (kind := py "Call") rfl h (fun i => ∃ f a b, (L.expr i).core = .call f [a, b] ∧ SelfMethod f (py "assertTrue") ∧ LiteralValue b.value) ?_ i
  intro i
  obtain ⟨h1, h2⟩ := C89_true_shape (L.expr i)
  have := fix_iff (r := noAssertTrueForComparisons (L.expr i)) (Q := fun p : Expr × Arg × Arg => (L.expr i).core = .call p.1 [p.2.1, p.2.2] ∧ SelfMethod p.1 (py "assertTrue") ∧ LiteralValue p.2.2.value) ?_ ?_
  · rw [← this]
    exact ⟨fun ⟨f, a, b, h⟩ => ⟨(f, a, b), h⟩, fun ⟨(f, a, b), h⟩ => ⟨f, a, b, h⟩⟩
  · rintro ⟨f, a, b⟩ ⟨hc, ⟨v, hv, hs⟩, hb⟩
    have hm : ∃ m args, MeantAs a b m args := by
      by_cases hsing : SingletonLiteral b.value
      · cases hsing with
        | none h => exact ⟨_, _, .none h⟩
        | true h => exact ⟨_, _, .true h⟩
        | false h => exact ⟨_, _, .false h⟩
      · exact ⟨_, _, .value hb hsing⟩
    obtain ⟨m, args, hm⟩ := hm
    exact ⟨_, h1 f v a b m args hc hv hs hm⟩
  · intro hn
    exact h2 (fun f a b hc hs hb => hn (f, a, b) ⟨hc, hs, hb⟩)

theorem offends_object (h : (bundled L .noInheritFromObject).alone meta_ t = .ok reps) (i : Nat) : (∃ rep ∈ reps, rep.node = i) ↔ Offends L t .noInheritFromObject i := by
  constructor
  · rintro ⟨rep, hr, rfl⟩
    obtain ⟨way, j, l, ks, hat, hk, out, ho, hm⟩ := (visit_mem (kind := py "ClassDef") rfl h rep).mp hr
    rcases classDef_of_typeName hk with ⟨c, n, bs, rfl⟩ | rfl
    · simp only [Ev.label] at ho
      cases hw : withoutObject (bs.map (·.2)) with
      | none => rw [hw] at ho; cases ho; cases hm
      | some new =>
        rw [hw] at ho
        cases ho
        cases List.mem_singleton.mp hm
        obtain ⟨b, hb, hob⟩ := (C105_reports (bs.map (·.2))).1.mp ⟨new, hw⟩
        obtain ⟨b', hb', rfl⟩ := List.mem_map.mp hb
        exact ⟨way, c, n, bs, ks, hat, b', hb', hob⟩
    · cases ho; cases hm
  · rintro ⟨way, c, n, bs, ks, hat, b, hb, hob⟩
    obtain ⟨new, hw⟩ := (C105_reports (bs.map (·.2))).1.mpr ⟨b.2, List.mem_map_of_mem hb, hob⟩
    exact ⟨{ node := i, change := some (.bases new) }, (visit_mem (kind := py "ClassDef") rfl h _).mpr ⟨way, i, _, ks, hat, rfl, [{ node := i, change := some (.bases new) }], by simp only [Ev.label, hw, Ev.node], List.mem_singleton.mpr rfl⟩, rfl⟩

theorem offends_namedTuple (h : (bundled L .noNamedTuple).alone meta_ t = .ok reps) (i : Nat) : (∃ rep ∈ reps, rep.node = i) ↔ Offends L t .noNamedTuple i := by
  constructor
  · rintro ⟨rep, hr, rfl⟩
    obtain ⟨way, j, l, ks, hat, hk, out, ho, hm⟩ := (leave_mem (kind := py "ClassDef") rfl h rep).mp hr
    rcases classDef_of_typeName hk with ⟨c, n, bs, rfl⟩ | rfl
    · simp only [Ev.label] at ho
      cases hw : dropNamedTuple L.isNamedTuple bs ((L.decorators (Ev.leave j (.classDef c n bs)).node).map (·.2)) with
      | none => rw [hw] at ho; cases ho; cases hm
      | some new =>
        obtain ⟨new, ds⟩ := new
        rw [hw] at ho
        cases ho
        cases List.mem_singleton.mp hm
        obtain ⟨b, hb⟩ := (C106_fix L.isNamedTuple bs _).1.mp ⟨_, hw⟩
        exact ⟨way, c, n, bs, ks, hat, b, hb⟩
    · cases ho; cases hm
  · rintro ⟨way, c, n, bs, ks, hat, b, hb⟩
    obtain ⟨⟨new, ds⟩, hw⟩ := (C106_fix L.isNamedTuple bs ((L.decorators i).map (·.2))).1.mpr ⟨b, hb⟩
    exact ⟨{ node := i, change := some (.classHead (new.map (·.2)) ds) }, (leave_mem (kind := py "ClassDef") rfl h _).mpr ⟨way, i, _, ks, hat, rfl, [{ node := i, change := some (.classHead (new.map (·.2)) ds) }], by simp only [Ev.label, Ev.node, hw], List.mem_singleton.mpr rfl⟩, rfl⟩

theorem offends_super (h : (bundled L .noRedundantArgumentsSuper).alone meta_ t = .ok reps) (i : Nat) : (∃ rep ∈ reps, rep.node = i) ↔ Offends L t .noRedundantArgumentsSuper i := by
  obtain ⟨reps', hr, hiff⟩ := C97_super meta_ t
  have : (bundled L .noRedundantArgumentsSuper).alone meta_ t = .ok reps' := hr
  rw [this] at h
  cases h
  constructor
  · rintro ⟨rep, hm, rfl⟩
    obtain ⟨way, i, func, args, ks, hat, rfl, h⟩ := (hiff rep).mp hm
    exact ⟨way, func, args, ks, hat, h⟩
  · rintro ⟨way, func, args, ks, hat, h⟩
    exact ⟨_, (hiff _).mpr ⟨way, i, func, args, ks, hat, rfl, h⟩, rfl⟩

theorem offends_redundantF (h : (bundled L .noRedundantFString).alone meta_ t = .ok reps) (i : Nat) : (∃ rep ∈ reps, rep.node = i) ↔ Offends L t .noRedundantFString i := by
  refine visit_node (kind := py "FormattedString") rfl h (fun i => ∃ s, (L.fstring i).parts = [.text s]) ?_ i
  intro i l _ j
  rw [← C109_reports]
  simp only [Ev.node]
  cases hf : noRedundantFString (L.fstring i) with
  | none =>
    constructor
    · rintro ⟨_, ho, rep, hm, rfl⟩; cases ho; cases hm
    · rintro ⟨-, h⟩; cases h
  | some new =>
    constructor
    · rintro ⟨_, ho, rep, hm, rfl⟩; cases ho; cases List.mem_singleton.mp hm; exact ⟨rfl, rfl⟩
    · rintro ⟨rfl, -⟩; exact ⟨_, rfl, _, List.mem_singleton.mpr rfl, rfl⟩

theorem offends_lambda (h : (bundled L .noRedundantLambda).alone meta_ t = .ok reps) (i : Nat) : (∃ rep ∈ reps, rep.node = i) ↔ Offends L t .noRedundantLambda i := by
  refine exprRule_node (kind := py "Lambda") rfl h (fun i => ∃ f, ForwardsTo (L.expr i) f) ?_ i
  intro i
  obtain ⟨h1, h2⟩ := C85_shape (L.expr i)
  exact fix_iff (fun f hf => ⟨f, (h1 f).mpr hf⟩) h2

theorem offends_quantify (h : (bundled L .noRedundantListComprehension).alone meta_ t = .ok reps) (i : Nat) : (∃ rep ∈ reps, rep.node = i) ↔ Offends L t .noRedundantListComprehension i := by
  refine exprRule_node (kind := py "Call") rfl h (fun i => ∃ f st kw v elt cs, (L.expr i).core = .call f [.mk st kw v] ∧ v.core = .listComp elt cs ∧ (f.core = .name (py "any") ∨ f.core = .name (py "all"))) ?_ i
  intro i
  obtain ⟨h1, h2⟩ := C86_shape (L.expr i)
  constructor
  · rintro ⟨f, st, kw, v, elt, cs, ha, hb, hc⟩
    exact .inr ⟨_, (h1 _).mpr ⟨f, st, kw, v, elt, cs, ha, hb, hc, rfl⟩⟩
  · rintro (h | ⟨a, h⟩)
    · rw [h2 (fun e' he => by rw [h] at he; cases he)] at h; cases h
    · obtain ⟨f, st, kw, v, elt, cs, ha, hb, hc, -⟩ := (h1 a).mp h
      exact ⟨f, st, kw, v, elt, cs, ha, hb, hc⟩

theorem offends_static (h : (bundled L .noStaticIfCondition).alone meta_ t = .ok reps) (i : Nat) : (∃ rep ∈ reps, rep.node = i) ↔ Offends L t .noStaticIfCondition i := by
  refine visit_node (kind := py "If") rfl h (fun i => ∃ b, Forced (L.test i) b) ?_ i
  intro i l _ j
  refine reported_node ?_ j
  simp only [Ev.node]
  obtain ⟨h1, h2, -⟩ := C81_static (L.test i)
  rw [h1]
  refine ⟨.inl, fun h => ?_⟩
  rcases h with h | ⟨a, h⟩
  · exact h
  · refine Classical.byContradiction (fun hn => ?_)
    rw [h2.mpr hn] at h
    cases h

theorem offends_union (h : (bundled L .replaceUnionWithOptional).alone meta_ t = .ok reps) (i : Nat) : (∃ rep ∈ reps, rep.node = i) ↔ Offends L t .replaceUnionWithOptional i := by
  refine leave_node (kind := py "Annotation") rfl h (fun i => ∃ x y, UnionWithNone (L.annotation i) x y) ?_ i
  intro i l _ j
  refine reported_node ?_ j
  simp only [Ev.node]
  obtain ⟨h1, -, h3⟩ := C108_reports (L.optionalKnown i) (L.annotation i)
  rw [← fix_or_warn h3, Ne, h1, Classical.not_not]

theorem offends_comprehension (h : (bundled L .rewriteToComprehension).alone meta_ t = .ok reps) (i : Nat) : (∃ rep ∈ reps, rep.node = i) ↔ Offends L t .rewriteToComprehension i := by
  refine exprRule_node (kind := py "Call") rfl h (fun i => ∃ e, ComprehensionFor (L.expr i) e) ?_ i
  intro i
  obtain ⟨h1, h2, h3⟩ := C88_shape (L.expr i)
  constructor
  · rintro ⟨e, he⟩; exact .inr ⟨e, (h1 e).mpr he⟩
  · rintro (h | ⟨a, h⟩)
    · rcases comprehension_cases (L.expr i) with ⟨e, he, -⟩ | ⟨he, -⟩ | he <;> rw [h] at he <;> cases he
    · exact ⟨a, (h1 a).mp h⟩

theorem offends_literal (h : (bundled L .rewriteToLiteral).alone meta_ t = .ok reps) (i : Nat) : (∃ rep ∈ reps, rep.node = i) ↔ Offends L t .rewriteToLiteral i := by
  refine exprRule_node (kind := py "Call") rfl h (fun i => ∃ e, LiteralFor (L.expr i) e) ?_ i
  intro i
  obtain ⟨h1, h2⟩ := C87_shape (L.expr i)
  exact fix_iff (fun e he => ⟨e, (h1 e).mpr he⟩) h2

theorem offends_in (h : (bundled L .useAssertIn).alone meta_ t = .ok reps) (i : Nat) : (∃ rep ∈ reps, rep.node = i) ↔ Offends L t .useAssertIn i := by
  refine exprRule_node (kind := py "Call") rfl h (fun i => ∃ x y b, MembershipTest (L.expr i) x y b) ?_ i
  intro i
  obtain ⟨h1, h2⟩ := C89_in_shape (L.expr i)
  have := fix_iff (Q := fun p : Expr × Expr × Bool => MembershipTest (L.expr i) p.1 p.2.1 p.2.2) (fun p hp => ⟨_, h1 _ _ _ hp⟩) (fun hn => h2 (fun x y b hm => hn (x, y, b) hm))
  rw [← this]
  exact ⟨fun ⟨x, y, b, h⟩ => ⟨(x, y, b), h⟩, fun ⟨(x, y, b), h⟩ => ⟨x, y, b, h⟩⟩

theorem offends_none (h : (bundled L .useAssertIsNotNone).alone meta_ t = .ok reps) (i : Nat) : (∃ rep ∈ reps, rep.node = i) ↔ Offends L t .useAssertIsNotNone i := by
  refine exprRule_node (kind := py "Call") rfl h (fun i => ∃ x b, NoneAssertion (L.expr i) x b) ?_ i
  intro i
  obtain ⟨h1, h2⟩ := C89_none_shape (L.expr i)
  have := fix_iff (Q := fun p : Expr × Bool => NoneAssertion (L.expr i) p.1 p.2) (fun p hp => ⟨_, h1 _ _ hp⟩) (fun hn => h2 (fun x b hm => hn (x, b) hm))
  rw [← this]
  exact ⟨fun ⟨x, b, h⟩ => ⟨(x, b), h⟩, fun ⟨(x, b), h⟩ => ⟨x, b, h⟩⟩

theorem offends_sleep (h : (bundled L .useAsyncSleepInAsyncDef).alone meta_ t = .ok reps) (i : Nat) : (∃ rep ∈ reps, rep.node = i) ↔ Offends L t .useAsyncSleepInAsyncDef i := by
  obtain ⟨reps', hr, hiff⟩ := C98_sleep L.qual (py "Use asyncio.sleep in async function") meta_ t
  have : (bundled L .useAsyncSleepInAsyncDef).alone meta_ t = .ok reps' := hr
  rw [this] at h
  cases h
  constructor
  · rintro ⟨rep, hm, rfl⟩
    obtain ⟨way, i, func, args, ks, hat, rfl, h⟩ := (hiff rep).mp hm
    exact ⟨way, func, args, ks, hat, h⟩
  · rintro ⟨way, func, args, ks, hat, h⟩
    exact ⟨_, (hiff _).mpr ⟨way, i, func, args, ks, hat, rfl, h⟩, rfl⟩

theorem offends_typing (h : (bundled L .useTypesFromTyping).alone meta_ t = .ok reps) (i : Nat) : (∃ rep ∈ reps, rep.node = i) ↔ Offends L t .useTypesFromTyping i := by
  have hiff := C99_types L.qual L.scope meta_ t reps h
  constructor
  · rintro ⟨rep, hm, rfl⟩
    obtain ⟨way, i, s, ks, T, known, hat, ha, hb, -, rfl, -⟩ := (hiff rep).mp hm
    exact ⟨way, s, ks, T, hat, ha, hb⟩
  · rintro ⟨way, s, ks, T, hat, ha, hb⟩
    cases hs : L.scope i with
    | error x =>
      obtain ⟨y, hy⟩ := (C99_raises L.qual L.scope meta_ t).mpr ⟨way, i, s, ks, T, x, hat, ha, hb, hs⟩
      have h' : (typingRule L.qual L.scope).alone meta_ t = .ok reps := h
      rw [h'] at hy
      cases hy
    | ok known => exact ⟨_, (hiff ⟨i, _, _⟩).mpr ⟨way, i, s, ks, T, known, hat, ha, hb, hs, rfl, rfl, rfl⟩, rfl⟩

include hl in
theorem offends_quoted (h : (bundled L .noStringTypeAnnotation).alone meta_ t = .ok reps) (i : Nat) : (∃ rep ∈ reps, rep.node = i) ↔ Offends L t .noStringTypeAnnotation i := by
  have hiff := C100_strings L.qual L.decoded L.parse meta_ t reps hl.exprs hl.nodup h
  constructor
  · rintro ⟨rep, hm, rfl⟩
    obtain ⟨way, i, text, ks, v, hat, h1, h2, h3, h4, rfl⟩ := (hiff rep).mp hm
    exact ⟨way, text, ks, v, hat, h1, h2, h3, h4⟩
  · rintro ⟨way, text, ks, v, hat, h1, h2, h3, h4⟩
    exact ⟨_, (hiff _).mpr ⟨way, i, text, ks, v, hat, h1, h2, h3, h4, rfl⟩, rfl⟩

include hl in
theorem offends_abc (h : (bundled L .deprecatedABCImport).alone meta_ t = .ok reps) (i : Nat) : (∃ rep ∈ reps, rep.node = i) ↔ Offends L t .deprecatedABCImport i := by
  obtain ⟨reps', hr, hiff⟩ := C101_reports meta_ t hl.module hl.nodup
  have : (bundled L .deprecatedABCImport).alone meta_ t = .ok reps' := by
    show (abcRule L.root).alone meta_ t = _
    rw [hl.root]; exact hr
  rw [this] at h
  cases h
  exact ⟨fun ⟨rep, hm, h⟩ => ⟨rep, (hiff rep).mp hm, h⟩, fun ⟨rep, hm, h⟩ => ⟨rep, (hiff rep).mpr hm, h⟩⟩

include hl in
theorem offends_sorted (h : (bundled L .sortedAttributes).alone meta_ t = .ok reps) (i : Nat) : (∃ rep ∈ reps, rep.node = i) ↔ Offends L t .sortedAttributes i := by
  have hne := visit_error (kind := py "ClassDef") (ms := [py "visit_ClassDef"]) rfl (fun e => match sortAttributes (L.lines e.node) with
    | .error x => .error x
    | .ok none => .ok []
    | .ok (some new) => .ok [{ node := e.node, change := some (.lines new) }]) meta_ t
  constructor
  · rintro ⟨rep, hr, rfl⟩
    obtain ⟨way, j, l, ks, hat, hk, out, ho, hm⟩ := (visit_mem (kind := py "ClassDef") rfl h rep).mp hr
    simp only [Ev.node] at ho
    cases hw : sortAttributes (L.lines j) with
    | error x => rw [hw] at ho; cases ho
    | ok r =>
      cases r with
      | none => rw [hw] at ho; cases ho; cases hm
      | some new =>
        rw [hw] at ho
        cases ho
        cases List.mem_singleton.mp hm
        exact ⟨⟨way, l, ks, hat, hk⟩, (C104_reports _ (hl.lines j) _ hw).mp rfl⟩
  · rintro ⟨⟨way, l, ks, hat, hk⟩, hd⟩
    cases hw : sortAttributes (L.lines i) with
    | error x =>
      obtain ⟨y, hy⟩ := hne.mpr ⟨way, i, l, ks, hat, hk, x, by simp only [Ev.node, hw]⟩
      cases h.symm.trans hy
    | ok r =>
      have := (C104_reports _ (hl.lines i) _ hw).mpr hd
      cases r with
      | none => cases this
      | some new => exact ⟨{ node := i, change := some (.lines new) }, (visit_mem (kind := py "ClassDef") rfl h _).mpr ⟨way, i, l, ks, hat, hk, [{ node := i, change := some (.lines new) }], by simp only [Ev.node, hw], List.mem_singleton.mpr rfl⟩, rfl⟩

theorem offends_frozen (h : (bundled L .explicitFrozenDataclass).alone meta_ t = .ok reps) (i : Nat) : (∃ rep ∈ reps, rep.node = i) ↔ Offends L t .explicitFrozenDataclass i := by
  constructor
  · rintro ⟨rep, hr, rfl⟩
    obtain ⟨way, j, l, ks, hat, hk, out, ho, hm⟩ := (visit_mem (kind := py "ClassDef") rfl h rep).mp hr
    cases ho
    obtain ⟨r, hr', hrep⟩ := List.mem_filterMap.mp hm
    simp only [Ev.node] at hr' hrep
    cases hd : (L.decorators j)[r.1]? with
    | none => rw [hd] at hrep; cases hrep
    | some d =>
      rw [hd] at hrep
      cases hrep
      obtain ⟨d', hd', hx⟩ := (C112_reports L.isDataclass ((L.decorators j).map (·.2)) r.1).mp ⟨r.2, hr'⟩
      rw [List.getElem?_map, hd] at hd'
      cases hd'
      exact ⟨j, d.2, ⟨way, l, ks, hat, hk⟩, List.mem_of_getElem? hd, hx⟩
  · rintro ⟨j, d, ⟨way, l, ks, hat, hk⟩, hd, hx⟩
    obtain ⟨n, hn⟩ := List.mem_iff_getElem?.mp hd
    obtain ⟨e, he⟩ := (C112_reports L.isDataclass ((L.decorators j).map (·.2)) n).mpr ⟨d, by rw [List.getElem?_map, hn]; rfl, hx⟩
    exact ⟨{ node := i, change := some (.decorator e) }, (visit_mem (kind := py "ClassDef") rfl h _).mpr ⟨way, j, l, ks, hat, hk, _, rfl,
      List.mem_filterMap.mpr ⟨(n, e), he, by simp only [Ev.node, hn]; rfl⟩⟩, rfl⟩

theorem offends_noqa (h : (bundled L .useLintFixmeComment).alone meta_ t = .ok reps) (i : Nat) : (∃ rep ∈ reps, rep.node = i) ↔ Offends L t .useLintFixmeComment i := by
  refine visit_node (kind := py "Comment") rfl h (fun i => IsNoqa (L.comment i)) ?_ i
  intro i l _ j
  unfold IsNoqa
  rw [← C113_reports]
  simp only [Ev.node]
  by_cases ha : noqaComment (L.comment i) = true
  · simp only [ha, if_true]
    constructor
    · rintro ⟨_, ho, rep, hm, rfl⟩; cases ho; cases List.mem_singleton.mp hm; exact ⟨rfl, trivial⟩
    · rintro ⟨rfl, -⟩; exact ⟨_, rfl, _, List.mem_singleton.mpr rfl, rfl⟩
  · simp only [ha]
    constructor
    · rintro ⟨_, ho, rep, hm, rfl⟩; cases ho; cases hm
    · rintro ⟨-, h⟩; cases h

include hl in
theorem offends_isinstance (h : (bundled L .collapseIsinstanceChecks).alone meta_ t = .ok reps) (i : Nat) : (∃ rep ∈ reps, rep.node = i) ↔ Offends L t .collapseIsinstanceChecks i := by
  have hshape : ∀ i, OfKind t (py "BooleanOperation") i → ((∃ es, Operands (L.expr i) es ∧ ∃ (a b : Nat) (x y target : Expr), a < b ∧ es[a]? = some x ∧ es[b]? = some y ∧
      Check (L.isinstance i) x target ∧ Check (L.isinstance i) y target) ↔ (collapseIsinstance (L.isinstance i) (L.expr i) = .warn ∨ ∃ e, collapseIsinstance (L.isinstance i) (L.expr i) = .fix e)) := by
    intro i hk
    obtain ⟨h1, h2⟩ := C82_shape (o := L.isinstance i) (hl.equal i) (L.expr i) _ (hl.bool i hk) (unwrap_operands (L.expr i))
    have hdup : (∃ (a b : Nat) (x y target : Expr), a < b ∧ (unwrapOr (L.expr i))[a]? = some x ∧ (unwrapOr (L.expr i))[b]? = some y ∧
        Check (L.isinstance i) x target ∧ Check (L.isinstance i) y target) ↔ ¬ (targetsOf (isinstanceCall (L.isinstance i)) (unwrapOr (L.expr i))).Nodup := by
      unfold targetsOf
      rw [not_nodup_filterMap]
      have hc : ∀ e v, ((isinstanceCall (L.isinstance i) e).map (·.1) = some v ↔ Check (L.isinstance i) e v) := by
        intro e v
        rw [check_iff]
        cases isinstanceCall (L.isinstance i) e with
        | none => simp
        | some p => obtain ⟨a, b⟩ := p; simp
      simp only [hc]
    constructor
    · rintro ⟨es, hes, hd⟩
      have : es = unwrapOr (L.expr i) := operands_unique hes (unwrap_operands (L.expr i))
      subst this
      obtain ⟨e, he, -⟩ := h2 (hdup.mp hd)
      exact .inr ⟨e, he⟩
    · intro hf
      refine ⟨_, unwrap_operands (L.expr i), hdup.mpr (fun hn => ?_)⟩
      rw [h1 hn] at hf
      rcases hf with h | ⟨a, h⟩ <;> cases h
  have hmem := (isinstanceRule_tracked L).mem_alone (init := ([] : List Nat)) meta_ t reps h
  have hno : ∀ s i l, seenOut L s (.leave i l) = .ok [] := by
    intro s i l
    have hm : (Ev.leave i l).method ≠ py "visit_BooleanOperation" := fun hm => by
      obtain ⟨_, _, h, _⟩ := (visit_method (py "BooleanOperation") _).mp hm
      cases h
    rw [seenOut, if_neg hm]
  constructor
  · rintro ⟨rep, hr, rfl⟩
    obtain ⟨way, i, l, ks, hat, ⟨out, ho, hm⟩ | ⟨out, ho, hm⟩⟩ := (hmem rep).mp hr
    · by_cases hk : l.typeName = py "BooleanOperation"
      · have hme : (Ev.visit i l).method = py "visit_BooleanOperation" := (visit_method (py "BooleanOperation") _).mpr ⟨i, l, rfl, hk⟩
        rw [seenOut, if_pos hme] at ho
        by_cases hs : i ∈ (wayEvents way).foldl (seenTrack L) []
        · have hs' : (Ev.visit i l).node ∈ (wayEvents way).foldl (seenTrack L) [] := hs
          rw [if_pos hs'] at ho
          cases ho
          cases hm
        · have hs' : ¬ (Ev.visit i l).node ∈ (wayEvents way).foldl (seenTrack L) [] := hs
          rw [if_neg hs'] at ho
          obtain ⟨h1, -, h2⟩ := mem_reported.mp ⟨out, ho, hm⟩
          have h1 : rep.node = i := h1
          rw [h1]
          have hof : OfKind t (py "BooleanOperation") i := ⟨way, l, ks, hat, hk⟩
          refine ⟨hof, fun hx => hs ((seen_iff hl hat).mpr hx), (hshape i hof).mpr ?_⟩
          rcases h2 with ⟨h2, -⟩ | ⟨a, h2, -⟩
          · exact .inl h2
          · exact .inr ⟨a, h2⟩
      · have hme : (Ev.visit i l).method ≠ py "visit_BooleanOperation" := fun hme => by
          obtain ⟨_, _, h, hk'⟩ := (visit_method (py "BooleanOperation") _).mp hme
          cases h
          exact hk hk'
        rw [seenOut, if_neg hme] at ho
        cases ho
        cases hm
    · rw [hno] at ho
      cases ho
      cases hm
  · rintro ⟨⟨way, l, ks, hat, hk⟩, hx, hd⟩
    have hof : OfKind t (py "BooleanOperation") i := ⟨way, l, ks, hat, hk⟩
    have hme : (Ev.visit i l).method = py "visit_BooleanOperation" := (visit_method (py "BooleanOperation") _).mpr ⟨i, l, rfl, hk⟩
    have hs' : ¬ (Ev.visit i l).node ∈ (wayEvents way).foldl (seenTrack L) [] := fun hs => hx ((seen_iff hl hat).mp hs)
    obtain ⟨out, ho, rep, hm, hn⟩ := (reported_node (x := .index) (change := Change.expr) (i := i) (message := none) (hshape i hof) i).mpr ⟨rfl, hd⟩
    exact ⟨rep, (hmem rep).mpr ⟨way, i, l, ks, hat, .inl ⟨out, by rw [seenOut, if_pos hme, if_neg hs']; exact ho, hm⟩⟩, hn⟩

end

end Cst
