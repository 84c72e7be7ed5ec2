import Verif.Props.BundledReports

/-!
# C121: what the bundled rules report about a module, all rules together
-/

namespace Cst
open Py Fixit Spec

theorem isIn_b (s : PStr) : isIn (py "b") s = true ↔ 'b' ∈ s := by
  rw [isIn_iff]
  constructor
  · rintro ⟨u, v, rfl⟩; simp
  · intro h
    obtain ⟨u, v, rfl⟩ := List.append_of_mem h
    exact ⟨u, v, rfl⟩

theorem simple_iff (L : Looks) (text : PStr) (right : Expr) : (matchSimpleString text && matchSimpleExpression L.code right) = true ↔ SimplePercent L text right := by
  unfold matchSimpleString SimplePercent
  rw [Bool.and_eq_true, Bool.and_eq_true, simpleFormat_iff, short_iff, Bool.not_eq_true', ← isIn_b, Bool.not_eq_true]
  exact ⟨fun ⟨⟨a, b, c⟩, d⟩ => ⟨a, b, c, d⟩, fun ⟨a, b, c, d⟩ => ⟨⟨a, b, c⟩, d⟩⟩

theorem percent_reports (L : Looks) (left right : Expr) :
    (useFstring L.code (fun t => (L.value t).toOption) Sum.isLeft left right = .warn ∨ ∃ a, useFstring L.code (fun t => (L.value t).toOption) Sum.isLeft left right = .fix a) ↔
      ∃ text, left.core = .str text ∧ ((∃ s, L.value text = .ok (.inl s)) ∨ SimplePercent L text right) := by
  unfold useFstring
  split
  · rename_i text hc
    have htext : (∃ text', left.core = .str text' ∧ ((∃ s, L.value text' = .ok (.inl s)) ∨ SimplePercent L text' right)) ↔ (∃ s, L.value text = .ok (.inl s)) ∨ SimplePercent L text right := by
      constructor
      · rintro ⟨t', h, h'⟩; rw [hc] at h; cases h; exact h'
      · intro h; exact ⟨text, hc, h⟩
    refine Iff.trans ?_ htext.symm
    by_cases hs : (matchSimpleString text && matchSimpleExpression L.code right) = true
    · rw [if_pos hs]
      refine ⟨fun _ => .inr ((simple_iff L text right).mp hs), fun _ => ?_⟩
      split
      · exact .inr ⟨_, rfl⟩
      · exact .inl rfl
    · rw [if_neg hs]
      have hs' : ¬ SimplePercent L text right := fun h => hs ((simple_iff L text right).mpr h)
      cases hv : L.value text with
      | error x => simp [Except.toOption, hs', hv]
      | ok y => cases y <;> simp [Except.toOption, hs', hv]
  · rename_i hn
    constructor
    · rintro (h | ⟨a, h⟩) <;> cases h
    · rintro ⟨text, h, -⟩; exact absurd h (hn text)

theorem percent_raises (L : Looks) (left right : Expr) :
    useFstring L.code (fun t => (L.value t).toOption) Sum.isLeft left right = .crash ↔ ∃ text x, left.core = .str text ∧ L.value text = .error x ∧ ¬ SimplePercent L text right := by
  unfold useFstring
  split
  · rename_i text hc
    have htext : (∃ text' x, left.core = .str text' ∧ L.value text' = .error x ∧ ¬ SimplePercent L text' right) ↔ (∃ x, L.value text = .error x) ∧ ¬ SimplePercent L text right := by
      constructor
      · rintro ⟨t', x, h, h', h''⟩; rw [hc] at h; cases h; exact ⟨⟨x, h'⟩, h''⟩
      · rintro ⟨⟨x, h'⟩, h''⟩; exact ⟨text, x, hc, h', h''⟩
    refine Iff.trans ?_ htext.symm
    by_cases hs : (matchSimpleString text && matchSimpleExpression L.code right) = true
    · rw [if_pos hs]
      refine ⟨fun h => ?_, fun h => absurd ((simple_iff L text right).mp hs) h.2⟩
      split at h <;> cases h
    · rw [if_neg hs]
      have hs' : ¬ SimplePercent L text right := fun h => hs ((simple_iff L text right).mpr h)
      cases hv : L.value text with
      | error x => simp [Except.toOption, hs', hv]
      | ok y => cases y <;> simp [Except.toOption, hv]
  · rename_i hn
    constructor
    · intro h; cases h
    · rintro ⟨text, x, h, -⟩; exact absurd h (hn text)

theorem kind_call {e : Ev} (h : e.method = py "visit_Call") : e.method ≠ py "visit_BinaryOperation" := by rw [h]; decide

/-- The three methods of `UseFstring`. -/
theorem fstring_at (L : Looks) (e : Ev) :
    fstringMethod L e =
    if e.method = py "visit_Call" then reported .value Change.fstring e.node none (useFstringCall (L.expr e.node))
    else if e.method = py "visit_BinaryOperation" then
      reported ((L.percent e.node).elim .value (fun p => evaluationError L p.1)) .fstring e.node none
        ((L.percent e.node).elim .silent (fun p => useFstring L.code (fun t => (L.value t).toOption) Sum.isLeft p.1 p.2))
    else .ok [] := by
  unfold fstringMethod
  split
  · rfl
  · split
    · split
      · rename_i h; rw [h]; rfl
      · rename_i h; rw [h]; rfl
    · rfl

theorem offends_useFstring {L : Looks} {t : Syn} (meta_ : Store) {reps : List Rep} (h : (bundled L .useFstring).alone meta_ t = .ok reps) (i : Nat) :
    (∃ rep ∈ reps, rep.node = i) ↔ Offends L t .useFstring i := by
  have hmem := each_mem _ _ meta_ t reps h
  have hcall : ∀ i, (∃ f v as text, (L.expr i).core = .call f as ∧ f.core = .attr v (py "format") ∧ v.core = .str text) ↔
      (useFstringCall (L.expr i) = .warn ∨ ∃ a, useFstringCall (L.expr i) = .fix a) := by
    intro i
    rw [← C110_format_iff]
    refine ⟨.inl, fun h => ?_⟩
    rcases h with h | ⟨a, h⟩
    · exact h
    · rcases C110_format (L.expr i) with h' | h'
      · exact h'
      · rw [h] at h'; cases h'
  have hper : ∀ i, (∃ left right text, L.percent i = some (left, right) ∧ left.core = .str text ∧ ((∃ s, L.value text = .ok (.inl s)) ∨ SimplePercent L text right)) ↔
      ((L.percent i).elim .silent (fun p => useFstring L.code (fun t => (L.value t).toOption) Sum.isLeft p.1 p.2) = .warn ∨
        ∃ a, (L.percent i).elim .silent (fun p => useFstring L.code (fun t => (L.value t).toOption) Sum.isLeft p.1 p.2) = .fix a) := by
    intro i
    cases hp : L.percent i with
    | none =>
      constructor
      · rintro ⟨_, _, _, h, _⟩; cases h
      · rintro (h | ⟨a, h⟩) <;> cases h
    | some p =>
      obtain ⟨l, r⟩ := p
      refine Iff.trans ?_ (percent_reports L l r).symm
      constructor
      · rintro ⟨l', r', text, h, h'⟩; cases h; exact ⟨text, h'⟩
      · rintro ⟨text, h⟩; exact ⟨l, r, text, rfl, h⟩
  constructor
  · rintro ⟨rep, hr, rfl⟩
    obtain ⟨way, i, l, ks, e, hat, he, -, out, ho, hm⟩ := (hmem rep).mp hr
    rw [fstring_at] at ho
    split at ho
    · rename_i hme
      obtain ⟨i', l', rfl, hk⟩ := (visit_method (py "Call") e).mp hme
      have he : i' = i ∧ l' = l := by rcases he with he | he <;> cases he; exact ⟨rfl, rfl⟩
      obtain ⟨rfl, rfl⟩ := he
      obtain ⟨h1, h2⟩ := (reported_node (hcall _) rep.node).mp ⟨out, ho, rep, hm, rfl⟩
      have h1 : rep.node = i' := h1
      rw [h1]
      exact .inl ⟨⟨way, l', ks, hat, hk⟩, h2⟩
    · split at ho
      · rename_i hme
        obtain ⟨i', l', rfl, hk⟩ := (visit_method (py "BinaryOperation") e).mp hme
        have he : i' = i ∧ l' = l := by rcases he with he | he <;> cases he; exact ⟨rfl, rfl⟩
        obtain ⟨rfl, rfl⟩ := he
        obtain ⟨h1, h2⟩ := (reported_node (hper _) rep.node).mp ⟨out, ho, rep, hm, rfl⟩
        have h1 : rep.node = i' := h1
        rw [h1]
        exact .inr ⟨⟨way, l', ks, hat, hk⟩, h2⟩
      · cases ho; cases hm
  · rintro (⟨⟨way, l, ks, hat, hk⟩, h2⟩ | ⟨⟨way, l, ks, hat, hk⟩, h2⟩)
    · have hme : (Ev.visit i l).method = py "visit_Call" := (visit_method (py "Call") _).mpr ⟨i, l, rfl, hk⟩
      obtain ⟨out, ho, rep, hm, hn⟩ := (reported_node (x := .value) (change := Change.fstring) (i := i) (message := none) (hcall i) i).mpr ⟨rfl, h2⟩
      refine ⟨rep, (hmem rep).mpr ⟨way, i, l, ks, .visit i l, hat, .inl rfl, by rw [hme]; decide, out, ?_, hm⟩, hn⟩
      rw [fstring_at, if_pos hme]
      exact ho
    · have hme : (Ev.visit i l).method = py "visit_BinaryOperation" := (visit_method (py "BinaryOperation") _).mpr ⟨i, l, rfl, hk⟩
      have hme' : ¬ (Ev.visit i l).method = py "visit_Call" := by rw [hme]; decide
      obtain ⟨out, ho, rep, hm, hn⟩ := (reported_node (x := (L.percent i).elim .value (fun p => evaluationError L p.1)) (change := Change.fstring) (i := i) (message := none) (hper i) i).mpr ⟨rfl, h2⟩
      refine ⟨rep, (hmem rep).mpr ⟨way, i, l, ks, .visit i l, hat, .inl rfl, by rw [hme]; decide, out, ?_, hm⟩, hn⟩
      rw [fstring_at, if_neg hme', if_pos hme]
      exact ho

/-- C121: a rule reports exactly the nodes that its description says, each at least once. -/
theorem C121_offends {L : Looks} {t : Syn} (hl : LooksRight L t) (meta_ : Store) (b : Bundled) {reps : List Rep} (h : (bundled L b).alone meta_ t = .ok reps) (i : Nat) :
    (∃ rep ∈ reps, rep.node = i) ↔ Offends L t b i := by
  cases b with
  | avoidOrInExcept => exact offends_avoidOr meta_ h i
  | collapseIsinstanceChecks => exact offends_isinstance hl meta_ h i
  | useClsInClassmethod => exact offends_cls meta_ h i
  | comparePrimitivesByEqual => exact offends_equal meta_ h i
  | compareSingletonPrimitivesByIs => exact offends_singleton hl meta_ h i
  | deprecatedABCImport => exact offends_abc hl meta_ h i
  | deprecatedUnittestAsserts => exact offends_deprecated meta_ h i
  | noAssertTrueForComparisons => exact offends_assertTrue meta_ h i
  | noInheritFromObject => exact offends_object meta_ h i
  | noNamedTuple => exact offends_namedTuple meta_ h i
  | noRedundantArgumentsSuper => exact offends_super meta_ h i
  | noRedundantFString => exact offends_redundantF meta_ h i
  | noRedundantLambda => exact offends_lambda meta_ h i
  | noRedundantListComprehension => exact offends_quantify meta_ h i
  | noStaticIfCondition => exact offends_static meta_ h i
  | noStringTypeAnnotation => exact offends_quoted hl meta_ h i
  | replaceUnionWithOptional => exact offends_union meta_ h i
  | rewriteToComprehension => exact offends_comprehension meta_ h i
  | rewriteToLiteral => exact offends_literal meta_ h i
  | sortedAttributes => exact offends_sorted hl meta_ h i
  | useAssertIn => exact offends_in meta_ h i
  | useAssertIsNotNone => exact offends_none meta_ h i
  | useAsyncSleepInAsyncDef => exact offends_sleep meta_ h i
  | useFstring => exact offends_useFstring meta_ h i
  | useTypesFromTyping => exact offends_typing meta_ h i
  | explicitFrozenDataclass => exact offends_frozen meta_ h i
  | useLintFixmeComment => exact offends_noqa meta_ h i

/-- C121: the bundled rules do not influence each other. -/
theorem C121_independent (L : Looks) (b : Bundled) : KeepsMetadata (bundled L b) := by
  have he : ∀ ms f, KeepsMetadata (VRule.each ms f) := fun ms f => keepsMetadata_of_tracked (each_tracked ms f)
  cases b with
  | collapseIsinstanceChecks => exact keepsMetadata_of_tracked (isinstanceRule_tracked L)
  | deprecatedABCImport => exact keepsMetadata_of_tracked (abcRule_tracked L.root)
  | noRedundantArgumentsSuper => exact keepsMetadata_of_tracked superRule_tracked
  | noStringTypeAnnotation => exact keepsMetadata_of_tracked (quotedRule_tracked L.qual L.decoded L.parse)
  | useAsyncSleepInAsyncDef => exact keepsMetadata_of_tracked (asyncSleepRule_tracked L.qual _)
  | useTypesFromTyping => exact keepsMetadata_of_tracked (typingRule_tracked L.qual L.scope)
  | _ => exact he _ _

theorem not_crash_cls (L : Looks) (i : Nat) : useCls L.isClassmethod (L.hasScope i) (L.around i) (L.fresh i) (L.method i) ≠ .crash := by
  unfold useCls
  intro hc
  repeat' (split at hc)
  all_goals (cases hc)

/-- C121: a rule raises on a module exactly in the cases that its description says. -/
theorem C121_raises {L : Looks} {t : Syn} (hl : LooksRight L t) (meta_ : Store) (b : Bundled) : (∃ x, (bundled L b).alone meta_ t = .error x) ↔ RaisesOn L t b := by
  have hok : ∀ {ms : List PStr} {f : Ev → Except Err (List Rep)}, (∀ e x, f e ≠ .error x) → ((∃ x, (VRule.each ms f).alone meta_ t = .error x) ↔ False) := by
    intro ms f hf
    rw [each_error]
    exact ⟨fun ⟨_, _, _, _, e, _, _, _, x, h⟩ => hf e x h, False.elim⟩
  have hexpr : ∀ {kind : PStr} {message : Expr → Option PStr} {f : Nat → Expr → Cst.Report Expr}, (∀ i, f i (L.expr i) ≠ .crash) →
      ((∃ x, (exprRule L (py "visit_" ++ kind) message f).alone meta_ t = .error x) ↔ False) := by
    intro kind message f hf
    rw [exprRule_error rfl]
    exact ⟨fun ⟨i, _, h⟩ => hf i h, False.elim⟩
  have hrep : ∀ {α : Type} {x y : Err} {change : α → Change} {i : Nat} {message : Option PStr} {r : Cst.Report α}, r ≠ .crash → reported x change i message r ≠ .error y :=
    fun hr h => hr (reported_error.mp ⟨_, h⟩)
  have hsil : ∀ {α β : Type} {r : Cst.Report α} {Q : β → Prop}, (∀ b, Q b → ∃ a, r = .fix a) → ((∀ b, ¬ Q b) → r = .silent) → r ≠ .crash := by
    intro α β r Q h1 h2 hc
    by_cases hq : ∃ b, Q b
    · obtain ⟨b, hb⟩ := hq
      obtain ⟨a, ha⟩ := h1 b hb
      rw [hc] at ha; cases ha
    · rw [h2 (fun b hb => hq ⟨b, hb⟩)] at hc; cases hc
  cases b with
  | avoidOrInExcept => exact hok (fun e x h => by cases h)
  | collapseIsinstanceChecks =>
    refine ⟨fun h => ?_, False.elim⟩
    obtain ⟨way, i, l, ks, hat, ⟨x, h⟩ | ⟨x, h⟩⟩ := ((isinstanceRule_tracked L).error_alone (init := ([] : List Nat)) meta_ t).mp h
    · unfold seenOut at h
      split at h
      · rename_i hme
        split at h
        · cases h
        · have hc := reported_error.mp ⟨_, h⟩
          obtain ⟨i', l', he, hk⟩ := (visit_method (py "BooleanOperation") _).mp hme
          cases he
          obtain ⟨h1, h2⟩ := C82_shape (o := L.isinstance i) (hl.equal i) (L.expr i) _ (hl.bool i ⟨way, l, ks, hat, hk⟩) (unwrap_operands (L.expr i))
          have hc : collapseIsinstance (L.isinstance i) (L.expr i) = .crash := hc
          by_cases hn : (targetsOf (isinstanceCall (L.isinstance i)) (unwrapOr (L.expr i))).Nodup
          · rw [h1 hn] at hc; cases hc
          · obtain ⟨e, he, -⟩ := h2 hn
            rw [he] at hc; cases hc
      · cases h
    · have hm : (Ev.leave i l).method ≠ py "visit_BooleanOperation" := fun hm => by
        obtain ⟨_, _, h, _⟩ := (visit_method (py "BooleanOperation") _).mp hm
        cases h
      rw [seenOut, if_neg hm] at h
      cases h
  | useClsInClassmethod => exact hok (fun e x => hrep (not_crash_cls L e.node))
  | comparePrimitivesByEqual =>
    refine hexpr (kind := py "Comparison") (fun i hc => ?_)
    obtain ⟨l, ts, l', ts', -, hf, -⟩ := (C83_primitives (L.expr i)).2 (by rw [hc]; intro h; cases h)
    rw [hc] at hf; cases hf
  | compareSingletonPrimitivesByIs =>
    refine hexpr (kind := py "Comparison") (fun i hc => ?_)
    obtain ⟨l, ts, l', ts', -, hf, -⟩ := (C83_singletons (L.names i) (hl.keywords i) (L.expr i)).2 (by rw [hc]; intro h; cases h)
    rw [hc] at hf; cases hf
  | deprecatedABCImport =>
    refine ⟨fun ⟨x, h⟩ => ?_, False.elim⟩
    obtain ⟨reps, hr, -⟩ := C101_reports meta_ t hl.module hl.nodup
    have : (abcRule L.root).alone meta_ t = .error x := h
    rw [hl.root, hr] at this
    cases this
  | deprecatedUnittestAsserts =>
    refine hexpr (kind := py "Call") (fun i => ?_)
    obtain ⟨h1, h2⟩ := C89_deprecated_shape (L.expr i)
    exact hsil (Q := fun p : Expr × List Arg => DeprecatedCall (L.expr i) p.1 p.2) (fun p hp => ⟨_, h1 p.1 p.2 hp⟩) (fun hn => h2 (fun f as hd => hn (f, as) hd))
  | noAssertTrueForComparisons =>
    refine hexpr (kind := py "Call") (fun i hc => ?_)
    unfold noAssertTrueForComparisons at hc
    repeat' (split at hc)
    all_goals (cases hc)
  | noInheritFromObject =>
    refine hok (fun e x h => ?_)
    repeat' (split at h)
    all_goals (cases h)
  | noNamedTuple =>
    refine hok (fun e x h => ?_)
    repeat' (split at h)
    all_goals (cases h)
  | noRedundantArgumentsSuper =>
    refine ⟨fun ⟨x, h⟩ => ?_, False.elim⟩
    obtain ⟨reps, hr, -⟩ := C97_super meta_ t
    have : superRule.alone meta_ t = .error x := h
    rw [hr] at this
    cases this
  | noRedundantFString =>
    refine hok (fun e x h => ?_)
    repeat' (split at h)
    all_goals (cases h)
  | noRedundantLambda =>
    refine hexpr (kind := py "Lambda") (fun i => ?_)
    obtain ⟨h1, h2⟩ := C85_shape (L.expr i)
    exact hsil (fun f hf => ⟨f, (h1 f).mpr hf⟩) h2
  | noRedundantListComprehension =>
    refine hexpr (kind := py "Call") (fun i hc => ?_)
    obtain ⟨h1, h2⟩ := C86_shape (L.expr i)
    rw [h2 (fun e' he => by rw [hc] at he; cases he)] at hc
    cases hc
  | noStaticIfCondition =>
    refine hok (fun e x => hrep (fun hc => ?_))
    obtain ⟨h1, h2, -⟩ := C81_static (L.test e.node)
    rw [h2.mpr (by rw [hc]; intro h; cases h)] at hc
    cases hc
  | noStringTypeAnnotation => exact C100_raises L.qual L.decoded L.parse meta_ t hl.exprs hl.nodup
  | replaceUnionWithOptional => exact hok (fun e x => hrep (C108_reports (L.optionalKnown e.node) (L.annotation e.node)).2.2)
  | rewriteToComprehension =>
    refine (exprRule_error (kind := py "Call") rfl meta_ t).trans ?_
    simp only [(C88_shape _).2.1]
    rfl
  | rewriteToLiteral =>
    refine hexpr (kind := py "Call") (fun i => ?_)
    obtain ⟨h1, h2⟩ := C87_shape (L.expr i)
    exact hsil (fun e he => ⟨e, (h1 e).mpr he⟩) h2
  | sortedAttributes =>
    refine (visit_error (kind := py "ClassDef") rfl _ meta_ t).trans ?_
    constructor
    · rintro ⟨way, i, l, ks, hat, hk, x, hx⟩
      refine ⟨i, ⟨way, l, ks, hat, hk⟩, (C104_raises _).mp ?_⟩
      simp only [Ev.node] at hx
      cases hs : sortAttributes (L.lines i) with
      | error y => exact ⟨y, rfl⟩
      | ok r => cases r <;> rw [hs] at hx <;> cases hx
    · rintro ⟨i, ⟨way, l, ks, hat, hk⟩, h⟩
      obtain ⟨x, hx⟩ := (C104_raises _).mpr h
      exact ⟨way, i, l, ks, hat, hk, x, by simp only [Ev.node, hx]⟩
  | useAssertIn =>
    refine hexpr (kind := py "Call") (fun i => ?_)
    obtain ⟨h1, h2⟩ := C89_in_shape (L.expr i)
    exact hsil (Q := fun p : Expr × Expr × Bool => MembershipTest (L.expr i) p.1 p.2.1 p.2.2) (fun p hp => ⟨_, h1 _ _ _ hp⟩) (fun hn => h2 (fun x y b hm => hn (x, y, b) hm))
  | useAssertIsNotNone =>
    refine hexpr (kind := py "Call") (fun i => ?_)
    obtain ⟨h1, h2⟩ := C89_none_shape (L.expr i)
    exact hsil (Q := fun p : Expr × Bool => NoneAssertion (L.expr i) p.1 p.2) (fun p hp => ⟨_, h1 _ _ hp⟩) (fun hn => h2 (fun x b hm => hn (x, b) hm))
  | useAsyncSleepInAsyncDef =>
    refine ⟨fun ⟨x, h⟩ => ?_, False.elim⟩
    obtain ⟨reps, hr, -⟩ := C98_sleep L.qual (py "Use asyncio.sleep in async function") meta_ t
    cases hr.symm.trans h
  | useFstring =>
    refine (each_error _ _ meta_ t).trans ?_
    constructor
    · rintro ⟨way, i, l, ks, e, hat, he, -, x, hx⟩
      rw [fstring_at] at hx
      split at hx
      · have hc := reported_error.mp ⟨_, hx⟩
        rcases C110_format (L.expr e.node) with h | h <;> rw [h] at hc <;> cases hc
      · split at hx
        · rename_i hme
          obtain ⟨i', l', rfl, hk⟩ := (visit_method (py "BinaryOperation") e).mp hme
          have he : i' = i ∧ l' = l := by rcases he with he | he <;> cases he; exact ⟨rfl, rfl⟩
          obtain ⟨rfl, rfl⟩ := he
          have hc := reported_error.mp ⟨_, hx⟩
          simp only [Ev.node] at hc
          cases hp : L.percent i' with
          | none => rw [hp] at hc; cases hc
          | some p =>
            rw [hp] at hc
            obtain ⟨text, y, h1, h2, h3⟩ := (percent_raises L p.1 p.2).mp hc
            exact ⟨i', p.1, p.2, text, y, ⟨way, l', ks, hat, hk⟩, hp, h1, h2, h3⟩
        · cases hx
    · rintro ⟨i, left, right, text, x, ⟨way, l, ks, hat, hk⟩, hp, h⟩
      have hme : (Ev.visit i l).method = py "visit_BinaryOperation" := (visit_method (py "BinaryOperation") _).mpr ⟨i, l, rfl, hk⟩
      have hme' : ¬ (Ev.visit i l).method = py "visit_Call" := by rw [hme]; decide
      obtain ⟨y, hy⟩ := (reported_error (x := evaluationError L left) (change := Change.fstring) (i := i) (message := none)).mpr ((percent_raises L left right).mpr ⟨text, x, h⟩)
      refine ⟨way, i, l, ks, .visit i l, hat, .inl rfl, by rw [hme]; decide, y, ?_⟩
      rw [fstring_at, if_neg hme', if_pos hme]
      simp only [Ev.node]
      rw [hp]
      exact hy
  | useTypesFromTyping => exact C99_raises L.qual L.scope meta_ t
  | explicitFrozenDataclass => exact hok (fun e x h => by cases h)
  | useLintFixmeComment => exact hok (fun e x h => by cases h)

theorem named_calledName {e f : Expr} {args : List Arg} {s : PStr} (h : e.core = .call f args) (hf : Named f s) : calledName e = s := by
  unfold calledName
  rw [h]
  simp only
  rw [hf]

theorem each_message {ms : List PStr} {f : Ev → Except Err (List Rep)} {st : Store} {t : Syn} {reps : List Rep} (h : (VRule.each ms f).alone st t = .ok reps)
    (hf : ∀ e out, f e = .ok out → ∀ rep ∈ out, rep.message = none) (rep : Rep) (hr : rep ∈ reps) : rep.message = none := by
  obtain ⟨_, _, _, _, e, _, _, _, out, ho, hm⟩ := (each_mem ms f st t reps h rep).mp hr
  exact hf e out ho rep hm

theorem reported_message {α : Type} {x : Err} {change : α → Change} {i : Nat} {message : Option PStr} {r : Cst.Report α} (out : List Rep) (h : reported x change i message r = .ok out) :
    ∀ rep ∈ out, rep.message = message := fun _ hm => (mem_reported.mp ⟨out, h, hm⟩).2.1

/-- C121: a report carries the message that its description says, and none where the `MESSAGE` of the rule is meant, which is then not empty. -/
theorem C121_message {L : Looks} {t : Syn} (hl : LooksRight L t) (meta_ : Store) (b : Bundled) {reps : List Rep} (h : (bundled L b).alone meta_ t = .ok reps) (rep : Rep) (hr : rep ∈ reps) :
    (∃ s, rep.message = some s ∧ s ≠ [] ∧ Explains L t rep.node b s) ∨ (rep.message = none ∧ (∀ s, ¬ Explains L t rep.node b s) ∧ ∃ s, s ≠ [] ∧ b.message = some s) := by
  have hoff := (C121_offends hl meta_ b h rep.node).mp ⟨rep, hr, rfl⟩
  cases b with
  | avoidOrInExcept =>
    refine .inr ⟨each_message h (fun e out ho rep hm => ?_) rep hr, fun s hs => by (cases hs), _, by simp, rfl⟩
    simp only [Except.ok.injEq] at ho
    subst ho
    split at hm
    · cases List.mem_singleton.mp hm; rfl
    · cases hm
  | collapseIsinstanceChecks =>
    refine .inr ⟨?_, fun s hs => by (cases hs), _, by simp, rfl⟩
    have hout : ∀ s e out, seenOut L s e = .ok out → ∀ rep ∈ out, rep.message = none := by
      intro s e out ho
      unfold seenOut at ho
      split at ho
      · split at ho
        · cases ho; intro _ h; cases h
        · exact reported_message out ho
      · cases ho; intro _ h; cases h
    obtain ⟨way, i, l, ks, hat, ⟨out, ho, hm⟩ | ⟨out, ho, hm⟩⟩ := ((isinstanceRule_tracked L).mem_alone (init := ([] : List Nat)) meta_ t reps h rep).mp hr
    · exact hout _ _ out ho rep hm
    · exact hout _ _ out ho rep hm
  | useClsInClassmethod => exact .inr ⟨each_message h (fun e out ho => reported_message out ho) rep hr, fun s hs => by (cases hs), _, by simp, rfl⟩
  | comparePrimitivesByEqual => exact .inr ⟨((exprRule_mem (kind := py "Comparison") rfl h rep).mp hr).2.1, fun s hs => by (cases hs), _, by simp, rfl⟩
  | compareSingletonPrimitivesByIs => exact .inr ⟨((exprRule_mem (kind := py "Comparison") rfl h rep).mp hr).2.1, fun s hs => by (cases hs), _, by simp, rfl⟩
  | deprecatedABCImport =>
    refine .inr ⟨?_, fun s hs => by (cases hs), _, by simp, rfl⟩
    obtain ⟨reps', hr', hiff⟩ := C101_reports meta_ t hl.module hl.nodup
    have h' : (abcRule L.root).alone meta_ t = .ok reps := h
    rw [hl.root, hr'] at h'
    cases h'
    cases (hiff rep).mp hr <;> rfl
  | deprecatedUnittestAsserts =>
    left
    obtain ⟨-, f', args, hd⟩ := hoff
    cases hd with
    | @mk f v _ old new hc hf hv ha =>
      have hm : assertMessage (L.expr rep.node) = old ++ py " is deprecated, use " ++ new ++ py " instead" := by
        unfold assertMessage
        rw [hc]
        simp only
        rw [hf]
        simp only
        cases ha <;> rfl
      refine ⟨_, ((exprRule_mem (kind := py "Call") rfl h rep).mp hr).2.1, ?_, ?_⟩
      · rw [hm]; simp
      · rw [hm]; exact .deprecated f v args old new hc hf ha
  | noAssertTrueForComparisons => exact .inr ⟨((exprRule_mem (kind := py "Call") rfl h rep).mp hr).2.1, fun s hs => by (cases hs), _, by simp, rfl⟩
  | noInheritFromObject =>
    refine .inr ⟨each_message h (fun e out ho rep hm => ?_) rep hr, fun s hs => by (cases hs), _, by simp, rfl⟩
    repeat' (split at ho)
    all_goals (cases ho; simp at hm)
    rw [hm]
  | noNamedTuple =>
    refine .inr ⟨each_message h (fun e out ho rep hm => ?_) rep hr, fun s hs => by (cases hs), _, by simp, rfl⟩
    repeat' (split at ho)
    all_goals (cases ho; simp at hm)
    rw [hm]
  | noRedundantArgumentsSuper =>
    refine .inr ⟨?_, fun s hs => by (cases hs), _, by simp, rfl⟩
    obtain ⟨reps', hr', hiff⟩ := C97_super meta_ t
    have h' : superRule.alone meta_ t = .ok reps := h
    rw [hr'] at h'
    cases h'
    obtain ⟨_, _, _, _, _, _, he, _⟩ := (hiff rep).mp hr
    rw [he]
  | noRedundantFString =>
    refine .inr ⟨each_message h (fun e out ho rep hm => ?_) rep hr, fun s hs => by (cases hs), _, by simp, rfl⟩
    repeat' (split at ho)
    all_goals (cases ho; simp at hm)
    rw [hm]
  | noRedundantLambda =>
    left
    obtain ⟨-, f, ps, body, args, hc, -⟩ := hoff
    have hm : lambdaMessage L (L.expr rep.node) =
        py "The lambda that is wrapping " ++ (L.fullName body).getD (py "function") ++ py " is redundant. It can unwrapped safely and used purely." := by
      unfold lambdaMessage
      rw [hc]
    refine ⟨_, ((exprRule_mem (kind := py "Lambda") rfl h rep).mp hr).2.1, ?_, ?_⟩
    · rw [hm]; simp
    · rw [hm]; exact .lambda ps body hc
  | noRedundantListComprehension =>
    left
    obtain ⟨-, f, st, kw, v, elt, cs, hc, hv, hf⟩ := hoff
    obtain ⟨s, hs⟩ : ∃ s, Named f s := by rcases hf with hf | hf <;> exact ⟨_, hf⟩
    refine ⟨_, ((exprRule_mem (kind := py "Call") rfl h rep).mp hr).2.1, ?_, ?_⟩
    · simp [shortCircuitMessage]
    · rw [shortCircuitMessage, named_calledName hc hs]
      exact .quantifier f _ s hc hs
  | noStaticIfCondition => exact .inr ⟨each_message h (fun e out ho => reported_message out ho) rep hr, fun s hs => by (cases hs), _, by simp, rfl⟩
  | noStringTypeAnnotation =>
    refine .inr ⟨?_, fun s hs => by (cases hs), _, by simp, rfl⟩
    obtain ⟨_, _, _, _, _, _, _, _, _, _, he⟩ := (C100_strings L.qual L.decoded L.parse meta_ t reps hl.exprs hl.nodup h rep).mp hr
    rw [he]
  | replaceUnionWithOptional => exact .inr ⟨each_message h (fun e out ho => reported_message out ho) rep hr, fun s hs => by (cases hs), _, by simp, rfl⟩
  | rewriteToComprehension =>
    left
    obtain ⟨-, e, he⟩ := hoff
    have : ∃ f st kw v elt cs s, (L.expr rep.node).core = .call f [.mk st kw v] ∧ Named f s ∧ Comprehension v elt cs := by
      cases he with
      | list a b c => exact ⟨_, _, _, _, _, _, _, a, b, c⟩
      | set a b c => exact ⟨_, _, _, _, _, _, _, a, b, c⟩
      | dict a b c => exact ⟨_, _, _, _, _, _, _, a, b, c⟩
    obtain ⟨f, st, kw, v, elt, cs, s, hc, hs, hv⟩ := this
    refine ⟨_, ((exprRule_mem (kind := py "Call") rfl h rep).mp hr).2.1, ?_, ?_⟩
    · unfold comprehensionMessage
      rw [hc]
      simp only
      split <;> simp
    · unfold comprehensionMessage
      rw [named_calledName hc hs, hc]
      simp only
      rcases hv with hv | hv <;> rw [hv]
      · exact .generator f v elt cs st kw s hc hs hv
      · exact .list f v elt cs st kw s hc hs hv
  | rewriteToLiteral =>
    left
    obtain ⟨-, e, he⟩ := hoff
    have : (∃ f s, (L.expr rep.node).core = .call f [] ∧ Named f s) ∨ ∃ f a s, (L.expr rep.node).core = .call f [a] ∧ Named f s := by
      cases he with
      | tuple0 a b => exact .inl ⟨_, _, a, b⟩
      | list0 a b => exact .inl ⟨_, _, a, b⟩
      | dict0 a b => exact .inl ⟨_, _, a, b⟩
      | tuple a b => exact .inr ⟨_, _, _, a, b⟩
      | list a b => exact .inr ⟨_, _, _, a, b⟩
      | set a b => exact .inr ⟨_, _, _, a, b⟩
      | emptySet a b => exact .inr ⟨_, _, _, a, b⟩
      | dict a b => exact .inr ⟨_, _, _, a, b⟩
    refine ⟨_, ((exprRule_mem (kind := py "Call") rfl h rep).mp hr).2.1, ?_, ?_⟩
    · unfold literalMessage
      split <;> simp
    · unfold literalMessage
      rcases this with ⟨f, s, hc, hs⟩ | ⟨f, a, s, hc, hs⟩
      · rw [named_calledName hc hs, hc]
        exact .empty f s hc hs
      · rw [named_calledName hc hs, hc]
        exact .literal f a s hc hs
  | sortedAttributes =>
    refine .inr ⟨each_message h (fun e out ho rep hm => ?_) rep hr, fun s hs => by (cases hs), _, by simp, rfl⟩
    repeat' (split at ho)
    all_goals (cases ho; try simp at hm)
    rw [hm]
  | useAssertIn => exact .inr ⟨((exprRule_mem (kind := py "Call") rfl h rep).mp hr).2.1, fun s hs => by (cases hs), _, by simp, rfl⟩
  | useAssertIsNotNone => exact .inr ⟨((exprRule_mem (kind := py "Call") rfl h rep).mp hr).2.1, fun s hs => by (cases hs), _, by simp, rfl⟩
  | useAsyncSleepInAsyncDef =>
    obtain ⟨reps', hr', hiff⟩ := C98_sleep L.qual (py "Use asyncio.sleep in async function") meta_ t
    cases hr'.symm.trans h
    obtain ⟨_, _, _, _, _, _, he, _⟩ := (hiff rep).mp hr
    exact .inl ⟨_, by rw [he], by simp, .sleep⟩
  | useFstring =>
    refine .inr ⟨each_message h (fun e out ho => ?_) rep hr, fun s hs => by (cases hs), _, by simp, rfl⟩
    rw [fstring_at] at ho
    split at ho
    · exact reported_message out ho
    · split at ho
      · exact reported_message out ho
      · cases ho; intro _ h; cases h
  | useTypesFromTyping =>
    obtain ⟨way, i, s, ks, T, known, hat, -, hb, -, hn, hm, -⟩ := (C99_types L.qual L.scope meta_ t reps h rep).mp hr
    exact .inl ⟨_, hm, by simp, .typing way ks s T (hn ▸ hat) hb.known⟩
  | explicitFrozenDataclass =>
    refine .inr ⟨each_message h (fun e out ho rep hm => ?_) rep hr, fun s hs => by (cases hs), _, by simp, rfl⟩
    cases ho
    obtain ⟨r, -, hrep⟩ := List.mem_filterMap.mp hm
    obtain ⟨d, -, he⟩ := Option.map_eq_some_iff.mp hrep
    rw [← he]
  | useLintFixmeComment =>
    refine .inr ⟨each_message h (fun e out ho rep hm => ?_) rep hr, fun s hs => by (cases hs), _, by simp, rfl⟩
    simp only [Except.ok.injEq] at ho
    subst ho
    split at hm
    · cases List.mem_singleton.mp hm; rfl
    · cases hm

end Cst
