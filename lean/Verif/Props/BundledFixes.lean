import Verif.Props.BundledMain

/-!
# C121: the fixes that the reports of the bundled rules carry
-/

namespace Cst
open Py Fixit Spec

theorem isinstanceCall_iff (o : IsinstanceOracle) (e target type : Expr) : isinstanceCall o e = some (target, type) ↔ CheckOf o e target type := by
  unfold isinstanceCall CheckOf
  cases hc : e.core with
  | call f as =>
    match as, hc with
    | [a, b], hc =>
      simp only
      cases hb : b.value.core with
      | tuple es =>
        simp only
        refine ⟨fun h => by (cases h), ?_⟩
        rintro ⟨f', a', b', h, hn, -⟩
        cases h
        exact absurd hb (hn es)
      | _ =>
        simp only
        constructor
        · intro h
          split at h
          · rename_i hbu
            cases h
            exact ⟨f, a, b, rfl, fun es h => by (rw [hb] at h; cases h), hbu, rfl, rfl⟩
          · cases h
        · rintro ⟨f', a', b', h, -, hbu, rfl, rfl⟩
          cases h
          rw [if_pos hbu]
    | [], hc => simp
    | [a], hc => simp
    | a :: b :: c :: d, hc => simp
  | _ => simp

theorem build_eq (target : Expr) (types : List Expr) : build target types = oneCheck target types := by
  unfold build newIsinstance oneCheck
  match types with
  | [] => rfl
  | [t] => rfl
  | a :: b :: c => rfl

theorem leave_not_boolean (i : Nat) (l : Label) : (Ev.leave i l).method ≠ py "visit_BooleanOperation" := fun hm => by
  obtain ⟨_, _, h, _⟩ := (visit_method (py "BooleanOperation") _).mp hm
  cases h

theorem fixes_isinstance {L : Looks} {t : Syn} (hl : LooksRight L t) (meta_ : Store) {reps : List Rep} (h : (bundled L .collapseIsinstanceChecks).alone meta_ t = .ok reps) (rep : Rep) (hr : rep ∈ reps) :
    Fixes L t .collapseIsinstanceChecks rep.node rep.change := by
  obtain ⟨way, i, l, ks, hat, ⟨out, ho, hm⟩ | ⟨out, ho, hm⟩⟩ := ((isinstanceRule_tracked L).mem_alone (init := ([] : List Nat)) meta_ t reps h rep).mp hr
  · unfold seenOut at ho
    split at ho
    · rename_i hme
      split at ho
      · cases ho; cases hm
      · obtain ⟨hn, -, hc⟩ := mem_reported.mp ⟨out, ho, hm⟩
        have hn : rep.node = i := hn
        obtain ⟨i', l', he, hk⟩ := (visit_method (py "BooleanOperation") _).mp hme
        cases he
        obtain ⟨h1, h2⟩ := C82_shape (o := L.isinstance i) (hl.equal i) (L.expr i) _ (hl.bool i ⟨way, l, ks, hat, hk⟩) (unwrap_operands (L.expr i))
        have hc : (collapseIsinstance (L.isinstance i) (L.expr i) = .warn ∧ rep.change = none) ∨ ∃ a, collapseIsinstance (L.isinstance i) (L.expr i) = .fix a ∧ rep.change = some (.expr a) := hc
        rw [hn]
        by_cases hnd : (targetsOf (isinstanceCall (L.isinstance i)) (unwrapOr (L.expr i))).Nodup
        · rw [h1 hnd] at hc
          rcases hc with ⟨h, -⟩ | ⟨a, h, -⟩ <;> cases h
        · obtain ⟨e', he, hop, -⟩ := h2 hnd
          rw [he] at hc
          rcases hc with ⟨h, -⟩ | ⟨a, h, hch⟩
          · cases h
          · cases h
            have hb : (build : Expr → List Expr → Expr) = oneCheck := funext fun a => funext fun b => build_eq a b
            rw [hb] at hop
            exact ⟨_, e', isinstanceCall (L.isinstance i), unwrap_operands (L.expr i), isinstanceCall_iff _, hch, hop⟩
    · cases ho; cases hm
  · rw [seenOut, if_neg (leave_not_boolean i l)] at ho
    cases ho; cases hm

theorem fixes_cls {L : Looks} {t : Syn} (meta_ : Store) {reps : List Rep} (h : (bundled L .useClsInClassmethod).alone meta_ t = .ok reps) (rep : Rep) (hr : rep ∈ reps) :
    Fixes L t .useClsInClassmethod rep.node rep.change := by
  obtain ⟨way, i, l, ks, hat, hk, out, ho, hm⟩ := (visit_mem (kind := py "FunctionDef") rfl h rep).mp hr
  obtain ⟨hn, -, hc⟩ := mem_reported.mp ⟨out, ho, hm⟩
  have hn : rep.node = i := hn
  rw [hn]
  simp only [Ev.node] at hc
  unfold useCls at hc
  split at hc
  · cases hp : (L.method i).params with
    | nil =>
      rw [hp] at hc
      rcases hc with ⟨h, -⟩ | ⟨a, h, hch⟩
      · cases h
      · cases h; exact .inl ⟨hp, hch⟩
    | cons p rest =>
      rw [hp] at hc
      simp only at hc
      refine .inr ⟨p, rest, hp, ?_⟩
      split at hc
      · rcases hc with ⟨h, -⟩ | ⟨a, h, -⟩ <;> cases h
      · by_cases hsc : L.hasScope i = true
        · rw [if_neg (by simp [hsc])] at hc
          by_cases hres : resolve (frameOf (L.method i).sid .func (L.method i).items :: L.around i) (py "cls") = none
          · rw [if_pos ⟨hsc, hres⟩]
            have hres' : ¬ (resolve (frameOf (L.method i).sid .func (L.method i).items :: L.around i) clsName).isSome = true := by
              unfold clsName; rw [hres]; simp
            rw [if_neg hres'] at hc
            rcases hc with ⟨h, -⟩ | ⟨a, h, hch⟩
            · cases h
            · cases h; exact hch
          · rw [if_neg (fun h => hres h.2)]
            have hres' : (resolve (frameOf (L.method i).sid .func (L.method i).items :: L.around i) clsName).isSome = true := by
              unfold clsName; exact Option.isSome_iff_ne_none.mpr hres
            rw [if_pos hres'] at hc
            rcases hc with ⟨-, hch⟩ | ⟨a, h, -⟩
            · exact hch
            · cases h
        · rw [if_neg (fun h => hsc h.1)]
          rw [if_pos (by simp [hsc])] at hc
          rcases hc with ⟨-, hch⟩ | ⟨a, h, -⟩
          · exact hch
          · cases h
  · rcases hc with ⟨h, -⟩ | ⟨a, h, -⟩ <;> cases h

theorem fixes_frozen {L : Looks} {t : Syn} (meta_ : Store) {reps : List Rep} (h : (bundled L .explicitFrozenDataclass).alone meta_ t = .ok reps) (rep : Rep) (hr : rep ∈ reps) :
    Fixes L t .explicitFrozenDataclass rep.node rep.change := by
  obtain ⟨way, j, l, ks, hat, hk, out, ho, hm⟩ := (visit_mem (kind := py "ClassDef") rfl h rep).mp hr
  cases ho
  obtain ⟨r, hr', hrep⟩ := List.mem_filterMap.mp hm
  simp only [Ev.node] at hr' hrep
  cases hd : (L.decorators j)[r.1]? with
  | none => rw [hd] at hrep; cases hrep
  | some d =>
    rw [hd] at hrep
    cases hrep
    unfold frozenReports at hr'
    obtain ⟨⟨d', n⟩, hz, hf⟩ := List.mem_filterMap.mp hr'
    have hz := List.mem_zipIdx_iff_getElem?.mp hz
    cases hfd : frozenDecorator L.isDataclass d' with
    | none => rw [hfd] at hf; cases hf
    | some e =>
      rw [hfd] at hf
      cases hf
      simp only at hz hd ⊢
      rw [List.getElem?_map, hd] at hz
      cases hz
      have hns := ((frozenDecorator_none L.isDataclass d.2).mp (by rw [hfd]; rfl)).2
      refine ⟨j, d.2, (decoratorCall d.2).1, (decoratorCall d.2).2, List.mem_of_getElem? hd, hns, ?_, ?_⟩
      · unfold decoratorCall
        cases hc : d.2.core with
        | call f as => exact .inl rfl
        | _ => exact .inr ⟨fun g bs h => by (cases h), rfl, rfl⟩
      · unfold frozenDecorator at hfd
        repeat' (split at hfd)
        all_goals (first | (cases hfd; rfl) | (cases hfd))

theorem fixes_useFstring {L : Looks} {t : Syn} (meta_ : Store) {reps : List Rep} (h : (bundled L .useFstring).alone meta_ t = .ok reps) (rep : Rep) (hr : rep ∈ reps) :
    Fixes L t .useFstring rep.node rep.change := by
  obtain ⟨way, i, l, ks, e, hat, he, -, out, ho, hm⟩ := (each_mem _ _ meta_ t reps h rep).mp hr
  rw [fstring_at] at ho
  split at ho
  · rename_i hme
    obtain ⟨i', l', rfl, hk⟩ := (visit_method (py "Call") e).mp hme
    have he : i' = i ∧ l' = l := by rcases he with he | he <;> cases he; exact ⟨rfl, rfl⟩
    obtain ⟨rfl, rfl⟩ := he
    obtain ⟨hn, -, hc⟩ := mem_reported.mp ⟨out, ho, hm⟩
    have hn : rep.node = i' := hn
    refine .inl ⟨by rw [hn]; exact ⟨way, l', ks, hat, hk⟩, ?_⟩
    rcases hc with ⟨-, hc⟩ | ⟨a, ha, -⟩
    · exact hc
    · rcases C110_format (L.expr (Ev.visit i' l').node) with h | h <;> rw [h] at ha <;> cases ha
  · split at ho
    · rename_i hme
      obtain ⟨i', l', rfl, hk⟩ := (visit_method (py "BinaryOperation") e).mp hme
      have he : i' = i ∧ l' = l := by rcases he with he | he <;> cases he; exact ⟨rfl, rfl⟩
      obtain ⟨rfl, rfl⟩ := he
      obtain ⟨hn, -, hc⟩ := mem_reported.mp ⟨out, ho, hm⟩
      have hn : rep.node = i' := hn
      simp only [Ev.node] at hc
      cases hp : L.percent i' with
      | none =>
        rw [hp] at hc
        rcases hc with ⟨h, -⟩ | ⟨a, h, -⟩ <;> cases h
      | some p =>
        obtain ⟨left, right⟩ := p
        rw [hp] at hc
        refine .inr ⟨left, right, by rw [hn]; exact ⟨way, l', ks, hat, hk⟩, by rw [hn]; exact hp, ?_⟩
        rcases hc with ⟨hw, hch⟩ | ⟨a, ha, hch⟩
        · refine .inl ⟨hch, fun node hf => ?_⟩
          have hw : useFstring L.code (fun t => (L.value t).toOption) Sum.isLeft left right = .warn := hw
          rw [hw] at hf
          cases hf
        · exact .inr ⟨a, hch, ha⟩
    · cases ho; cases hm

/-- C121: a report carries the fix that its description says, and none where the rule offers none. -/
theorem C121_fix {L : Looks} {t : Syn} (hl : LooksRight L t) (meta_ : Store) (b : Bundled) {reps : List Rep} (h : (bundled L b).alone meta_ t = .ok reps) (rep : Rep) (hr : rep ∈ reps) :
    Fixes L t b rep.node rep.change := by
  have hoff := (C121_offends hl meta_ b h rep.node).mp ⟨rep, hr, rfl⟩
  cases b with
  | avoidOrInExcept =>
    obtain ⟨_, _, _, _, e, _, _, _, out, ho, hm⟩ := (each_mem _ _ _ _ _ h rep).mp hr
    cases ho
    split at hm
    · cases List.mem_singleton.mp hm; rfl
    · cases hm
  | collapseIsinstanceChecks => exact fixes_isinstance hl meta_ h rep hr
  | useClsInClassmethod => exact fixes_cls meta_ h rep hr
  | comparePrimitivesByEqual =>
    obtain ⟨-, -, hc⟩ := (exprRule_mem (kind := py "Comparison") rfl h rep).mp hr
    have hns : comparePrimitivesByEqual (L.expr rep.node) ≠ .silent := by
      intro hs; rw [hs] at hc; rcases hc with ⟨h, -⟩ | ⟨a, h, -⟩ <;> cases h
    obtain ⟨l, ts, l', ts', hcore, hf, rfl, hl⟩ := (C83_primitives (L.expr rep.node)).2 hns
    rw [hf] at hc
    rcases hc with ⟨h, -⟩ | ⟨a, h, hch⟩
    · cases h
    · cases h; exact ⟨_, ts, ts', hcore, hch, hl⟩
  | compareSingletonPrimitivesByIs =>
    obtain ⟨-, -, hc⟩ := (exprRule_mem (kind := py "Comparison") rfl h rep).mp hr
    have hns : compareSingletonByIs (L.names rep.node) (L.expr rep.node) ≠ .silent := by
      intro hs; rw [hs] at hc; rcases hc with ⟨h, -⟩ | ⟨a, h, -⟩ <;> cases h
    obtain ⟨l, ts, l', ts', hcore, hf, rfl, hl⟩ := (C83_singletons (L.names rep.node) (hl.keywords rep.node) (L.expr rep.node)).2 hns
    rw [hf] at hc
    rcases hc with ⟨h, -⟩ | ⟨a, h, hch⟩
    · cases h
    · cases h; exact ⟨_, ts, ts', hcore, hch, hl⟩
  | deprecatedABCImport =>
    obtain ⟨reps', hr', hiff⟩ := C101_reports meta_ t hl.module hl.nodup
    have h' : (abcRule L.root).alone meta_ t = .ok reps := h
    rw [hl.root, hr'] at h'
    cases h'
    have ha := (hiff rep).mp hr
    have hm : rep.message = none := by cases ha <;> rfl
    obtain ⟨n, m, c⟩ := rep
    cases hm
    exact ha
  | deprecatedUnittestAsserts =>
    obtain ⟨-, -, hc⟩ := (exprRule_mem (kind := py "Call") rfl h rep).mp hr
    obtain ⟨-, f, args, hd⟩ := hoff
    rw [(C89_deprecated_shape (L.expr rep.node)).1 f args hd] at hc
    rcases hc with ⟨h, -⟩ | ⟨a, h, hch⟩
    · cases h
    · cases h; exact ⟨f, args, hd, hch⟩
  | noAssertTrueForComparisons =>
    obtain ⟨-, -, hc⟩ := (exprRule_mem (kind := py "Call") rfl h rep).mp hr
    obtain ⟨-, f, a, b, hcall, ⟨v, hv, hs⟩, hb⟩ := hoff
    have hm : ∃ m args, MeantAs a b m args := by
      by_cases hsing : SingletonLiteral b.value
      · cases hsing with
        | none h => exact ⟨_, _, .none h⟩
        | true h => exact ⟨_, _, .true h⟩
        | false h => exact ⟨_, _, .false h⟩
      · exact ⟨_, _, .value hb hsing⟩
    obtain ⟨m, args, hm⟩ := hm
    rw [(C89_true_shape (L.expr rep.node)).1 f v a b m args hcall hv hs hm] at hc
    rcases hc with ⟨h, -⟩ | ⟨a', h, hch⟩
    · cases h
    · cases h; exact ⟨f, v, a, b, m, args, hcall, hv, hs, hm, hch⟩
  | noInheritFromObject =>
    obtain ⟨way, j, l, ks, hat, hk, out, ho, hm⟩ := (visit_mem (kind := py "ClassDef") rfl h rep).mp hr
    rcases classDef_of_typeName hk with ⟨c, n, bs, rfl⟩ | rfl
    · simp only [Ev.label] at ho
      cases hw : withoutObject (bs.map (·.2)) with
      | none => rw [hw] at ho; cases ho; cases hm
      | some new =>
        rw [hw] at ho
        cases ho
        cases List.mem_singleton.mp hm
        obtain ⟨keep, hkeep, rfl⟩ := (C105_reports (bs.map (·.2))).2 new hw
        exact ⟨way, c, n, bs, ks, keep, hat, hkeep, rfl⟩
    · cases ho; cases hm
  | noNamedTuple =>
    obtain ⟨way, j, l, ks, hat, hk, out, ho, hm⟩ := (leave_mem (kind := py "ClassDef") rfl h rep).mp hr
    rcases classDef_of_typeName hk with ⟨c, n, bs, rfl⟩ | rfl
    · simp only [Ev.label] at ho
      cases hw : dropNamedTuple L.isNamedTuple bs ((L.decorators (Ev.leave j (.classDef c n bs)).node).map (·.2)) with
      | none => rw [hw] at ho; cases ho; cases hm
      | some new =>
        obtain ⟨new, ds⟩ := new
        rw [hw] at ho
        cases ho
        cases List.mem_singleton.mp hm
        obtain ⟨rfl, -⟩ := (C106_fix L.isNamedTuple bs _).2 new ds hw
        have hds := C106_import _ _ _ _ _ hw
        subst hds
        exact ⟨way, c, n, bs, ks, hat, rfl⟩
    · cases ho; cases hm
  | noRedundantArgumentsSuper =>
    obtain ⟨reps', hr', hiff⟩ := C97_super meta_ t
    have h' : superRule.alone meta_ t = .ok reps := h
    rw [hr'] at h'
    cases h'
    obtain ⟨_, _, _, _, _, _, he, _⟩ := (hiff rep).mp hr
    rw [he]
    rfl
  | noRedundantFString =>
    obtain ⟨way, j, l, ks, hat, hk, out, ho, hm⟩ := (visit_mem (kind := py "FormattedString") rfl h rep).mp hr
    simp only [Ev.node] at ho
    cases hw : noRedundantFString (L.fstring j) with
    | none => rw [hw] at ho; cases ho; cases hm
    | some new =>
      rw [hw] at ho
      cases ho
      cases List.mem_singleton.mp hm
      refine ⟨new, rfl, fun names p q s v hn hlit hf => ?_⟩
      simp only at hf
      rw [hf] at hw
      obtain ⟨h1, p', s', h2, -, h3⟩ := C109_sound names hn p q s v hlit new hw
      exact ⟨h1, p', s', h2, h3⟩
  | noRedundantLambda =>
    obtain ⟨-, -, hc⟩ := (exprRule_mem (kind := py "Lambda") rfl h rep).mp hr
    obtain ⟨-, f, hf⟩ := hoff
    rw [((C85_shape (L.expr rep.node)).1 f).mpr hf] at hc
    rcases hc with ⟨h, -⟩ | ⟨a, h, hch⟩
    · cases h
    · cases h; exact ⟨f, hf, hch⟩
  | noRedundantListComprehension =>
    obtain ⟨-, -, hc⟩ := (exprRule_mem (kind := py "Call") rfl h rep).mp hr
    obtain ⟨-, f, st, kw, v, elt, cs, hcall, hv, hf⟩ := hoff
    rw [((C86_shape (L.expr rep.node)).1 _).mpr ⟨f, st, kw, v, elt, cs, hcall, hv, hf, rfl⟩] at hc
    rcases hc with ⟨h, -⟩ | ⟨a, h, hch⟩
    · cases h
    · cases h; exact ⟨f, st, kw, v, elt, cs, hcall, hv, hch⟩
  | noStaticIfCondition =>
    obtain ⟨way, j, l, ks, hat, hk, out, ho, hm⟩ := (visit_mem (kind := py "If") rfl h rep).mp hr
    obtain ⟨-, -, hc⟩ := mem_reported.mp ⟨out, ho, hm⟩
    rcases hc with ⟨-, hc⟩ | ⟨a, ha, -⟩
    · exact hc
    · exfalso
      unfold noStaticIfCondition at ha
      repeat' (split at ha)
      all_goals (cases ha)
  | noStringTypeAnnotation =>
    obtain ⟨way, i, text, ks, v, hat, -, -, -, hv, rfl⟩ := (C100_strings L.qual L.decoded L.parse meta_ t reps hl.exprs hl.nodup h rep).mp hr
    exact ⟨way, text, ks, v, hat, hv, rfl⟩
  | replaceUnionWithOptional =>
    obtain ⟨way, j, l, ks, hat, hk, out, ho, hm⟩ := (leave_mem (kind := py "Annotation") rfl h rep).mp hr
    obtain ⟨hn, -, hc⟩ := mem_reported.mp ⟨out, ho, hm⟩
    have hn : rep.node = j := hn
    simp only [Ev.node] at hc
    rw [← hn] at hc
    obtain ⟨-, x, y, hu⟩ := hoff
    obtain ⟨h1, h2, h3⟩ := C108_reports (L.optionalKnown rep.node) (L.annotation rep.node)
    rcases hc with ⟨hw, hch⟩ | ⟨a, ha, hch⟩
    · refine ⟨x, y, hu, .inl ⟨hch, ?_⟩⟩
      have hno : ∀ r, replaceUnion (L.optionalKnown rep.node) (L.annotation rep.node) ≠ .fix r := fun r h => by rw [hw] at h; cases h
      cases hk : L.optionalKnown rep.node with
      | false => exact .inl rfl
      | true =>
        right
        constructor
        · cases hx : x.isNoneIndex with
          | true => rfl
          | false => exact absurd ((h2 _).mpr ⟨hk, x, y, hu, x, rfl, .inl ⟨rfl, hx⟩⟩) (hno _)
        · cases hy : y.isNoneIndex with
          | true => rfl
          | false => exact absurd ((h2 _).mpr ⟨hk, x, y, hu, y, rfl, .inr ⟨rfl, hy⟩⟩) (hno _)
    · obtain ⟨hk, x, y, hu, z, rfl, hz⟩ := (h2 a).mp ha
      exact ⟨x, y, hu, .inr ⟨hk, z, hch, hz⟩⟩
  | rewriteToComprehension =>
    obtain ⟨-, -, hc⟩ := (exprRule_mem (kind := py "Call") rfl h rep).mp hr
    obtain ⟨-, e, he⟩ := hoff
    rw [((C88_shape (L.expr rep.node)).1 e).mpr he] at hc
    rcases hc with ⟨h, -⟩ | ⟨a, h, hch⟩
    · cases h
    · cases h; exact ⟨e, he, hch⟩
  | rewriteToLiteral =>
    obtain ⟨-, -, hc⟩ := (exprRule_mem (kind := py "Call") rfl h rep).mp hr
    obtain ⟨-, e, he⟩ := hoff
    rw [((C87_shape (L.expr rep.node)).1 e).mpr he] at hc
    rcases hc with ⟨h, -⟩ | ⟨a, h, hch⟩
    · cases h
    · cases h; exact ⟨e, he, hch⟩
  | sortedAttributes =>
    obtain ⟨way, j, l, ks, hat, hk, out, ho, hm⟩ := (visit_mem (kind := py "ClassDef") rfl h rep).mp hr
    simp only [Ev.node] at ho
    cases hw : sortAttributes (L.lines j) with
    | error x => rw [hw] at ho; cases ho
    | ok r =>
      cases r with
      | none => rw [hw] at ho; cases ho; cases hm
      | some new =>
        rw [hw] at ho
        cases ho
        cases List.mem_singleton.mp hm
        exact ⟨new, C104_fix _ _ hw, rfl⟩
  | useAssertIn =>
    obtain ⟨-, -, hc⟩ := (exprRule_mem (kind := py "Call") rfl h rep).mp hr
    obtain ⟨-, x, y, b, hb⟩ := hoff
    rw [(C89_in_shape (L.expr rep.node)).1 x y b hb] at hc
    rcases hc with ⟨h, -⟩ | ⟨a, h, hch⟩
    · cases h
    · cases h; exact ⟨x, y, b, hb, hch⟩
  | useAssertIsNotNone =>
    obtain ⟨-, -, hc⟩ := (exprRule_mem (kind := py "Call") rfl h rep).mp hr
    obtain ⟨-, x, b, hb⟩ := hoff
    rw [(C89_none_shape (L.expr rep.node)).1 x b hb] at hc
    rcases hc with ⟨h, -⟩ | ⟨a, h, hch⟩
    · cases h
    · cases h; exact ⟨x, b, hb, hch⟩
  | useAsyncSleepInAsyncDef =>
    obtain ⟨reps', hr', hiff⟩ := C98_sleep L.qual (py "Use asyncio.sleep in async function") meta_ t
    have h' : (asyncSleepRule L.qual (py "Use asyncio.sleep in async function")).alone meta_ t = .ok reps := h
    rw [hr'] at h'
    cases h'
    obtain ⟨_, _, _, _, _, _, he, _⟩ := (hiff rep).mp hr
    rw [he]
    rfl
  | useFstring => exact fixes_useFstring meta_ h rep hr
  | useTypesFromTyping =>
    obtain ⟨way, i, s, ks, T, known, hat, -, hmb, hsc, hn, -, hch⟩ := (C99_types L.qual L.scope meta_ t reps h rep).mp hr
    rw [hn]
    refine ⟨way, s, ks, T, known, hat, hmb, hsc, ?_⟩
    split at hch
    · rename_i hk; exact .inl ⟨hk, hch⟩
    · rename_i hk; exact .inr ⟨hk, hch⟩
  | explicitFrozenDataclass => exact fixes_frozen meta_ h rep hr
  | useLintFixmeComment =>
    obtain ⟨_, _, _, _, e, _, _, _, out, ho, hm⟩ := (each_mem _ _ _ _ _ h rep).mp hr
    cases ho
    split at hm
    · cases List.mem_singleton.mp hm; rfl
    · cases hm

end Cst
