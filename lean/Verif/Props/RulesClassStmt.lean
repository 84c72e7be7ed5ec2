import Verif.Spec.RulesClasses
import Verif.Spec.PyEval
import Verif.Props.RulesObject
import Verif.Props.RulesIsinstance

/-!
# C106: NoNamedTuple. C107: AvoidOrInExcept. C108: ReplaceUnionWithOptional
-/

namespace Cst
open Py Spec

/-! ## C106 -/

theorem partitionBases_eq (nt : Nat → Bool) : ∀ (bs : List (Nat × Arg)) (base : Option (Nat × Arg)) (new : List (Nat × Arg)),
    (partitionBases nt bs (base, new)).2 = new ++ bs.filter (fun b => !nt b.1) ∧
    ((partitionBases nt bs (base, new)).1 ≠ none ↔ base ≠ none ∨ ∃ b ∈ bs, nt b.1 = true)
  | [], base, new => by simp [partitionBases]
  | b :: bs, base, new => by
    unfold partitionBases
    by_cases h : nt b.1 = true
    · rw [if_pos h]
      obtain ⟨h1, h2⟩ := partitionBases_eq nt bs (some b) new
      refine ⟨by rw [h1]; simp [h], h2.trans ⟨fun _ => .inr ⟨b, by simp, h⟩, fun _ => .inl (by simp)⟩⟩
    · rw [if_neg h]
      obtain ⟨h1, h2⟩ := partitionBases_eq nt bs base (new ++ [b])
      refine ⟨by rw [h1]; simp [h], h2.trans ?_⟩
      constructor
      · rintro (h' | ⟨x, hx, h'⟩)
        · exact .inl h'
        · exact .inr ⟨x, by simp [hx], h'⟩
      · rintro (h' | ⟨x, hx, h'⟩)
        · exact .inl h'
        · rcases List.mem_cons.mp hx with rfl | hx
          · exact absurd h' h
          · exact .inr ⟨x, hx, h'⟩

/-- C106: a class is reported exactly when one of its bases is `typing.NamedTuple`; all such bases go, the others stay in order, and the class gets one decorator, which is applied
before the ones that it has. -/
theorem C106_fix (isNamedTuple : Nat → Bool) (bases : List (Nat × Arg)) (decorators : List Expr) :
    ((∃ r, dropNamedTuple isNamedTuple bases decorators = some r) ↔ ∃ b ∈ bases, isNamedTuple b.1 = true) ∧
    ∀ new ds, dropNamedTuple isNamedTuple bases decorators = some (new, ds) →
      new = bases.filter (fun b => !isNamedTuple b.1) ∧
      ∀ (V : Type) (apply : Expr → V → V) (c : V), decorated apply ds c = decorated apply decorators (apply frozenDataclass c) := by
  obtain ⟨h1, h2⟩ := partitionBases_eq isNamedTuple bases none []
  unfold dropNamedTuple
  rcases hp : partitionBases isNamedTuple bases (none, []) with ⟨base, new⟩
  rw [hp] at h1 h2
  cases base with
  | none =>
    simp only at h1 h2 ⊢
    refine ⟨⟨fun ⟨r, h⟩ => by (cases h), fun h => absurd rfl (h2.mpr (.inr h))⟩, fun new ds h => by (cases h)⟩
  | some b =>
    simp only at h1 h2 ⊢
    refine ⟨⟨fun _ => (h2.mp (by simp)).elim (fun h => absurd rfl h) id, fun _ => ⟨_, rfl⟩⟩, fun new' ds h => ?_⟩
    cases h
    refine ⟨by simpa using h1, fun V apply c => ?_⟩
    induction decorators with
    | nil => rfl
    | cons d ds ih => exact congrArg (apply d) ih

/-- C106: a class that was fixed is not reported again. -/
theorem C106_idempotent (isNamedTuple : Nat → Bool) (bases new : List (Nat × Arg)) (decorators ds : List Expr)
    (h : dropNamedTuple isNamedTuple bases decorators = some (new, ds)) : dropNamedTuple isNamedTuple new ds = none := by
  have hn := ((C106_fix isNamedTuple bases decorators).2 new ds h).1
  cases hd : dropNamedTuple isNamedTuple new ds with
  | none => rfl
  | some r =>
    obtain ⟨b, hb, hb'⟩ := ((C106_fix isNamedTuple new ds).1).mp ⟨r, hd⟩
    rw [hn] at hb
    have := (List.mem_filter.mp hb).2
    rw [hb'] at this
    cases this

example : dropNamedTuple (· == 1) [(0, .pos (.name (py "A"))), (1, .pos (.name (py "NamedTuple")))] [.name (py "final")] =
    some ([(0, .pos (.name (py "A")))], [.name (py "final"), frozenDataclass]) := rfl

/-- A finding: the new decorator is the bare name `dataclass`, whatever the file imports: nothing the rule is given says whether `dataclass` is known. -/
theorem C106_import : ∀ (isNamedTuple : Nat → Bool) (bases new : List (Nat × Arg)) (decorators ds : List Expr),
    dropNamedTuple isNamedTuple bases decorators = some (new, ds) → ds = decorators ++ [.call (.name (py "dataclass")) [.mk .none (some (py "frozen")) (.name (py "True"))]] := by
  intro nt bases new decorators ds h
  unfold dropNamedTuple at h
  split at h <;> cases h
  rfl

/-! ## C107 -/

/-- C107: the rule reports exactly the `try` statements that have one handler, and that one with an `or`. -/
theorem C107_reports (handlers : List (Option Expr)) : avoidOrInExcept handlers = true ↔ ∃ t l r, handlers = [t] ∧ CatchesOr t l r := by
  have hor : ∀ t, isOrHandler t = true ↔ ∃ l r, CatchesOr t l r := by
    intro t
    cases t with
    | none => exact ⟨fun h => by (cases h), fun ⟨l, r, e, h, _⟩ => by (cases h)⟩
    | some e =>
      unfold isOrHandler
      constructor
      · intro h
        simp only at h
        split at h
        · rename_i l r he
          exact ⟨l, r, e, rfl, he⟩
        · cases h
      · rintro ⟨l, r, e', he, hc⟩
        cases he
        simp [hc]
  match handlers with
  | [] => exact ⟨fun h => by (cases h), fun ⟨t, l, r, h, _⟩ => by (cases h)⟩
  | [t] =>
    refine Iff.trans (hor t) ⟨fun ⟨l, r, h⟩ => ⟨t, l, r, rfl, h⟩, fun ⟨t', l, r, h, h'⟩ => ⟨l, r, ?_⟩⟩
    cases h
    exact h'
  | _ :: _ :: _ => exact ⟨fun h => by (cases h), fun ⟨t, l, r, h, _⟩ => by (cases h)⟩

/-- C107: what is reported is a mistake: when the left operand is an exception class or a non-empty tuple of them (asking for its truth value gives true and does nothing), the type
of the handler is the left operand, and the right one is never looked at. -/
theorem C107_sound (I : Interp) (ρ : I.Locals) (handlers : List (Option Expr)) (h : avoidOrInExcept handlers = true) :
    ∃ t l r, handlers = [some t] ∧ t.core = .bool .or l r ∧
      ((∀ s v s', eval I ρ l s = (.ok v, s') → I.truth v s' = (.ok true, s')) → ∀ s, eval I ρ t s = eval I ρ l s) := by
  obtain ⟨t, l, r, rfl, e, rfl, hc⟩ := (C107_reports handlers).mp h
  refine ⟨e, l, r, rfl, hc, fun htrue s => ?_⟩
  rw [← eval_core I ρ e, hc, eval]
  unfold Interp.boolOp Run.bind
  cases hl : eval I ρ l s with
  | mk x s' =>
    cases x with
    | error x => rfl
    | ok v => simp [Run.andThen, htrue s v s' hl, Run.pure]

example : avoidOrInExcept [some (.bool .or (.name (py "ValueError")) (.name (py "TypeError")))] = true := rfl

/-- A finding: the same mistake in a statement with two handlers is not reported. -/
theorem C107_missed : avoidOrInExcept [some (.bool .or (.name (py "ValueError")) (.name (py "TypeError"))), none] = false := rfl

/-! ## C108 -/

theorem isNoneIndex_iff (e : SubElem) : e.isNoneIndex = true ↔ ∃ s v, e = .index s v ∧ v.core = .name (py "None") := by
  cases e with
  | slice => exact ⟨fun h => by (cases h), fun ⟨_, _, h, _⟩ => by (cases h)⟩
  | index s v =>
    rw [SubElem.isNoneIndex, nameIs_iff]
    exact ⟨fun h => ⟨s, v, rfl, h⟩, fun ⟨_, _, h, h'⟩ => by cases h; exact h'⟩

theorem containsUnion_iff (a : Ann) : containsUnionWithNone a = true ↔ ∃ x y, UnionWithNone a x y := by
  have hidx : ∀ e : SubElem, e.isIndex = true ↔ ∃ s v, e = .index s v := by
    intro e
    cases e with
    | slice => exact ⟨fun h => by (cases h), fun ⟨_, _, h⟩ => by (cases h)⟩
    | index s v => exact ⟨fun _ => ⟨s, v, rfl⟩, fun _ => rfl⟩
  have hni : ∀ e : SubElem, e.isNoneIndex = true → e.isIndex = true := fun e h => by
    cases e with
    | slice => cases h
    | index s v => rfl
  constructor
  · intro h
    unfold containsUnionWithNone at h
    split at h
    · rename_i v x y
      simp only [Bool.and_eq_true, Bool.or_eq_true] at h
      obtain ⟨hv, h⟩ := h
      refine ⟨x, y, ⟨v, rfl, (nameIs_iff _ _).mp hv⟩, ?_, ?_⟩
      · rcases h with ⟨h1, h2⟩ | ⟨h1, h2⟩
        · exact ⟨(hidx _).mp h1, (hidx _).mp (hni _ h2)⟩
        · exact ⟨(hidx _).mp (hni _ h1), (hidx _).mp h2⟩
      · rcases h with ⟨h1, h2⟩ | ⟨h1, h2⟩
        · exact .inr ((isNoneIndex_iff _).mp h2)
        · exact .inl ((isNoneIndex_iff _).mp h1)
    · cases h
  · rintro ⟨x, y, ⟨v, rfl, hv⟩, ⟨h1, h2⟩, h3⟩
    unfold containsUnionWithNone
    rw [← isNoneIndex_iff, ← isNoneIndex_iff] at h3
    rw [← hidx] at h1 h2
    simp only [Bool.and_eq_true, Bool.or_eq_true]
    exact ⟨(nameIs_iff _ _).mpr hv, h3.elim (fun h => .inr ⟨h, h2⟩) (fun h => .inl ⟨h1, h⟩)⟩

/-- C108: the rule reports exactly the annotations `Union[X, None]` and `Union[None, X]`, and offers `Optional[X]` exactly when `Optional` is known and `X` is not `None`. -/
theorem C108_reports (optionalKnown : Bool) (a : Ann) :
    (replaceUnion optionalKnown a = .silent ↔ ¬ ∃ x y, UnionWithNone a x y) ∧
    (∀ r, replaceUnion optionalKnown a = .fix r ↔ optionalKnown = true ∧ ∃ x y, UnionWithNone a x y ∧
      ∃ z, r = .subscript (.name (py "Optional")) [z] ∧ ((z = x ∧ x.isNoneIndex = false) ∨ (z = y ∧ y.isNoneIndex = false))) ∧
    replaceUnion optionalKnown a ≠ .crash := by
  unfold replaceUnion
  rw [← containsUnion_iff]
  by_cases hc : containsUnionWithNone a = true
  · rw [if_pos hc]
    obtain ⟨x, y, hu⟩ := (containsUnion_iff a).mp hc
    obtain ⟨v, rfl, hv⟩ := hu.union
    have hnone := hu.none
    rw [← isNoneIndex_iff, ← isNoneIndex_iff] at hnone
    have huniq : ∀ x' y', UnionWithNone (.subscript v [x, y]) x' y' → x' = x ∧ y' = y := by
      intro x' y' h'
      obtain ⟨v', he, -⟩ := h'.union
      cases he
      exact ⟨rfl, rfl⟩
    simp only
    cases optionalKnown with
    | false =>
      refine ⟨⟨fun h => by (cases h), fun h => absurd hc h⟩, fun r => ⟨fun h => by (cases h), fun h => by (cases h.1)⟩, fun h => by (cases h)⟩
    | true =>
      rw [if_pos rfl]
      unfold toOptional countNones countNones countNones
      cases hx : x.isNoneIndex <;> cases hy : y.isNoneIndex
      · rw [hx, hy] at hnone; rcases hnone with h | h <;> cases h
      · refine ⟨⟨fun h => by (cases h), fun h => absurd hc h⟩, fun r => ⟨fun h => ?_, fun ⟨_, x', y', h', z, hr, hz⟩ => ?_⟩, fun h => by (cases h)⟩
        · cases h
          exact ⟨rfl, x, y, hu, x, rfl, .inl ⟨rfl, hx⟩⟩
        · obtain ⟨rfl, rfl⟩ := huniq _ _ h'
          rcases hz with ⟨rfl, -⟩ | ⟨-, h⟩
          · rw [hr]; rfl
          · rw [hy] at h; cases h
      · refine ⟨⟨fun h => by (cases h), fun h => absurd hc h⟩, fun r => ⟨fun h => ?_, fun ⟨_, x', y', h', z, hr, hz⟩ => ?_⟩, fun h => by (cases h)⟩
        · cases h
          exact ⟨rfl, x, y, hu, y, rfl, .inr ⟨rfl, hy⟩⟩
        · obtain ⟨rfl, rfl⟩ := huniq _ _ h'
          rcases hz with ⟨-, h⟩ | ⟨rfl, -⟩
          · rw [hx] at h; cases h
          · rw [hr]; rfl
      · refine ⟨⟨fun h => by (cases h), fun h => absurd hc h⟩, fun r => ⟨fun h => by (cases h), fun ⟨_, x', y', h', z, hr, hz⟩ => ?_⟩, fun h => by (cases h)⟩
        obtain ⟨rfl, rfl⟩ := huniq _ _ h'
        rcases hz with ⟨-, h⟩ | ⟨-, h⟩
        · rw [hx] at h; cases h
        · rw [hy] at h; cases h
  · rw [if_neg hc]
    refine ⟨⟨fun _ => hc, fun _ => rfl⟩, fun r => ⟨fun h => by (cases h), fun ⟨_, x, y, h, _⟩ => absurd ((containsUnion_iff a).mpr ⟨x, y, h⟩) hc⟩, fun h => by (cases h)⟩

/-- C108: without stars, the fix means the same type. -/
theorem C108_sound (V : Type) (member : Expr → V → Prop) (hparen : ∀ e x, member e x ↔ member e.core x) (optionalKnown : Bool) (v : Expr) (x y : Expr) (r : Ann)
    (h : replaceUnion optionalKnown (.subscript v [.index false x, .index false y]) = .fix r) (m : V) :
    Denotes V member r m ↔ Denotes V member (.subscript v [.index false x, .index false y]) m := by
  obtain ⟨-, x', y', hu, z, rfl, hz⟩ := ((C108_reports optionalKnown _).2.1 r).mp h
  obtain ⟨v', he, hv⟩ := hu.union
  cases he
  have hnone := hu.none
  have hname : (Expr.name (py "Optional")).core = .name (py "Optional") := rfl
  have hU : (py "Union" : PStr) ≠ py "Optional" := by decide
  have hleft : ∀ w, Denotes V member (.subscript (.name (py "Optional")) [.index false w]) m ↔ member w m ∨ member (.name (py "None")) m := by
    intro w
    constructor
    · intro h
      cases h with
      | union _ _ e _ hc => exact absurd (Expr.name.inj hc) (by decide)
      | optional _ e _ _ hm => exact .inl hm
      | optionalNone _ e _ _ hm => exact .inr hm
    · rintro (h | h)
      · exact .optional _ _ _ hname h
      · exact .optionalNone _ _ _ hname h
  have hright : Denotes V member (.subscript v [.index false x, .index false y]) m ↔ member x m ∨ member y m := by
    constructor
    · intro h
      cases h with
      | union _ _ e _ _ hmem hm =>
        rcases List.mem_cons.mp hmem with h' | h'
        · cases h'; exact .inl hm
        · cases (List.mem_singleton.mp h'); exact .inr hm
    · rintro (h | h)
      · exact .union _ _ x _ hv (by simp) h
      · exact .union _ _ y _ hv (by simp) h
  have hNx : ∀ e : Expr, e.core = .name (py "None") → (member e m ↔ member (.name (py "None")) m) := fun e he => by rw [hparen, he]
  rcases hz with ⟨rfl, hn⟩ | ⟨rfl, hn⟩
  · rw [hleft, hright]
    rcases hnone with ⟨s, w, he, hw⟩ | ⟨s, w, he, hw⟩
    · cases he
      rw [SubElem.isNoneIndex, (nameIs_iff _ _).mpr hw] at hn; cases hn
    · cases he
      rw [hNx _ hw]
  · rw [hleft, hright]
    rcases hnone with ⟨s, w, he, hw⟩ | ⟨s, w, he, hw⟩
    · cases he
      rw [hNx _ hw, or_comm]
    · cases he
      rw [SubElem.isNoneIndex, (nameIs_iff _ _).mpr hw] at hn; cases hn

example : replaceUnion true (.subscript (.name (py "Union")) [.index false (.name (py "None")), .index false (.name (py "int"))]) = .fix (.subscript (.name (py "Optional")) [.index false (.name (py "int"))]) := rfl

/-- A finding: `Union[None, None]` is reported without a fix. -/
theorem C108_two_nones : replaceUnion true (.subscript (.name (py "Union")) [.index false (.name (py "None")), .index false (.name (py "None"))]) = .warn := rfl

/-- A finding: `Union[*Ts, None]` becomes `Optional[*Ts]`, which is no type when `Ts` has several members. -/
theorem C108_star : replaceUnion true (.subscript (.name (py "Union")) [.index true (.name (py "Ts")), .index false (.name (py "None"))]) = .fix (.subscript (.name (py "Optional")) [.index true (.name (py "Ts"))]) := rfl

end Cst
