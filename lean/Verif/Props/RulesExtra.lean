import Verif.Model.Rules.Extra
import Verif.Spec.PyEval
import Verif.Spec.RulesExpr
import Verif.Props.RulesIsinstance
import Verif.Props.RulesQuantify

/-!
# C112, C113: ExplicitFrozenDataclass and UseLintFixmeComment
-/

namespace Cst
open Py

/-! ## C112 -/

/-- `@d class …`: the decorator is called with the class. -/
def decorate (I : Interp) (ρ : I.Locals) (d : Expr) (c : I.Val) : Run I.St I.Exc I.Val := (eval I ρ d).bind fun g => I.call g [c] []

/-- The call in a decorator, or the decorator itself as a call without arguments. -/
def CallOf (d f : Expr) (as : List Arg) : Prop := d.core = .call f as ∨ (∀ f as, d.core ≠ .call f as) ∧ f = d ∧ as = []

theorem decoratorCall_spec (d : Expr) : CallOf d (decoratorCall d).1 (decoratorCall d).2 := by
  unfold decoratorCall CallOf
  split
  · rename_i f as h
    exact .inl h
  · rename_i h
    exact .inr ⟨h, rfl, rfl⟩

theorem frozenDecorator_none (isDataclass : Expr → Bool) (d : Expr) : (frozenDecorator isDataclass d).isSome = true ↔ isDataclass d = true ∧ ¬ SaysFrozen d := by
  have key : (decoratorCall d).2.any (fun a => a.keyword == some (py "frozen")) = true ↔ SaysFrozen d := by
    rw [List.any_eq_true]
    rcases decoratorCall_spec d with h | ⟨h, -, h2⟩
    · constructor
      · rintro ⟨a, ha, hk⟩
        exact ⟨_, _, h, a, ha, by simpa using hk⟩
      · rintro ⟨f, as, h', a, ha, hk⟩
        rw [h] at h'
        cases h'
        exact ⟨a, ha, by simpa using hk⟩
    · rw [h2]
      constructor
      · rintro ⟨a, ha, _⟩
        cases ha
      · rintro ⟨f, as, h', _⟩
        exact absurd h' (h f as)
  unfold frozenDecorator
  by_cases hd : isDataclass d = true
  · rw [if_pos hd]
    by_cases hs : (decoratorCall d).2.any (fun a => a.keyword == some (py "frozen")) = true
    · rw [if_pos hs]
      exact ⟨fun h => by (cases h), fun h => absurd (key.mp hs) h.2⟩
    · rw [if_neg hs]
      exact ⟨fun _ => ⟨hd, fun h => hs (key.mpr h)⟩, fun _ => rfl⟩
  · rw [if_neg hd]
    exact ⟨fun h => by (cases h), fun h => absurd h.1 hd⟩

/-- C112: reported are exactly the decorators that are `dataclass` and in which `frozen=` is not written. -/
theorem C112_reports (isDataclass : Expr → Bool) (ds : List Expr) (i : Nat) :
    (∃ e, (i, e) ∈ frozenReports isDataclass ds) ↔ ∃ d, ds[i]? = some d ∧ isDataclass d = true ∧ ¬ SaysFrozen d := by
  unfold frozenReports
  simp only [List.mem_filterMap]
  constructor
  · rintro ⟨e, ⟨d, j⟩, hd, he⟩
    rw [Option.map_eq_some_iff] at he
    obtain ⟨e', he', hp⟩ := he
    cases hp
    have := List.mem_zipIdx_iff_getElem?.mp hd
    exact ⟨d, this, (frozenDecorator_none isDataclass d).mp (by rw [he']; rfl)⟩
  · rintro ⟨d, hi, h⟩
    obtain ⟨e, he⟩ := Option.isSome_iff_exists.mp ((frozenDecorator_none isDataclass d).mpr h)
    exact ⟨e, ⟨d, i⟩, List.mem_zipIdx_iff_getElem?.mpr hi, by rw [he]; rfl⟩

theorem evalArgs_kw (I : Interp) (ρ : I.Locals) (k : PStr) (e : Expr) (v : I.Val) (hv : eval I ρ e = Run.pure v) : ∀ as : List Arg,
    evalArgs I ρ (as ++ [.mk .none (some k) e]) = (evalArgs I ρ as).bind fun p => Run.pure (p.1, p.2 ++ [(k, v)])
  | [] => by
    simp only [List.nil_append, evalArgs, hv]
    rfl
  | .mk s kw x :: as => by
    have ih := evalArgs_kw I ρ k e v hv as
    cases s <;> cases kw <;> simp only [List.cons_append, evalArgs, ih, Run.bind_assoc, Run.pure_bind, List.append_assoc]

/-- No positional arguments. -/
def Keywords (as : List Arg) : Prop := ∀ a ∈ as, a.star = .two ∨ a.star = .none ∧ a.keyword.isSome = true

theorem evalArgs_keywords (I : Interp) (ρ : I.Locals) : ∀ as : List Arg, Keywords as → evalArgs I ρ as = (evalArgs I ρ as).bind fun p => Run.pure ([], p.2)
  | [], _ => rfl
  | .mk s kw x :: as, h => by
    have ih := evalArgs_keywords I ρ as (fun a ha => h a (by simp [ha]))
    have h0 := h (.mk s kw x) (by simp)
    cases s with
    | one => rcases h0 with h | h <;> simp [Arg.star] at h
    | two =>
      simp only [evalArgs, Run.bind_assoc, Run.pure_bind]
      rw [ih]
      simp only [Run.bind_assoc, Run.pure_bind]
    | none =>
      cases kw with
      | none => rcases h0 with h | h <;> simp [Arg.star, Arg.keyword] at h
      | some kw =>
        simp only [evalArgs, Run.bind_assoc, Run.pure_bind]
        rw [ih]
        simp only [Run.bind_assoc, Run.pure_bind]

/-- C112: with the replacement the class is decorated with one more option, `frozen=True`, after the others; everything else is as before. The arguments of the decorator are options,
and `dataclass(**options)` is a decorator that does what `dataclass(cls, **options)` does. -/
theorem C112_sound (I : Interp) (ρ : I.Locals) (isDataclass : Expr → Bool) (ds : List Expr) (i : Nat) (d e : Expr) (hd : ds[i]? = some d) (he : (i, e) ∈ frozenReports isDataclass ds)
    (f : Expr) (as : List Arg) (hcall : CallOf d f as) (hk : Keywords as) (dc : I.Val) (hf : eval I ρ f = Run.pure dc)
    (law : ∀ c options, (I.call dc [] options).bind (fun g => I.call g [c] []) = I.call dc [c] options) (c : I.Val) :
    decorate I ρ d c = (evalArgs I ρ as).bind (fun p => I.call dc [c] p.2) ∧
    decorate I ρ e c = (evalArgs I ρ as).bind (fun p => I.call dc [c] (p.2 ++ [(py "frozen", I.true)])) := by
  unfold frozenReports at he
  simp only [List.mem_filterMap] at he
  obtain ⟨⟨d', j⟩, hd', he⟩ := he
  rw [Option.map_eq_some_iff] at he
  obtain ⟨e', he', hp⟩ := he
  cases hp
  have h1 := List.mem_zipIdx_iff_getElem?.mp hd'
  simp only at h1
  rw [hd] at h1
  cases h1
  have hfa : decoratorCall d = (f, as) := by
    rcases hcall with h | ⟨h, h1, h2⟩
    · unfold decoratorCall; rw [h]
    · unfold decoratorCall
      split
      · rename_i f' as' h'
        exact absurd h' (h f' as')
      · rw [h1, h2]
  have hnew : e = .call f (as ++ [frozenArg]) := by
    unfold frozenDecorator at he'
    rw [hfa] at he'
    split at he'
    · split at he'
      · cases he'
      · exact (Option.some.inj he').symm
    · cases he'
  have htrue : eval I ρ (.name (py "True")) = Run.pure I.true := by
    rw [eval]
    rfl
  constructor
  · rcases hcall with h | ⟨_, rfl, rfl⟩
    · unfold decorate
      rw [← eval_core, h, eval, hf, Run.pure_bind, Run.bind_assoc, evalArgs_keywords I ρ as hk]
      simp only [Run.bind_assoc, Run.pure_bind, law]
    · unfold decorate
      rw [hf]
      rfl
  · rw [hnew]
    unfold decorate
    rw [eval, hf, Run.pure_bind, frozenArg, evalArgs_kw I ρ _ _ _ htrue, evalArgs_keywords I ρ as hk]
    simp only [Run.bind_assoc, Run.pure_bind, law]

/-- C112: the replacement is not reported again. -/
theorem C112_idempotent (isDataclass : Expr → Bool) (ds : List Expr) (i : Nat) (e : Expr) (he : (i, e) ∈ frozenReports isDataclass ds) : SaysFrozen e := by
  unfold frozenReports at he
  simp only [List.mem_filterMap] at he
  obtain ⟨⟨d', j⟩, hd', he⟩ := he
  rw [Option.map_eq_some_iff] at he
  obtain ⟨e', he', hp⟩ := he
  cases hp
  unfold frozenDecorator at he'
  split at he'
  · split at he'
    · cases he'
    · cases he'
      exact ⟨_, _, rfl, frozenArg, by simp, rfl⟩
  · cases he'

/-- `@dc.dataclass(eq=False)` and a bare `@dataclass`, among others. -/
example : (frozenReports (fun d => (decoratorCall d).1.isName (py "dataclass")) [.name (py "final"), .name (py "dataclass"),
    .call (.name (py "dataclass")) [.mk .none (some (py "eq")) (.name (py "False"))],
    .call (.name (py "dataclass")) [.mk .none (some (py "frozen")) (.name (py "False"))]]).map (·.1) = [1, 2] := by decide +kernel

/-- A finding: options from a dictionary are not seen. `@dataclass(**options)` becomes `@dataclass(**options, frozen=True)`, and with `frozen` in the dictionary that is two values for one
option, a `TypeError`. -/
theorem C112_double : ∃ e, (0, e) ∈ frozenReports (fun _ => true) [.call (.name (py "dataclass")) [.mk .two none (.name (py "options"))]] ∧
    ∀ (I : Interp) (ρ : I.Locals) (dc options : I.Val) (v : I.Val), I.load (py "dataclass") = Run.pure dc → I.load (py "options") = Run.pure options → ρ = [] →
      I.spreadMap options = Run.pure [(py "frozen", v)] → eval I ρ e = I.call dc [] [(py "frozen", v), (py "frozen", I.true)] := by
  refine ⟨.call (.name (py "dataclass")) [.mk .two none (.name (py "options")), frozenArg], by simp [frozenReports, frozenDecorator, decoratorCall, Expr.core, Arg.keyword], ?_⟩
  intro I ρ dc options v h1 h2 h3 h4
  subst h3
  have e1 : I.lookup [] (py "dataclass") = Run.pure dc := h1
  have e2 : I.lookup [] (py "options") = Run.pure options := h2
  have e3 : I.lookup [] (py "True") = Run.pure I.true := rfl
  simp only [eval, evalArgs, frozenArg, e1, e2, e3, Run.pure_bind, h4]
  rfl

/-! ## C113 -/

/-- C113: a comment is reported exactly when it starts with `# noqa`, in upper or lower case. -/
theorem C113_reports (value : PStr) : noqaComment value = true ↔
    ∃ n o q a rest, value = '#' :: ' ' :: n :: o :: q :: a :: rest ∧ (n = 'n' ∨ n = 'N') ∧ (o = 'o' ∨ o = 'O') ∧ (q = 'q' ∨ q = 'Q') ∧ (a = 'a' ∨ a = 'A') := by
  have low : ∀ (c d : Char), c.toLower = d → (c = d ∨ ('A' ≤ c ∧ c ≤ 'Z' ∧ c.toNat + 32 = d.toNat)) := by
    intro c d h
    subst h
    unfold Char.toLower
    split
    · rename_i hc
      right
      have h1 : 65 ≤ c.toNat := hc.1
      have h2 : c.toNat ≤ 90 := hc.2
      refine ⟨hc.1, hc.2, ?_⟩
      have : (c.val + 32).toNat = c.val.toNat + 32 := by
        rw [UInt32.toNat_add]
        have h3 : c.val.toNat ≤ 90 := h2
        have : (32 : UInt32).toNat = 32 := rfl
        rw [this]
        omega
      exact this.symm
    · exact .inl rfl
  have up : ∀ (c d e : Char), d.toNat + 32 = e.toNat → c.toLower = e → c = e ∨ c = d := by
    intro c d e hde h
    rcases low c e h with h | ⟨_, _, h⟩
    · exact .inl h
    · right
      have : c.toNat = d.toNat := by omega
      exact Char.toNat_inj.mp this
  have same : ∀ (c d : Char), d.toNat < 97 → c.toLower = d → ¬ ('A' ≤ d ∧ d ≤ 'Z') → c = d := by
    intro c d hd h hu
    rcases low c d h with h | ⟨h1, _, h3⟩
    · exact h
    · have : 65 ≤ c.toNat := h1
      omega
  unfold noqaComment
  rw [beq_iff_eq]
  constructor
  · intro h
    match value, h with
    | [], h => cases h
    | [_], h => simp at h
    | [_, _], h => simp at h
    | [_, _, _], h => simp at h
    | [_, _, _, _], h => simp at h
    | [_, _, _, _, _], h => simp at h
    | c1 :: c2 :: c3 :: c4 :: c5 :: c6 :: rest, h =>
      have h : [c1.toLower, c2.toLower, c3.toLower, c4.toLower, c5.toLower, c6.toLower] = ['#', ' ', 'n', 'o', 'q', 'a'] := h
      simp only [List.cons.injEq, and_true] at h
      obtain ⟨h1, h2, h3, h4, h5, h6⟩ := h
      have e1 := same c1 '#' (by decide) h1 (by decide)
      have e2 := same c2 ' ' (by decide) h2 (by decide)
      subst e1 e2
      exact ⟨c3, c4, c5, c6, rest, rfl, up c3 'N' 'n' (by decide) h3, up c4 'O' 'o' (by decide) h4, up c5 'Q' 'q' (by decide) h5, up c6 'A' 'a' (by decide) h6⟩
  · rintro ⟨n, o, q, a, rest, rfl, hn, ho, hq, ha⟩
    rcases hn with rfl | rfl <;> rcases ho with rfl | rfl <;> rcases hq with rfl | rfl <;> rcases ha with rfl | rfl <;> rfl

example : noqaComment (py "# NoQA: E501") = true := by decide

/-- A finding: `#noqa` and `# type: ignore # noqa` are not reported; `# noqable` is. -/
theorem C113_spelling : noqaComment (py "#noqa") = false ∧ noqaComment (py "# type: ignore # noqa") = false ∧ noqaComment (py "# noqable") = true := by decide

end Cst
