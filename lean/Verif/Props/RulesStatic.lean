import Verif.Model.Rules.Expr
import Verif.Spec.RulesExpr

/-! # C81: the rule against static `if` conditions -/

namespace Cst
open Py

theorem Run.bind_ok {S E α β : Type} {r : Run S E α} {f : α → Run S E β} {s s' : S} {b : β}
    (h : Run.bind r f s = (.ok b, s')) : ∃ a s₁, r s = (.ok a, s₁) ∧ f a s₁ = (.ok b, s') := by
  unfold Run.bind at h
  match hr : r s with
  | (.ok a, s₁) => rw [hr] at h; exact ⟨a, s₁, rfl, h⟩
  | (.error e, s₁) => rw [hr] at h; simp [Run.andThen] at h

theorem Run.pure_ok {S E α : Type} {a b : α} {s s' : S} (h : (Run.pure a : Run S E α) s = (.ok b, s')) : a = b ∧ s = s' := by
  simp [Run.pure] at h; exact h

theorem extract_forced : ∀ (e : Expr) (b : Bool), extractStaticBool e = some b → Forced e b
  | .paren e, b, h => .paren (extract_forced e b (by simpa [extractStaticBool] using h))
  | .not e, b, h => by
    rw [extractStaticBool] at h
    cases hb : extractStaticBool e with
    | none => simp [hb] at h
    | some b' =>
      simp only [hb, Option.some.injEq] at h
      rw [← h]
      exact .not (extract_forced e b' hb)
  | .name s, b, h => by
    rw [extractStaticBool] at h
    split at h
    · rename_i hs; cases h; rw [hs]; exact .true
    · split at h
      · rename_i hs; cases h; rw [hs]; exact .false
      · cases h
  | .bool .or l r, b, h => by
    simp only [extractStaticBool] at h
    split at h
    · rename_i hc
      cases h
      rcases hc with hc | hc
      · exact .orRight (extract_forced r _ hc)
      · exact .orLeft (extract_forced l _ hc)
    · cases h
  | .bool .and l r, b, h => by
    simp only [extractStaticBool] at h
    split at h
    · rename_i hc
      cases h
      rcases hc with hc | hc
      · exact .andRight (extract_forced r _ hc)
      · exact .andLeft (extract_forced l _ hc)
    · cases h
  | .num _, _, h => by simp [extractStaticBool] at h
  | .str _, _, h => by simp [extractStaticBool] at h
  | .fstr _, _, h => by simp [extractStaticBool] at h
  | .attr _ _, _, h => by simp [extractStaticBool] at h
  | .call _ _, _, h => by simp [extractStaticBool] at h
  | .lam _ _, _, h => by simp [extractStaticBool] at h
  | .comp _ _, _, h => by simp [extractStaticBool] at h
  | .tuple _, _, h => by simp [extractStaticBool] at h
  | .list _, _, h => by simp [extractStaticBool] at h
  | .set _, _, h => by simp [extractStaticBool] at h
  | .dict _, _, h => by simp [extractStaticBool] at h
  | .genExp _ _, _, h => by simp [extractStaticBool] at h
  | .listComp _ _, _, h => by simp [extractStaticBool] at h
  | .setComp _ _, _, h => by simp [extractStaticBool] at h
  | .dictComp _ _ _, _, h => by simp [extractStaticBool] at h
  | .await _, _, h => by simp [extractStaticBool] at h
  | .other _ _, _, h => by simp [extractStaticBool] at h

/-- The rule's analysis is exactly "forced by the text". -/
theorem extract_iff_forced (e : Expr) (b : Bool) : extractStaticBool e = some b ↔ Forced e b := by
  refine ⟨extract_forced e b, ?_⟩
  intro h
  induction h with
  | true => simp [extractStaticBool]
  | false => rfl
  | paren _ ih => rw [extractStaticBool]; exact ih
  | not _ ih => simp [extractStaticBool, ih]
  | orLeft _ ih => simp [extractStaticBool, ih]
  | orRight _ ih => simp [extractStaticBool, ih]
  | andLeft _ ih => simp [extractStaticBool, ih]
  | andRight _ ih => simp [extractStaticBool, ih]

theorem forced_always {e : Expr} {b : Bool} (h : Forced e b) : AlwaysIs e b := by
  intro I hc ρ
  induction h with
  | true =>
    intro s s' r hr
    obtain ⟨a, s₁, h1, h2⟩ := Run.bind_ok hr
    have := (Run.pure_ok (show (Run.pure I.true : Run I.St I.Exc I.Val) s = _ from h1)).1
    subst this
    rw [hc.true] at h2
    exact (Run.pure_ok h2).1.symm
  | false =>
    intro s s' r hr
    obtain ⟨a, s₁, h1, h2⟩ := Run.bind_ok hr
    have := (Run.pure_ok (show (Run.pure I.false : Run I.St I.Exc I.Val) s = _ from h1)).1
    subst this
    rw [hc.false] at h2
    exact (Run.pure_ok h2).1.symm
  | paren _ ih => intro s s' r hr; rw [evalCond] at hr; exact ih s s' r hr
  | not _ ih =>
    intro s s' r hr; rw [evalCond] at hr
    obtain ⟨a, s₁, h1, h2⟩ := Run.bind_ok hr
    rw [ih _ _ _ h1] at h2
    exact (Run.pure_ok h2).1.symm
  | orLeft _ ih =>
    intro s s' r hr; rw [evalCond] at hr
    obtain ⟨a, s₁, h1, h2⟩ := Run.bind_ok hr
    rw [ih _ _ _ h1] at h2
    exact (Run.pure_ok h2).1.symm
  | orRight _ ih =>
    intro s s' r hr; rw [evalCond] at hr
    obtain ⟨a, s₁, h1, h2⟩ := Run.bind_ok hr
    cases a with
    | true => exact (Run.pure_ok h2).1.symm
    | false => exact ih _ _ _ h2
  | andLeft _ ih =>
    intro s s' r hr; rw [evalCond] at hr
    obtain ⟨a, s₁, h1, h2⟩ := Run.bind_ok hr
    rw [ih _ _ _ h1] at h2
    exact (Run.pure_ok h2).1.symm
  | andRight _ ih =>
    intro s s' r hr; rw [evalCond] at hr
    obtain ⟨a, s₁, h1, h2⟩ := Run.bind_ok hr
    cases a with
    | true => exact ih _ _ _ h2
    | false => exact (Run.pure_ok h2).1.symm

/-- **C81.** The rule reports an `if` exactly when its condition is forced by its text, and a reported condition always comes out the
same: in every program, with every value of the variables and in every state in which testing it does not raise. -/
theorem C81_static (test : Expr) :
    ((∃ b, Forced test b) ↔ noStaticIfCondition test = .warn) ∧
    (noStaticIfCondition test = .silent ↔ noStaticIfCondition test ≠ .warn) ∧
    (noStaticIfCondition test = .warn → ∃ b, AlwaysIs test b) := by
  have key : (∃ b, Forced test b) ↔ noStaticIfCondition test = .warn := by
    unfold noStaticIfCondition
    cases h : extractStaticBool test with
    | none =>
      refine ⟨fun ⟨b, hb⟩ => ?_, fun hx => by cases hx⟩
      rw [(extract_iff_forced test b).2 hb] at h
      cases h
    | some b => exact ⟨fun _ => rfl, fun _ => ⟨b, (extract_iff_forced test b).1 h⟩⟩
  refine ⟨key, ?_, ?_⟩
  · unfold noStaticIfCondition; split <;> simp
  · intro h
    obtain ⟨b, hb⟩ := key.2 h
    exact ⟨b, forced_always hb⟩

/-- Testing a condition is evaluating it and testing the value, when testing a value twice gives the same answer and changes nothing. -/
theorem evalCond_eval (I : Interp) (t : I.Val → Bool) (ht : ∀ v, I.truth v = Run.pure (t v)) (hc : ConstTruth I) (ρ : I.Locals) (e : Expr) :
    evalCond I ρ e = (eval I ρ e).bind I.truth := by
  have hof : ∀ b, I.truth (I.ofBool b) = Run.pure b := by intro b; cases b <;> simp [Interp.ofBool, hc.true, hc.false]
  induction e using evalCond.induct with
  | case1 e ih => rw [evalCond, eval]; exact ih
  | case2 e ih =>
    rw [evalCond, eval, ih]
    funext s
    unfold Interp.negate Run.bind
    match eval I ρ e s with
    | (.error x, s₁) => rfl
    | (.ok v, s₁) => simp only [Run.andThen, ht v, Run.pure]; rw [hof]; rfl
  | case3 l r ihl ihr =>
    rw [evalCond, eval, ihl, ihr]
    funext s
    unfold Interp.boolOp Run.bind
    match eval I ρ l s with
    | (.error x, s₁) => rfl
    | (.ok v, s₁) =>
      cases hv : t v
      · simp [Run.andThen, ht v, Run.pure, hv]
      · simp [Run.andThen, ht v, Run.pure, hv]
  | case4 l r ihl ihr =>
    rw [evalCond, eval, ihl, ihr]
    funext s
    unfold Interp.boolOp Run.bind
    match eval I ρ l s with
    | (.error x, s₁) => rfl
    | (.ok v, s₁) =>
      cases hv : t v
      · simp [Run.andThen, ht v, Run.pure, hv]
      · simp [Run.andThen, ht v, Run.pure, hv]
  | case5 e h1 h2 h3 h4 =>
    cases e <;> first | rfl | exact absurd rfl (h1 _) | exact absurd rfl (h2 _) | skip
    rename_i op l r
    cases op
    · exact absurd rfl (h3 _ _)
    · exact absurd rfl (h4 _ _)

/-- The converse of the last part fails: `True and True` is always true and not reported. -/
theorem C81_incomplete : ∃ e, AlwaysIs e true ∧ noStaticIfCondition e = .silent := by
  refine ⟨.bool .and (.name (py "True")) (.name (py "True")), ?_, rfl⟩
  intro I hc ρ s s' r hr
  rw [evalCond] at hr
  obtain ⟨a, s₁, h1, h2⟩ := Run.bind_ok hr
  have ha := forced_always .true I hc ρ _ _ _ h1
  subst ha
  exact forced_always .true I hc ρ _ _ _ h2

/-- `crazy_expression and (something() and (other_func() and not True))`, from the rule's own examples. -/
example : noStaticIfCondition (.bool .and (.name (py "crazy_expression")) (.paren (.bool .and (.call (.name (py "something")) [])
    (.paren (.bool .and (.call (.name (py "other_func")) []) (.not (.name (py "True"))))))) ) = .warn := rfl

example : noStaticIfCondition (.bool .or (.call (.name (py "my_func")) []) (.not (.call (.name (py "else_func")) []))) = .silent := rfl

end Cst
