import Verif.Model.Rules.Expr
import Verif.Spec.RulesExpr
import Verif.Proof.EvalAgree
import Verif.Props.RulesIsinstance
import Verif.Props.RulesDemo

/-! # C85: lambdas that only forward their arguments -/

namespace Cst
open Py

theorem isName_iff {s : PStr} {e : Expr} : e.isName s = true ↔ e.core = .name s := by
  unfold Expr.isName
  constructor
  · intro h
    cases hc : e.core with
    | name t => rw [hc] at h; simp at h; rw [h]
    | _ => rw [hc] at h; cases h
  · intro h; rw [h]; simp

theorem isSimpleParams_iff {p : Params} : isSimpleParams p = true ↔ PlainParams p := by
  unfold isSimpleParams
  constructor
  · intro h
    split at h
    · cases h
    · rename_i hn
      simp only [Bool.or_eq_true, decide_eq_true_eq, not_or, Bool.not_eq_true] at hn
      obtain ⟨⟨⟨h1, h2⟩, h3⟩, h4⟩ := hn
      exact ⟨by omega, by omega, h4, h1, by simpa using h⟩
  · intro ⟨h1, h2, h3, h4, h5⟩
    rw [h1, h2, h3, h4]
    simpa using h5

theorem argsArePlainNames_iff : ∀ {ps : List PStr} {as : List Arg}, argsArePlainNames ps as = true ↔ PassesAll ps as
  | [], [] => ⟨fun _ => .nil, fun _ => rfl⟩
  | [], a :: as => ⟨fun h => (Bool.false_ne_true h).elim, fun h => nomatch h⟩
  | p :: ps, [] => ⟨fun h => (Bool.false_ne_true h).elim, fun h => nomatch h⟩
  | p :: ps, .mk .none none v :: as => by
    show (v.isName p && argsArePlainNames ps as) = true ↔ _
    rw [Bool.and_eq_true, isName_iff, argsArePlainNames_iff]
    exact ⟨fun ⟨h1, h2⟩ => .cons h1 h2, fun h => by cases h with | cons h1 h2 => exact ⟨h1, h2⟩⟩
  | p :: ps, .mk .none (some k) v :: as => ⟨fun h => (Bool.false_ne_true h).elim, fun h => nomatch h⟩
  | p :: ps, .mk .one k v :: as => ⟨fun h => (Bool.false_ne_true h).elim, fun h => nomatch h⟩
  | p :: ps, .mk .two k v :: as => ⟨fun h => (Bool.false_ne_true h).elim, fun h => nomatch h⟩

/-- **C85.** A lambda is reported exactly when it takes plain parameters without defaults and its body is a call with exactly these
parameters, each as a plain positional argument, in order; the fix is what is called. -/
theorem C85_shape (node : Expr) :
    (∀ f, noRedundantLambda node = .fix f ↔ ForwardsTo node f) ∧
    ((∀ f, ¬ ForwardsTo node f) → noRedundantLambda node = .silent) := by
  have key : ∀ f, noRedundantLambda node = .fix f ↔ ForwardsTo node f := by
    intro f
    unfold noRedundantLambda
    constructor
    · intro h
      cases hc : node.core with
      | lam ps body =>
        rw [hc] at h
        simp only [] at h
        cases hb : body.core with
        | call g args =>
          rw [hb] at h
          simp only [] at h
          split at h
          · rename_i hx
            rw [Bool.and_eq_true, isSimpleParams_iff, argsArePlainNames_iff] at hx
            cases h
            exact ⟨ps, body, args, hc, hx.1, hb, hx.2⟩
          · cases h
        | _ => rw [hb] at h; cases h
      | _ => rw [hc] at h; cases h
    · rintro ⟨ps, body, args, hc, hp, hb, ha⟩
      rw [hc]
      simp only []
      rw [hb]
      simp only []
      have : (isSimpleParams ps && argsArePlainNames (ps.params.map (·.1)) args) = true := by
        rw [Bool.and_eq_true, isSimpleParams_iff, argsArePlainNames_iff]; exact ⟨hp, ha⟩
      rw [this]
      rfl
  refine ⟨key, fun hn => ?_⟩
  have h1 : ∀ f, noRedundantLambda node ≠ .fix f := fun f h => hn f ((key f).1 h)
  revert h1
  unfold noRedundantLambda
  cases hc : node.core with
  | lam ps body =>
    simp only []
    cases hb : body.core with
    | call g args =>
      simp only []
      split
      · intro h; exact absurd rfl (h g)
      · intro _; rfl
    | _ => intro _; rfl
  | _ => intro _; rfl

theorem lookup_zip {α : Type} : ∀ (xs : List PStr) (vs : List α) (ρ : List (PStr × α)), xs.Nodup → xs.length = vs.length →
    ∀ (i : Nat) (x : PStr), xs[i]? = some x → ∃ v, vs[i]? = some v ∧ (xs.zip vs ++ ρ).lookup x = some v
  | [], _, _, _, _, i, x, h => by simp at h
  | x :: xs, [], _, _, hl, _, _, _ => by simp at hl
  | x :: xs, v :: vs, ρ, hn, hl, 0, y, h => by
    simp at h; subst h
    exact ⟨v, rfl, by simp⟩
  | x :: xs, v :: vs, ρ, hn, hl, i + 1, y, h => by
    rw [List.nodup_cons] at hn
    obtain ⟨w, h1, h2⟩ := lookup_zip xs vs ρ hn.2 (by simpa using hl) i y (by simpa using h)
    refine ⟨w, by simpa using h1, ?_⟩
    have hne : (y == x) = false := by
      simp only [beq_eq_false_iff_ne, ne_eq]
      rintro rfl
      exact hn.1 (List.mem_of_getElem? (by simpa using h))
    simp only [List.zip_cons_cons, List.cons_append, List.lookup_cons, hne]
    exact h2

/-- The arguments of the forwarding call are the parameters' values. -/
theorem passes_eval {I : Interp} (ρ : I.Locals) : ∀ {xs : List PStr} {as : List Arg} (vs : List I.Val), PassesAll xs as →
    xs.length = vs.length → (∀ s ∈ xs, s ≠ py "None" ∧ s ≠ py "True" ∧ s ≠ py "False") →
    (∀ (i : Nat) x, xs[i]? = some x → ∃ v, vs[i]? = some v ∧ ρ.lookup x = some v) → evalArgs I ρ as = Run.pure (vs, [])
  | [], [], [], _, _, _, _ => rfl
  | [], [], v :: vs, _, hl, _, _ => by simp at hl
  | [], a :: as, _, h, _, _, _ => nomatch h
  | x :: xs, [], _, h, _, _, _ => nomatch h
  | x :: xs, a :: as, [], _, hl, _, _ => by simp at hl
  | x :: xs, a :: as, v :: vs, h, hl, hk, hv => by
    cases h with
    | @cons _ _ e _ he hr =>
      have ih := passes_eval ρ vs hr (by simpa using hl) (fun s hs => hk s (by simp [hs])) (fun i y hy => by
        have := hv (i + 1) y (by simpa using hy)
        simpa using this)
      obtain ⟨w, hw, hlk⟩ := hv 0 x rfl
      simp at hw; subst hw
      have hk0 := hk x (by simp)
      have hev : eval I ρ e = Run.pure v := by
        rw [← eval_core, he, eval, Interp.lookup, if_neg hk0.1, if_neg hk0.2.1, if_neg hk0.2.2, hlk]
      rw [evalArgs, hev, ih]
      rfl

/-- **C85.** Suppose that what is called has no effects and always the same value `g`, and that no parameter of the lambda occurs in it.
Then the fix evaluates to `g`, and the object that the lambda evaluates to does, when called with as many positional arguments as it has
parameters, exactly what `g` does when called with them: the same value, effects and exceptions. -/
theorem C85_meaning (node f : Expr) (h : noRedundantLambda node = .fix f) (I : Interp) (ρ : I.Locals) (g : I.Val)
    (hg : Evaluates I ρ f g) (ps : Params) (body : Expr) (hlam : node.core = .lam ps body) (hlegal : LegalParams ps)
    (hocc : ∀ s ∈ ps.idents, s ∉ f.names)
    (hlaw : LambdaLaw I ρ ps body) :
    eval I ρ f = Run.pure g ∧
    ∀ s fv s', eval I ρ node s = (.ok fv, s') → ∀ vs, vs.length = ps.params.length → I.call fv vs [] = I.call g vs [] := by
  refine ⟨hg, fun s fv s' hfv vs hl => ?_⟩
  obtain ⟨ps', body', args, hc, -, hb, ha⟩ := ((C85_shape node).1 f).1 h
  rw [hlam] at hc
  cases hc
  rw [← eval_core, hlam] at hfv
  rw [hlaw s fv s' vs hfv hl, ← eval_core, hb, eval]
  have hlen : ps.idents.length = vs.length := by rw [hl]; simp [Params.idents]
  have hf : eval I (ps.idents.zip vs ++ ρ) f = Run.pure g := by
    rw [← hg]
    refine eval_agree I f _ _ ?_
    intro x hx
    have hnot : (ps.idents.zip vs).lookup x = none := by
      rw [List.lookup_eq_none_iff]
      rintro ⟨a, b⟩ hp
      have := (List.of_mem_zip hp).1
      simp only [bne_iff_ne, ne_eq]
      rintro rfl
      exact hocc _ this hx
    rw [lookup_append, hnot]
  have hargs := passes_eval (I := I) (ps.idents.zip vs ++ ρ) vs ha hlen hlegal.keyword
    (fun i x hx => lookup_zip ps.idents vs ρ hlegal.nodup hlen i x hx)
  rw [hf, hargs]
  rfl

/-! ## Cases -/

/-- `lambda x, y: f.g(x, y)` -/
def forwarding : Expr :=
  .lam { params := [(py "x", false), (py "y", false)] } (.call (.attr (.name (py "f")) (py "g")) [.pos (.name (py "x")), .pos (.name (py "y"))])

example : noRedundantLambda forwarding = .fix (.attr (.name (py "f")) (py "g")) := rfl

/-- `lambda x, y: f(y, x)`, `lambda x: f(x, x)`, `lambda x=1: f(x)` and `lambda x: f(x=x)` are not reported -/
example : noRedundantLambda (.lam { params := [(py "x", false), (py "y", false)] } (.call (.name (py "f")) [.pos (.name (py "y")), .pos (.name (py "x"))])) = .silent ∧
    noRedundantLambda (.lam { params := [(py "x", false)] } (.call (.name (py "f")) [.pos (.name (py "x")), .pos (.name (py "x"))])) = .silent ∧
    noRedundantLambda (.lam { params := [(py "x", true)] } (.call (.name (py "f")) [.pos (.name (py "x"))])) = .silent ∧
    noRedundantLambda (.lam { params := [(py "x", false)] } (.call (.name (py "f")) [.mk .none (some (py "x")) (.name (py "x"))])) = .silent :=
  ⟨rfl, rfl, rfl, rfl⟩

/-- A program whose calls write down the callee and the arguments; a lambda calls `f.g`. -/
def demoCalls : Interp :=
  { demo xAB with
    function := fun _ _ => Run.pure (dval (py "f.g"))
    call := fun f vs _ => Run.pure (dval (f.1 ++ py "(" ++ (vs.map (·.1)).flatten ++ py ")")) }

example : ∀ s fv s', eval demoCalls [] forwarding s = (.ok fv, s') →
    ∀ vs, vs.length = 2 → demoCalls.call fv vs [] = demoCalls.call (dval (py "f.g")) vs [] :=
  (C85_meaning forwarding _ rfl demoCalls [] (dval (py "f.g")) rfl _ _ rfl ⟨by decide, by decide⟩ (by decide)
    (by
      intro s fv s' vs h hl
      cases h
      match vs, hl with
      | [a, b], _ => rfl)).2

/-- **Finding.** The callee may be a parameter: `lambda x: x(x)` is replaced by `x`, which is some other variable, or none. -/
theorem C85_parameter (x : PStr) :
    noRedundantLambda (.lam { params := [(x, false)] } (.call (.name x) [.pos (.name x)])) = .fix (.name x) := by
  rw [(C85_shape _).1]
  exact ⟨_, _, _, rfl, ⟨rfl, rfl, rfl, rfl, by simp⟩, rfl, .cons rfl .nil⟩

/-- **Finding.** The callee may be an expression with effects: making `lambda x: f()(x)` calls nothing, but its replacement `f()` is a call
that takes place at once. -/
theorem C85_called_early : ∃ node fixed, noRedundantLambda node = .fix fixed ∧
    (∀ calls, (eval tracing [] node calls).2 = calls) ∧ (∀ calls : List PStr, (eval tracing [] fixed calls).2 = calls ++ [py "f"]) :=
  ⟨.lam { params := [(py "x", false)] } (.call (.call (.name (py "f")) []) [.pos (.name (py "x"))]), .call (.name (py "f")) [], rfl,
    fun _ => rfl, fun _ => rfl⟩

end Cst
