import Verif.Props.RulesLambda
import Verif.Props.RulesCompare

/-! # C86: list comprehensions inside `any` and `all` -/

namespace Cst
open Py

/-- **C86.** A call is reported exactly when it calls the name `any` or `all` with a single argument that is a list comprehension (with or
without star or keyword); the fix puts the generator expression with the same element and clauses for it and changes nothing else. -/
theorem C86_shape (node : Expr) :
    (∀ e', noRedundantListComprehension node = .fix e' ↔
      ∃ f st kw v elt cs, node.core = .call f [.mk st kw v] ∧ v.core = .listComp elt cs ∧ (f.core = .name (py "any") ∨ f.core = .name (py "all")) ∧
        e' = node.withCore fun _ => .call f [.mk st kw (.genExp elt cs)]) ∧
    ((∀ e', noRedundantListComprehension node ≠ .fix e') → noRedundantListComprehension node = .silent) := by
  have hname : ∀ f : Expr, (f.isName (py "all") || f.isName (py "any")) = true ↔ (f.core = .name (py "any") ∨ f.core = .name (py "all")) := by
    intro f
    rw [Bool.or_eq_true, isName_iff, isName_iff]
    exact Or.comm
  constructor
  · intro e'
    constructor
    · intro h
      unfold noRedundantListComprehension at h
      split at h
      · rename_i f st kw v hc
        split at h
        · rename_i elt cs hv
          split at h
          · rename_i hn
            cases h
            exact ⟨f, st, kw, v, elt, cs, hc, hv, (hname f).1 hn, rfl⟩
          · cases h
        · cases h
      · cases h
    · rintro ⟨f, st, kw, v, elt, cs, hc, hv, hn, rfl⟩
      unfold noRedundantListComprehension
      rw [hc]
      simp only []
      rw [hv]
      simp only []
      rw [if_pos ((hname f).2 hn)]
  · intro h
    revert h
    unfold noRedundantListComprehension
    split
    · split
      · split
        · intro h; exact absurd rfl (h _)
        · intro _; rfl
      · intro _; rfl
    · intro _; rfl

/-! ## Meaning -/

theorem Run.bind_assoc {S E α β γ : Type} (r : Run S E α) (f : α → Run S E β) (g : β → Run S E γ) :
    (r.bind f).bind g = r.bind fun a => (f a).bind g := by
  funext s
  show Run.andThen g (Run.andThen f (r s)) = Run.andThen _ (r s)
  cases r s with
  | mk x s' => cases x <;> rfl

theorem Run.pure_bind {S E α β : Type} (a : α) (f : α → Run S E β) : (Run.pure a : Run S E α).bind f = f a := rfl

theorem Run.bind_pure {S E α : Type} (r : Run S E α) : r.bind Run.pure = r := by
  funext s
  show Run.andThen _ (r s) = r s
  cases r s with
  | mk x s' => cases x <;> rfl

theorem toList_after {S E V α : Type} (r : Run S E α) (k : α → Flow S E V) : (Flow.after r k).toList = r.bind fun a => (k a).toList := by
  funext s
  have h : (Flow.after r k).toList s = (match (r s).1 with | .ok a => k a | .error e => Flow.raise e).toList (r s).2 := rfl
  rw [h]
  show _ = Run.andThen _ (r s)
  cases r s with
  | mk x s' => cases x <;> rfl

/-- A comprehension evaluates its first iterable and then goes on as the generator expression does when asked. -/
theorem clauses_first (I : Interp) (ρ : I.Locals) (cs : List Clause) {U : Type} (k : I.Locals → Flow I.St I.Exc U) :
    ((evalClauses I ρ cs).each k).toList = (evalFirst I ρ cs).bind fun fl => (fl.each k).toList := by
  cases cs with
  | nil => rw [evalClauses, evalFirst]; rfl
  | cons c cs =>
    obtain ⟨a, t, it, ifs⟩ := c
    rw [evalClauses, evalFirst, Flow.each_after, Run.bind_assoc, toList_after]
    rfl

theorem quantify_list {S E V : Type} (stop : Bool) (t : V → Bool) (vs : List V) :
    (Flow.ofList vs : Flow S E V).quantify stop (fun v => Run.pure (t v)) = Run.pure (if vs.any (fun v => t v == stop) then stop else !stop) := by
  induction vs with
  | nil => rfl
  | cons v vs ih =>
    show (if t v = stop then Run.pure stop else _) = _
    by_cases h : t v = stop
    · simp [h]
    · rw [if_neg h, ih]
      have : (t v == stop) = false := by simpa using h
      rw [List.any_cons, this, Bool.false_or]

theorem quantify_flow {S E V : Type} (stop : Bool) (t : V → Bool) : ∀ (fl : Flow S E V) (s : S),
    (∀ vs s1, fl.toList s = (.ok vs, s1) → ∃ s2, fl.quantify stop (fun v => Run.pure (t v)) s =
      (.ok (if vs.any (fun v => t v == stop) then stop else !stop), s2)) ∧
    (∀ e s1, fl.toList s = (.error e, s1) → (fl.quantify stop (fun v => Run.pure (t v)) s = (.error e, s1)) ∨
      ∃ s2, fl.quantify stop (fun v => Run.pure (t v)) s = (.ok stop, s2))
  | .done, s => ⟨fun vs s1 h => by cases h; exact ⟨s, rfl⟩, fun e s1 h => by cases h⟩
  | .raise e, s => ⟨fun vs s1 h => by (cases h), fun e' s1 h => by cases h; exact .inl rfl⟩
  | .yield v r, s => by
    obtain ⟨ih1, ih2⟩ := quantify_flow stop t r s
    have hq : (Flow.yield v r).quantify stop (fun v => Run.pure (t v)) s = if t v = stop then (.ok stop, s) else r.quantify stop (fun v => Run.pure (t v)) s := by
      show (if t v = stop then (Run.pure stop : Run S E Bool) else r.quantify stop (fun v => Run.pure (t v))) s = _
      split <;> rfl
    have ht : (Flow.yield v r).toList s = Run.andThen (fun vs => Run.pure (v :: vs)) (r.toList s) := rfl
    rw [hq, ht]
    by_cases h : t v = stop
    · rw [if_pos h]
      constructor
      · intro vs s1 hx
        cases hr : r.toList s with
        | mk x s' =>
          rw [hr] at hx
          cases x with
          | error e => cases hx
          | ok ws => cases hx; exact ⟨s, by simp [h]⟩
      · intro e s1 _
        exact .inr ⟨s, rfl⟩
    · rw [if_neg h]
      have hf : (t v == stop) = false := by simpa using h
      constructor
      · intro vs s1 hx
        cases hr : r.toList s with
        | mk x s' =>
          rw [hr] at hx
          cases x with
          | error e => cases hx
          | ok ws =>
            cases hx
            obtain ⟨s2, h2⟩ := ih1 ws _ hr
            exact ⟨s2, by rw [h2, List.any_cons, hf, Bool.false_or]⟩
      · intro e s1 hx
        cases hr : r.toList s with
        | mk x s' =>
          rw [hr] at hx
          cases x with
          | error e => cases hx; exact ih2 _ _ hr
          | ok ws => cases hx
  | .act f k, s => quantify_flow stop t (k s) (f s)

theorem evalArgs_pos (I : Interp) (ρ : I.Locals) (v : Expr) : evalArgs I ρ [.mk .none none v] = (eval I ρ v).bind fun x => Run.pure ([x], []) := by
  rw [evalArgs]
  rfl

theorem eval_call_one {I : Interp} {ρ : I.Locals} {f v : Expr} {fv : I.Val} (hf : Evaluates I ρ f fv) :
    eval I ρ (.call f [.mk .none none v]) = (eval I ρ v).bind fun x => I.call fv [x] [] := by
  rw [eval, hf, evalArgs_pos, Run.pure_bind, Run.bind_assoc]
  rfl

theorem eval_withCore (I : Interp) (ρ : I.Locals) (node e : Expr) (he : e.core = e) : eval I ρ (node.withCore fun _ => e) = eval I ρ e := by
  rw [← eval_core, core_withCore (f := fun _ => e) (fun _ => he)]

/-- **C86.** Where testing the elements' truth has no effects, `any` and `all` are the builtins, and nothing is awaited: if the call with
the list comprehension comes out with a value, the rewritten call comes out with the same value; if it raises, the rewritten call raises the
same exception or comes out with the answer that the elements before the exception already decide (`True` for `any`, `False` for `all`). -/
theorem C86_meaning (node e' : Expr) (h : noRedundantListComprehension node = .fix e') (I : Interp) (ρ : I.Locals) (stop : Bool) (fv : I.Val)
    (f v elt : Expr) (cs : List Clause) (hcall : node.core = .call f [.pos v]) (hv : v.core = .listComp elt cs)
    (hf : Evaluates I ρ f fv) (hlaws : QuantifierLaws I stop fv ρ elt cs) (t : I.Val → Bool) (ht : ∀ v, I.truth v = Run.pure (t v)) (s : I.St) :
    (∀ b s1, eval I ρ node s = (.ok b, s1) → ∃ s2, eval I ρ e' s = (.ok b, s2)) ∧
    (∀ e s1, eval I ρ node s = (.error e, s1) → eval I ρ e' s = (.error e, s1) ∨ ∃ s2, eval I ρ e' s = (.ok (I.ofBool stop), s2)) := by
  have htr : I.truth = fun v => Run.pure (t v) := funext ht
  obtain ⟨f', st, kw, v', elt', cs', hc, hv', -, rfl⟩ := ((C86_shape node).1 e').1 h
  rw [hcall] at hc
  cases hc
  rw [hv] at hv'
  cases hv'
  have hold : eval I ρ node = (evalFirst I ρ cs).bind fun fl => (fl.each fun ρ' => .just (eval I ρ' elt)).toList.bind fun vs =>
      Run.pure (I.ofBool (if vs.any (fun v => t v == stop) then stop else !stop)) := by
    rw [← eval_core, hcall]
    show eval I ρ (.call f [.mk .none none v]) = _
    rw [eval_call_one hf, ← eval_core I ρ v, hv, eval, Run.bind_assoc, clauses_first, Run.bind_assoc]
    congr 1; funext fl
    congr 1; funext vs
    rw [hlaws.list, htr, quantify_list]
    rfl
  have hnew : eval I ρ (node.withCore fun _ => .call f [.mk .none none (.genExp elt cs)]) = (evalFirst I ρ cs).bind fun fl =>
      ((fl.each fun ρ' => .just (eval I ρ' elt)).quantify stop fun v => Run.pure (t v)).bind fun b => Run.pure (I.ofBool b) := by
    rw [eval_withCore I ρ node _ rfl, eval_call_one hf, hlaws.gen, htr]
  rw [hold, hnew]
  show (∀ b s1, Run.andThen _ (evalFirst I ρ cs s) = _ → ∃ s2, Run.andThen _ (evalFirst I ρ cs s) = _) ∧
    (∀ e s1, Run.andThen _ (evalFirst I ρ cs s) = _ → Run.andThen _ (evalFirst I ρ cs s) = _ ∨ ∃ s2, Run.andThen _ (evalFirst I ρ cs s) = _)
  cases evalFirst I ρ cs s with
  | mk x s' =>
    cases x with
    | error e => exact ⟨fun b s1 hx => by (cases hx), fun e' s1 hx => .inl hx⟩
    | ok fl =>
      obtain ⟨q1, q2⟩ := quantify_flow stop t (fl.each fun ρ' => .just (eval I ρ' elt)) s'
      simp only [Run.andThen, Run.bind]
      cases hl : (fl.each fun ρ' => .just (eval I ρ' elt)).toList s' with
      | mk y s'' =>
        cases y with
        | error e =>
          refine ⟨fun b s1 hx => by (cases hx), fun e' s1 hx => ?_⟩
          cases hx
          rcases q2 _ _ hl with hq | ⟨s2, hq⟩
          · left; rw [hq]
          · right; exact ⟨s2, by rw [hq]; rfl⟩
        | ok vs =>
          refine ⟨fun b s1 hx => ?_, fun e' s1 hx => by cases hx⟩
          obtain ⟨s2, hq⟩ := q1 _ _ hl
          exact ⟨s2, by rw [hq]; simp only [Run.pure] at hx ⊢; cases hx; rfl⟩

/-! ## Cases -/

theorem seqs_quantify (stop : Bool) : ∀ fl : Flow Unit PStr SV, SV.quantify stop fl.drain.1 fl.drain.2 =
    (fl.quantify stop seqs.truth).bind fun b => Run.pure (seqs.ofBool b)
  | .done => by cases stop <;> rfl
  | .raise e => rfl
  | .yield v r => by
    have hl : SV.quantify stop (Flow.yield v r).drain.1 (Flow.yield v r).drain.2 =
      if v.truth = stop then Run.pure (.atom (if stop then py "True" else py "False")) else SV.quantify stop r.drain.1 r.drain.2 := rfl
    have hr : (Flow.yield v r).quantify stop seqs.truth = if v.truth = stop then Run.pure stop else r.quantify stop seqs.truth := rfl
    rw [hl, hr, seqs_quantify stop r]
    by_cases h : v.truth = stop
    · simp only [h, if_true]; cases stop <;> rfl
    · simp only [h, if_false]; rfl
  | .act f k => seqs_quantify stop (k ())

theorem drain_ofList (vs : List SV) : (Flow.ofList vs : Flow Unit PStr SV).drain = (vs, none) := by
  induction vs with
  | nil => rfl
  | cons v vs ih => simp only [Flow.ofList, Flow.drain, ih]

/-- The builtins of the demo program obey the laws, for every generator expression that awaits nothing. -/
theorem seqs_laws (stop : Bool) (ρ : seqs.Locals) (elt : Expr) (cs : List Clause) (h : isAsyncComp elt cs = false) :
    QuantifierLaws seqs stop (SV.atom (if stop then py "any" else py "all")) ρ elt cs where
  list := by
    intro vs
    have : ((seqs.list vs).bind fun l => seqs.call (SV.atom (if stop then py "any" else py "all")) [l] []) = SV.quantify stop vs none := by
      cases stop <;> rfl
    rw [this]
    have h2 := seqs_quantify stop (Flow.ofList vs)
    have h3 : (Flow.ofList vs : Flow Unit PStr SV).drain = (vs, none) := drain_ofList vs
    exact (congrArg (fun p : List SV × Option PStr => SV.quantify stop p.1 p.2) h3).symm.trans h2
  gen := by
    rw [eval, Run.bind_assoc]
    congr 1; funext fl
    rw [show (elt.awaits || awaitsClauses cs) = false from h]
    refine Eq.trans ?_ (seqs_quantify stop (fl.each fun ρ' => .just (eval seqs ρ' elt)))
    cases stop <;> rfl

/-- `any([f(x) for x in y if x])` -/
def anyCall : Expr :=
  .call (.name (py "any")) [.pos (.listComp (.call (.name (py "f")) [.pos (.name (py "x"))])
    [.mk false (.name (py "x")) (.name (py "y")) [.name (py "x")]])]

example : noRedundantListComprehension anyCall = .fix (.call (.name (py "any")) [.pos (.genExp (.call (.name (py "f")) [.pos (.name (py "x"))])
    [.mk false (.name (py "x")) (.name (py "y")) [.name (py "x")]])]) := rfl

example (ρ : seqs.Locals) (hρ : ρ.lookup (py "any") = none) (b : SV) (h : eval seqs ρ anyCall () = (.ok b, ())) :
    ∃ s2, eval seqs ρ (.call (.name (py "any")) [.pos (.genExp (.call (.name (py "f")) [.pos (.name (py "x"))])
      [.mk false (.name (py "x")) (.name (py "y")) [.name (py "x")]])]) () = (.ok b, s2) :=
  (C86_meaning anyCall _ rfl seqs ρ true (SV.atom (py "any")) _ _ _ _ rfl rfl
    (by unfold Evaluates; rw [eval, Interp.lookup]; simp only [hρ]; rfl) (seqs_laws true ρ _ _ rfl) SV.truth (fun _ => rfl) ()).1 b () h

/-- The rewritten call can come out where the old one raises: `y` hands out `1` and then raises. -/
example : eval seqs [(py "y", .gen [.atom (py "1")] (some (py "E")))] anyCall () = (.error (py "E"), ()) ∧
    ∀ e', noRedundantListComprehension anyCall = .fix e' →
      eval seqs [(py "y", .gen [.atom (py "1")] (some (py "E")))] e' () = (.ok (.atom (py "True")), ()) :=
  ⟨rfl, fun e' h => by cases h; rfl⟩

/-- **Finding.** With `async for` or `await` inside, the generator expression is an asynchronous generator, which `any` and `all` cannot
iterate over: `any([x async for x in y])` comes out `True`, and its replacement raises `TypeError`. -/
theorem C86_async : ∃ node e', noRedundantListComprehension node = .fix e' ∧ ∃ ρ : seqs.Locals,
    eval seqs ρ node () = (.ok (.atom (py "True")), ()) ∧ eval seqs ρ e' () = (.error (py "TypeError"), ()) :=
  ⟨.call (.name (py "any")) [.pos (.listComp (.name (py "x")) [.mk true (.name (py "x")) (.name (py "y")) []])], _, rfl,
    [(py "y", .lst [.atom (py "1")])], rfl, rfl⟩

end Cst
