import Verif.Spec.PyEval
import Verif.Spec.PyNames

/-! # The value of an expression depends only on the variables that occur in it -/

namespace Cst
open Py

/-- Two sets of local variables agree on these names. -/
def Agree {I : Interp} (xs : List PStr) (ρ ρ' : I.Locals) : Prop := ∀ s ∈ xs, ρ.lookup s = ρ'.lookup s

theorem Agree.left {I : Interp} {xs ys : List PStr} {ρ ρ' : I.Locals} (h : Agree (xs ++ ys) ρ ρ') : Agree xs ρ ρ' :=
  fun s hs => h s (List.mem_append_left _ hs)

theorem Agree.right {I : Interp} {xs ys : List PStr} {ρ ρ' : I.Locals} (h : Agree (xs ++ ys) ρ ρ') : Agree ys ρ ρ' :=
  fun s hs => h s (List.mem_append_right _ hs)

theorem lookup_append {α : Type} (b : List (PStr × α)) (s : PStr) (ρ : List (PStr × α)) :
    (b ++ ρ).lookup s = match b.lookup s with | some v => some v | none => ρ.lookup s := by
  induction b with
  | nil => rfl
  | cons p ps ih =>
    obtain ⟨k, v⟩ := p
    simp only [List.cons_append, List.lookup_cons]
    cases s == k with
    | true => rfl
    | false => exact ih

theorem Agree.more {I : Interp} {xs : List PStr} {ρ ρ' : I.Locals} (h : Agree xs ρ ρ') (b : I.Locals) : Agree xs (b ++ ρ) (b ++ ρ') := by
  intro s hs
  rw [lookup_append, lookup_append, h s hs]

namespace Flow
variable {S E V U W : Type}

theorem each_append (k : V → Flow S E U) : ∀ (a b : Flow S E V), (a.append b).each k = (a.each k).append (b.each k)
  | .done, _ => rfl
  | .raise _, _ => rfl
  | .yield v r, b => by
    show (k v).append ((r.append b).each k) = ((k v).append (r.each k)).append (b.each k)
    rw [each_append k r b]
    exact (append_assoc (k v) _ _).symm
  | .act f g, b => by
    show Flow.act f (fun s => ((g s).append b).each k) = .act f (fun s => ((g s).each k).append (b.each k))
    congr 1; funext s; exact each_append k (g s) b
where
  append_assoc {V : Type} : ∀ (a b c : Flow S E V), (a.append b).append c = a.append (b.append c)
  | .done, _, _ => rfl
  | .raise _, _, _ => rfl
  | .yield v r, b, c => by show Flow.yield v _ = Flow.yield v _; rw [append_assoc r b c]
  | .act f g, b, c => by show Flow.act f _ = Flow.act f _; congr 1; funext s; exact append_assoc (g s) b c

theorem each_each (g : V → Flow S E U) (k : U → Flow S E W) : ∀ fl : Flow S E V, (fl.each g).each k = fl.each fun v => (g v).each k
  | .done => rfl
  | .raise _ => rfl
  | .yield v r => by
    show ((g v).append (r.each g)).each k = ((g v).each k).append (r.each _)
    rw [each_append, each_each g k r]
  | .act f h => by show Flow.act f _ = Flow.act f _; congr 1; funext s; exact each_each g k (h s)

theorem each_after {α : Type} (r : Run S E α) (h : α → Flow S E V) (k : V → Flow S E U) :
    (after r h).each k = after r fun a => (h a).each k := by
  show Flow.act _ _ = Flow.act _ _
  congr 1
  funext s
  show each k (match (r s).1 with | .ok a => h a | .error e => raise e) = match (r s).1 with | .ok a => (h a).each k | .error e => raise e
  cases (r s).1 <;> rfl

theorem append_done : ∀ a : Flow S E V, a.append .done = a
  | .done => rfl
  | .raise _ => rfl
  | .yield v r => by show Flow.yield v _ = _; rw [append_done r]
  | .act f g => by show Flow.act f _ = _; congr 1; funext s; exact append_done (g s)

end Flow

mutual
theorem eval_agree (I : Interp) : ∀ (e : Expr) (ρ ρ' : I.Locals), Agree e.names ρ ρ' → eval I ρ e = eval I ρ' e
  | .name s, ρ, ρ', h => by rw [eval, eval, Interp.lookup, Interp.lookup, h s (by simp [Expr.names])]
  | .num _, _, _, _ => rfl
  | .str _, _, _, _ => rfl
  | .fstr ps, ρ, ρ', h => by rw [eval, eval, parts_agree I ps ρ ρ' (by simpa [Expr.names] using h)]
  | .attr v a, ρ, ρ', h => by rw [eval, eval, eval_agree I v ρ ρ' (by simpa [Expr.names] using h)]
  | .call f as, ρ, ρ', h => by
    rw [Expr.names] at h
    rw [eval, eval, eval_agree I f ρ ρ' h.left, args_agree I as ρ ρ' h.right]
  | .lam ps b, ρ, ρ', h => by
    rw [eval, eval]
    congr 1; funext bound
    exact eval_agree I b _ _ (Agree.more (by simpa [Expr.names] using h) bound)
  | .bool op l r, ρ, ρ', h => by
    rw [Expr.names] at h
    rw [eval, eval, eval_agree I l ρ ρ' h.left, eval_agree I r ρ ρ' h.right]
  | .not e, ρ, ρ', h => by rw [eval, eval, eval_agree I e ρ ρ' (by simpa [Expr.names] using h)]
  | .comp l ts, ρ, ρ', h => by
    rw [Expr.names] at h
    rw [eval, eval, eval_agree I l ρ ρ' h.left]
    congr 1; funext v
    exact targets_agree I ts ρ ρ' v h.right
  | .tuple es, ρ, ρ', h => by rw [eval, eval, elems_agree I es ρ ρ' (by simpa [Expr.names] using h)]
  | .list es, ρ, ρ', h => by rw [eval, eval, elems_agree I es ρ ρ' (by simpa [Expr.names] using h)]
  | .set es, ρ, ρ', h => by rw [eval, eval, elems_agree I es ρ ρ' (by simpa [Expr.names] using h)]
  | .dict es, ρ, ρ', h => by rw [eval, eval, dict_agree I es ρ ρ' (by simpa [Expr.names] using h)]
  | .genExp e cs, ρ, ρ', h => by
    rw [Expr.names] at h
    rw [eval, eval]
    exact first_agree I cs ρ ρ' h.right _ _ (fun b => congrArg Flow.just (eval_agree I e _ _ (h.left.more b))) _
  | .listComp e cs, ρ, ρ', h => by
    rw [Expr.names] at h
    rw [eval, eval, clauses_agree I cs ρ ρ' h.right _ (fun ρ' => .just (eval I ρ' e)) (fun b => congrArg Flow.just (eval_agree I e _ _ (h.left.more b)))]
  | .setComp e cs, ρ, ρ', h => by
    rw [Expr.names] at h
    rw [eval, eval, clauses_agree I cs ρ ρ' h.right _ (fun ρ' => .just (eval I ρ' e)) (fun b => congrArg Flow.just (eval_agree I e _ _ (h.left.more b)))]
  | .dictComp k v cs, ρ, ρ', h => by
    rw [Expr.names] at h
    rw [eval, eval, clauses_agree I cs ρ ρ' h.right _
      (fun ρ' => .just ((eval I ρ' k).bind fun a => (eval I ρ' v).bind fun b => Run.pure (a, b))) (fun b => by
      rw [eval_agree I k _ _ (h.left.left.more b), eval_agree I v _ _ (h.left.right.more b)])]
  | .await e, ρ, ρ', h => by rw [eval, eval, eval_agree I e ρ ρ' (by simpa [Expr.names] using h)]
  | .other k es, ρ, ρ', h => by rw [eval, eval, exprs_agree I es ρ ρ' (by simpa [Expr.names] using h)]
  | .paren e, ρ, ρ', h => by rw [eval, eval, eval_agree I e ρ ρ' (by simpa [Expr.names] using h)]

theorem exprs_agree (I : Interp) : ∀ (es : List Expr) (ρ ρ' : I.Locals), Agree (namesExprs es) ρ ρ' → evalExprs I ρ es = evalExprs I ρ' es
  | [], _, _, _ => rfl
  | e :: es, ρ, ρ', h => by
    rw [namesExprs] at h
    rw [evalExprs, evalExprs, eval_agree I e ρ ρ' h.left, exprs_agree I es ρ ρ' h.right]

theorem parts_agree (I : Interp) : ∀ (ps : List FPart) (ρ ρ' : I.Locals), Agree (namesParts ps) ρ ρ' → evalParts I ρ ps = evalParts I ρ' ps
  | [], _, _, _ => rfl
  | .text t :: ps, ρ, ρ', h => by rw [namesParts] at h; rw [evalParts, evalParts, parts_agree I ps ρ ρ' h]
  | .expr e sp :: ps, ρ, ρ', h => by
    rw [namesParts] at h
    rw [evalParts, evalParts, eval_agree I e ρ ρ' h.left, parts_agree I ps ρ ρ' h.right]

theorem args_agree (I : Interp) : ∀ (as : List Arg) (ρ ρ' : I.Locals), Agree (namesArgs as) ρ ρ' → evalArgs I ρ as = evalArgs I ρ' as
  | [], _, _, _ => rfl
  | .mk .one _ e :: as, ρ, ρ', h => by
    rw [namesArgs] at h
    rw [evalArgs, evalArgs, eval_agree I e ρ ρ' h.left, args_agree I as ρ ρ' h.right]
  | .mk .two _ e :: as, ρ, ρ', h => by
    rw [namesArgs] at h
    rw [evalArgs, evalArgs, eval_agree I e ρ ρ' h.left, args_agree I as ρ ρ' h.right]
  | .mk .none (some k) e :: as, ρ, ρ', h => by
    rw [namesArgs] at h
    rw [evalArgs, evalArgs, eval_agree I e ρ ρ' h.left, args_agree I as ρ ρ' h.right]
  | .mk .none none e :: as, ρ, ρ', h => by
    rw [namesArgs] at h
    rw [evalArgs, evalArgs, eval_agree I e ρ ρ' h.left, args_agree I as ρ ρ' h.right]

theorem targets_agree (I : Interp) : ∀ (ts : List Target) (ρ ρ' : I.Locals) (v : I.Val), Agree (namesTargets ts) ρ ρ' →
    evalTargets I ρ v ts = evalTargets I ρ' v ts
  | [], _, _, _, _ => rfl
  | .mk op e :: ts, ρ, ρ', v, h => by
    rw [namesTargets] at h
    rw [evalTargets, evalTargets, eval_agree I e ρ ρ' h.left]
    congr 1; funext w
    rw [targets_agree I ts ρ ρ' w h.right]

theorem elems_agree (I : Interp) : ∀ (es : List Elem) (ρ ρ' : I.Locals), Agree (namesElems es) ρ ρ' → evalElems I ρ es = evalElems I ρ' es
  | [], _, _, _ => rfl
  | .plain e :: es, ρ, ρ', h => by
    rw [namesElems] at h
    rw [evalElems, evalElems, eval_agree I e ρ ρ' h.left, elems_agree I es ρ ρ' h.right]
  | .starred e :: es, ρ, ρ', h => by
    rw [namesElems] at h
    rw [evalElems, evalElems, eval_agree I e ρ ρ' h.left, elems_agree I es ρ ρ' h.right]

theorem dict_agree (I : Interp) : ∀ (es : List DictElem) (ρ ρ' : I.Locals), Agree (namesDict es) ρ ρ' → evalDict I ρ es = evalDict I ρ' es
  | [], _, _, _ => rfl
  | .pair k v :: es, ρ, ρ', h => by
    rw [namesDict] at h
    rw [evalDict, evalDict, eval_agree I k ρ ρ' h.left.left, eval_agree I v ρ ρ' h.left.right, dict_agree I es ρ ρ' h.right]
  | .starred e :: es, ρ, ρ', h => by
    rw [namesDict] at h
    rw [evalDict, evalDict, eval_agree I e ρ ρ' h.left, dict_agree I es ρ ρ' h.right]

theorem ifs_agree (I : Interp) : ∀ (es : List Expr) (ρ ρ' : I.Locals), Agree (namesExprs es) ρ ρ' → evalIfs I ρ es = evalIfs I ρ' es
  | [], _, _, _ => rfl
  | e :: es, ρ, ρ', h => by
    rw [namesExprs] at h
    rw [evalIfs, evalIfs, eval_agree I e ρ ρ' h.left, ifs_agree I es ρ ρ' h.right]

theorem clauses_agree (I : Interp) {U : Type} : ∀ (cs : List Clause) (ρ ρ' : I.Locals), Agree (namesClauses cs) ρ ρ' →
    ∀ (k k' : I.Locals → Flow I.St I.Exc U), (∀ b, k (b ++ ρ) = k' (b ++ ρ')) → (evalClauses I ρ cs).each k = (evalClauses I ρ' cs).each k'
  | [], ρ, ρ', _, k, k', hk => by
    rw [evalClauses, evalClauses]
    show (k ρ).append .done = (k' ρ').append .done
    have := hk []
    rw [List.nil_append, List.nil_append] at this
    rw [this]
  | .mk a t it ifs :: cs, ρ, ρ', h, k, k', hk => by
    rw [namesClauses] at h
    rw [evalClauses, evalClauses, eval_agree I it ρ ρ' h.left.left, Flow.each_after, Flow.each_after]
    congr 1; funext v
    rw [Flow.each_each, Flow.each_each]
    congr 1; funext x
    rw [Flow.each_after, Flow.each_after]
    congr 1; funext b
    rw [Flow.each_after, Flow.each_after, ifs_agree I ifs _ _ (h.left.right.more b)]
    congr 1; funext ok
    cases ok with
    | false => rfl
    | true =>
      exact clauses_agree I cs (b ++ ρ) (b ++ ρ') (h.right.more b) k k' fun b' => by
        have := hk (b' ++ b)
        rwa [List.append_assoc, List.append_assoc] at this

theorem first_agree (I : Interp) {U : Type} : ∀ (cs : List Clause) (ρ ρ' : I.Locals), Agree (namesClauses cs) ρ ρ' →
    ∀ (k k' : I.Locals → Flow I.St I.Exc U), (∀ b, k (b ++ ρ) = k' (b ++ ρ')) → ∀ (g : Flow I.St I.Exc U → Run I.St I.Exc I.Val),
      ((evalFirst I ρ cs).bind fun fl => g (fl.each k)) = ((evalFirst I ρ' cs).bind fun fl => g (fl.each k'))
  | [], ρ, ρ', _, k, k', hk, g => by
    rw [evalFirst, evalFirst]
    show g ((k ρ).append .done) = g ((k' ρ').append .done)
    have := hk []
    rw [List.nil_append, List.nil_append] at this
    rw [this]
  | .mk a t it ifs :: cs, ρ, ρ', h, k, k', hk, g => by
    rw [namesClauses] at h
    rw [evalFirst, evalFirst, eval_agree I it ρ ρ' h.left.left]
    funext s
    show Run.andThen _ (Run.andThen _ (eval I ρ' it s)) = Run.andThen _ (Run.andThen _ (eval I ρ' it s))
    cases eval I ρ' it s with
    | mk r s' =>
      cases r with
      | error e => rfl
      | ok v =>
        show g (Flow.each k _) s' = g (Flow.each k' _) s'
        rw [Flow.each_each, Flow.each_each]
        congr 2; funext x
        rw [Flow.each_after, Flow.each_after]
        congr 1; funext b
        rw [Flow.each_after, Flow.each_after, ifs_agree I ifs _ _ (h.left.right.more b)]
        congr 1; funext ok
        cases ok with
        | false => rfl
        | true =>
          exact clauses_agree I cs (b ++ ρ) (b ++ ρ') (h.right.more b) k k' fun b' => by
            have := hk (b' ++ b)
            rwa [List.append_assoc, List.append_assoc] at this
end

end Cst
