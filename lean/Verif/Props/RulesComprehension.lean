import Verif.Props.RulesLiteral

/-! # C88: calls of `list`, `set` and `dict` that can be written as comprehensions -/

namespace Cst
open Py

theorem compParts_iff {e elt : Expr} {cs : List Clause} : compParts e = some (elt, cs) ↔ Comprehension e elt cs := by
  unfold compParts Comprehension
  constructor
  · intro h
    cases hc : e.core with
    | genExp x xs => rw [hc] at h; cases h; exact .inl rfl
    | listComp x xs => rw [hc] at h; cases h; exact .inr rfl
    | _ => rw [hc] at h; cases h
  · rintro (h | h) <;> rw [h]

theorem comprehension_cases (node : Expr) :
    (∃ e', rewriteToComprehension node = .fix e' ∧ ComprehensionFor node e') ∨
    (rewriteToComprehension node = .crash ∧ ShortPairs node) ∨ rewriteToComprehension node = .silent := by
  unfold rewriteToComprehension
  split
  · rename_i f st kw v hc
    cases hp : compParts v with
    | none => exact .inr (.inr rfl)
    | some p =>
      obtain ⟨elt, cs⟩ := p
      have hv := compParts_iff.1 hp
      simp only []
      split
      · rename_i hn; exact .inl ⟨_, rfl, .list hc (isName_iff.1 hn) hv⟩
      · split
        · rename_i hn; exact .inl ⟨_, rfl, .set hc (isName_iff.1 hn) hv⟩
        · split
          · rename_i hn
            split
            · rename_i a b rest hd; exact .inl ⟨_, rfl, .dict hc (isName_iff.1 hn) hv (displayElems_iff.1 hd)⟩
            · rename_i es hne hd
              refine .inr (.inl ⟨rfl, .mk hc (isName_iff.1 hn) hv (displayElems_iff.1 hd) ?_⟩)
              match es, hne with
              | [], _ => simp
              | [a], _ => simp
              | a :: b :: rest, hne => exact absurd rfl (hne a b rest)
            · exact .inr (.inr rfl)
          · exact .inr (.inr rfl)
  · exact .inr (.inr rfl)

theorem fix_comprehension {node e' : Expr} (h : ComprehensionFor node e') : rewriteToComprehension node = .fix e' := by
  cases h with
  | list hc hn hv => unfold rewriteToComprehension; rw [hc]; simp only [hn.isName, compParts_iff.2 hv]; rfl
  | set hc hn hv => unfold rewriteToComprehension; rw [hc]; simp only [hn.isName, compParts_iff.2 hv]; rfl
  | dict hc hn hv hd => unfold rewriteToComprehension; rw [hc]; simp only [hn.isName, compParts_iff.2 hv, displayElems_iff.2 hd]; rfl

theorem crash_comprehension {node : Expr} (h : ShortPairs node) : rewriteToComprehension node = .crash := by
  cases h with
  | @mk f st kw v elt cs es hc hn hv hd hl =>
    unfold rewriteToComprehension; rw [hc]; simp only [hn.isName, compParts_iff.2 hv, displayElems_iff.2 hd]
    match es, hl with
    | [], _ => rfl
    | [a], _ => rfl
    | a :: b :: rest, hl => simp only [List.length_cons] at hl; omega

/-- **C88.** A call is reported exactly when it calls the name `list`, `set` or `dict` with one argument that is a generator expression or a
list comprehension, which for `dict` must have a list or tuple display as its element; the fix is the comprehension with the same element
and clauses. If the display has fewer than two items, the rule raises instead; in all other cases it says nothing. -/
theorem C88_shape (node : Expr) :
    (∀ e', rewriteToComprehension node = .fix e' ↔ ComprehensionFor node e') ∧
    (rewriteToComprehension node = .crash ↔ ShortPairs node) ∧
    ((∀ e', ¬ ComprehensionFor node e') → ¬ ShortPairs node → rewriteToComprehension node = .silent) := by
  refine ⟨fun e' => ⟨fun h => ?_, fix_comprehension⟩, ⟨fun h => ?_, crash_comprehension⟩, fun h1 h2 => ?_⟩
  · rcases comprehension_cases node with ⟨x, hx, hc⟩ | ⟨hx, -⟩ | hx
    · rw [h] at hx; cases hx; exact hc
    · rw [h] at hx; cases hx
    · rw [h] at hx; cases hx
  · rcases comprehension_cases node with ⟨x, hx, -⟩ | ⟨-, hc⟩ | hx
    · rw [h] at hx; cases hx
    · exact hc
    · rw [h] at hx; cases hx
  · rcases comprehension_cases node with ⟨x, -, hc⟩ | ⟨-, hc⟩ | hx
    · exact absurd hc (h1 x)
    · exact absurd hc h2
    · exact hx

/-! ## Meaning -/

namespace Flow
variable {S E V U W : Type}

/-- Change every item. -/
def map (g : V → U) : Flow S E V → Flow S E U
  | .done => .done
  | .raise e => .raise e
  | .yield v r => .yield (g v) (r.map g)
  | .act f k => .act f (fun s => (k s).map g)

theorem map_append (g : V → U) : ∀ a b : Flow S E V, (a.append b).map g = (a.map g).append (b.map g)
  | .done, _ => rfl
  | .raise _, _ => rfl
  | .yield v r, b => by show Flow.yield (g v) _ = Flow.yield (g v) _; rw [map_append g r b]
  | .act f k, b => by show Flow.act f _ = Flow.act f _; congr 1; funext s; exact map_append g (k s) b

theorem map_each (g : U → W) (f : V → Flow S E U) : ∀ fl : Flow S E V, (fl.each f).map g = fl.each fun v => (f v).map g
  | .done => rfl
  | .raise _ => rfl
  | .yield v r => by
    show ((f v).append (r.each f)).map g = ((f v).map g).append (r.each _)
    rw [map_append, map_each g f r]
  | .act h k => by show Flow.act h _ = Flow.act h _; congr 1; funext s; exact map_each g f (k s)

theorem toList_map (g : V → U) : ∀ fl : Flow S E V, (fl.map g).toList = fl.toList.bind fun vs => Run.pure (vs.map g)
  | .done => rfl
  | .raise _ => rfl
  | .yield v r => by
    show (r.map g).toList.bind (fun us => Run.pure (g v :: us)) = (r.toList.bind fun vs => Run.pure (v :: vs)).bind _
    rw [toList_map g r, Run.bind_assoc, Run.bind_assoc]
    rfl
  | .act f k => by
    funext s
    show (((k s).map g).toList) (f s) = _
    rw [toList_map g (k s)]
    rfl

theorem just_map (g : V → U) (r : Run S E V) : (just r).map g = just (r.bind fun v => Run.pure (g v)) := by
  unfold just after
  show Flow.act _ _ = Flow.act _ _
  congr 1
  · funext s
    show (r s).2 = (Run.andThen _ (r s)).2
    cases r s with
    | mk x s' => cases x <;> rfl
  · funext s
    show Flow.map g (match (r s).1 with | .ok a => .yield a .done | .error e => .raise e) =
      match (Run.andThen (fun v => Run.pure (g v)) (r s)).1 with | .ok a => .yield a .done | .error e => .raise e
    cases r s with
    | mk x s' => cases x <;> rfl

end Flow

/-- The generator or list comprehension handed to a container type: the type gets the list. -/
theorem call_comprehension {I : Interp} {ρ : I.Locals} {B : PStr → I.Val} {tup lst : List I.Val → I.Val} (laws : ContainerLaws I B tup lst)
    {n f v elt : Expr} {cs : List Clause} {fv : I.Val} (hc : n.core = .call f [.pos v]) (hf : Evaluates I ρ f fv) (hv : Comprehension v elt cs)
    (hgen : v.core = .genExp elt cs → ConsumesGenerator I ρ fv elt cs) :
    eval I ρ n = ((evalClauses I ρ cs).each fun ρ' => .just (eval I ρ' elt)).toList.bind fun vs => I.call fv [lst vs] [] := by
  have hlist : ((eval I ρ (.listComp elt cs)).bind fun l => I.call fv [l] []) =
      ((evalClauses I ρ cs).each fun ρ' => .just (eval I ρ' elt)).toList.bind fun vs => I.call fv [lst vs] [] := by
    rw [eval, Run.bind_assoc]
    congr 1; funext vs
    rw [laws.list]
    rfl
  rw [← eval_core, hc]
  show eval I ρ (.call f [.mk .none none v]) = _
  rw [eval_call_one hf, ← eval_core I ρ v]
  rcases hv with hv | hv
  · rw [hv, hgen hv, hlist]
  · rw [hv, hlist]

/-- **C88.** In a program where these names are the builtin types, which treat the generator expression as the list of its items, the fix of
a call with a plain positional argument, whose element is for a `dict` a display of exactly two unstarred items, does what the call does: the
same value, effects and exceptions. -/
theorem C88_meaning (node e' : Expr) (h : rewriteToComprehension node = .fix e') (I : Interp) (ρ : I.Locals) (B : PStr → I.Val)
    (tup lst : List I.Val → I.Val) (laws : ContainerLaws I B tup lst) (hB : ContainerNames I ρ B)
    (f v elt : Expr) (cs : List Clause) (hc : node.core = .call f [.pos v]) (hv : Comprehension v elt cs)
    (hgen : ∀ s, Named f s → v.core = .genExp elt cs → ConsumesGenerator I ρ (B s) elt cs)
    (hpair : Named f (py "dict") → ∃ k w, Display elt [.plain k, .plain w]) :
    eval I ρ e' = eval I ρ node := by
  have hsame : ∀ {w elt' cs'}, Comprehension w elt' cs' → w = v → elt = elt' ∧ cs = cs' := by
    rintro w elt' cs' h1 rfl
    rcases hv with h2 | h2 <;> rcases h1 with h1 | h1 <;> rw [h1] at h2 <;> cases h2 <;> exact ⟨rfl, rfl⟩
  cases ((C88_shape node).1 e').1 h with
  | list hc' hn hv' =>
    rw [hc] at hc'; cases hc'
    obtain ⟨rfl, rfl⟩ := hsame hv' rfl
    rw [call_comprehension laws hc (named_eval hB hn (by simp)) hv (hgen _ hn), eval]
    congr 1; funext vs
    exact (laws.list1 vs).1.symm
  | set hc' hn hv' =>
    rw [hc] at hc'; cases hc'
    obtain ⟨rfl, rfl⟩ := hsame hv' rfl
    rw [call_comprehension laws hc (named_eval hB hn (by simp)) hv (hgen _ hn), eval]
    congr 1; funext vs
    exact (laws.set1 vs).1.symm
  | @dict _ _ _ _ _ _ a b rest hc' hn hv' hd =>
    rw [hc] at hc'; cases hc'
    obtain ⟨rfl, rfl⟩ := hsame hv' rfl
    obtain ⟨k, w, hkw⟩ := hpair hn
    have := display_fun hd hkw
    cases this
    rw [call_comprehension laws hc (named_eval hB hn (by simp)) hv (hgen _ hn), eval]
    simp only [Elem.value]
    have main : ∀ (mk : List I.Val → I.Val),
        (∀ ρ', eval I ρ' elt = (evalElems I ρ' [.plain k, .plain w]).bind fun vs => Run.pure (mk vs)) →
        (∀ qs, PairObjects tup lst (qs.map fun q : I.Val × I.Val => mk [q.1, q.2]) qs) →
        (((evalClauses I ρ cs).each fun ρ' => .just ((eval I ρ' k).bind fun a => (eval I ρ' w).bind fun b => Run.pure (a, b))).toList.bind I.dict) =
          ((evalClauses I ρ cs).each fun ρ' => .just (eval I ρ' elt)).toList.bind fun vs => I.call (B (py "dict")) [lst vs] [] := by
      intro mk hev hob
      have hfl : (fun ρ' => Flow.just (eval I ρ' elt)) = fun ρ' =>
          (Flow.just ((eval I ρ' k).bind fun a => (eval I ρ' w).bind fun b => Run.pure (a, b))).map fun q : I.Val × I.Val => mk [q.1, q.2] := by
        funext ρ'
        rw [Flow.just_map, hev ρ', evalElems_pair]
        simp only [Run.bind_assoc, Run.pure_bind]
      rw [hfl, ← Flow.map_each, Flow.toList_map, Run.bind_assoc]
      congr 1; funext qs
      exact ((laws.dict1 _ _ (hob qs)).1).symm
    rcases hkw with hk | hk
    · refine main lst (fun ρ' => ?_) (fun qs => ?_)
      · rw [← eval_core, hk, eval]; congr 1; funext vs; exact laws.list vs
      · induction qs with
        | nil => exact .nil
        | cons q qs ih => exact .lst ih
    · refine main tup (fun ρ' => ?_) (fun qs => ?_)
      · rw [← eval_core, hk, eval]; congr 1; funext vs; exact laws.tuple vs
      · induction qs with
        | nil => exact .nil
        | cons q qs ih => exact .tup ih

/-! ## Cases -/

theorem seqs_drain : ∀ fl : Flow Unit PStr SV, fl.toList = SV.collect (.gen fl.drain.1 fl.drain.2)
  | .done => rfl
  | .raise _ => rfl
  | .yield v r => by
    have h : (Flow.yield v r).toList = r.toList.bind fun vs => Run.pure (v :: vs) := rfl
    rw [h, seqs_drain r]
    show _ = SV.collect (.gen (v :: r.drain.1) r.drain.2)
    unfold SV.collect SV.items
    cases r.drain.2 <;> rfl
  | .act f k => by
    funext s
    show (k s).toList (f s) = _
    rw [seqs_drain (k s)]
    rfl

/-- The builtins of the demo program treat a generator as the list of its items. -/
theorem seqs_consumes (ρ : seqs.Locals) (s : PStr) (hs : s = py "list" ∨ s = py "set" ∨ s = py "dict") (elt : Expr) (cs : List Clause)
    (h : isAsyncComp elt cs = false) : ConsumesGenerator seqs ρ (SV.atom s) elt cs := by
  unfold ConsumesGenerator
  rw [eval, eval, Run.bind_assoc, Run.bind_assoc, clauses_first, Run.bind_assoc]
  congr 1; funext fl
  rw [show (elt.awaits || awaitsClauses cs) = false from h]
  generalize hg : (fl.each fun ρ' => Flow.just (eval seqs ρ' elt)) = g
  have hcol : g.toList = SV.collect (.gen g.drain.1 g.drain.2) := seqs_drain g
  rw [hcol]
  have hlst : ∀ (K : List SV → Run Unit PStr SV), (SV.collect (.gen g.drain.1 g.drain.2)).bind K =
      (SV.collect (.gen g.drain.1 g.drain.2)).bind fun vs => (SV.collect (.lst vs)).bind K := fun K => rfl
  rcases hs with rfl | rfl | rfl
  · exact hlst _
  · exact hlst _
  · exact hlst _

/-- `dict((x, y) for x in z)` becomes `{x: y for x in z}` -/
example : eval seqs [] (.dictComp (.name (py "x")) (.name (py "y")) [.mk false (.name (py "x")) (.name (py "z")) []]) =
    eval seqs [] (.call (.name (py "dict")) [.pos (.genExp (.paren (.tuple [.plain (.name (py "x")), .plain (.name (py "y"))]))
      [.mk false (.name (py "x")) (.name (py "z")) []])]) :=
  C88_meaning _ _ rfl seqs [] SV.atom SV.tup SV.lst seqs_containers seqs_names _ _ _ _ rfl (.inl rfl)
    (fun s hs _ => seqs_consumes [] s (by cases hs; simp) _ _ rfl) (fun _ => ⟨_, _, .inr rfl⟩)

/-- **Finding.** The rule raises `IndexError` on `dict((x,) for x in z)`, valid Python that may never be called. -/
theorem C88_crash : rewriteToComprehension (.call (.name (py "dict")) [.pos (.genExp (.paren (.tuple [.plain (.name (py "x"))]))
    [.mk false (.name (py "x")) (.name (py "z")) []])]) = .crash := rfl

/-- **Finding.** The items after the second are dropped: `dict((x, x, x) for x in z)` raises in any case where `z` is not empty, and its
replacement `{x: x for x in z}` does not. -/
theorem C88_truncates : ∃ node e', rewriteToComprehension node = .fix e' ∧
    eval seqs [(py "z", .lst [.atom (py "1")])] node () = (.error (py "TypeError"), ()) ∧
    eval seqs [(py "z", .lst [.atom (py "1")])] e' () = (.ok (.dct [(.atom (py "1"), .atom (py "1"))]), ()) :=
  ⟨.call (.name (py "dict")) [.pos (.genExp (.paren (.tuple [.plain (.name (py "x")), .plain (.name (py "x")), .plain (.name (py "x"))]))
    [.mk false (.name (py "x")) (.name (py "z")) []])], _, rfl, rfl, rfl⟩

/-- **Finding.** The star of the argument is lost: `list(*[x for x in z])` with `z = [[1]]` is `[1]`, its replacement is `[[1]]`. -/
theorem C88_star : ∃ node e', rewriteToComprehension node = .fix e' ∧
    eval seqs [(py "z", .lst [.lst [.atom (py "1")]])] node () = (.ok (.lst [.atom (py "1")]), ()) ∧
    eval seqs [(py "z", .lst [.lst [.atom (py "1")]])] e' () = (.ok (.lst [.lst [.atom (py "1")]]), ()) :=
  ⟨.call (.name (py "list")) [.mk .one none (.listComp (.name (py "x")) [.mk false (.name (py "x")) (.name (py "z")) []])], _, rfl, rfl, rfl⟩

end Cst
