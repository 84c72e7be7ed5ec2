import Verif.Props.RulesQuantify

/-! # C87: calls of `tuple`, `list`, `set` and `dict` that can be written as displays -/

namespace Cst
open Py

theorem displayElems_iff {e : Expr} {es : List Elem} : displayElems e = some es ↔ Display e es := by
  unfold displayElems Display
  constructor
  · intro h
    cases hc : e.core with
    | list xs => rw [hc] at h; cases h; exact .inl rfl
    | tuple xs => rw [hc] at h; cases h; exact .inr rfl
    | _ => rw [hc] at h; cases h
  · rintro (h | h) <;> rw [h]

theorem pairElems_iff : ∀ {es : List Elem} {ps : List DictElem}, pairElems es = some ps ↔ PairItems es ps
  | [], ps => by
    rw [pairElems]
    exact ⟨fun h => by cases h; exact .nil, fun h => by cases h; rfl⟩
  | .starred e :: es, ps => ⟨fun h => by simp [pairElems, pairElem] at h, fun h => nomatch h⟩
  | .plain e :: es, ps => by
    have ih := fun qs => pairElems_iff (es := es) (ps := qs)
    constructor
    · intro h
      rw [pairElems] at h
      cases hp : pairElem (.plain e) with
      | none => rw [hp] at h; cases h
      | some p =>
        rw [hp] at h
        simp only [] at h
        cases hr : pairElems es with
        | none => rw [hr] at h; cases h
        | some qs =>
          rw [hr] at h
          cases h
          unfold pairElem at hp
          simp only [] at hp
          split at hp
          · rename_i a b hd
            cases hp
            exact .cons (displayElems_iff.1 hd) ((ih qs).1 hr)
          · cases hp
    · intro h
      cases h with
      | @cons _ a b _ qs hd hr =>
        rw [pairElems]
        have hp : pairElem (.plain e) = some (.pair a.value b.value) := by
          unfold pairElem
          simp only []
          rw [displayElems_iff.2 hd]
        rw [hp, (ih qs).2 hr]
        rfl

theorem Named.isName {f : Expr} {s : PStr} (h : Named f s) (t : PStr) : f.isName t = (s == t) := by
  unfold Expr.isName
  unfold Named at h
  rw [h]

theorem display_fun {e : Expr} {es fs : List Elem} (h1 : Display e es) (h2 : Display e fs) : es = fs := by
  rcases h1 with h1 | h1 <;> rcases h2 with h2 | h2 <;> rw [h1] at h2 <;> cases h2 <;> rfl

theorem literal_fix {node e' : Expr} (h : rewriteToLiteral node = .fix e') : LiteralFor node e' := by
  unfold rewriteToLiteral at h
  split at h
  · rename_i f hc
    split at h
    · rename_i hn; cases h; exact .tuple0 hc (isName_iff.1 hn)
    · split at h
      · rename_i hn; cases h; exact .list0 hc (isName_iff.1 hn)
      · split at h
        · rename_i hn; cases h; exact .dict0 hc (isName_iff.1 hn)
        · cases h
  · rename_i f st kw v hc
    cases hd : displayElems v with
    | none => rw [hd] at h; cases h
    | some es =>
      rw [hd] at h
      simp only [] at h
      have hd' := displayElems_iff.1 hd
      split at h
      · rename_i hn; cases h; exact .tuple hc (isName_iff.1 hn) hd'
      · split at h
        · rename_i hn; cases h; exact .list hc (isName_iff.1 hn) hd'
        · split at h
          · rename_i hn
            cases es with
            | nil => cases h; exact .emptySet hc (isName_iff.1 hn) hd'
            | cons x xs => cases h; exact .set hc (isName_iff.1 hn) hd' (by simp)
          · split at h
            · rename_i hn
              cases hp : pairElems es with
              | none => rw [hp] at h; cases h
              | some ps => rw [hp] at h; cases h; exact .dict hc (isName_iff.1 hn) hd' (pairElems_iff.1 hp)
            · cases h
  · cases h

theorem fix_literal {node e' : Expr} (h : LiteralFor node e') : rewriteToLiteral node = .fix e' := by
  have hne : ∀ s t : PStr, s ≠ t → (s == t) = false := fun s t h => by simpa using h
  cases h with
  | tuple0 hc hn => unfold rewriteToLiteral; rw [hc]; simp only [hn.isName]; rfl
  | list0 hc hn => unfold rewriteToLiteral; rw [hc]; simp only [hn.isName]; rfl
  | dict0 hc hn => unfold rewriteToLiteral; rw [hc]; simp only [hn.isName]; rfl
  | tuple hc hn hd => unfold rewriteToLiteral; rw [hc]; simp only [hn.isName, displayElems_iff.2 hd]; rfl
  | list hc hn hd => unfold rewriteToLiteral; rw [hc]; simp only [hn.isName, displayElems_iff.2 hd]; rfl
  | @set f st kw v es hc hn hd he =>
    unfold rewriteToLiteral; rw [hc]; simp only [hn.isName, displayElems_iff.2 hd]
    cases es with
    | nil => exact absurd rfl he
    | cons x xs => rfl
  | emptySet hc hn hd => unfold rewriteToLiteral; rw [hc]; simp only [hn.isName, displayElems_iff.2 hd]; rfl
  | dict hc hn hd hp => unfold rewriteToLiteral; rw [hc]; simp only [hn.isName, displayElems_iff.2 hd, pairElems_iff.2 hp]; rfl

/-- **C87.** A call is reported exactly when it calls the name `tuple`, `list` or `dict` without arguments, or `tuple`, `list`, `set` or
`dict` with one argument that is a list or tuple display, which for `dict` must consist of two-item displays; the fix is the display with
the same items (`set()` for the empty set). -/
theorem C87_shape (node : Expr) :
    (∀ e', rewriteToLiteral node = .fix e' ↔ LiteralFor node e') ∧ ((∀ e', ¬ LiteralFor node e') → rewriteToLiteral node = .silent) := by
  refine ⟨fun e' => ⟨literal_fix, fix_literal⟩, fun h => ?_⟩
  have h1 : ∀ e', rewriteToLiteral node ≠ .fix e' := fun e' hx => h e' (literal_fix hx)
  revert h1
  unfold rewriteToLiteral
  repeat' split
  all_goals intro h1
  all_goals first
    | rfl
    | exact absurd rfl (h1 _)

/-! ## Meaning -/

/-- The elements of the pairs have no star. -/
def NoStarsInPairs (es : List Elem) : Prop := ∀ e inner, Elem.plain e ∈ es → Display e inner → ∀ x ∈ inner, x.isStarred = false

theorem eval_display {I : Interp} {ρ : I.Locals} {B : PStr → I.Val} {tup lst : List I.Val → I.Val} (laws : ContainerLaws I B tup lst)
    {e : Expr} {es : List Elem} (h : Display e es) :
    eval I ρ e = (evalElems I ρ es).bind (fun vs => Run.pure (lst vs)) ∨ eval I ρ e = (evalElems I ρ es).bind (fun vs => Run.pure (tup vs)) := by
  rcases h with h | h
  · left; rw [← eval_core, h, eval]; congr 1; funext vs; exact laws.list vs
  · right; rw [← eval_core, h, eval]; congr 1; funext vs; exact laws.tuple vs

theorem evalElems_pair (I : Interp) (ρ : I.Locals) (a b : Expr) :
    evalElems I ρ [.plain a, .plain b] = (eval I ρ a).bind fun x => (eval I ρ b).bind fun y => Run.pure [x, y] := by
  rw [evalElems, evalElems, evalElems]
  simp only [Run.bind_assoc, Run.pure_bind]

theorem plain_of_notStarred {x : Elem} (h : x.isStarred = false) : x = .plain x.value := by
  cases x with
  | plain e => rfl
  | starred e => cases h

theorem pairs_eval {I : Interp} {ρ : I.Locals} {B : PStr → I.Val} {tup lst : List I.Val → I.Val} (laws : ContainerLaws I B tup lst) :
    ∀ {es : List Elem} {ps : List DictElem}, PairItems es ps → NoStarsInPairs es →
    ∀ {β : Type} (K : List I.Val → Run I.St I.Exc β) (G : List (I.Val × I.Val) → Run I.St I.Exc β),
      (∀ os qs, PairObjects tup lst os qs → K os = G qs) → (evalElems I ρ es).bind K = (evalDict I ρ ps).bind G
  | [], _, h, _, _, K, G, hk => by
    cases h
    rw [evalElems, evalDict]
    exact hk [] [] .nil
  | _, _, .cons (e := e) (a := a) (b := b) (es := es) (ps := ps) hd hr, hs, _, K, G, hk => by
    have hin := hs e [a, b] (by simp) hd
    have ha := plain_of_notStarred (hin a (by simp))
    have hb := plain_of_notStarred (hin b (by simp))
    have hs' : NoStarsInPairs es := fun e inner he => hs e inner (by simp [he])
    rw [evalElems, evalDict]
    rcases eval_display (ρ := ρ) laws hd with he | he
    · rw [he, ha, hb, evalElems_pair]
      simp only [Run.bind_assoc, Run.pure_bind, Elem.value]
      congr 1; funext x
      congr 1; funext y
      exact pairs_eval laws hr hs' (fun os => K (lst [x, y] :: os)) (fun qs => G ((x, y) :: qs)) (fun os qs h => hk _ _ (.lst h))
    · rw [he, ha, hb, evalElems_pair]
      simp only [Run.bind_assoc, Run.pure_bind, Elem.value]
      congr 1; funext x
      congr 1; funext y
      exact pairs_eval laws hr hs' (fun os => K (tup [x, y] :: os)) (fun qs => G ((x, y) :: qs)) (fun os qs h => hk _ _ (.tup h))

theorem named_eval {I : Interp} {ρ : I.Locals} {B : PStr → I.Val} (hB : ContainerNames I ρ B) {f : Expr} {s : PStr} (h : Named f s)
    (hs : s = py "tuple" ∨ s = py "list" ∨ s = py "set" ∨ s = py "dict") : Evaluates I ρ f (B s) := by
  unfold Evaluates
  rw [← eval_core, show f.core = .name s from h, eval]
  exact hB s hs

theorem eval_call_none {I : Interp} {ρ : I.Locals} {f : Expr} {fv : I.Val} (hf : Evaluates I ρ f fv) :
    eval I ρ (.call f []) = I.call fv [] [] := by
  rw [eval, hf, evalArgs]
  rfl

theorem call_display {I : Interp} {ρ : I.Locals} {B : PStr → I.Val} {tup lst : List I.Val → I.Val} (laws : ContainerLaws I B tup lst)
    {n f v : Expr} {es : List Elem} {fv : I.Val} (hc : n.core = .call f [.pos v]) (hf : Evaluates I ρ f fv) (hd : Display v es)
    {G : List I.Val → Run I.St I.Exc I.Val} (hG : ∀ vs, I.call fv [lst vs] [] = G vs ∧ I.call fv [tup vs] [] = G vs) :
    eval I ρ n = (evalElems I ρ es).bind G := by
  rw [← eval_core, hc]
  show eval I ρ (.call f [.mk .none none v]) = _
  rw [eval_call_one hf]
  rcases eval_display (ρ := ρ) laws hd with he | he
  · rw [he, Run.bind_assoc]; congr 1; funext vs; exact (hG vs).1
  · rw [he, Run.bind_assoc]; congr 1; funext vs; exact (hG vs).2

/-- **C87.** In a program where these names are the builtin types, the fix of a call whose argument, if any, is a plain positional one, and
with no star inside the pairs for a `dict`, does what the call does: the same value, effects and exceptions. -/
theorem C87_meaning (node e' : Expr) (h : rewriteToLiteral node = .fix e') (I : Interp) (ρ : I.Locals) (B : PStr → I.Val)
    (tup lst : List I.Val → I.Val) (laws : ContainerLaws I B tup lst) (hB : ContainerNames I ρ B)
    (hpos : ∀ f a, node.core = .call f [a] → ∃ v, a = .pos v)
    (hstars : ∀ f v es, node.core = .call f [.pos v] → Named f (py "dict") → Display v es → NoStarsInPairs es) :
    eval I ρ e' = eval I ρ node := by
  cases literal_fix h with
  | tuple0 hc hn =>
    rw [← eval_core I ρ node, hc, eval_call_none (named_eval hB hn (by simp)), laws.tuple0]
    rfl
  | list0 hc hn =>
    rw [← eval_core I ρ node, hc, eval_call_none (named_eval hB hn (by simp)), laws.list0]
    rfl
  | dict0 hc hn =>
    rw [← eval_core I ρ node, hc, eval_call_none (named_eval hB hn (by simp)), laws.dict0]
    rfl
  | tuple hc hn hd =>
    obtain ⟨v, hv⟩ := hpos _ _ hc
    cases hv
    rw [call_display laws hc (named_eval hB hn (by simp)) hd laws.tuple1, eval, eval]
  | list hc hn hd =>
    obtain ⟨v, hv⟩ := hpos _ _ hc
    cases hv
    rw [call_display laws hc (named_eval hB hn (by simp)) hd laws.list1, eval]
  | set hc hn hd he =>
    obtain ⟨v, hv⟩ := hpos _ _ hc
    cases hv
    rw [call_display laws hc (named_eval hB hn (by simp)) hd laws.set1, eval]
  | emptySet hc hn hd =>
    obtain ⟨v, hv⟩ := hpos _ _ hc
    cases hv
    rw [call_display laws hc (named_eval hB hn (by simp)) hd laws.set1, eval_call_none (named_eval hB (f := .name (py "set")) (s := py "set") rfl (by simp)), laws.set0]
    rfl
  | dict hc hn hd hp =>
    obtain ⟨v, hv⟩ := hpos _ _ hc
    cases hv
    rw [← eval_core I ρ node, hc]
    show _ = eval I ρ (.call _ [.mk .none none _])
    rw [eval_call_one (named_eval hB hn (by simp)), eval]
    rcases eval_display (ρ := ρ) laws hd with he | he
    · rw [he, Run.bind_assoc]
      exact (pairs_eval laws hp (hstars _ _ _ hc hn hd) _ _ (fun os qs hx => (laws.dict1 os qs hx).1)).symm
    · rw [he, Run.bind_assoc]
      exact (pairs_eval laws hp (hstars _ _ _ hc hn hd) _ _ (fun os qs hx => (laws.dict1 os qs hx).2)).symm

/-! ## Cases -/

theorem seqs_containers : ContainerLaws seqs SV.atom SV.tup SV.lst where
  tuple := fun _ => rfl
  list := fun _ => rfl
  tuple0 := rfl
  list0 := rfl
  set0 := rfl
  dict0 := rfl
  tuple1 := fun _ => ⟨rfl, rfl⟩
  list1 := fun _ => ⟨rfl, rfl⟩
  set1 := fun _ => ⟨rfl, rfl⟩
  dict1 := by
    intro os ps h
    have key : SV.toPairs os = some ps := by
      induction h with
      | nil => rfl
      | tup _ ih => simp only [SV.toPairs, SV.toPair, ih]; rfl
      | lst _ ih => simp only [SV.toPairs, SV.toPair, ih]; rfl
    constructor
    · show (match SV.toPairs os with | some ps => Run.pure (SV.dct ps) | none => Run.raise (py "TypeError")) = _
      rw [key]; rfl
    · show (match SV.toPairs os with | some ps => Run.pure (SV.dct ps) | none => Run.raise (py "TypeError")) = _
      rw [key]; rfl

theorem seqs_names : ContainerNames seqs [] SV.atom := by
  intro s hs
  rcases hs with rfl | rfl | rfl | rfl <;> rfl

/-- `dict([(a, b), [c, d]])` becomes `{a: b, c: d}` -/
example : eval seqs [] (.dict [.pair (.name (py "a")) (.name (py "b")), .pair (.name (py "c")) (.name (py "d"))]) =
    eval seqs [] (.call (.name (py "dict")) [.pos (.list [.plain (.paren (.tuple [.plain (.name (py "a")), .plain (.name (py "b"))])),
      .plain (.list [.plain (.name (py "c")), .plain (.name (py "d"))])])]) :=
  C87_meaning _ _ rfl seqs [] SV.atom SV.tup SV.lst seqs_containers seqs_names
    (by intro f a h; cases h; exact ⟨_, rfl⟩)
    (by
      intro f v es h _ hd
      cases h
      have := display_fun hd (.inl rfl)
      subst this
      intro e inner he hi x hx
      simp at he
      rcases he with rfl | rfl
      · have := display_fun hi (.inr rfl); subst this; simp at hx; rcases hx with rfl | rfl <;> rfl
      · have := display_fun hi (.inl rfl); subst this; simp at hx; rcases hx with rfl | rfl <;> rfl)

/-- **Finding.** The keyword of the argument is lost: `dict(a=[])`, which is `{'a': []}`, is replaced by `{}`. -/
theorem C87_keyword : ∃ e', rewriteToLiteral (.call (.name (py "dict")) [.mk .none (some (py "a")) (.list [])]) = .fix e' ∧
    eval seqs [] (.call (.name (py "dict")) [.mk .none (some (py "a")) (.list [])]) () = (.ok (.dct [(.atom (py "a"), .lst [])]), ()) ∧
    eval seqs [] e' () = (.ok (.dct []), ()) :=
  ⟨_, rfl, rfl, rfl⟩

/-- **Finding.** The star of the argument is lost: `list(*[x])`, which is `list(x)`, is replaced by `[x]`. -/
theorem C87_star : ∃ e', rewriteToLiteral (.call (.name (py "list")) [.mk .one none (.list [.plain (.name (py "x"))])]) = .fix e' ∧
    eval seqs [(py "x", .lst [.atom (py "1")])] (.call (.name (py "list")) [.mk .one none (.list [.plain (.name (py "x"))])]) () =
      (.ok (.lst [.atom (py "1")]), ()) ∧
    eval seqs [(py "x", .lst [.atom (py "1")])] e' () = (.ok (.lst [.lst [.atom (py "1")]]), ()) :=
  ⟨_, rfl, rfl, rfl⟩

/-- **Finding.** A star inside a pair is lost: `dict([(*x, y)])` with `x = [1]`, which is `{1: y}`, is replaced by `{x: y}`. -/
theorem C87_star_in_pair : ∃ node e', rewriteToLiteral node = .fix e' ∧
    eval seqs [(py "x", .lst [.atom (py "1")])] node () = (.ok (.dct [(.atom (py "1"), .atom (py "y"))]), ()) ∧
    eval seqs [(py "x", .lst [.atom (py "1")])] e' () = (.ok (.dct [(.lst [.atom (py "1")], .atom (py "y"))]), ()) :=
  ⟨.call (.name (py "dict")) [.pos (.list [.plain (.tuple [.starred (.name (py "x")), .plain (.name (py "y"))])])], _, rfl, rfl, rfl⟩

end Cst
