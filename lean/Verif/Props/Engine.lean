import Verif.Proof.Tree
import Verif.Proof.Merge

/-!
# C34–C38: applying fixes
-/

namespace Fixit
open Py Spec

theorem visitModule_congr (ρ ρ' : Nat → Option Repl) (m : Node) (h : visitR ρ m = visitR ρ' m) :
    visitModule (replacementTransformer ρ) m = visitModule (replacementTransformer ρ') m := by
  unfold visitModule
  rw [show m.visit (replacementTransformer ρ) = m.visit (replacementTransformer ρ') from h]

/-- The replacement a node gets: that of the last violation for it with a usable replacement. -/
theorem replacements_eq (fs : List Fix) (i : Nat) :
    replacements fs i = (fs.filterMap (fun f => if f.node = i then f.usable else none)).getLast? := by
  induction fs with
  | nil => rfl
  | cons f fs ih =>
    rw [replacements, ih, List.filterMap_cons]
    cases h : (fs.filterMap (fun f => if f.node = i then f.usable else none)).getLast? with
    | some r =>
      by_cases hi : f.node = i
      · cases hu : f.usable with
        | none => simp [hi, h]
        | some u => simp [hi, List.getLast?_cons, h]
      · simp [hi, h]
    | none =>
      rw [List.getLast?_eq_none_iff] at h
      rw [h]
      by_cases hi : f.node = i
      · cases hu : f.usable <;> simp [hi]
      · simp [hi]

/-! ## C34 -/

/-- **C34** With no usable fix for any node of the file, the result is the very same tree, so the same text. -/
theorem C34_no_fixes_identity (m : Node) (fs : List Fix) (h : ∀ f ∈ fs, f.usable = none ∨ ∀ s, Occurs s m → s.id ≠ f.node) :
    ∃ m', applyReplacements m fs = .ok m' ∧ m' = m ∧ moduleCode m' = moduleCode m := by
  refine ⟨m, ?_, rfl, rfl⟩
  unfold applyReplacements visitModule
  have : m.visit (replacementTransformer (replacements fs)) = .ok (.node m) := by
    apply visitR_id
    intro s hs
    rw [replacements_eq, List.getLast?_eq_none_iff, List.filterMap_eq_nil_iff]
    intro f hf
    rcases h f hf with h | h
    · simp [h]
    · have := h s hs
      rw [if_neg (fun e => this e.symm)]
  rw [this]
  rfl

/-- **C34** In particular an empty selection. -/
theorem C34_empty_selection (m : Node) : applyReplacements m [] = .ok m := by
  obtain ⟨m', h, rfl, -⟩ := C34_no_fixes_identity m [] (by simp)
  exact h

/-! ## C35 -/

theorem pairwise_mem {α : Type} {R : α → α → Prop} (hs : ∀ a b, R a b → R b a) : ∀ {l : List α}, l.Pairwise R → ∀ {a b : α}, a ∈ l → b ∈ l → a ≠ b → R a b := by
  intro l
  induction l with
  | nil => intro _ a b h; simp at h
  | cons x xs ih =>
    intro hp a b ha hb hne
    rw [List.pairwise_cons] at hp
    rw [List.mem_cons] at ha hb
    rcases ha with rfl | ha <;> rcases hb with rfl | hb
    · exact absurd rfl hne
    · exact hp.1 b hb
    · exact hs _ _ (hp.1 a ha)
    · exact ih hp.2 ha hb hne

theorem not_visited_inside (ρ : Nat → Option Repl) (outer inner : Node) (hin : Inside inner outer) (hout : (ρ outer.id).isSome = true) :
    ∀ n, Distinct n → Occurs outer n → ∀ s, Visited ρ s n → s.id ≠ inner.id := by
  intro n
  induction n using Node.induct with
  | h n ih =>
    intro hd ho s hv
    cases hd with
    | intro _ hd1 hd2 hd3 =>
      obtain ⟨c0, hc0, hi0⟩ := hin
      cases hv with
      | here =>
        intro e
        cases ho with
        | here => exact hd3 inner ⟨c0, hc0, hi0⟩ e.symm
        | deeper c _ hc ho' => exact hd3 inner ⟨c, hc, occurs_trans (.deeper c0 outer hc0 hi0) ho'⟩ e.symm
      | deeper c _ hnone hc hv' =>
        cases ho with
        | here => rw [hnone] at hout; simp at hout
        | deeper c' _ hc' ho' =>
          by_cases he : c = c'
          · subst he
            exact ih c hc (hd1 c hc) ho' s hv'
          · have := pairwise_mem (R := fun a b => ∀ s t, Occurs s a → Occurs t b → s.id ≠ t.id)
              (fun a b h s t hs ht e => h t s ht hs e.symm) hd2 hc hc' he
            exact this s inner (visited_occurs ρ s c hv') (occurs_trans (.deeper c0 outer hc0 hi0) ho')

/-- **C35** A fix for a node strictly inside another replaced node has no effect, wherever it stands in the selection. -/
theorem C35_outermost_wins (m outer inner : Node) (hd : Distinct m) (ho : Occurs outer m) (hi : Inside inner outer)
    (pre post : List Fix) (f g : Fix) (hg : g ∈ pre ++ post) (hgn : g.node = outer.id) (hgu : g.usable.isSome = true) (hf : f.node = inner.id) :
    applyReplacements m (pre ++ f :: post) = applyReplacements m (pre ++ post) := by
  unfold applyReplacements
  apply visitModule_congr
  symm
  apply visitR_congr
  intro s hs
  have hsome : (replacements (pre ++ post) outer.id).isSome = true := by
    rw [replacements_eq, List.getLast?_isSome]
    intro e
    rw [List.filterMap_eq_nil_iff] at e
    have := e g hg
    simp only [hgn, if_true] at this
    rw [this] at hgu; simp at hgu
  have hne := not_visited_inside _ outer inner hi hsome m hd ho s hs
  rw [replacements_eq, replacements_eq]
  congr 1
  have hfi : ¬ f.node = s.id := fun e => hne (e.symm.trans hf)
  simp [hfi]

/-- **C35** A fix for the module itself replaces it whole: by a node, or by an empty module if it is removed; a module cannot be flattened. -/
theorem C35_module_replaced (m : Node) (f : Fix) (hf : f.node = m.id) :
    (∀ n, f.replacement = some (.node n) → applyReplacements m [f] = .ok n) ∧
    (f.replacement = some .remove → (applyReplacements m [f]).map moduleCode = .ok []) ∧
    (∀ n ns, f.replacement = some (.flatten (n :: ns)) → ∃ e, applyReplacements m [f] = .error e) := by
  have key : ∀ r, f.replacement = some r → r.truthy = true → m.visit (replacementTransformer (replacements [f])) = .ok r := by
    intro r hr ht
    have hρ : replacements [f] m.id = some r := by simp [replacements, hf, Fix.usable, hr, ht]
    cases m with
    | mk i l d ps =>
      simp only [Node.id] at hρ
      simp [Node.visit, replacementTransformer, Node.id, hρ]
  refine ⟨fun n h => ?_, fun h => ?_, fun n ns h => ?_⟩
  · simp only [applyReplacements, visitModule, key _ h rfl, Bind.bind, Except.bind]; rfl
  · simp only [applyReplacements, visitModule, key _ h rfl, Bind.bind, Except.bind]; rfl
  · exact ⟨.other 0, by simp only [applyReplacements, visitModule, key _ h rfl, Bind.bind, Except.bind]; rfl⟩

/-! ## C36 -/

/-- **C36** The order of fixes for different nodes is irrelevant. -/
theorem C36_order_irrelevant (m : Node) (fs fs' : List Fix) (hp : fs.Perm fs')
    (hn : ((fs.filter (fun f => f.usable.isSome)).map (·.node)).Nodup) : applyReplacements m fs = applyReplacements m fs' := by
  unfold applyReplacements
  apply visitModule_congr
  apply visitR_congr
  intro s hvis
  clear hvis
  rw [replacements_eq, replacements_eq]
  have hperm := hp.filterMap (fun f : Fix => if f.node = s.id then f.usable else none)
  have hlen : (fs.filterMap (fun f : Fix => if f.node = s.id then f.usable else none)).length ≤ 1 := by
    clear hp hperm
    induction fs with
    | nil => simp
    | cons f fs ih =>
      rw [List.filterMap_cons]
      by_cases hi : f.node = s.id
      · cases hu : f.usable with
        | none =>
          simp only [hi, if_true]
          rw [List.filter_cons_of_neg (by simp [hu])] at hn
          exact ih hn
        | some r =>
          rw [List.filter_cons_of_pos (by simp [hu]), List.map_cons, List.nodup_cons] at hn
          have : fs.filterMap (fun f : Fix => if f.node = s.id then f.usable else none) = [] := by
            rw [List.filterMap_eq_nil_iff]
            intro g hg
            by_cases hgi : g.node = s.id
            · cases hgu : g.usable with
              | none => simp
              | some r' =>
                exfalso
                exact hn.1 (List.mem_map.2 ⟨g, List.mem_filter.2 ⟨hg, by simp [hgu]⟩, by rw [hgi, hi]⟩)
            · simp [hgi]
          simp [hi, this]
      · simp only [hi, if_false]
        refine ih ?_
        cases hu : f.usable with
        | none => rwa [List.filter_cons_of_neg (by simp [hu])] at hn
        | some r =>
          rw [List.filter_cons_of_pos (by simp [hu]), List.map_cons, List.nodup_cons] at hn
          exact hn.2
  generalize fs.filterMap (fun f : Fix => if f.node = s.id then f.usable else none) = a at hperm hlen
  generalize fs'.filterMap (fun f : Fix => if f.node = s.id then f.usable else none) = b at hperm
  have : a = b := by
    cases a with
    | nil => exact (List.nil_perm.1 hperm).symm
    | cons x xs =>
      cases xs with
      | nil => exact List.singleton_perm.1 hperm
      | cons y ys => simp at hlen
  rw [this]

/-- **C36** Of several fixes for the same node the last is used: an earlier one can be dropped. -/
theorem C36_last_wins (m : Node) (pre mid post : List Fix) (f g : Fix) (hn : f.node = g.node) (hg : g.usable.isSome = true) :
    applyReplacements m (pre ++ f :: mid ++ g :: post) = applyReplacements m (pre ++ mid ++ g :: post) := by
  unfold applyReplacements
  apply visitModule_congr
  apply visitR_congr
  intro s _
  rw [replacements_eq, replacements_eq]
  obtain ⟨r, hr⟩ := Option.isSome_iff_exists.1 hg
  by_cases hi : g.node = s.id
  · have h1 : ∀ l : List Fix, ((l ++ g :: post).filterMap (fun f : Fix => if f.node = s.id then f.usable else none)).getLast? =
        ((g :: post).filterMap (fun f : Fix => if f.node = s.id then f.usable else none)).getLast? := by
      intro l
      rw [List.filterMap_append, List.getLast?_append]
      have : (List.filterMap (fun f : Fix => if f.node = s.id then f.usable else none) (g :: post)).getLast?.isSome = true := by
        rw [List.getLast?_isSome, List.filterMap_cons]
        simp [hi, hr]
      obtain ⟨x, hx⟩ := Option.isSome_iff_exists.1 this
      rw [hx]; rfl
    rw [h1, h1]
  · have : ¬ f.node = s.id := fun e => hi (hn ▸ e)
    simp [this]

/-! ## C37 -/

/-- A replacement is one node (no removal, no flattening). -/
def OneForOne (ρ : Nat → Option Repl) (n : Node) : Prop := ∀ r, ρ n.id = some r → ∃ n', r = .node n'

/-- The node is not removed. -/
def Stays (ρ : Nat → Option Repl) (n : Node) : Prop := ∀ r, ρ n.id = some r → (∃ n', r = .node n') ∨ ∃ a l, r = .flatten (a :: l)

/-- Replacements fit the places they are put at: one node for one node, except in sequences without separators, where nodes may be removed or
replaced by several as long as something stays. -/
inductive Fits (ρ : Nat → Option Repl) : Parts → Prop
  | nil : Fits ρ .nil
  | tok (s r) : Fits ρ r → Fits ρ (.tok s r)
  | indent (r) : Fits ρ r → Fits ρ (.indent r)
  | one (p c r) : OneForOne ρ c → Fits ρ r → Fits ρ (.one p c r)
  | opt (e c r) : OneForOne ρ c → Fits ρ r → Fits ρ (.opt e c r)
  | sep (p b s e cs r) : (∀ c ∈ cs.toList, OneForOne ρ c) → Fits ρ r → Fits ρ (.seq p b s e cs r)
  | free (p b e cs r) : (∃ c ∈ cs.toList, Stays ρ c) → Fits ρ r → Fits ρ (.seq p b [] e cs r)

/-- …everywhere outside replaced nodes. -/
inductive FitsAll (ρ : Nat → Option Repl) : Node → Prop
  | replaced (n : Node) : (ρ n.id).isSome = true → FitsAll ρ n
  | kept (i l d ps) : ρ i = none → Fits ρ ps → (∀ c ∈ childrenOf ps, FitsAll ρ c) → FitsAll ρ (.mk i l d ps)

/-- Replacement nodes are not empty statement lines. -/
def NoEmptyLines (ρ : Nat → Option Repl) : Prop :=
  (∀ i n, ρ i = some (.node n) → n.removable = false) ∧ ∀ i ns, ρ i = some (.flatten ns) → ∀ n ∈ ns, n.removable = false

/-- The outermost replaced nodes, in document order. -/
inductive Outermost (ρ : Nat → Option Repl) : List Node → List Node → Prop
  | nil : Outermost ρ [] []
  | replaced (n rest o) : (ρ n.id).isSome = true → Outermost ρ rest o → Outermost ρ (n :: rest) (n :: o)
  | kept (n rest o o') : ρ n.id = none → Outermost ρ (children n) o → Outermost ρ rest o' → Outermost ρ (n :: rest) (o ++ o')

theorem outermost_append (ρ : Nat → Option Repl) {a b oa ob : List Node} (ha : Outermost ρ a oa) (hb : Outermost ρ b ob) : Outermost ρ (a ++ b) (oa ++ ob) := by
  induction ha with
  | nil => exact hb
  | replaced n rest o hn _ ih => exact .replaced n _ _ hn ih
  | kept n rest o o' hn h1 _ _ ih => rw [List.append_assoc]; exact .kept n _ _ _ hn h1 ih

theorem holes_append (a b : List Seg) : holes (a ++ b) = holes a ++ holes b := by
  induction a with
  | nil => rfl
  | cons s l ih => cases s <;> simp [holes, ih]

/-- The claim for one node at a place. -/
def NodeClaim (ρ : Nat → Option Repl) (n : Node) : Prop :=
  ∀ ind trail, ∃ segs r, visitR ρ n = .ok r ∧ n.code ind trail = segs.flatMap Seg.before ∧
    replText ind trail r = segs.flatMap (Seg.after ρ) ∧ Outermost ρ [n] (holes segs)

theorem nodeClaim_replaced (ρ : Nat → Option Repl) (n : Node) (h : (ρ n.id).isSome = true) : NodeClaim ρ n := by
  intro ind trail
  obtain ⟨r, hr⟩ := Option.isSome_iff_exists.1 h
  refine ⟨[.hole ind trail n], r, visitR_some ρ n r hr, by simp [Seg.before], by simp [Seg.after, hr], ?_⟩
  exact .replaced n [] [] h .nil

/-- A visit either keeps the node (rebuilt) or gives its replacement. -/
theorem visitR_cases (ρ : Nat → Option Repl) (n : Node) (r : Repl) (h : visitR ρ n = .ok r) :
    ρ n.id = some r ∨ (ρ n.id = none ∧ ∃ i l d ps ps', n = .mk i l d ps ∧ ps.visit (replacementTransformer ρ) = .ok ps' ∧ r = .node (.mk i l d ps')) := by
  cases hr : ρ n.id with
  | some r' => rw [visitR_some ρ n r' hr] at h; left; simpa using h
  | none =>
    right
    refine ⟨rfl, ?_⟩
    cases n with
    | mk i l d ps =>
      simp only [Node.id] at hr
      rw [visitR_none ρ i l d ps hr] at h
      cases hp : ps.visit (replacementTransformer ρ) with
      | error e => rw [hp] at h; simp [Except.bind] at h
      | ok ps' =>
        rw [hp] at h
        simp only [Except.bind, Except.ok.injEq] at h
        exact ⟨i, l, d, ps, ps', rfl, hp, h.symm⟩

theorem ofList_code_free (ind e : PStr) : ∀ l : List Node, l ≠ [] → (Nodes.ofList l).code ind [] e = l.flatMap (fun n => n.code ind []) := by
  intro l
  induction l generalizing e with
  | nil => intro h; exact absurd rfl h
  | cons a as ih =>
    intro _
    rw [Nodes.ofList, Nodes.code]
    have hz : (if (Nodes.ofList as).isNil = true then ([] : PStr) else []) = [] := by split <;> rfl
    rw [hz, List.flatMap_cons]
    cases as with
    | nil => simp [Nodes.ofList, Nodes.code]
    | cons b bs => rw [ih [] (by simp)]

theorem removable_false_of (ρ : Nat → Option Repl) (hne : NoEmptyLines ρ) (n n' : Node) (hn : ρ n.id = some (.node n')) : n'.removable = false := hne.1 _ _ hn

/-- Sequences where every child is replaced by at most one node. -/
theorem nodes_claim_sep (ρ : Nat → Option Repl) (hne : NoEmptyLines ρ) (b : Bool) (ind sep : PStr) : ∀ (cs : Nodes) (e : PStr), (∀ c ∈ cs.toList, NodeClaim ρ c) →
    (∀ c ∈ cs.toList, OneForOne ρ c) →
    (∀ c ∈ cs.toList, ∀ r, ρ c.id = none → visitR ρ c = .ok r → ∃ n', r = .node n' ∧ n'.removable = c.removable) →
    ∃ segs l, cs.visit (replacementTransformer ρ) b = .ok l ∧ cs.code ind sep e = segs.flatMap Seg.before ∧
      (Nodes.ofList l).code ind sep e = segs.flatMap (Seg.after ρ) ∧ Outermost ρ cs.toList (holes segs) ∧ l.length = cs.toList.length
  | .nil, e, _, _, _ => ⟨[.text e], [], by simp [Nodes.visit], by simp [Nodes.code, Seg.before], by simp [Nodes.ofList, Nodes.code, Seg.after], .nil, rfl⟩
  | .cons c cs, e, hc, h1, hrem => by
    simp only [Nodes.toList, List.mem_cons] at hc h1 hrem
    obtain ⟨segs', l', e1, e2, e3, e4, e5⟩ := nodes_claim_sep ρ hne b ind sep cs [] (fun x hx => hc x (Or.inr hx)) (fun x hx => h1 x (Or.inr hx))
      (fun x hx => hrem x (Or.inr hx))
    obtain ⟨segs, r, f1, f2, f3, f4⟩ := hc c (Or.inl rfl) ind (if cs.isNil then [] else sep)
    have hnode : ∃ n', r = .node n' ∧ (n'.removable = false ∨ n'.removable = c.removable) := by
      cases hr : ρ c.id with
      | some r' =>
        rw [visitR_some ρ c r' hr] at f1
        simp only [Except.ok.injEq] at f1
        subst f1
        obtain ⟨n', rfl⟩ := h1 c (Or.inl rfl) _ hr
        exact ⟨n', rfl, Or.inl (hne.1 _ _ hr)⟩
      | none =>
        obtain ⟨n', rfl, hn'⟩ := hrem c (Or.inl rfl) r hr f1
        exact ⟨n', rfl, Or.inr hn'⟩
    obtain ⟨n', rfl, hn'⟩ := hnode
    have hkeep : keepOne b c n' = [n'] := by
      unfold keepOne
      rcases hn' with h | h <;> rw [h] <;> cases b <;> cases c.removable <;> rfl
    refine ⟨segs ++ segs', n' :: l', ?_, ?_, ?_, ?_, ?_⟩
    · rw [Nodes.visit, show c.visit (replacementTransformer ρ) = _ from f1, e1]
      simp [bind, Except.bind, pure, Except.pure, splice, hkeep]
    · rw [Nodes.code, f2, e2, List.flatMap_append]
    · have hnil : (Nodes.ofList l').isNil = cs.isNil := by
        rw [isNil_ofList, isNil_toList, Bool.eq_iff_iff, List.isEmpty_iff, List.isEmpty_iff, ← List.length_eq_zero_iff, ← List.length_eq_zero_iff, e5]
      rw [Nodes.ofList, Nodes.code, hnil, e3, List.flatMap_append]
      simp only [replText] at f3
      rw [f3]
    · rw [holes_append]
      have := outermost_append ρ f4 e4
      simpa [Nodes.toList] using this
    · simp [Nodes.toList, e5]

/-- Sequences without separators. -/
theorem nodes_claim_free (ρ : Nat → Option Repl) (hne : NoEmptyLines ρ) (b : Bool) (ind : PStr) : ∀ (cs : Nodes), (∀ c ∈ cs.toList, NodeClaim ρ c) →
    (∀ c ∈ cs.toList, ∀ r, ρ c.id = none → visitR ρ c = .ok r → ∃ n', r = .node n' ∧ n'.removable = c.removable) →
    ∃ segs l, cs.visit (replacementTransformer ρ) b = .ok l ∧ cs.toList.flatMap (fun n => n.code ind []) = segs.flatMap Seg.before ∧
      l.flatMap (fun n => n.code ind []) = segs.flatMap (Seg.after ρ) ∧ Outermost ρ cs.toList (holes segs) ∧
      ((∃ c ∈ cs.toList, Stays ρ c) → l ≠ [])
  | .nil, _, _ => ⟨[], [], by simp [Nodes.visit], by simp [Nodes.toList], by simp, .nil, by simp [Nodes.toList]⟩
  | .cons c cs, hc, hrem => by
    simp only [Nodes.toList, List.mem_cons] at hc hrem
    obtain ⟨segs', l', e1, e2, e3, e4, e5⟩ := nodes_claim_free ρ hne b ind cs (fun x hx => hc x (Or.inr hx)) (fun x hx => hrem x (Or.inr hx))
    obtain ⟨segs, r, f1, f2, f3, f4⟩ := hc c (Or.inl rfl) ind []
    have hkeep : ∀ n' : Node, (n'.removable = false ∨ n'.removable = c.removable) → keepOne b c n' = [n'] := by
      intro n' hn'
      unfold keepOne
      rcases hn' with h | h <;> rw [h] <;> cases b <;> cases c.removable <;> rfl
    have hsplice : (splice b c r).flatMap (fun n => n.code ind []) = replText ind [] r ∧ (Stays ρ c → splice b c r ≠ []) := by
      cases hr : ρ c.id with
      | some r' =>
        rw [visitR_some ρ c r' hr] at f1
        simp only [Except.ok.injEq] at f1
        subst f1
        cases r' with
        | node n' => simp [splice, hkeep n' (Or.inl (hne.1 _ _ hr)), replText]
        | remove =>
          refine ⟨by simp [splice, replText], ?_⟩
          intro hst
          rcases hst _ hr with ⟨n', h⟩ | ⟨a, l, h⟩ <;> simp at h
        | flatten ns =>
          have : ns.flatMap (keepOne b c) = ns := by
            have hall := hne.2 _ _ hr
            clear hr f3
            induction ns with
            | nil => rfl
            | cons a as ih => rw [List.flatMap_cons, hkeep a (Or.inl (hall a (by simp))), ih (fun n hn => hall n (by simp [hn]))]; rfl
          simp only [splice, this, replText, true_and]
          intro hst
          rcases hst _ hr with ⟨n', h⟩ | ⟨a, l, h⟩
          · simp at h
          · simp only [Repl.flatten.injEq] at h; rw [h]; simp
      | none =>
        obtain ⟨n', rfl, hn'⟩ := hrem c (Or.inl rfl) r hr f1
        simp [splice, hkeep n' (Or.inr hn'), replText]
    refine ⟨segs ++ segs', splice b c r ++ l', ?_, ?_, ?_, ?_, ?_⟩
    · rw [Nodes.visit, show c.visit (replacementTransformer ρ) = _ from f1, e1]; rfl
    · rw [Nodes.toList, List.flatMap_cons, f2, e2, List.flatMap_append]
    · rw [List.flatMap_append, hsplice.1, f3, e3, List.flatMap_append]
    · rw [holes_append]
      have := outermost_append ρ f4 e4
      simpa [Nodes.toList] using this
    · rintro ⟨x, hx, hst⟩ hnil
      rw [List.append_eq_nil_iff] at hnil
      simp only [Nodes.toList, List.mem_cons] at hx
      rcases hx with rfl | hx
      · exact hsplice.2 hst hnil.1
      · exact e5 ⟨x, hx, hst⟩ hnil.2

theorem nodes_code_free (ind e : PStr) (cs : Nodes) (h : cs.toList ≠ []) : cs.code ind [] e = cs.toList.flatMap (fun n => n.code ind []) := by
  have := ofList_code_free ind e cs.toList h
  rwa [ofList_toList] at this

/-- The parts of a kept node. -/
theorem parts_claim (ρ : Nat → Option Repl) (hne : NoEmptyLines ρ) (ind : PStr) (ps : Parts) (hf : Fits ρ ps) : (∀ c ∈ childrenOf ps, NodeClaim ρ c) →
    (∀ c ∈ childrenOf ps, ∀ r, ρ c.id = none → visitR ρ c = .ok r → ∃ n', r = .node n' ∧ n'.removable = c.removable) →
    ∃ segs ps', ps.visit (replacementTransformer ρ) = .ok ps' ∧ ps.code ind = segs.flatMap Seg.before ∧
      ps'.code ind = segs.flatMap (Seg.after ρ) ∧ Outermost ρ (childrenOf ps) (holes segs) ∧ ps'.noItems = ps.noItems := by
  induction hf with
  | nil => intro _ _; exact ⟨[], .nil, by simp [Parts.visit], by simp [Parts.code], by simp [Parts.code], .nil, rfl⟩
  | tok s r _ ih =>
    intro h1 h2
    obtain ⟨segs, ps', e1, e2, e3, e4, e5⟩ := ih h1 h2
    exact ⟨.text s :: segs, .tok s ps', by rw [Parts.visit, e1]; rfl, by simp [Parts.code, e2, Seg.before], by simp [Parts.code, e3, Seg.after], e4, e5⟩
  | indent r _ ih =>
    intro h1 h2
    obtain ⟨segs, ps', e1, e2, e3, e4, e5⟩ := ih h1 h2
    exact ⟨.text ind :: segs, .indent ps', by rw [Parts.visit, e1]; rfl, by simp [Parts.code, e2, Seg.before], by simp [Parts.code, e3, Seg.after], e4, e5⟩
  | one p c r ho _ ih =>
    intro h1 h2
    simp only [childrenOf, List.mem_cons] at h1 h2
    obtain ⟨segs, ps', e1, e2, e3, e4, e5⟩ := ih (fun x hx => h1 x (Or.inr hx)) (fun x hx => h2 x (Or.inr hx))
    obtain ⟨segs1, rr, f1, f2, f3, f4⟩ := h1 c (Or.inl rfl) (ind ++ p) []
    have hnode : ∃ n', rr = .node n' := by
      cases hr : ρ c.id with
      | some r' => rw [visitR_some ρ c r' hr] at f1; simp only [Except.ok.injEq] at f1; subst f1; exact ho _ hr
      | none => obtain ⟨n', h, -⟩ := h2 c (Or.inl rfl) rr hr f1; exact ⟨n', h⟩
    obtain ⟨n', rfl⟩ := hnode
    refine ⟨segs1 ++ segs, .one p n' ps', ?_, ?_, ?_, ?_, e5⟩
    · rw [Parts.visit, show c.visit (replacementTransformer ρ) = _ from f1, e1]; rfl
    · rw [Parts.code, f2, e2, List.flatMap_append]
    · simp only [replText] at f3
      rw [Parts.code, f3, e3, List.flatMap_append]
    · rw [holes_append]; have := outermost_append ρ f4 e4; simpa [childrenOf] using this
  | opt e c r ho _ ih =>
    intro h1 h2
    simp only [childrenOf, List.mem_cons] at h1 h2
    obtain ⟨segs, ps', e1, e2, e3, e4, e5⟩ := ih (fun x hx => h1 x (Or.inr hx)) (fun x hx => h2 x (Or.inr hx))
    obtain ⟨segs1, rr, f1, f2, f3, f4⟩ := h1 c (Or.inl rfl) ind []
    have hnode : ∃ n', rr = .node n' := by
      cases hr : ρ c.id with
      | some r' => rw [visitR_some ρ c r' hr] at f1; simp only [Except.ok.injEq] at f1; subst f1; exact ho _ hr
      | none => obtain ⟨n', h, -⟩ := h2 c (Or.inl rfl) rr hr f1; exact ⟨n', h⟩
    obtain ⟨n', rfl⟩ := hnode
    refine ⟨.text e :: (segs1 ++ segs), .opt e n' ps', ?_, ?_, ?_, ?_, e5⟩
    · rw [Parts.visit, show c.visit (replacementTransformer ρ) = _ from f1, e1]; rfl
    · rw [Parts.code, f2, e2, List.flatMap_cons, List.flatMap_append, Seg.before, List.append_assoc]
    · simp only [replText] at f3
      rw [Parts.code, f3, e3, List.flatMap_cons, List.flatMap_append, Seg.after, List.append_assoc]
    · rw [holes, holes_append]; have := outermost_append ρ f4 e4; simpa [childrenOf] using this
  | sep p b s e cs r h1f _ ih =>
    intro h1 h2
    simp only [childrenOf, List.mem_append] at h1 h2
    obtain ⟨segs, ps', e1, e2, e3, e4, e5⟩ := ih (fun x hx => h1 x (Or.inr hx)) (fun x hx => h2 x (Or.inr hx))
    obtain ⟨segs1, l, f1, f2, f3, f4, f5⟩ := nodes_claim_sep ρ hne b (ind ++ p) s cs e (fun x hx => h1 x (Or.inl hx)) h1f (fun x hx => h2 x (Or.inl hx))
    refine ⟨segs1 ++ segs, .seq p b s e (Nodes.ofList l) ps', ?_, ?_, ?_, ?_, ?_⟩
    · rw [Parts.visit, f1, e1]; rfl
    · rw [Parts.code, f2, e2, List.flatMap_append]
    · rw [Parts.code, f3, e3, List.flatMap_append]
    · rw [holes_append]; exact outermost_append ρ f4 e4
    · simp only [Parts.noItems, e5]
      rw [isNil_ofList, isNil_toList]
      have : l.isEmpty = cs.toList.isEmpty := by
        rw [Bool.eq_iff_iff, List.isEmpty_iff, List.isEmpty_iff, ← List.length_eq_zero_iff, ← List.length_eq_zero_iff, f5]
      rw [this]
  | free p b e cs r hst _ ih =>
    intro h1 h2
    simp only [childrenOf, List.mem_append] at h1 h2
    obtain ⟨segs, ps', e1, e2, e3, e4, e5⟩ := ih (fun x hx => h1 x (Or.inr hx)) (fun x hx => h2 x (Or.inr hx))
    obtain ⟨segs1, l, f1, f2, f3, f4, f5⟩ := nodes_claim_free ρ hne b (ind ++ p) cs (fun x hx => h1 x (Or.inl hx)) (fun x hx => h2 x (Or.inl hx))
    have hl := f5 hst
    have hcs : cs.toList ≠ [] := by obtain ⟨c, hc, -⟩ := hst; intro h; rw [h] at hc; simp at hc
    refine ⟨segs1 ++ segs, .seq p b [] e (Nodes.ofList l) ps', ?_, ?_, ?_, ?_, ?_⟩
    · rw [Parts.visit, f1, e1]; rfl
    · rw [Parts.code, nodes_code_free _ _ _ hcs, f2, e2, List.flatMap_append]
    · rw [Parts.code, ofList_code_free _ _ _ hl, f3, e3, List.flatMap_append]
    · rw [holes_append]; exact outermost_append ρ f4 e4
    · simp only [Parts.noItems, e5]
      rw [isNil_ofList, isNil_toList]
      have : l.isEmpty = cs.toList.isEmpty := by
        rw [Bool.eq_iff_iff, List.isEmpty_iff, List.isEmpty_iff]
        simp [hl, hcs]
      rw [this]

theorem node_claim (ρ : Nat → Option Repl) (hne : NoEmptyLines ρ) : ∀ n, FitsAll ρ n → NodeClaim ρ n ∧
    ∀ r, ρ n.id = none → visitR ρ n = .ok r → ∃ n', r = .node n' ∧ n'.removable = n.removable := by
  intro n
  induction n using Node.induct with
  | h n ih =>
    intro hf
    cases hf with
    | replaced _ h =>
      refine ⟨nodeClaim_replaced ρ n h, ?_⟩
      intro r hn
      rw [hn] at h; simp at h
    | kept i l d ps hn hfit hall =>
      have h1 : ∀ c ∈ childrenOf ps, NodeClaim ρ c := fun c hc => (ih c hc (hall c hc)).1
      have h2 : ∀ c ∈ childrenOf ps, ∀ r, ρ c.id = none → visitR ρ c = .ok r → ∃ n', r = .node n' ∧ n'.removable = c.removable :=
        fun c hc => (ih c hc (hall c hc)).2
      constructor
      · intro ind trail
        obtain ⟨segs, ps', e1, e2, e3, e4, -⟩ := parts_claim ρ hne ind ps hfit h1 h2
        refine ⟨segs ++ [.text (if d then trail else [])], .node (.mk i l d ps'), ?_, ?_, ?_, ?_⟩
        · rw [visitR_none ρ i l d ps hn, e1]; rfl
        · rw [Node.code, e2, List.flatMap_append]; simp [Seg.before]
        · rw [replText, Node.code, e3, List.flatMap_append]; simp [Seg.after]
        · rw [holes_append]
          exact .kept _ [] (holes segs) [] hn e4 .nil
      · intro r _ hr
        obtain ⟨segs, ps', e1, -, -, -, e5⟩ := parts_claim ρ hne [] ps hfit h1 h2
        rw [visitR_none ρ i l d ps hn, e1] at hr
        simp only [Except.bind, Except.ok.injEq] at hr
        exact ⟨_, hr.symm, by simp [Node.removable, e5]⟩

/-- **C37** The fixed text is the original text with the text of each outermost replaced node exchanged for the text of its replacement;
everything between them is untouched and in place. -/
theorem C37_only_replaced_text_changes (m : Node) (fs : List Fix) (hm : replacements fs m.id = none) (hne : NoEmptyLines (replacements fs))
    (hfit : FitsAll (replacements fs) m) :
    ∃ m' segs, applyReplacements m fs = .ok m' ∧ moduleCode m = segs.flatMap Seg.before ∧
      moduleCode m' = segs.flatMap (Seg.after (replacements fs)) ∧ Outermost (replacements fs) [m] (holes segs) := by
  obtain ⟨h1, h2⟩ := node_claim _ hne m hfit
  obtain ⟨segs, r, e1, e2, e3, e4⟩ := h1 [] []
  obtain ⟨m', rfl, -⟩ := h2 r hm e1
  refine ⟨m', segs, ?_, e2, e3, e4⟩
  unfold applyReplacements visitModule
  rw [show m.visit (replacementTransformer (replacements fs)) = _ from e1]
  rfl

/-! ## C38 -/

/-- **C38** The right-hand side of the diff shown for a violation is the file with only that violation's fix applied (and the left-hand side
the file as it is); one fails exactly when the other does. -/
theorem C38_diff_is_single_fix (m : Node) (f : Fix) (r : Repl) (hr : f.replacement = some r) (ht : r.truthy = true) :
    diffTexts m f.node r = (applyReplacements m [f]).map (fun m' => (moduleCode m, moduleCode m')) := by
  have hv : childReplacement f.node r = replacementTransformer (replacements [f]) := by
    have hρ : ∀ i, replacements [f] i = if f.node = i then some r else none := by
      intro i
      simp only [replacements, Fix.usable, hr, ht, if_true]
    unfold childReplacement replacementTransformer
    congr 1
    · funext n
      rw [hρ]
      by_cases h : f.node = n.id
      · rw [if_pos h, h]; simp
      · rw [if_neg h]; simp only [Option.isNone_none, decide_eq_true_eq]; exact fun e => h e.symm
    · funext n upd
      rw [hρ]
      by_cases h : f.node = n.id
      · rw [if_pos h, if_pos h.symm]
      · rw [if_neg h, if_neg (fun e => h e.symm)]
  unfold diffTexts deepReplace applyReplacements
  rw [hv]
  cases visitModule (replacementTransformer (replacements [f])) m <;> rfl

/-! ## Examples -/

/-- `pass` as a node. -/
def exLeaf (i : Nat) (s : PStr) : Node := .mk i false false (.tok s .nil)
/-- `if a: b` followed by `c`: a small tree. -/
def exTree : Node :=
  .mk 0 false false (.seq [] true [] []
    (.cons (.mk 1 false false (.tok (py "if ") (.one [] (exLeaf 2 (py "a")) (.tok (py ":\n") (.seq (py "  ") true [] (py "pass")
        (.cons (.mk 3 false false (.indent (.one [] (exLeaf 4 (py "b")) (.tok (py "\n") .nil)))) .nil) .nil)))))
    (.cons (.mk 5 false false (.indent (.one [] (exLeaf 6 (py "c")) (.tok (py "\n") .nil)))) .nil)) .nil)

example : moduleCode exTree = py "if a:\n  b\nc\n" := by decide

/-- Replace `b`, remove `c`. -/
def exFixes : List Fix := [⟨4, some (.node (exLeaf 7 (py "bb")))⟩, ⟨5, some .remove⟩]

example : (applyReplacements exTree exFixes).map moduleCode = .ok (py "if a:\n  bb\n") := by decide

theorem exFixes_ρ (i : Nat) : replacements exFixes i = if i = 4 then some (.node (exLeaf 7 (py "bb"))) else if i = 5 then some .remove else none := by
  simp only [exFixes, replacements, Fix.usable, Repl.truthy, if_true]
  by_cases h4 : i = 4
  · subst h4; rfl
  · by_cases h5 : i = 5
    · subst h5; rfl
    · simp [h4, h5, Ne.symm h4, Ne.symm h5]

/-- The hypotheses of C37 hold for it. -/
example : replacements exFixes exTree.id = none ∧ NoEmptyLines (replacements exFixes) ∧ FitsAll (replacements exFixes) exTree := by
  have one : ∀ n : Node, n.id ≠ 5 → OneForOne (replacements exFixes) n := by
    intro n h r hr
    rw [exFixes_ρ, if_neg h] at hr
    split at hr
    · simp only [Option.some.injEq] at hr; exact ⟨_, hr.symm⟩
    · simp at hr
  have keep : ∀ n : Node, replacements exFixes n.id = none → Stays (replacements exFixes) n := by
    intro n h r hr; rw [h] at hr; simp at hr
  have leaf : ∀ i s, i ≠ 4 → i ≠ 5 → FitsAll (replacements exFixes) (exLeaf i s) := by
    intro i s h4 h5
    refine .kept _ _ _ _ (by rw [exFixes_ρ]; simp [h4, h5]) (.tok _ _ .nil) (by simp [childrenOf])
  refine ⟨rfl, ⟨?_, ?_⟩, ?_⟩
  · intro i n h
    rw [exFixes_ρ] at h
    split at h
    · simp only [Option.some.injEq, Repl.node.injEq] at h; rw [← h]; rfl
    · split at h <;> simp at h
  · intro i ns h
    rw [exFixes_ρ] at h
    split at h
    · simp at h
    · split at h <;> simp at h
  · refine .kept _ _ _ _ rfl (.free _ _ _ _ _ ⟨_, by simp [Nodes.toList]; exact Or.inl rfl, keep _ rfl⟩ .nil) ?_
    intro c hc
    simp only [childrenOf, Nodes.toList, List.append_nil, List.mem_cons, List.not_mem_nil, or_false] at hc
    rcases hc with rfl | rfl
    · refine .kept _ _ _ _ rfl (.tok _ _ (.one _ _ _ (one _ (by decide)) (.tok _ _ (.sep _ _ _ _ _ _ ?_ .nil)))) ?_
      · intro c hc
        simp only [Nodes.toList, List.mem_singleton] at hc
        subst hc
        exact one _ (by decide)
      · intro c hc
        simp only [childrenOf, Nodes.toList, List.append_nil, List.mem_cons, List.not_mem_nil, or_false] at hc
        rcases hc with rfl | rfl
        · exact leaf 2 (py "a") (by decide) (by decide)
        · refine .kept _ _ _ _ rfl (.indent _ (.one _ _ _ (one _ (by decide)) (.tok _ _ .nil))) ?_
          intro c hc
          simp only [childrenOf, List.mem_cons, List.not_mem_nil, or_false] at hc
          subst hc
          exact .replaced _ rfl
    · exact .replaced _ rfl

/-- A fix for `a` inside the replaced `if` statement is ignored. -/
example : (applyReplacements exTree [⟨2, some (.node (exLeaf 8 (py "x")))⟩, ⟨1, some (.node (exLeaf 9 (py "y\n")))⟩]).map moduleCode = .ok (py "y\nc\n") := by decide

/-- (finding, libCST) Removing the only statement of a line drops the line with its comment: outside the replaced node, text can disappear. -/
theorem C37_emptied_line_is_dropped :
    let line := Node.mk 1 true false (.tok (py "# comment\n") (.seq [] false (py "; ") (py "pass") (.cons (exLeaf 2 (py "x")) .nil) (.tok (py "\n") .nil)))
    let m := Node.mk 0 false false (.seq [] true [] [] (.cons line (.cons (exLeaf 3 (py "y\n")) .nil)) .nil)
    moduleCode m = py "# comment\nx\ny\n" ∧ (applyReplacements m [⟨2, some .remove⟩]).map moduleCode = .ok (py "y\n") := by decide

end Fixit
