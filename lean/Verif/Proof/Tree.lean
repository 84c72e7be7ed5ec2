import Verif.Spec.Tree

/-! Facts about visiting trees. -/

namespace Fixit
open Py Spec

mutual
/-- Size, for inductions. -/
def Node.size : Node → Nat
  | .mk _ _ _ ps => ps.size + 1
def Parts.size : Parts → Nat
  | .nil => 0
  | .tok _ r => r.size
  | .indent r => r.size
  | .one _ c r => c.size + r.size
  | .opt _ c r => c.size + r.size
  | .seq _ _ _ _ cs r => cs.size + r.size
def Nodes.size : Nodes → Nat
  | .nil => 0
  | .cons c cs => c.size + cs.size
end

theorem nodes_size (c : Node) : ∀ cs : Nodes, c ∈ cs.toList → c.size ≤ cs.size
  | .nil, h => by simp [Nodes.toList] at h
  | .cons x xs, h => by
    simp only [Nodes.toList, List.mem_cons] at h
    rcases h with rfl | h
    · simp [Nodes.size]
    · have := nodes_size c xs h; simp [Nodes.size]; omega

theorem parts_size (c : Node) : ∀ ps : Parts, c ∈ childrenOf ps → c.size ≤ ps.size
  | .nil, h => by simp [childrenOf] at h
  | .tok _ r, h => by simp only [childrenOf] at h; have := parts_size c r h; simpa [Parts.size] using this
  | .indent r, h => by simp only [childrenOf] at h; have := parts_size c r h; simpa [Parts.size] using this
  | .one _ x r, h => by
    simp only [childrenOf, List.mem_cons] at h
    rcases h with rfl | h
    · simp [Parts.size]
    · have := parts_size c r h; simp [Parts.size]; omega
  | .opt _ x r, h => by
    simp only [childrenOf, List.mem_cons] at h
    rcases h with rfl | h
    · simp [Parts.size]
    · have := parts_size c r h; simp [Parts.size]; omega
  | .seq _ _ _ _ cs r, h => by
    simp only [childrenOf, List.mem_append] at h
    rcases h with h | h
    · have := nodes_size c cs h; simp [Parts.size]; omega
    · have := parts_size c r h; simp [Parts.size]; omega

/-- Induction over trees. -/
theorem Node.induct {P : Node → Prop} (h : ∀ n, (∀ c ∈ children n, P c) → P n) : ∀ n, P n := by
  have : ∀ k n, n.size ≤ k → P n := by
    intro k
    induction k with
    | zero => intro n hn; cases n; simp [Node.size] at hn
    | succ k ih =>
      intro n hn
      apply h
      intro c hc
      apply ih
      cases n with
      | mk i l d ps =>
        have := parts_size c ps hc
        simp only [Node.size] at hn
        omega
  exact fun n => this n.size n (Nat.le_refl _)

theorem ofList_toList : ∀ cs : Nodes, Nodes.ofList cs.toList = cs
  | .nil => rfl
  | .cons c cs => by simp [Nodes.toList, Nodes.ofList, ofList_toList cs]

theorem isNil_toList : ∀ cs : Nodes, cs.isNil = cs.toList.isEmpty
  | .nil => rfl
  | .cons _ _ => rfl

theorem isNil_ofList : ∀ l : List Node, (Nodes.ofList l).isNil = l.isEmpty
  | [] => rfl
  | _ :: _ => rfl

/-! ## Congruence: a visit depends only on the visits of the children -/

theorem nodes_visit_congr (v v' : Transformer) (b : Bool) : ∀ cs : Nodes, (∀ c ∈ cs.toList, c.visit v = c.visit v') → cs.visit v b = cs.visit v' b
  | .nil, _ => by simp [Nodes.visit]
  | .cons c cs, h => by
    simp only [Nodes.toList, List.mem_cons] at h
    rw [Nodes.visit, Nodes.visit, h c (Or.inl rfl), nodes_visit_congr v v' b cs (fun x hx => h x (Or.inr hx))]

theorem parts_visit_congr (v v' : Transformer) : ∀ ps : Parts, (∀ c ∈ childrenOf ps, c.visit v = c.visit v') → ps.visit v = ps.visit v'
  | .nil, _ => by simp [Parts.visit]
  | .tok s r, h => by rw [Parts.visit, Parts.visit, parts_visit_congr v v' r h]
  | .indent r, h => by rw [Parts.visit, Parts.visit, parts_visit_congr v v' r h]
  | .one p c r, h => by
    simp only [childrenOf, List.mem_cons] at h
    rw [Parts.visit, Parts.visit, h c (Or.inl rfl), parts_visit_congr v v' r (fun x hx => h x (Or.inr hx))]
  | .opt e c r, h => by
    simp only [childrenOf, List.mem_cons] at h
    rw [Parts.visit, Parts.visit, h c (Or.inl rfl), parts_visit_congr v v' r (fun x hx => h x (Or.inr hx))]
  | .seq p b s e cs r, h => by
    simp only [childrenOf, List.mem_append] at h
    rw [Parts.visit, Parts.visit, nodes_visit_congr v v' b cs (fun x hx => h x (Or.inl hx)), parts_visit_congr v v' r (fun x hx => h x (Or.inr hx))]

theorem node_visit_eq (v : Transformer) (i : Nat) (l d : Bool) (ps : Parts) : (Node.mk i l d ps).visit v =
    if v.onVisit (.mk i l d ps) then (ps.visit v).bind (fun ps' => .ok (v.onLeave (.mk i l d ps) (.mk i l d ps')))
    else .ok (v.onLeave (.mk i l d ps) (.mk i l d ps)) := by
  rw [Node.visit]; rfl

/-! ## Replacement by identity -/

/-- Abbreviation: visit with the replacement table `ρ`. -/
abbrev visitR (ρ : Nat → Option Repl) (n : Node) : Except Err Repl := n.visit (replacementTransformer ρ)

theorem visitR_some (ρ : Nat → Option Repl) (n : Node) (r : Repl) (h : ρ n.id = some r) : visitR ρ n = .ok r := by
  cases n with
  | mk i l d ps =>
    unfold visitR
    rw [node_visit_eq]
    simp only [Node.id] at h
    simp [replacementTransformer, Node.id, h]

theorem visitR_none (ρ : Nat → Option Repl) (i : Nat) (l d : Bool) (ps : Parts) (h : ρ i = none) :
    visitR ρ (.mk i l d ps) = (ps.visit (replacementTransformer ρ)).bind (fun ps' => .ok (.node (.mk i l d ps'))) := by
  unfold visitR
  rw [node_visit_eq]
  simp [replacementTransformer, Node.id, h]

/-- The nodes whose replacement is looked up. -/
inductive Visited (ρ : Nat → Option Repl) : Node → Node → Prop
  | here (n : Node) : Visited ρ n n
  | deeper (s c n : Node) : ρ n.id = none → c ∈ children n → Visited ρ s c → Visited ρ s n

theorem visitR_congr (ρ ρ' : Nat → Option Repl) : ∀ n : Node, (∀ s, Visited ρ s n → ρ s.id = ρ' s.id) → visitR ρ n = visitR ρ' n := by
  intro n
  induction n using Node.induct with
  | h n ih =>
    intro h
    have hn := h n (.here n)
    cases hr : ρ n.id with
    | some r => rw [visitR_some ρ n r hr, visitR_some ρ' n r (by rw [← hn, hr])]
    | none =>
      cases n with
      | mk i l d ps =>
        simp only [Node.id] at hr hn
        rw [visitR_none ρ i l d ps hr, visitR_none ρ' i l d ps (by rw [← hn, hr])]
        rw [parts_visit_congr _ (replacementTransformer ρ') ps]
        intro c hc
        exact ih c hc (fun s hs => h s (.deeper s c _ hr hc hs))

/-- Nothing to replace: the same tree. -/
theorem nodes_visit_id (v : Transformer) (b : Bool) : ∀ cs : Nodes, (∀ c ∈ cs.toList, c.visit v = .ok (.node c)) → cs.visit v b = .ok cs.toList
  | .nil, _ => by simp [Nodes.visit, Nodes.toList]
  | .cons c cs, h => by
    simp only [Nodes.toList, List.mem_cons] at h
    rw [Nodes.visit, h c (Or.inl rfl), nodes_visit_id v b cs (fun x hx => h x (Or.inr hx))]
    simp only [bind, Except.bind, pure, Except.pure, splice, keepOne, Nodes.toList]
    cases b <;> cases c.removable <;> rfl

theorem parts_visit_id (v : Transformer) : ∀ ps : Parts, (∀ c ∈ childrenOf ps, c.visit v = .ok (.node c)) → ps.visit v = .ok ps
  | .nil, _ => by simp [Parts.visit]
  | .tok s r, h => by rw [Parts.visit, parts_visit_id v r h]; rfl
  | .indent r, h => by rw [Parts.visit, parts_visit_id v r h]; rfl
  | .one p c r, h => by
    simp only [childrenOf, List.mem_cons] at h
    rw [Parts.visit, h c (Or.inl rfl), parts_visit_id v r (fun x hx => h x (Or.inr hx))]; rfl
  | .opt e c r, h => by
    simp only [childrenOf, List.mem_cons] at h
    rw [Parts.visit, h c (Or.inl rfl), parts_visit_id v r (fun x hx => h x (Or.inr hx))]; rfl
  | .seq p b s e cs r, h => by
    simp only [childrenOf, List.mem_append] at h
    rw [Parts.visit, nodes_visit_id v b cs (fun x hx => h x (Or.inl hx)), parts_visit_id v r (fun x hx => h x (Or.inr hx))]
    simp [bind, Except.bind, pure, Except.pure, ofList_toList]

theorem visitR_id (ρ : Nat → Option Repl) : ∀ n : Node, (∀ s, Occurs s n → ρ s.id = none) → visitR ρ n = .ok (.node n) := by
  intro n
  induction n using Node.induct with
  | h n ih =>
    intro h
    have hn := h n .here
    cases n with
    | mk i l d ps =>
      simp only [Node.id] at hn
      rw [visitR_none ρ i l d ps hn, parts_visit_id]
      · rfl
      · intro c hc
        exact ih c hc (fun s hs => h s (.deeper c _ hc hs))

theorem visited_occurs (ρ : Nat → Option Repl) (s n : Node) (h : Visited ρ s n) : Occurs s n := by
  induction h with
  | here => exact .here
  | deeper c n _ hc _ ih => exact .deeper c n hc ih

theorem occurs_trans {s t n : Node} (h : Occurs s t) (h' : Occurs t n) : Occurs s n := by
  induction h' with
  | here => exact h
  | deeper c n hc _ ih => exact .deeper c n hc ih

end Fixit
