/-!
# Specification of rule collection

`find` loads one reference: it gives the classes the reference resolves to, or an exception, and the new state of the import system.
-/

namespace Spec

section
variable {K M Q E : Type}

/-- The outcome of loading references one after another. -/
def outcomes (find : M → Q → Except E (List K) × M) : M → List Q → List (Q × Except E (List K))
  | _, [] => []
  | m, q :: qs => (q, (find m q).1) :: outcomes find (find m q).2 qs

/-- The state after loading them. -/
def after (find : M → Q → Except E (List K) × M) : M → List Q → M
  | m, [] => m
  | m, q :: qs => after find (find m q).2 qs

/-- Some reference satisfying `p` loaded and resolved to `c`. -/
def ResolvedBy (p : Q → Prop) (l : List (Q × Except E (List K))) (c : K) : Prop := ∃ q cs, (q, Except.ok cs) ∈ l ∧ p q ∧ c ∈ cs

/-- Some reference loaded and resolved to `c`. -/
abbrev Resolved (l : List (Q × Except E (List K))) (c : K) : Prop := ResolvedBy (fun _ => True) l c

/-- The references that failed to load, in order. -/
def failed (l : List (Q × Except E (List K))) : List Q := l.filterMap (fun e => match e.2 with | .ok _ => none | .error _ => some e.1)

end

end Spec
