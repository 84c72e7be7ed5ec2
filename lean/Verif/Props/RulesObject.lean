import Verif.Spec.RulesClasses

/-!
# C105: NoInheritFromObject
-/

namespace Cst
open Py Spec

theorem nameIs_iff (e : Expr) (s : PStr) : e.isName s = true ↔ e.core = .name s := by
  unfold Expr.isName
  cases h : e.core <;> simp

/-- C105: a class is reported exactly when one of its bases is `object`, and its new bases are the others, in order. -/
theorem C105_reports (bases : List Arg) :
    ((∃ new, withoutObject bases = some new) ↔ ∃ b ∈ bases, IsObject b) ∧
    ∀ new, withoutObject bases = some new → ∃ keep : Arg → Bool, (∀ b, keep b = true ↔ ¬ IsObject b) ∧ new = bases.filter keep := by
  constructor
  · unfold withoutObject newBases IsObject
    have h1 := List.length_filter_lt_length_iff_exists (l := bases) (p := fun b => !b.value.isName (py "object"))
    have h2 := List.length_filter_le (fun b : Arg => !b.value.isName (py "object")) bases
    constructor
    · rintro ⟨new, h⟩
      split at h
      · rename_i hne
        obtain ⟨b, hb, hx⟩ := h1.mp (by omega)
        refine ⟨b, hb, (nameIs_iff _ _).mp ?_⟩
        simpa using hx
      · cases h
    · rintro ⟨b, hb, hx⟩
      have := h1.mpr ⟨b, hb, by simpa using (nameIs_iff _ _).mpr hx⟩
      rw [if_pos (by omega)]
      exact ⟨_, rfl⟩
  · intro new h
    unfold withoutObject at h
    split at h
    · cases h
      refine ⟨fun b => !b.value.isName (py "object"), fun b => ?_, rfl⟩
      rw [IsObject, ← nameIs_iff]
      simp
    · cases h

/-! ## The method resolution order -/

section
variable {C : Type} [DecidableEq C]

theorem dropHead_subset (h : C) (s : List C) : ∀ x ∈ dropHead h s, x ∈ s := by
  intro x hx
  cases s with
  | nil => exact hx
  | cons y t =>
    simp only [dropHead] at hx
    split at hx
    · exact List.mem_cons_of_mem _ hx
    · exact hx

theorem mem_dropHead_of_ne {h x : C} (hne : x ≠ h) {s : List C} (hx : x ∈ s) : x ∈ dropHead h s := by
  cases s with
  | nil => exact hx
  | cons y t =>
    simp only [dropHead]
    split
    · rename_i hy
      rcases List.mem_cons.mp hx with rfl | hx'
      · exact absurd hy hne
      · exact hx'
    · exact hx

/-- A class in the tail of a list stays there until the lists before it are taken off. -/
theorem not_mem_dropHead {h x : C} (hx : x ∉ (s : List C).tail) (hh : x = h) : x ∉ dropHead h s := by
  subst hh
  cases s with
  | nil => exact List.not_mem_nil
  | cons y t =>
    simp only [dropHead]
    simp only [List.tail_cons] at hx
    split
    · exact hx
    · rename_i hy
      intro h'
      rcases List.mem_cons.mp h' with rfl | h'
      · exact hy rfl
      · exact hx h'

/-- When `o` stands before `p` in one list and `p` before `o` in another, the merge fails. -/
theorem merge_conflict (o p : C) {seqs : List (List C)} {out : List C} (hm : Merge seqs out) :
    (∃ s ∈ seqs, ∃ u v, s = u ++ o :: v ∧ p ∈ v) → (∃ s ∈ seqs, ∃ u v, s = u ++ p :: v ∧ o ∈ v) → False := by
  induction hm with
  | done seqs he =>
    rintro ⟨s, hs, u, v, rfl, -⟩
    exact absurd (he _ hs) (by simp)
  | step seqs before after h t out he hno hblock _ ih =>
    rintro ⟨s, hs, u, v, rfl, hp⟩ ⟨s', hs', u', v', rfl, ho⟩
    have key : ∀ (a b : C) (u v : List C), u ++ a :: v ∈ seqs → b ∈ v → (∃ s ∈ seqs, a ∈ s.tail) →
        ∃ s ∈ seqs.map (dropHead h), ∃ u v, s = u ++ a :: v ∧ b ∈ v := by
      intro a b u v hmem hb ⟨s'', hs'', ha⟩
      refine ⟨_, List.mem_map.mpr ⟨_, hmem, rfl⟩, ?_⟩
      have hah : a ≠ h := fun e => hno s'' hs'' (e ▸ ha)
      cases u with
      | nil => exact ⟨[], v, by simp [dropHead, hah], hb⟩
      | cons x u =>
        by_cases hx : x = h
        · exact ⟨u, v, by simp [dropHead, hx], hb⟩
        · exact ⟨x :: u, v, by simp [dropHead, hx], hb⟩
    have tl : ∀ (a b : C) (u v : List C), b ∈ v → b ∈ (u ++ a :: v).tail := by
      intro a b u v hb
      cases u with
      | nil => simpa using hb
      | cons x u => simp [hb]
    exact ih (key o p u v hs hp ⟨_, hs', tl p o u' v' ho⟩) (key p o u' v' hs' ho ⟨_, hs, tl o p u v hp⟩)

/-- Leaving `object` out of the end of the bases does not change the merge. -/
theorem merge_without (o : C) {seqs : List (List C)} {out : List C} (hm : Merge seqs out) :
    ∀ (A : List (List C)) (q : List C), seqs = A ++ [[o], q ++ [o]] → A ≠ [] → (∀ a ∈ A, ∃ l, a = l ++ [o]) → (∀ x ∈ q, x ≠ o ∧ ∃ a ∈ A, x ∈ a) → Merge (A ++ [q]) out := by
  induction hm with
  | done seqs he =>
    intro A q hs
    exact absurd (he [o] (by rw [hs]; simp)) (by simp)
  | step seqs before after h t out hseq hno hblock hrest ih =>
    intro A q hs hA hend hq
    have hnoA : ∀ a ∈ A, h ∉ a.tail := fun a ha => hno a (by rw [hs]; simp [ha])
    have hnoq : h ∉ (q ++ [o]).tail := hno _ (by rw [hs]; simp)
    by_cases hho : h = o
    · -- the last step
      subst hho
      have hqn : q = [] := by
        cases q with
        | nil => rfl
        | cons x q => simp at hnoq
      subst hqn
      have hAo : ∀ a ∈ A, a = [h] := by
        intro a ha
        obtain ⟨l, rfl⟩ := hend a ha
        have := hnoA _ ha
        cases l with
        | nil => rfl
        | cons x l => simp at this
      have hout : out = [] := by
        have hall : ∀ s ∈ seqs.map (dropHead h), s = [] := by
          intro s hs'
          obtain ⟨s0, h0, rfl⟩ := List.mem_map.mp hs'
          rw [hs] at h0
          have : s0 = [h] := by
            rcases List.mem_append.mp h0 with h0 | h0
            · exact hAo _ h0
            · simpa using h0
          simp [this, dropHead]
        cases hrest with
        | done _ _ => rfl
        | step _ b' a' h' t' out' e' _ _ _ =>
          have : (h' :: t') = [] := hall _ (by rw [e']; simp)
          cases this
      subst hout
      cases A with
      | nil => exact absurd rfl hA
      | cons a A =>
        have ha := hAo a (by simp)
        subst ha
        refine .step _ [] (A ++ [[]]) h [] [] rfl ?_ (by simp) (.done _ ?_)
        · intro s hs'
          rcases List.mem_append.mp hs' with h' | h'
          · exact hnoA s h'
          · have : s = [] := by simpa using h'
            simp [this]
        · intro s hs'
          obtain ⟨s0, h0, rfl⟩ := List.mem_map.mp hs'
          rcases List.mem_append.mp h0 with h' | h'
          · simp [hAo s0 h', dropHead]
          · have : s0 = [] := by simpa using h'
            simp [this, dropHead]
    · -- a step before the last
      have hqtail : h ∉ q.tail := by
        cases q with
        | nil => simp
        | cons x q => intro h'; exact hnoq (by simp only [List.cons_append, List.tail_cons]; exact List.mem_append_left _ h')
      -- blocked heads stay blocked
      have hblocked : ∀ x, (∃ s' ∈ seqs, x ∈ s'.tail) → ∃ s' ∈ A ++ [q], x ∈ s'.tail := by
        rintro x ⟨s', hs', hx⟩
        rw [hs] at hs'
        rcases List.mem_append.mp hs' with h' | h'
        · exact ⟨s', List.mem_append_left _ h', hx⟩
        · rcases List.mem_cons.mp h' with rfl | h'
          · simp at hx
          · have : s' = q ++ [o] := by simpa using h'
            subst this
            cases q with
            | nil => simp at hx
            | cons y q =>
              simp only [List.cons_append, List.tail_cons, List.mem_append, List.mem_singleton] at hx
              rcases hx with hx | rfl
              · exact ⟨y :: q, by simp, by simpa using hx⟩
              · obtain ⟨hyo, a, ha, hya⟩ := hq y (by simp)
                refine ⟨a, List.mem_append_left _ ha, ?_⟩
                obtain ⟨l, rfl⟩ := hend a ha
                cases l with
                | nil => exact absurd (by simpa using hya) hyo
                | cons z l => simp
      have hdrop : seqs.map (dropHead h) = A.map (dropHead h) ++ [[o], dropHead h q ++ [o]] := by
        rw [hs]
        simp only [List.map_append, List.map_cons, List.map_nil]
        have e1 : dropHead h [o] = [o] := by simp [dropHead, Ne.symm hho]
        have e2 : dropHead h (q ++ [o]) = dropHead h q ++ [o] := by
          cases q with
          | nil => simp [dropHead, Ne.symm hho]
          | cons x q =>
            simp only [List.cons_append, dropHead]
            split <;> rfl
        rw [e1, e2]
      have hrec : Merge (A.map (dropHead h) ++ [dropHead h q]) out := by
        refine ih _ _ hdrop (by simpa using hA) ?_ ?_
        · intro a' ha'
          obtain ⟨a, ha, rfl⟩ := List.mem_map.mp ha'
          obtain ⟨l, rfl⟩ := hend a ha
          cases l with
          | nil => exact ⟨[], by simp [dropHead, Ne.symm hho]⟩
          | cons x l =>
            by_cases hx : x = h
            · exact ⟨l, by simp [dropHead, hx]⟩
            · exact ⟨x :: l, by simp [dropHead, hx]⟩
        · intro x hx
          have hxq := dropHead_subset _ _ _ hx
          obtain ⟨hxo, a, ha, hxa⟩ := hq x hxq
          refine ⟨hxo, dropHead h a, List.mem_map.mpr ⟨a, ha, rfl⟩, mem_dropHead_of_ne (fun e => ?_) hxa⟩
          exact not_mem_dropHead (e ▸ hqtail) e hx
      have hnew : ∀ s ∈ A ++ [q], h ∉ s.tail := by
        intro s hs'
        rcases List.mem_append.mp hs' with h' | h'
        · exact hnoA s h'
        · have : s = q := by simpa using h'
          rw [this]; exact hqtail
      -- where the head was taken from
      have hsplit : before ++ (h :: t) :: after = A ++ [[o], q ++ [o]] := by rw [← hseq, hs]
      rcases List.append_eq_append_iff.mp hsplit with ⟨m, hAm, hm⟩ | ⟨m, hbm, hm⟩
      · cases m with
        | nil =>
          -- the head of `[o]`
          simp only [List.nil_append, List.cons.injEq] at hm
          exact absurd hm.1.1 hho
        | cons y m =>
          simp only [List.cons_append, List.cons.injEq] at hm
          obtain ⟨rfl, -⟩ := hm
          refine .step _ before (m ++ [q]) h t out (by rw [hAm]; simp) hnew ?_ (by simpa using hrec)
          exact fun s hs' x hx => hblocked x (hblock s hs' x hx)
      · cases m with
        | nil =>
          simp only [List.nil_append, List.cons.injEq] at hm
          exact absurd hm.1.1.symm hho
        | cons y m =>
          simp only [List.cons_append, List.cons.injEq] at hm
          obtain ⟨rfl, hm⟩ := hm
          cases m with
          | nil =>
            simp only [List.nil_append, List.cons.injEq] at hm
            have hqe := hm.1
            cases q with
            | nil => simp only [List.nil_append, List.cons.injEq] at hqe; exact absurd hqe.1.symm hho
            | cons z q =>
              simp only [List.cons_append, List.cons.injEq] at hqe
              obtain ⟨rfl, -⟩ := hqe
              refine .step _ A [] z q out rfl hnew ?_ (by simpa using hrec)
              intro s hs' x hx
              exact hblocked x (hblock s (by rw [hbm]; simp [hs']) x hx)
          | cons w m =>
            have := congrArg List.length hm
            simp at this
end

/-- C105: the fix keeps the method resolution order: when the class statement works and every base written `object` is `object`, the class statement with the new bases works and
the order is the same. -/
theorem C105_mro {C : Type} [DecidableEq C] (object : C) (mro : C → List C) (hl : Lineages object mro) (classOf : Arg → C) (bases new : List Arg)
    (hobj : ∀ b ∈ bases, IsObject b → classOf b = object) (hr : withoutObject bases = some new)
    (out : List C) (hout : Inherits object mro (bases.map classOf) out) : Inherits object mro (new.map classOf) out := by
  obtain ⟨hiff, hnew⟩ := C105_reports bases
  obtain ⟨b, hb, hbo⟩ := hiff.mp ⟨new, hr⟩
  obtain ⟨keep, hkeep, rfl⟩ := hnew new hr
  obtain ⟨u, v, rfl⟩ := List.append_of_mem hb
  have hco := hobj b hb hbo
  have hne : (u ++ b :: v).map classOf ≠ [] := by simp
  unfold Inherits at hout
  simp only [if_neg hne] at hout
  -- nothing after `object`
  have hv : v = [] := by
    cases v with
    | nil => rfl
    | cons p v =>
      exfalso
      by_cases hpo : classOf p = object
      · refine merge_conflict object object hout ⟨_, List.mem_append_right _ (List.mem_singleton.mpr rfl), u.map classOf, (p :: v).map classOf, by simp [hco], by simp [hpo]⟩
          ⟨_, List.mem_append_right _ (List.mem_singleton.mpr rfl), u.map classOf, (p :: v).map classOf, by simp [hco], by simp [hpo]⟩
      · obtain ⟨l, hlast⟩ := hl.ends (classOf p)
        have hmem := hl.starts (classOf p)
        obtain ⟨s, t, hst⟩ := List.append_of_mem hmem
        have hot : object ∈ t := by
          have he : l ++ [object] = s ++ classOf p :: t := hlast ▸ hst
          cases ht : t.reverse with
          | nil =>
            have : t = [] := by simpa using ht
            subst this
            have := List.append_inj_right' he (by simp)
            simp only [List.cons.injEq, and_true] at this
            exact absurd this.symm hpo
          | cons y t' =>
            have hte : t = t'.reverse ++ [y] := by
              have := congrArg List.reverse ht
              simpa using this
            subst hte
            have he' : l ++ [object] = (s ++ classOf p :: t'.reverse) ++ [y] := by rw [he]; simp
            have := List.append_inj_right' he' (by simp)
            simp only [List.cons.injEq, and_true] at this
            simp [this]
        refine merge_conflict object (classOf p) hout ⟨_, List.mem_append_right _ (List.mem_singleton.mpr rfl), u.map classOf, (p :: v).map classOf, by simp [hco], by simp⟩
          ⟨mro (classOf p), by simp, s, t, hst, hot⟩
  subst hv
  -- no `object` before it
  have hu : ∀ x ∈ u, classOf x ≠ object := by
    intro x hx hxo
    obtain ⟨u1, u2, rfl⟩ := List.append_of_mem hx
    refine merge_conflict object object hout ⟨_, List.mem_append_right _ (List.mem_singleton.mpr rfl), u1.map classOf, (u2 ++ [b]).map classOf, by simp [hxo], by simp [hco]⟩
      ⟨_, List.mem_append_right _ (List.mem_singleton.mpr rfl), u1.map classOf, (u2 ++ [b]).map classOf, by simp [hxo], by simp [hco]⟩
  have hfilter : (u ++ [b]).filter keep = u := by
    rw [List.filter_append]
    have h1 : u.filter keep = u := by
      rw [List.filter_eq_self]
      intro x hx
      exact (hkeep x).mpr (fun h => hu x hx (hobj x (by simp [hx]) h))
    have h2 : [b].filter keep = [] := by
      rw [List.filter_eq_nil_iff]
      intro x hx
      have : x = b := by simpa using hx
      rw [this, hkeep]
      exact fun h => h hbo
    rw [h1, h2, List.append_nil]
  rw [hfilter]
  unfold Inherits
  simp only
  cases u with
  | nil =>
    simp only [List.map_nil, if_pos]
    simpa [hco, hl.object_mro] using hout
  | cons x u =>
    rw [if_neg (by simp)]
    refine merge_without object hout (((x :: u).map classOf).map mro) ((x :: u).map classOf) ?_ (by simp) ?_ ?_
    · simp [hco, hl.object_mro]
    · intro a ha
      obtain ⟨c, -, rfl⟩ := List.mem_map.mp ha
      exact hl.ends c
    · intro c hc
      obtain ⟨y, hy, rfl⟩ := List.mem_map.mp hc
      exact ⟨hu y hy, _, List.mem_map.mpr ⟨_, hc, rfl⟩, hl.starts _⟩

/-! ## Cases -/

/-- `object` -/
def objectBase : Arg := .pos (.name (py "object"))

/-- Two classes: `0` is `object`, every other one is its child. -/
def twoMro : Nat → List Nat
  | 0 => [0]
  | n + 1 => [n + 1, 0]

/-- The class of a base: what is named `object`, and `B`. -/
def twoClassOf (b : Arg) : Nat := if b.value.isName (py "object") then 0 else 1

theorem two_lineages : Lineages 0 twoMro where
  object_mro := rfl
  starts c := by cases c <;> simp [twoMro]
  ends c := by
    cases c with
    | zero => exact ⟨[], rfl⟩
    | succ n => exact ⟨[n + 1], rfl⟩

/-- `class A(B, object)` works, and so the theorem is about it. -/
example : withoutObject [.pos (.name (py "B")), objectBase] = some [.pos (.name (py "B"))] ∧
    Inherits 0 twoMro ([.pos (.name (py "B")), objectBase].map twoClassOf) [1, 0] ∧ Inherits 0 twoMro ([.pos (.name (py "B"))].map twoClassOf) [1, 0] := by
  have h : Inherits 0 twoMro ([.pos (.name (py "B")), objectBase].map twoClassOf) [1, 0] := by
    show Merge [[1, 0], [0], [1, 0]] [1, 0]
    refine .step _ [] [[0], [1, 0]] 1 [0] [0] rfl (by decide) (by simp) ?_
    refine .step _ [] [[0], [0]] 0 [] [] rfl (by decide) (by simp) ?_
    exact .done _ (by decide)
  refine ⟨rfl, h, ?_⟩
  refine C105_mro 0 twoMro two_lineages twoClassOf [.pos (.name (py "B")), objectBase] _ ?_ rfl _ h
  intro b _ hb
  unfold twoClassOf
  rw [if_pos ((nameIs_iff _ _).mpr hb)]

/-- A finding: the name is not looked up. `class A(object)` in a file that has its own class `object` (here: `1`) becomes a class without that base. -/
theorem C105_shadowed : withoutObject [objectBase] = some [] ∧ Inherits 0 twoMro [1] [1, 0] ∧ ¬ Inherits 0 twoMro [] [1, 0] := by
  refine ⟨rfl, ?_, ?_⟩
  · show Merge [[1, 0], [1]] [1, 0]
    refine .step _ [] [[1]] 1 [0] [0] rfl (by decide) (by simp) ?_
    refine .step _ [] [[]] 0 [] [] rfl (by decide) (by simp) ?_
    exact .done _ (by decide)
  · intro h
    have h : Merge [[0], [0]] [1, 0] := h
    cases h with
    | step _ before after x t _ he hno _ _ =>
      have : (1 :: t) ∈ ([[0], [0]] : List (List Nat)) := by rw [he]; simp
      simp at this

end Cst
