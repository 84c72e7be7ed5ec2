import Verif.Model.Collect
import Verif.Spec.Collect
import Verif.Proof.Sets
import Verif.Proof.Merge

/-! Invariants of rule collection. -/

set_option linter.unusedSectionVars false

namespace Fixit
open Py Spec

section
variable {κ α : Type} [DecidableEq κ]

theorem dictSet_keys_mem (k : κ) (v : α) (d : List (κ × α)) (x : κ) : x ∈ (dictSet k v d).map (·.1) ↔ x = k ∨ x ∈ d.map (·.1) := by
  induction d with
  | nil => simp [dictSet]
  | cons e es ih =>
    obtain ⟨a, b⟩ := e
    simp only [dictSet]
    split
    · rename_i h; subst h; simp
    · simp only [List.map_cons, List.mem_cons, ih]
      constructor
      · rintro (h | h | h) <;> simp [h]
      · rintro (h | h | h) <;> simp [h]

theorem dictSet_nodup (k : κ) (v : α) (d : List (κ × α)) (h : (d.map (·.1)).Nodup) : ((dictSet k v d).map (·.1)).Nodup := by
  induction d with
  | nil => simp [dictSet]
  | cons e es ih =>
    obtain ⟨a, b⟩ := e
    simp only [List.map_cons, List.nodup_cons] at h
    simp only [dictSet]
    split
    · rename_i he; subst he; simpa using h
    · rename_i he
      rw [List.map_cons, List.nodup_cons]
      refine ⟨?_, ih h.2⟩
      rw [dictSet_keys_mem]
      rintro (h' | h')
      · exact he h'
      · exact h.1 h'

theorem dictSet_mem (k : κ) (v : α) (d : List (κ × α)) (h : (d.map (·.1)).Nodup) (x : κ) (y : α) :
    (x, y) ∈ dictSet k v d ↔ (x = k ∧ y = v) ∨ (x ≠ k ∧ (x, y) ∈ d) := by
  induction d with
  | nil => simp [dictSet]
  | cons e es ih =>
    obtain ⟨a, b⟩ := e
    simp only [List.map_cons, List.nodup_cons] at h
    simp only [dictSet]
    split
    · rename_i he; subst he
      simp only [List.mem_cons, Prod.mk.injEq]
      constructor
      · rintro (⟨rfl, rfl⟩ | h')
        · exact Or.inl ⟨rfl, rfl⟩
        · refine Or.inr ⟨?_, Or.inr h'⟩
          rintro rfl
          exact h.1 (List.mem_map_of_mem (f := Prod.fst) h')
      · rintro (h' | ⟨h1, ⟨h2, -⟩ | h2⟩)
        · exact Or.inl h'
        · exact absurd h2 h1
        · exact Or.inr h2
    · rename_i he
      simp only [List.mem_cons, Prod.mk.injEq, ih h.2]
      constructor
      · rintro (⟨rfl, rfl⟩ | h' | ⟨h1, h2⟩)
        · exact Or.inr ⟨he, Or.inl ⟨rfl, rfl⟩⟩
        · exact Or.inl h'
        · exact Or.inr ⟨h1, Or.inr h2⟩
      · rintro (h' | ⟨h1, h2 | h2⟩)
        · exact Or.inr (Or.inl h')
        · exact Or.inl h2
        · exact Or.inr (Or.inr ⟨h1, h2⟩)

theorem dictUpdate_cons (d : List (κ × α)) (e : κ × α) (es : List (κ × α)) : dictUpdate d (e :: es) = dictUpdate (dictSet e.1 e.2 d) es := rfl

theorem dictUpdate_nodup (o : List (κ × α)) : ∀ (d : List (κ × α)), (d.map (·.1)).Nodup → ((dictUpdate d o).map (·.1)).Nodup := by
  induction o with
  | nil => intro d h; exact h
  | cons e es ih => intro d h; rw [dictUpdate_cons]; exact ih _ (dictSet_nodup _ _ _ h)

theorem dictUpdate_keys_mem (x : κ) (o : List (κ × α)) : ∀ (d : List (κ × α)), x ∈ (dictUpdate d o).map (·.1) ↔ x ∈ o.map (·.1) ∨ x ∈ d.map (·.1) := by
  induction o with
  | nil => intro d; simp [dictUpdate]
  | cons e es ih =>
    intro d
    rw [dictUpdate_cons, ih, dictSet_keys_mem, List.map_cons, List.mem_cons]
    constructor
    · rintro (h | h | h) <;> simp [h]
    · rintro ((h | h) | h) <;> simp [h]

/-- Updating with one value for many keys. -/
theorem dictUpdate_const_mem (v : α) (l : List κ) : ∀ (d : List (κ × α)), (d.map (·.1)).Nodup → ∀ (x : κ) (y : α),
    (x, y) ∈ dictUpdate d (l.map (fun k => (k, v))) ↔ (x ∈ l ∧ y = v) ∨ (x ∉ l ∧ (x, y) ∈ d) := by
  induction l with
  | nil => intro d _ x y; simp [dictUpdate]
  | cons k ks ih =>
    intro d h x y
    rw [List.map_cons, dictUpdate_cons, ih _ (dictSet_nodup _ _ _ h), dictSet_mem _ _ _ h]
    by_cases hk : x = k
    · subst hk
      by_cases hx : x ∈ ks <;> simp [hx]
    · by_cases hx : x ∈ ks <;> simp [hx, hk]

end

section
variable {K V M : Type} [DecidableEq K] (env : CollectEnv K V M)

theorem setUnion_mem (s t : List K) (x : K) : x ∈ setUnion s t ↔ x ∈ s ∨ x ∈ t := by
  have := foldl_setAdd_mem (id : K → K) t s x
  simpa [setUnion] using this

theorem setUnion_nodup (s t : List K) (h : s.Nodup) : (setUnion s t).Nodup := by
  have := foldl_setAdd_nodup (id : K → K) t s (by simpa [KeyNodup] using h)
  simpa [KeyNodup, setUnion] using this

theorem setOf_id_mem' (l : List K) (x : K) : x ∈ setOf id l ↔ x ∈ l := by
  have := setOf_mem_key (id : K → K) l x
  simpa using this

theorem mem_setMinus (s : List K) (d : List (K × Reason)) (x : K) : x ∈ setMinus s d ↔ x ∈ s ∧ x ∉ d.map (·.1) := by
  simp [setMinus]

theorem setMinus_nodup (s : List K) (d : List (K × Reason)) (h : s.Nodup) : (setMinus s d).Nodup := List.Pairwise.filter _ h

theorem resolvedBy_cons {Q E : Type} (p : Q → Prop) (q : Q) (o : Except E (List K)) (l : List (Q × Except E (List K))) (c : K) :
    ResolvedBy p ((q, o) :: l) c ↔ (p q ∧ ∃ cs, o = .ok cs ∧ c ∈ cs) ∨ ResolvedBy p l c := by
  unfold ResolvedBy
  constructor
  · rintro ⟨q', cs, h, hp, hc⟩
    rw [List.mem_cons] at h
    rcases h with h | h
    · simp only [Prod.mk.injEq] at h
      obtain ⟨rfl, rfl⟩ := h
      exact Or.inl ⟨hp, cs, rfl, hc⟩
    · exact Or.inr ⟨q', cs, h, hp, hc⟩
  · rintro (⟨hp, cs, rfl, hc⟩ | ⟨q', cs, h, hp, hc⟩)
    · exact ⟨q, cs, List.mem_cons_self, hp, hc⟩
    · exact ⟨q', cs, List.mem_cons_of_mem _ h, hp, hc⟩

theorem failed_cons_ok {Q E : Type} (q : Q) (cs : List K) (l : List (Q × Except E (List K))) : failed ((q, .ok cs) :: l) = failed l := by
  simp [failed]

theorem failed_cons_error {Q E : Type} (q : Q) (e : E) (l : List (Q × Except E (List K))) : failed ((q, .error e) :: l) = q :: failed l := by
  simp [failed]

/-- What the enable loop computes. -/
theorem enableAll_spec (path : List PStr) (qs : List QualifiedRule) : ∀ (s : CState K M),
    let r := enableAll env path qs s
    let o := outcomes (env.find path) s.mods qs
    (∀ c, c ∈ r.all ↔ c ∈ s.all ∨ Resolved o c) ∧
    (∀ c, c ∈ r.named ↔ c ∈ s.named ∨ ResolvedBy (fun q => q.named.isSome = true) o c) ∧
    (s.all.Nodup → r.all.Nodup) ∧ r.reasons = s.reasons ∧ r.warned = s.warned ++ failed o ∧ r.mods = after (env.find path) s.mods qs := by
  induction qs with
  | nil => intro s; simp [enableAll, outcomes, Resolved, ResolvedBy, failed, after]
  | cons q qs ih =>
    intro s
    simp only [enableAll, outcomes, after]
    have h := ih (enableOne env path q s)
    simp only at h
    obtain ⟨h1, h2, h3, h4, h5, h6⟩ := h
    cases hf : env.find path s.mods q with
    | mk o m =>
      cases o with
      | error e =>
        have hs : enableOne env path q s = { s with warned := s.warned ++ [q], mods := m } := by simp [enableOne, hf]
        rw [hs] at h1 h2 h3 h4 h5 h6 ⊢
        simp only at h1 h2 h3 h4 h5 h6 ⊢
        refine ⟨?_, ?_, h3, h4, ?_, h6⟩
        · intro c; rw [h1, Resolved, Resolved, resolvedBy_cons]; simp
        · intro c; rw [h2, resolvedBy_cons]; simp
        · rw [h5, failed_cons_error]; simp
      | ok cs =>
        have hs : enableOne env path q s = { s with named := (if q.named.isSome then setUnion s.named (setOf id cs) else s.named), all := setUnion s.all (setOf id cs), mods := m } := by simp [enableOne, hf]
        rw [hs] at h1 h2 h3 h4 h5 h6 ⊢
        simp only at h1 h2 h3 h4 h5 h6 ⊢
        refine ⟨?_, ?_, fun hn => h3 (setUnion_nodup _ _ hn), h4, ?_, h6⟩
        · intro c
          rw [h1, Resolved, Resolved, resolvedBy_cons, setUnion_mem, setOf_id_mem']
          simp [or_assoc]
        · intro c
          rw [h2, resolvedBy_cons]
          by_cases hq : q.named.isSome = true
          · rw [if_pos hq, setUnion_mem, setOf_id_mem']
            simp [hq, or_assoc]
          · rw [if_neg hq]
            simp [hq]
        · rw [h5, failed_cons_ok]

/-- What the disable loop computes. -/
theorem disableAll_spec (path : List PStr) (qs : List QualifiedRule) : ∀ (s : CState K M), (s.reasons.map (·.1)).Nodup →
    (∀ c r, (c, r) ∈ s.reasons → r = .disabled) → (∀ c ∈ s.all, c ∉ s.reasons.map (·.1)) →
    let r := disableAll env path qs s
    let o := outcomes (env.find path) s.mods qs
    (∀ c, c ∈ r.all ↔ c ∈ s.all ∧ ¬ (Resolved o c ∧ c ∉ s.named)) ∧
    (∀ c y, (c, y) ∈ r.reasons ↔ y = .disabled ∧ (c ∈ s.reasons.map (·.1) ∨ (Resolved o c ∧ c ∉ s.named))) ∧
    (r.reasons.map (·.1)).Nodup ∧ (s.all.Nodup → r.all.Nodup) ∧ r.warned = s.warned ++ failed o ∧
    r.mods = after (env.find path) s.mods qs := by
  induction qs with
  | nil =>
    intro s hn hd ha
    simp only [disableAll, outcomes, Resolved, ResolvedBy, failed, after]
    refine ⟨by simp, ?_, hn, fun h => h, by simp, trivial⟩
    intro c y
    simp only [List.not_mem_nil, false_and, exists_false, or_false]
    constructor
    · intro h; exact ⟨hd c y h, List.mem_map_of_mem (f := Prod.fst) h⟩
    · rintro ⟨rfl, h⟩
      rw [List.mem_map] at h
      obtain ⟨⟨c', y'⟩, h, rfl⟩ := h
      rw [hd c' y' h] at h
      exact h
  | cons q qs ih =>
    intro s hn hd ha
    simp only [disableAll, outcomes, after]
    cases hf : env.find path s.mods q with
    | mk o m =>
      cases o with
      | error e =>
        have hs : disableOne env path q s = { s with warned := s.warned ++ [q], mods := m } := by simp [disableOne, hf]
        rw [hs]
        obtain ⟨h1, h2, h3, h4, h5, h6⟩ := ih { s with warned := s.warned ++ [q], mods := m } hn hd ha
        simp only at h1 h2 h3 h4 h5 h6 ⊢
        refine ⟨?_, ?_, h3, h4, ?_, h6⟩
        · intro c; rw [h1, Resolved, Resolved, resolvedBy_cons]; simp
        · intro c y; rw [h2, Resolved, Resolved, resolvedBy_cons]; simp
        · rw [h5, failed_cons_error]; simp
      | ok cs =>
        let reasons := dictUpdate s.reasons ((cs.filter (fun r => r ∉ s.named)).map (fun r => (r, Reason.disabled)))
        have hs : disableOne env path q s = { s with reasons := reasons, all := setMinus s.all reasons, mods := m } := by
          simp [disableOne, hf, reasons]
        have hkeys : ∀ c, c ∈ reasons.map (·.1) ↔ (c ∈ cs ∧ c ∉ s.named) ∨ c ∈ s.reasons.map (·.1) := by
          intro c
          rw [dictUpdate_keys_mem, List.map_map]
          simp
        rw [hs]
        obtain ⟨h1, h2, h3, h4, h5, h6⟩ := ih { s with reasons := reasons, all := setMinus s.all reasons, mods := m }
          (dictUpdate_nodup _ _ hn)
          (by
            intro c r hr
            rw [dictUpdate_const_mem _ _ _ hn] at hr
            rcases hr with ⟨-, hr⟩ | ⟨-, hr⟩
            · exact hr
            · exact hd c r hr)
          (by intro c hc; rw [mem_setMinus] at hc; exact hc.2)
        simp only at h1 h2 h3 h4 h5 h6 ⊢
        refine ⟨?_, ?_, h3, fun h => h4 (setMinus_nodup _ _ h), ?_, h6⟩
        · intro c
          rw [h1, Resolved, Resolved, resolvedBy_cons, mem_setMinus, hkeys]
          have := ha c
          simp only [Except.ok.injEq, true_and]
          constructor
          · rintro ⟨⟨a, b⟩, d⟩
            refine ⟨a, ?_⟩
            rintro ⟨⟨cs', rfl, hc⟩ | hc, hn⟩
            · exact b (Or.inl ⟨hc, hn⟩)
            · exact d ⟨hc, hn⟩
          · rintro ⟨a, b⟩
            refine ⟨⟨a, ?_⟩, ?_⟩
            · rintro (⟨hc, hn⟩ | hc)
              · exact b ⟨Or.inl ⟨cs, rfl, hc⟩, hn⟩
              · exact this a hc
            · rintro ⟨hc, hn⟩
              exact b ⟨Or.inr hc, hn⟩
        · intro c y
          rw [h2, Resolved, Resolved, resolvedBy_cons, hkeys]
          simp only [Except.ok.injEq, true_and]
          constructor
          · rintro ⟨rfl, (⟨a, b⟩ | a) | ⟨a, b⟩⟩
            · exact ⟨rfl, Or.inr ⟨Or.inl ⟨cs, rfl, a⟩, b⟩⟩
            · exact ⟨rfl, Or.inl a⟩
            · exact ⟨rfl, Or.inr ⟨Or.inr a, b⟩⟩
          · rintro ⟨rfl, a | ⟨⟨cs', rfl, a⟩ | a, b⟩⟩
            · exact ⟨rfl, Or.inl (Or.inr a)⟩
            · exact ⟨rfl, Or.inl (Or.inl ⟨a, b⟩)⟩
            · exact ⟨rfl, Or.inr ⟨a, b⟩⟩
        · rw [h5, failed_cons_ok]

theorem disableAll_named (path : List PStr) (qs : List QualifiedRule) : ∀ (s : CState K M), (disableAll env path qs s).named = s.named := by
  induction qs with
  | nil => intro s; rfl
  | cons q qs ih =>
    intro s
    rw [disableAll, ih]
    unfold disableOne
    split <;> rfl

theorem unsupported_ok (v : V) : ∀ (l : List K) (bad : List K), unsupported env v l = .ok bad →
    (∀ c ∈ l, ∃ b, env.supports v c = .ok b) ∧ ∀ c, c ∈ bad ↔ c ∈ l ∧ env.supports v c = .ok false := by
  intro l
  induction l with
  | nil => intro bad h; simp only [unsupported, Except.ok.injEq] at h; subst h; simp
  | cons r rs ih =>
    intro bad h
    simp only [unsupported, bind_ok, pure_ok] at h
    obtain ⟨b, h1, rest, h2, h3⟩ := h
    obtain ⟨i1, i2⟩ := ih rest h2
    constructor
    · intro c hc
      rw [List.mem_cons] at hc
      rcases hc with rfl | hc
      · exact ⟨b, h1⟩
      · exact i1 c hc
    · intro c
      rw [← h3]
      cases b with
      | true =>
        simp only [if_true, i2, List.mem_cons]
        constructor
        · rintro ⟨a, b⟩; exact ⟨Or.inr a, b⟩
        · rintro ⟨rfl | a, b⟩
          · rw [h1] at b; simp at b
          · exact ⟨a, b⟩
      | false =>
        simp only [Bool.false_eq_true, if_false, List.mem_cons, i2]
        constructor
        · rintro (rfl | ⟨a, b⟩)
          · exact ⟨Or.inl rfl, h1⟩
          · exact ⟨Or.inr a, b⟩
        · rintro ⟨rfl | a, b⟩
          · exact Or.inl rfl
          · exact Or.inr ⟨a, b⟩

theorem unsupported_succeeds (v : V) : ∀ (l : List K), (∀ c ∈ l, ∃ b, env.supports v c = .ok b) → ∃ bad, unsupported env v l = .ok bad := by
  intro l
  induction l with
  | nil => intro _; exact ⟨[], rfl⟩
  | cons r rs ih =>
    intro h
    obtain ⟨b, hb⟩ := h r (by simp)
    obtain ⟨bad, hbad⟩ := ih (fun c hc => h c (by simp [hc]))
    exact ⟨if b then bad else r :: bad, by simp [unsupported, hb, hbad, bind, Except.bind, pure, Except.pure]⟩

theorem materialize_ok : ∀ (l rules : List K), materialize env l = .ok rules → rules = l ∧ ∀ c ∈ l, env.make c = .ok () := by
  intro l
  induction l with
  | nil => intro rules h; simp only [materialize, Except.ok.injEq] at h; subst h; simp
  | cons r rs ih =>
    intro rules h
    simp only [materialize, bind_ok, pure_ok] at h
    obtain ⟨u, h1, rest, h2, h3⟩ := h
    obtain ⟨rfl, i2⟩ := ih rest h2
    refine ⟨h3.symm, ?_⟩
    intro c hc
    rw [List.mem_cons] at hc
    rcases hc with rfl | hc
    · exact h1
    · exact i2 c hc

theorem materialize_succeeds : ∀ (l : List K), (∀ c ∈ l, env.make c = .ok ()) → materialize env l = .ok l := by
  intro l
  induction l with
  | nil => intro _; rfl
  | cons r rs ih =>
    intro h
    simp [materialize, h r (by simp), ih (fun c hc => h c (by simp [hc])), bind, Except.bind, pure, Except.pure]

end

end Fixit
