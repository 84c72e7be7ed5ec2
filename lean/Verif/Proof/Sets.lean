import Verif.Model.Refs

/-! Facts about the list model of Python sets. -/

namespace Fixit
open Py

section
variable {α β : Type} [DecidableEq β] (key : α → β)

/-- A set: no two elements with the same key. -/
def KeyNodup (s : List α) : Prop := (s.map key).Nodup

theorem any_key_iff (x : α) (s : List α) : (s.any (fun y => key y = key x)) = true ↔ key x ∈ s.map key := by
  simp only [List.any_eq_true, decide_eq_true_eq, List.mem_map]

theorem setAdd_map (x : α) (s : List α) :
    (setAdd key x s).map key = if key x ∈ s.map key then s.map key else s.map key ++ [key x] := by
  unfold setAdd
  by_cases h : key x ∈ s.map key
  · rw [if_pos ((any_key_iff key x s).2 h), if_pos h]
  · rw [if_neg (fun hh => h ((any_key_iff key x s).1 hh)), if_neg h]; simp

theorem setAdd_nodup (x : α) {s : List α} (h : KeyNodup key s) : KeyNodup key (setAdd key x s) := by
  unfold KeyNodup
  rw [setAdd_map]
  split
  · exact h
  · rename_i hx
    rw [List.nodup_append]
    refine ⟨h, by simp, ?_⟩
    intro a ha b hb
    simp at hb; subst hb
    rintro rfl; exact hx ha

theorem mem_setAdd_key (x : α) (s : List α) (k : β) :
    k ∈ (setAdd key x s).map key ↔ k = key x ∨ k ∈ s.map key := by
  rw [setAdd_map]
  split
  · rename_i h
    constructor
    · exact Or.inr
    · rintro (rfl | h') ; exact h; exact h'
  · simp [or_comm]

theorem mem_setAdd (x y : α) (s : List α) :
    y ∈ setAdd key x s → y = x ∨ y ∈ s := by
  unfold setAdd; split
  · exact Or.inr
  · simp [or_comm]

theorem setDiscard_map (x : α) (s : List α) :
    (setDiscard key x s).map key = (s.map key).filter (fun k => k ≠ key x) := by
  unfold setDiscard
  induction s with
  | nil => rfl
  | cons a as ih =>
    by_cases h : key a = key x <;> simp_all

theorem setDiscard_nodup (x : α) {s : List α} (h : KeyNodup key s) : KeyNodup key (setDiscard key x s) := by
  unfold KeyNodup
  rw [setDiscard_map]
  exact List.Pairwise.filter _ h

theorem mem_setDiscard_key (x : α) (s : List α) (k : β) :
    k ∈ (setDiscard key x s).map key ↔ k ≠ key x ∧ k ∈ s.map key := by
  rw [setDiscard_map]; simp [and_comm]

theorem mem_setDiscard (x y : α) (s : List α) : y ∈ setDiscard key x s ↔ y ∈ s ∧ key y ≠ key x := by
  simp [setDiscard]

theorem foldl_setAdd_nodup (l : List α) : ∀ s, KeyNodup key s → KeyNodup key (l.foldl (fun s x => setAdd key x s) s) := by
  induction l with
  | nil => intro s h; exact h
  | cons a as ih => intro s h; exact ih _ (setAdd_nodup key a h)

theorem foldl_setAdd_mem (l : List α) : ∀ s k, k ∈ (l.foldl (fun s x => setAdd key x s) s).map key ↔ k ∈ s.map key ∨ k ∈ l.map key := by
  induction l with
  | nil => intro s k; simp
  | cons a as ih =>
    intro s k
    rw [List.foldl_cons, ih, mem_setAdd_key]
    simp only [List.map_cons, List.mem_cons]
    constructor
    · rintro ((h | h) | h) <;> simp [h]
    · rintro (h | h | h) <;> simp [h]

theorem foldl_setAdd_sub (l : List α) : ∀ s y, y ∈ l.foldl (fun s x => setAdd key x s) s → y ∈ s ∨ y ∈ l := by
  induction l with
  | nil => intro s y h; exact Or.inl h
  | cons a as ih =>
    intro s y h
    rcases ih _ y h with h | h
    · rcases mem_setAdd key a y s h with h | h <;> simp [h]
    · simp [h]

theorem setOf_nodup (l : List α) : KeyNodup key (setOf key l) := foldl_setAdd_nodup key l [] (by simp [KeyNodup])
theorem setOf_mem_key (l : List α) (k : β) : k ∈ (setOf key l).map key ↔ k ∈ l.map key := by
  have := foldl_setAdd_mem key l [] k
  simpa [setOf] using this
theorem setOf_sub (l : List α) (y : α) (h : y ∈ setOf key l) : y ∈ l := by
  have := foldl_setAdd_sub key l [] y h
  simpa using this

omit [DecidableEq β] in
theorem nodup_of_keyNodup {s : List α} (h : KeyNodup key s) : s.Nodup := by
  unfold KeyNodup at h
  induction s with
  | nil => simp
  | cons a as ih =>
    simp only [List.map_cons, List.nodup_cons] at h
    rw [List.nodup_cons]
    exact ⟨fun hm => h.1 (List.mem_map_of_mem hm), ih h.2⟩

end

theorem setOf_id_mem (l : List PStr) (x : PStr) : x ∈ setOf id l ↔ x ∈ l := by
  have := setOf_mem_key (id : PStr → PStr) l x
  simpa using this
theorem setOf_id_nodup (l : List PStr) : (setOf id l).Nodup := by
  have := setOf_nodup (id : PStr → PStr) l
  simpa [KeyNodup] using this

theorem setAdd_id_mem (x y : PStr) (s : List PStr) : y ∈ setAdd id x s ↔ y = x ∨ y ∈ s := by
  have := mem_setAdd_key (id : PStr → PStr) x s y
  simpa using this
theorem setAdd_id_nodup (x : PStr) {s : List PStr} (h : s.Nodup) : (setAdd id x s).Nodup := by
  have := setAdd_nodup (id : PStr → PStr) x (s := s) (by simpa [KeyNodup] using h)
  simpa [KeyNodup] using this

end Fixit
