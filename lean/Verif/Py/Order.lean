import Verif.Py.Str

/-!
# Python's `str` order and `sorted`
-/

namespace Py

/-- `a < b` on Python strings: lexicographic by code point. -/
def strLt : PStr → PStr → Bool
  | _, [] => false
  | [], _ :: _ => true
  | a :: as, b :: bs => decide (a.toNat < b.toNat) || (a == b && strLt as bs)

/-- Stable insertion, the step of `sorted`. -/
def insertBy {α : Type} (lt : α → α → Bool) (x : α) : List α → List α
  | [] => [x]
  | y :: ys => if lt y x then y :: insertBy lt x ys else x :: y :: ys

/-- `sorted(l)` for elements with `__lt__ = lt` (a stable sort). -/
def sortBy {α : Type} (lt : α → α → Bool) (l : List α) : List α := l.foldr (insertBy lt) []

/-! ## Facts -/

theorem toNat_inj {a b : Char} (h : a.toNat = b.toNat) : a = b := by
  apply Char.ext
  exact UInt32.toNat_inj.1 h

theorem strLt_irrefl (a : PStr) : strLt a a = false := by
  induction a with
  | nil => rfl
  | cons x xs ih => simp [strLt, ih]

theorem strLt_trans : ∀ {a b c : PStr}, strLt a b = true → strLt b c = true → strLt a c = true := by
  intro a
  induction a with
  | nil =>
    intro b c h1 h2
    cases b with
    | nil => simp [strLt] at h1
    | cons y ys => cases c with
      | nil => simp [strLt] at h2
      | cons z zs => rfl
  | cons x xs ih =>
    intro b c h1 h2
    cases b with
    | nil => simp [strLt] at h1
    | cons y ys => cases c with
      | nil => simp [strLt] at h2
      | cons z zs =>
        simp only [strLt, Bool.or_eq_true, decide_eq_true_eq, Bool.and_eq_true, beq_iff_eq] at *
        rcases h1 with h1 | ⟨rfl, h1⟩ <;> rcases h2 with h2 | ⟨rfl, h2⟩
        · exact Or.inl (by omega)
        · exact Or.inl h1
        · exact Or.inl h2
        · exact Or.inr ⟨rfl, ih h1 h2⟩

theorem strLt_total : ∀ (a b : PStr), strLt a b = true ∨ a = b ∨ strLt b a = true := by
  intro a
  induction a with
  | nil => intro b; cases b <;> simp [strLt]
  | cons x xs ih =>
    intro b
    cases b with
    | nil => simp [strLt]
    | cons y ys =>
      simp only [strLt, Bool.or_eq_true, decide_eq_true_eq, Bool.and_eq_true, beq_iff_eq]
      by_cases h : x = y
      · subst h
        rcases ih ys with h | rfl | h <;> simp_all
      · have : x.toNat ≠ y.toNat := fun e => h (toNat_inj e)
        rcases Nat.lt_or_gt_of_ne this with h' | h'
        · exact Or.inl (Or.inl h')
        · exact Or.inr (Or.inr (Or.inl h'))

theorem strLt_asymm {a b : PStr} (h : strLt a b = true) : strLt b a = false := by
  cases hb : strLt b a with
  | false => rfl
  | true => have := strLt_trans h hb; rw [strLt_irrefl] at this; simp at this

section
variable {α : Type} (lt : α → α → Bool)

theorem insertBy_perm (x : α) (l : List α) : (insertBy lt x l).Perm (x :: l) := by
  induction l with
  | nil => exact List.Perm.refl _
  | cons y ys ih =>
    simp only [insertBy]
    split
    · exact (List.Perm.cons y ih).trans (List.Perm.swap x y ys)
    · exact List.Perm.refl _

theorem sortBy_perm (l : List α) : (sortBy lt l).Perm l := by
  induction l with
  | nil => exact List.Perm.refl _
  | cons x xs ih => exact (insertBy_perm lt x _).trans (List.Perm.cons x ih)

theorem mem_sortBy (l : List α) (x : α) : x ∈ sortBy lt l ↔ x ∈ l := (sortBy_perm lt l).mem_iff

end

/-- Order on `α` through a string key, as `QualifiedRule.__lt__` does with `str`. -/
def keyLt {α : Type} (key : α → PStr) (a b : α) : Bool := strLt (key a) (key b)

section
variable {α : Type} (key : α → PStr)

/-- No element is smaller than an earlier one. -/
def SortedByKey (l : List α) : Prop := l.Pairwise (fun a b => strLt (key b) (key a) = false)

theorem keyLe_trans {a b c : PStr} (h1 : strLt b a = false) (h2 : strLt c b = false) : strLt c a = false := by
  cases h : strLt c a with
  | false => rfl
  | true =>
    rcases strLt_total a b with hab | rfl | hab
    · have := strLt_trans h hab; rw [h2] at this; simp at this
    · rw [h2] at h; simp at h
    · rw [h1] at hab; simp at hab

theorem insertBy_sorted (x : α) (l : List α) (h : SortedByKey key l) :
    SortedByKey key (insertBy (keyLt key) x l) := by
  induction l with
  | nil => simp [insertBy, SortedByKey]
  | cons y ys ih =>
    simp only [SortedByKey, List.pairwise_cons] at h
    simp only [insertBy]
    split
    · rename_i hlt
      simp only [SortedByKey, List.pairwise_cons]
      refine ⟨?_, ih h.2⟩
      intro b hb
      rw [(insertBy_perm (keyLt key) x ys).mem_iff, List.mem_cons] at hb
      rcases hb with rfl | hb
      · exact strLt_asymm hlt
      · exact h.1 b hb
    · rename_i hlt
      simp only [keyLt, Bool.not_eq_true] at hlt
      simp only [SortedByKey, List.pairwise_cons, List.mem_cons]
      refine ⟨?_, h.1, h.2⟩
      rintro b (rfl | hb)
      · exact hlt
      · exact keyLe_trans hlt (h.1 b hb)

theorem sortBy_sorted (l : List α) : SortedByKey key (sortBy (keyLt key) l) := by
  induction l with
  | nil => simp [sortBy, SortedByKey]
  | cons x xs ih => exact insertBy_sorted key x _ ih

/-- Sorted lists with the same elements are equal when the key tells elements apart. -/
theorem eq_of_perm_sorted : ∀ {l₁ l₂ : List α}, (∀ a ∈ l₁, ∀ b ∈ l₁, key a = key b → a = b) → l₁.Perm l₂ →
    SortedByKey key l₁ → SortedByKey key l₂ → l₁ = l₂ := by
  intro l₁
  induction l₁ with
  | nil => intro l₂ _ hp _ _; exact (List.nil_perm.1 hp).symm
  | cons x xs ih =>
    intro l₂ hinj hp h1 h2
    cases l₂ with
    | nil => exact absurd hp.length_eq (by simp)
    | cons y ys =>
      have hxy : x = y := by
        have hx : x ∈ y :: ys := hp.mem_iff.1 (by simp)
        have hy : y ∈ x :: xs := hp.mem_iff.2 (by simp)
        simp only [SortedByKey, List.pairwise_cons] at h1 h2
        rw [List.mem_cons] at hx hy
        rcases hx with rfl | hx
        · rfl
        · rcases hy with rfl | hy
          · rfl
          · have a := h1.1 y hy
            have b := h2.1 x hx
            rcases strLt_total (key x) (key y) with h | h | h
            · rw [b] at h; simp at h
            · exact hinj x (by simp) y (by simp [hy]) h
            · rw [a] at h; simp at h
      subst hxy
      congr 1
      refine ih (fun a ha b hb => hinj a (by simp [ha]) b (by simp [hb])) (List.Perm.cons_inv hp) ?_ ?_
      · exact (List.pairwise_cons.1 h1).2
      · exact (List.pairwise_cons.1 h2).2

theorem sortBy_eq_of_perm {l₁ l₂ : List α} (hinj : ∀ a ∈ l₁, ∀ b ∈ l₁, key a = key b → a = b) (hp : l₁.Perm l₂) :
    sortBy (keyLt key) l₁ = sortBy (keyLt key) l₂ := by
  refine eq_of_perm_sorted key ?_ ?_ (sortBy_sorted key l₁) (sortBy_sorted key l₂)
  · intro a ha b hb
    exact hinj a ((mem_sortBy _ _ _).1 ha) b ((mem_sortBy _ _ _).1 hb)
  · exact (sortBy_perm _ _).trans (hp.trans (sortBy_perm _ _).symm)

end

/-- Lists without duplicates and with the same members are permutations of each other. -/
theorem perm_of_nodup_mem {α : Type} : ∀ {l₁ l₂ : List α}, l₁.Nodup → l₂.Nodup → (∀ x, x ∈ l₁ ↔ x ∈ l₂) → l₁.Perm l₂ := by
  intro l₁
  induction l₁ with
  | nil =>
    intro l₂ _ _ h
    cases l₂ with
    | nil => exact List.Perm.refl _
    | cons y ys => exact absurd ((h y).2 (by simp)) (by simp)
  | cons x xs ih =>
    intro l₂ h1 h2 h
    obtain ⟨s, t, rfl⟩ := List.append_of_mem ((h x).1 (by simp))
    have hp : (s ++ x :: t).Perm (x :: (s ++ t)) := List.perm_middle
    have h2' := (hp.nodup_iff).1 h2
    rw [List.nodup_cons] at h1 h2'
    refine (List.Perm.cons x (ih h1.2 h2'.2 ?_)).trans hp.symm
    intro z
    have := h z
    simp only [List.mem_cons, List.mem_append] at this ⊢
    constructor
    · intro hz
      rcases this.1 (Or.inr hz) with h' | h' | h'
      · exact Or.inl h'
      · subst h'; exact absurd hz h1.1
      · exact Or.inr h'
    · intro hz
      have hz' : z = x ∨ z ∈ xs := this.2 (by rcases hz with h' | h'; exact Or.inl h'; exact Or.inr (Or.inr h'))
      rcases hz' with rfl | h'
      · exact absurd (by simpa using hz) h2'.1
      · exact h'

end Py
