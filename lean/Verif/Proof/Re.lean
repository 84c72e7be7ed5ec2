import Verif.Py.Re

/-! Lemmas about the regex engine. -/

namespace Py

@[simp] theorem run_seq (a b : Re) (s : St) : (Re.seq a b).run s = (a.run s).flatMap b.run := rfl
@[simp] theorem run_alt (a b : Re) (s : St) : (Re.alt a b).run s = a.run s ++ b.run s := rfl
@[simp] theorem run_eps (s : St) : Re.eps.run s = [s] := rfl

/-- The state after `\p*` has consumed as much as it can. -/
def eatAll (p : Char → Bool) (s : St) : St :=
  { s with pos := s.pos + (s.rest.takeWhile p).length, rest := s.rest.dropWhile p }

theorem run_chr_nil (p : Char → Bool) (pos caps) : (Re.chr p).run ⟨pos, [], caps⟩ = [] := rfl
theorem run_chr_cons (p : Char → Bool) (pos c cs caps) :
    (Re.chr p).run ⟨pos, c :: cs, caps⟩ = if p c then [⟨pos + 1, cs, caps⟩] else [] := rfl

theorem run_lit_cons (d : Char) (pos c cs caps) :
    (Re.lit d).run ⟨pos, c :: cs, caps⟩ = if c = d then [⟨pos + 1, cs, caps⟩] else [] := by
  simp [Re.lit, run_chr_cons]
theorem run_lit_nil (d : Char) (pos caps) : (Re.lit d).run ⟨pos, [], caps⟩ = [] := rfl

/-- Unfolding `\p*` on a character class. -/
theorem run_star_chr_nil (p : Char → Bool) (pos caps) :
    (Re.star (.chr p)).run ⟨pos, [], caps⟩ = [⟨pos, [], caps⟩] := rfl

theorem run_star_chr_cons (p : Char → Bool) (pos c cs caps) :
    (Re.star (.chr p)).run ⟨pos, c :: cs, caps⟩ =
      if p c then (Re.star (.chr p)).run ⟨pos + 1, cs, caps⟩ ++ [⟨pos, c :: cs, caps⟩]
      else [⟨pos, c :: cs, caps⟩] := by
  by_cases h : p c <;> simp [Re.run, starGo, h]

/-- A greedy class followed by something that cannot start with that class behaves deterministically. -/
theorem star_chr_flatMap (p : Char → Bool) (g : St → List St)
    (hg : ∀ pos c cs caps, p c = true → g ⟨pos, c :: cs, caps⟩ = []) (pos : Nat) (xs : PStr) (caps) :
    ((Re.star (.chr p)).run ⟨pos, xs, caps⟩).flatMap g = g (eatAll p ⟨pos, xs, caps⟩) := by
  induction xs generalizing pos with
  | nil => simp [run_star_chr_nil, eatAll]
  | cons c cs ih =>
    rw [run_star_chr_cons]
    by_cases h : p c
    · simp only [h, if_true, List.flatMap_append, ih]
      simp [hg, h, eatAll]
      congr 2
      omega
    · simp [h, eatAll]

/-- The first alternative of a greedy class eats everything it can. -/
theorem star_chr_head (p : Char → Bool) (pos : Nat) (xs : PStr) (caps) :
    ∃ l, (Re.star (.chr p)).run ⟨pos, xs, caps⟩ = eatAll p ⟨pos, xs, caps⟩ :: l := by
  induction xs generalizing pos with
  | nil => exact ⟨[], by simp [run_star_chr_nil, eatAll]⟩
  | cons c cs ih =>
    rw [run_star_chr_cons]
    by_cases h : p c
    · obtain ⟨l, hl⟩ := ih (pos + 1)
      refine ⟨l ++ [⟨pos, c :: cs, caps⟩], ?_⟩
      simp [h, hl, eatAll]
      omega
    · exact ⟨[], by simp [h, eatAll]⟩

/-- All alternatives of a greedy class leave a suffix. -/
theorem star_chr_length (p : Char → Bool) (pos : Nat) (xs : PStr) (caps) :
    ∀ t ∈ (Re.star (.chr p)).run ⟨pos, xs, caps⟩, t.rest.length ≤ xs.length := by
  induction xs generalizing pos with
  | nil => simp [run_star_chr_nil]
  | cons c cs ih =>
    rw [run_star_chr_cons]
    by_cases h : p c
    · simp only [h, if_true, List.mem_append, List.mem_singleton]
      rintro t (ht | rfl)
      · have := ih _ t ht; simp; omega
      · simp
    · simp [h]

theorem starGo_ne_nil (f : St → List St) (n : Nat) (s : St) : starGo f n s ≠ [] := by
  cases n <;> simp [starGo]

theorem head?_flatMap_cons {α β : Type} (a : α) (l : List α) (g : α → List β) (h : g a ≠ []) :
    ((a :: l).flatMap g).head? = (g a).head? := by
  rw [List.flatMap_cons]
  cases hg : g a with
  | nil => exact absurd hg h
  | cons b bs => rfl

/-- Priority: the first way to match `seq a b` when the first way to match `a` can be continued. -/
theorem head?_seq (a b : Re) (s t : St) (l : List St) (ha : a.run s = t :: l) (hb : b.run t ≠ []) :
    ((Re.seq a b).run s).head? = (b.run t).head? := by
  rw [run_seq, ha, head?_flatMap_cons _ _ _ hb]

/-- One step of a greedy iteration, seen from its first result. -/
theorem head?_starGo (f : St → List St) (n : Nat) (s t : St) (l : List St)
    (hf : f s = t :: l) (ht : t.rest.length < s.rest.length) :
    (starGo f (n + 1) s).head? = (starGo f n t).head? := by
  rw [starGo, hf, List.filter_cons]
  simp only [ht, decide_true, if_true]
  rw [List.head?_append, head?_flatMap_cons _ _ _ (starGo_ne_nil f n t)]
  cases h : starGo f n t with
  | nil => exact absurd h (starGo_ne_nil f n t)
  | cons b bs => rfl

theorem head?_starGo_nil (f : St → List St) (n : Nat) (s : St) (hf : f s = []) :
    (starGo f n s).head? = some s := by
  cases n <;> simp [starGo, hf]

/-- Literal strings. -/
theorem run_str (p : PStr) (pos : Nat) (xs : PStr) (caps) :
    (Re.str p).run ⟨pos, xs, caps⟩ =
      if p.isPrefixOf xs then [⟨pos + p.length, xs.drop p.length, caps⟩] else [] := by
  induction p generalizing pos xs with
  | nil => simp [Re.str]
  | cons c cs ih =>
    cases xs with
    | nil => simp [Re.str, run_lit_nil, List.isPrefixOf]
    | cons x xs =>
      simp only [Re.str, run_seq, run_lit_cons]
      by_cases h : x = c
      · subst h
        simp only [if_true, List.flatMap_cons, List.flatMap_nil, List.append_nil, ih]
        simp [List.isPrefixOf]
        split <;> simp; omega
      · have h' : ¬ c = x := fun e => h e.symm
        simp [h, List.isPrefixOf, h']

end Py
