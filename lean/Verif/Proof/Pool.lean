import Verif.Proof.Confined

/-!
# Draining generators, and workers taking steps in any order
-/

namespace Py.Gen
variable {W Y S R Q : Type}

theorem drain_bind (s : S) (f : R → Gen W Y S Q) : ∀ (g : Gen W Y S R) (w : W),
    (g.bind f).drain s w = match g.drain s w with
      | (ys, .returned r, w') => (ys ++ ((f r).drain s w').1, ((f r).drain s w').2)
      | (ys, .raised e, w') => (ys, .raised e, w')
      | (ys, .suspended, w') => (ys, .suspended, w')
  | .ret r, w => by simp [bind, drain]
  | .raise e, w => by simp [bind, drain]
  | .yield y k, w => by
    simp only [bind, drain]
    rw [drain_bind s f (k s) w]
    rcases h : (k s).drain s w with ⟨ys, st, w'⟩
    cases st <;> simp
  | .act a k, w => by simp only [bind, drain]; exact drain_bind s f (k w) (a w)

/-- Draining is running with answers enough. -/
theorem run_replicate (s : S) : ∀ (g : Gen W Y S R) (w : W) (n : Nat), (g.drain s w).1.length ≤ n → g.run (List.replicate n s) w = g.drain s w
  | .ret r, w, n, _ => rfl
  | .raise e, w, n, _ => rfl
  | .yield y k, w, n, h => by
    cases n with
    | zero => simp [drain] at h
    | succ n =>
      simp only [drain, List.length_cons] at h
      simp only [List.replicate_succ, run, drain, run_replicate s (k s) w n (by omega)]
  | .act a k, w, n, h => by simp only [run, drain]; exact run_replicate s (k w) (a w) n h

theorem drain_not_suspended (s : S) : ∀ (g : Gen W Y S R) (w : W), (g.drain s w).2.1 ≠ .suspended
  | .ret r, w => by simp [drain]
  | .raise e, w => by simp [drain]
  | .yield y k, w => drain_not_suspended s (k s) w
  | .act a k, w => drain_not_suspended s (k w) (a w)

end Py.Gen

namespace Fixit
open Py Spec Gen

/-- A worker alone taking `n` steps. -/
def stepsOf : Nat → Worker × World → Worker × World
  | 0, x => x
  | n + 1, x => stepsOf n (x.1.step x.2)

theorem stepsOf_add (m n : Nat) : ∀ x, stepsOf (m + n) x = stepsOf n (stepsOf m x) := by
  induction m with
  | zero => intro x; simp [stepsOf]
  | succ m ih => intro x; rw [show m + 1 + n = (m + n) + 1 by omega]; simp only [stepsOf]; exact ih _

theorem stepsOf_done (n : Nat) : ∀ x : Worker × World, x.1.done = true → stepsOf n x = x := by
  induction n with
  | zero => intro x _; rfl
  | succ n ih =>
    intro x h
    have : x.1.step x.2 = x := by
      obtain ⟨⟨g, out⟩, w⟩ := x
      cases g <;> simp [Worker.done] at h
      rfl
    simp only [stepsOf, this]
    exact ih x h

/-- Once a worker is done its list is all the generator yields. -/
theorem stepsOf_drain (n : Nat) : ∀ (g : Linting Unit) (out : List Result) (w : World), (stepsOf n (⟨g, out⟩, w)).1.done = true →
    (stepsOf n (⟨g, out⟩, w)).1.out = out ++ (g.drain none w).1 ∧ (stepsOf n (⟨g, out⟩, w)).2 = (g.drain none w).2.2 := by
  induction n with
  | zero =>
    intro g out w h
    cases g <;> simp [stepsOf, Worker.done] at h
    simp [stepsOf, drain]
  | succ n ih =>
    intro g out w h
    cases g with
    | ret r =>
      have : stepsOf (n + 1) (⟨.ret r, out⟩, w) = (⟨.ret r, out⟩, w) := stepsOf_done _ _ rfl
      rw [this]; simp [drain]
    | raise e => exact ih (.raise e) out w h
    | yield y k =>
      have := ih (k none) (out ++ [y]) w h
      simp only [stepsOf, Worker.step, drain]
      exact ⟨by rw [this.1]; simp, this.2⟩
    | act a k => exact ih (k w) out (a w) h

/-- Every worker that does not raise is done after enough steps. -/
theorem stepsOf_terminates : ∀ (g : Linting Unit) (out : List Result) (w : World), (∀ e, (g.drain none w).2.1 ≠ .raised e) →
    ∃ n, (stepsOf n (⟨g, out⟩, w)).1.done = true
  | .ret r, out, w, _ => ⟨0, rfl⟩
  | .raise e, out, w, h => absurd rfl (h e)
  | .yield y k, out, w, h => by
    obtain ⟨n, hn⟩ := stepsOf_terminates (k none) (out ++ [y]) w h
    exact ⟨n + 1, hn⟩
  | .act a k, out, w, h => by
    obtain ⟨n, hn⟩ := stepsOf_terminates (k w) out (a w) h
    exact ⟨n + 1, hn⟩

/-- The world after some steps is one of the worlds of the run. -/
theorem stepsOf_world (n : Nat) : ∀ (g : Linting Unit) (out : List Result) (w : World) (m : Nat), n ≤ m →
    (stepsOf n (⟨g, out⟩, w)).2 ∈ g.worlds (List.replicate m none) w := by
  have hhead : ∀ (g : Linting Unit) (ss : List Answer) (w : World), w ∈ g.worlds ss w := by
    intro g ss w
    cases g with
    | ret r => simp [worlds]
    | raise e => simp [worlds]
    | yield y k => cases ss <;> simp [worlds]
    | act a k => simp [worlds]
  induction n with
  | zero => intro g out w m _; exact hhead g _ w
  | succ n ih =>
    intro g out w m hm
    cases g with
    | ret r => rw [stepsOf_done _ _ rfl]; exact hhead _ _ w
    | raise e => exact ih (.raise e) out w m (by omega)
    | yield y k =>
      cases m with
      | zero => omega
      | succ m =>
        simp only [List.replicate_succ, worlds]
        exact List.mem_cons_of_mem _ (ih (k none) (out ++ [y]) w m (by omega))
    | act a k =>
      simp only [worlds]
      exact List.mem_cons_of_mem _ (ih (k w) out (a w) m (by omega))

theorem perm_flatMap_range {α : Type} (δ δ' : Nat → List α) (e : List α) (i : Nat) (hi : δ' i = δ i ++ e) (hj : ∀ j, j ≠ i → δ' j = δ j) :
    ∀ n, ((List.range n).flatMap δ').Perm ((List.range n).flatMap δ ++ if i < n then e else []) := by
  intro n
  induction n with
  | zero => simp
  | succ n ih =>
    simp only [List.range_succ, List.flatMap_append, List.flatMap_cons, List.flatMap_nil, List.append_nil]
    by_cases h : n = i
    · subst h
      rw [hi, if_pos (by omega)]
      simp only [Nat.lt_irrefl, if_false, List.append_nil] at ih
      rw [← List.append_assoc]
      exact (ih.append_right _).append_right _
    · rw [hj n h]
      by_cases h2 : i < n
      · rw [if_pos h2] at ih
        rw [if_pos (by omega)]
        refine (ih.append_right _).trans ?_
        simp only [List.append_assoc]
        exact List.Perm.append_left _ List.perm_append_comm
      · rw [if_neg h2] at ih
        rw [if_neg (by omega)]
        simp only [List.append_nil] at ih ⊢
        exact ih.append_right _

/-- The workers `ks` in the world `w` are where each would be on its own: worker `i` (on file `P i`) is `(as i).1`, in a world that agrees with `(as i).2`. -/
def PoolInv (S : Path → Prop) (P : Nat → Path) (w0 : World) (ks : List Worker) (w : World) (as : Nat → Worker × World) : Prop :=
  (∀ i k, ks[i]? = some k → k = (as i).1 ∧ Confined (fun s => s = none) S (P i) (fun _ => True) k.rest ∧ Agree S (P i) w (as i).2) ∧
  (∀ q, (∀ i k, ks[i]? = some k → P i ≠ q) ∨ ¬ S q → w.files q = w0.files q) ∧
  ∃ (δ : Nat → List Event) (evs : List Event), w.log = w0.log ++ evs ∧ evs.Perm ((List.range ks.length).flatMap δ) ∧ ∀ i, (as i).2.log = w0.log ++ δ i

/-- A step on its own. -/
theorem confined_step {S : Path → Prop} {p : Path} (k : Worker) (hk : Confined (fun s => s = none) S p (fun _ => True) k.rest) (w w' : World)
    (h : Agree S p w w') : (k.step w).1 = (k.step w').1 ∧ Confined (fun s => s = none) S p (fun _ => True) (k.step w).1.rest ∧
      Agree S p (k.step w).2 (k.step w').2 ∧ (∀ q, q ≠ p ∨ ¬ S q → (k.step w).2.files q = w.files q) ∧
      ∃ evs, (k.step w).2.log = w.log ++ evs ∧ (k.step w').2.log = w'.log ++ evs := by
  obtain ⟨g, out⟩ := k
  simp only at hk
  cases hk with
  | ret r hr => exact ⟨rfl, .ret r hr, h, fun q _ => rfl, [], by simp [Worker.step], by simp [Worker.step]⟩
  | raise e => exact ⟨rfl, .raise e, h, fun q _ => rfl, [], by simp [Worker.step], by simp [Worker.step]⟩
  | yield y k hy => exact ⟨rfl, hy none rfl, h, fun q _ => rfl, [], by simp [Worker.step], by simp [Worker.step]⟩
  | act a k h1 h2 h3 h4 h5 =>
    refine ⟨?_, h5 w, ⟨h2 w w' h, fun q hq => ?_⟩, fun q hq => h1 w q hq, h3 w w' h⟩
    · simp only [Worker.step]; rw [h4 w w' h]
    · simp only [Worker.step]
      rw [h1 w q (Or.inr hq), h1 w' q (Or.inr hq)]
      exact h.2 q hq

theorem poolInv_run (S : Path → Prop) (P : Nat → Path) (n : Nat) (hP : ∀ i j, i < n → j < n → i ≠ j → P i = P j → ¬ S (P i)) (w0 : World) :
    ∀ (sched : List Nat) (ks : List Worker) (w : World) (as : Nat → Worker × World), ks.length = n → PoolInv S P w0 ks w as →
      PoolInv S P w0 (runPool sched ks w).1 (runPool sched ks w).2 (fun i => if i < ks.length then stepsOf (sched.count i) (as i) else as i) ∧
      (runPool sched ks w).1.length = ks.length := by
  intro sched
  induction sched with
  | nil => intro ks w as hn h; refine ⟨?_, rfl⟩; simpa [runPool, stepsOf] using h
  | cons i sched ih =>
    intro ks w as hn h
    simp only [runPool]
    cases hi : ks[i]? with
    | none =>
      have hlen : ¬ i < ks.length := by
        intro hl
        rw [List.getElem?_eq_getElem hl] at hi
        simp at hi
      obtain ⟨h1, h2⟩ := ih ks w as hn h
      refine ⟨?_, h2⟩
      have : (fun j => if j < ks.length then stepsOf ((i :: sched).count j) (as j) else as j) = fun j => if j < ks.length then stepsOf (sched.count j) (as j) else as j := by
        funext j
        by_cases hj : j < ks.length
        · have : i ≠ j := by omega
          rw [List.count_cons_of_ne this]
        · simp [hj]
      rw [this]
      exact h1
    | some k =>
      have hlen : i < ks.length := by
        by_cases hl : i < ks.length
        · exact hl
        · rw [List.getElem?_eq_none (by omega)] at hi; simp at hi
      obtain ⟨hk1, hk2, hk3⟩ := h.1 i k hi
      obtain ⟨s1, s2, s3, s4, evs1, s5, s6⟩ := confined_step k hk2 w (as i).2 hk3
      have hstep : PoolInv S P w0 (ks.set i (k.step w).1) (k.step w).2 (fun j => if j = i then (as i).1.step (as i).2 else as j) := by
        refine ⟨?_, ?_, ?_⟩
        · intro j k' hj
          by_cases hij : j = i
          · subst hij
            rw [List.getElem?_set_self hlen, Option.some.injEq] at hj
            subst hj
            show _ = (if j = j then _ else _ : Worker × World).1 ∧ _ ∧ Agree _ _ _ (if j = j then _ else _ : Worker × World).2
            rw [if_pos rfl, ← hk1]
            exact ⟨s1, s2, s3⟩
          · rw [List.getElem?_set_ne (by omega)] at hj
            obtain ⟨g1, g2, g3⟩ := h.1 j k' hj
            have hjl : j < ks.length := by
              by_cases hl : j < ks.length
              · exact hl
              · rw [List.getElem?_eq_none (by omega)] at hj; simp at hj
            show _ = (if j = i then _ else _ : Worker × World).1 ∧ _ ∧ Agree _ _ _ (if j = i then _ else _ : Worker × World).2
            rw [if_neg hij]
            refine ⟨g1, g2, ?_, fun q hq => ?_⟩
            · rw [s4 (P j) ?_]
              · exact g3.1
              · by_cases he : P j = P i
                · exact Or.inr (hP j i (hn ▸ hjl) (hn ▸ hlen) hij he)
                · exact Or.inl he
            · rw [s4 q (Or.inr hq)]
              exact g3.2 q hq
        · intro q hq
          have hq' : (∀ j k', ks[j]? = some k' → P j ≠ q) ∨ ¬ S q := by
            rcases hq with hq | hq
            · left
              intro j k' hj
              by_cases hij : j = i
              · subst hij; exact hq j (k.step w).1 (List.getElem?_set_self hlen)
              · exact hq j k' (by rw [List.getElem?_set_ne (by omega)]; exact hj)
            · exact Or.inr hq
          rw [s4 q ?_]
          · exact h.2.1 q hq'
          · rcases hq' with hq' | hq'
            · exact Or.inl (fun he => hq' i k hi he.symm)
            · exact Or.inr hq'
        · obtain ⟨δ, evs, l1, l2, l3⟩ := h.2.2
          refine ⟨fun j => if j = i then δ i ++ evs1 else δ j, evs ++ evs1, ?_, ?_, ?_⟩
          · rw [s5, l1, List.append_assoc]
          · rw [List.length_set]
            refine (l2.append_right evs1).trans ?_
            have := perm_flatMap_range δ (fun j => if j = i then δ i ++ evs1 else δ j) evs1 i (by simp) (fun j hj => by simp [hj]) ks.length
            rw [if_pos hlen] at this
            exact this.symm
          · intro j
            by_cases hij : j = i
            · subst hij
              simp only [if_true, ← hk1]
              rw [s6, l3, List.append_assoc]
            · simp only [hij, if_false]
              exact l3 j
      obtain ⟨r1, r2⟩ := ih _ _ _ (by rw [List.length_set]; exact hn) hstep
      rw [List.length_set] at r1 r2
      refine ⟨?_, r2⟩
      have : (fun j => if j < ks.length then stepsOf ((i :: sched).count j) (as j) else as j) =
          fun j => if j < ks.length then stepsOf (sched.count j) (if j = i then (as i).1.step (as i).2 else as j) else (if j = i then (as i).1.step (as i).2 else as j) := by
        funext j
        by_cases hj : j < ks.length
        · simp only [hj, if_true]
          by_cases hij : j = i
          · subst hij
            rw [List.count_cons_self, if_pos rfl]; rfl
          · rw [List.count_cons_of_ne (Ne.symm hij), if_neg hij]
        · have : j ≠ i := by omega
          simp [hj, this]
      rw [this]
      exact r1

end Fixit
