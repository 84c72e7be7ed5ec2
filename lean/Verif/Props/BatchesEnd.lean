import Verif.Props.Batches

/-!
# C51, C147: every fair interleaving comes to an end
-/

namespace Spec

/-- The first `n` turns of an endless schedule. -/
def turns (σ : Nat → Nat) (n : Nat) : List Nat := (List.range n).map σ

/-- Every one of `n` processes gets a turn again and again. -/
def Fair (σ : Nat → Nat) (n : Nat) : Prop := ∀ i < n, ∀ m, ∃ m' ≥ m, σ m' = i

end Spec

namespace Fixit
open Py Spec Gen

/-- It never raises, whatever it is sent and whatever happens to the world meanwhile. -/
def NoRaise {W Y S R : Type} : Gen W Y S R → Prop
  | .ret _ => True
  | .raise _ => False
  | .yield _ k => ∀ s, NoRaise (k s)
  | .act _ k => ∀ w, NoRaise (k w)

theorem NoRaise.except {W Y S R : Type} (h : Err → Gen W Y S R) (hh : ∀ e, NoRaise (h e)) : ∀ g : Gen W Y S R, NoRaise (g.except h)
  | .ret _ => trivial
  | .raise e => hh e
  | .yield _ k => fun s => NoRaise.except h hh (k s)
  | .act _ k => fun w => NoRaise.except h hh (k w)

/-- It cannot go on. -/
def Halted (k : Worker) : Prop := k.done = true ∨ ∃ e, k.rest = .raise e

theorem Halted.step {k : Worker} (h : Halted k) (w : World) : k.step w = (k, w) := by
  obtain ⟨g, out⟩ := k
  rcases h with h | ⟨e, h⟩
  · cases g <;> simp [Worker.done] at h
    rfl
  · simp only at h; subst h; rfl

theorem turns_succ (σ : Nat → Nat) (n : Nat) : turns σ (n + 1) = turns σ n ++ [σ n] := by simp [turns, List.range_succ]

section
variable (ks : List Worker) (w : World) (σ : Nat → Nat)

/-- What one turn does to the process `i`. -/
theorem turn (n i : Nat) (k : Worker) (h : (runPool (turns σ n) ks w).1[i]? = some k) :
    (runPool (turns σ (n + 1)) ks w).1[i]? = some (if σ n = i then (k.step (runPool (turns σ n) ks w).2).1 else k) := by
  rw [turns_succ, runPool_append]
  simp only [runPool]
  have hl : i < (runPool (turns σ n) ks w).1.length := (List.getElem?_eq_some_iff.mp h).1
  by_cases hi : σ n = i
  · rw [if_pos hi, hi, h]
    simp only
    rw [List.getElem?_set_self hl]
  · rw [if_neg hi]
    split
    · exact h
    · simp only; rw [List.getElem?_set_ne hi]; exact h

theorem halted_stays (i : Nat) (n : Nat) (k : Worker) (h : (runPool (turns σ n) ks w).1[i]? = some k) (hk : Halted k) :
    ∀ m ≥ n, (runPool (turns σ m) ks w).1[i]? = some k := by
  intro m hm
  obtain ⟨d, rfl⟩ := Nat.exists_eq_add_of_le hm
  induction d with
  | zero => exact h
  | succ d ih =>
    have := turn ks w σ (n + d) i k (ih (by omega))
    rw [hk.step] at this
    simpa [Nat.add_assoc] using this

/-- Its next turn comes, and until then it is where it is. -/
theorem next_turn (i n m : Nat) (k : Worker) (h : (runPool (turns σ n) ks w).1[i]? = some k) (hm : m ≥ n) (hi : σ m = i) :
    ∃ m' ≥ n, σ m' = i ∧ (runPool (turns σ m') ks w).1[i]? = some k := by
  have : ∀ d, (∃ m' ≥ n, σ m' = i ∧ (runPool (turns σ m') ks w).1[i]? = some k) ∨ (runPool (turns σ (n + d)) ks w).1[i]? = some k := by
    intro d
    induction d with
    | zero => exact Or.inr h
    | succ d ih =>
      rcases ih with ih | ih
      · exact Or.inl ih
      · by_cases hd : σ (n + d) = i
        · exact Or.inl ⟨n + d, by omega, hd, ih⟩
        · right
          have := turn ks w σ (n + d) i k ih
          rw [if_neg hd] at this
          exact this
  obtain ⟨d, rfl⟩ := Nat.exists_eq_add_of_le hm
  rcases this d with h' | h'
  · exact h'
  · exact ⟨_, hm, hi, h'⟩

theorem halts (i : Nat) (hfair : ∀ m, ∃ m' ≥ m, σ m' = i) : ∀ (g : Linting Unit) (out : List Result) (n : Nat), (runPool (turns σ n) ks w).1[i]? = some ⟨g, out⟩ →
    ∃ (m : Nat) (k : Worker), (runPool (turns σ m) ks w).1[i]? = some k ∧ Halted k
  | .ret u, out, n, h => ⟨n, _, h, Or.inl rfl⟩
  | .raise e, out, n, h => ⟨n, _, h, Or.inr ⟨e, rfl⟩⟩
  | .yield y c, out, n, h => by
    obtain ⟨m, hm, hi⟩ := hfair n
    obtain ⟨m', -, hi', h'⟩ := next_turn ks w σ i n m _ h hm hi
    have := turn ks w σ m' i _ h'
    rw [if_pos hi'] at this
    exact halts i hfair (c none) _ (m' + 1) this
  | .act a c, out, n, h => by
    obtain ⟨m, hm, hi⟩ := hfair n
    obtain ⟨m', -, hi', h'⟩ := next_turn ks w σ i n m _ h hm hi
    have := turn ks w σ m' i _ h'
    rw [if_pos hi'] at this
    exact halts i hfair (c _) _ (m' + 1) this

theorem runPool_length : ∀ (sched : List Nat) (ks : List Worker) (w : World), (runPool sched ks w).1.length = ks.length
  | [], ks, w => rfl
  | i :: sched, ks, w => by
    simp only [runPool]
    split
    · exact runPool_length sched ks w
    · rw [runPool_length sched]; simp

/-- Under a fair schedule all processes halt. -/
theorem all_halt (hfair : Fair σ ks.length) : ∃ N, ∀ m ≥ N, ∀ k ∈ (runPool (turns σ m) ks w).1, Halted k := by
  have each : ∀ L ≤ ks.length, ∃ N, ∀ m ≥ N, ∀ i < L, ∃ k, (runPool (turns σ m) ks w).1[i]? = some k ∧ Halted k := by
    intro L
    induction L with
    | zero => intro _; exact ⟨0, fun m _ i hi => by omega⟩
    | succ L ih =>
      intro hL
      obtain ⟨N, hN⟩ := ih (by omega)
      have h0 : (runPool (turns σ 0) ks w).1[L]? = some (ks[L]'(by omega)) := List.getElem?_eq_getElem _
      obtain ⟨m0, k, h1, h2⟩ := halts ks w σ L (hfair L (by omega)) _ _ 0 h0
      refine ⟨max N m0, fun m hm i hi => ?_⟩
      rcases Nat.lt_succ_iff_lt_or_eq.mp hi with hi | rfl
      · exact hN m (by omega) i hi
      · exact ⟨k, halted_stays ks w σ i m0 k h1 h2 m (by omega), h2⟩
  obtain ⟨N, hN⟩ := each ks.length (Nat.le_refl _)
  refine ⟨N, fun m hm k hk => ?_⟩
  obtain ⟨i, hi⟩ := List.getElem?_of_mem hk
  have hlt := (List.getElem?_eq_some_iff.mp hi).1
  rw [runPool_length] at hlt
  obtain ⟨k', h1, h2⟩ := hN m hm i hlt
  rw [hi] at h1
  cases h1
  exact h2

/-- What never raises never comes to raise. -/
theorem pool_noRaise : ∀ (sched : List Nat) (ks : List Worker) (w : World), (∀ k ∈ ks, NoRaise k.rest) → ∀ k ∈ (runPool sched ks w).1, NoRaise k.rest
  | [], ks, w, h => h
  | i :: sched, ks, w, h => by
    simp only [runPool]
    split
    · exact pool_noRaise sched ks w h
    · rename_i k hk
      refine pool_noRaise sched _ _ (fun k' hk' => ?_)
      rcases List.mem_or_eq_of_mem_set hk' with hk' | rfl
      · exact h k' hk'
      · have := h k (List.mem_of_getElem? hk)
        obtain ⟨g, out⟩ := k
        cases g with
        | ret u => exact this
        | raise e => exact this
        | yield y c => exact this none
        | act a c => exact this _

end

section
variable {C : Type} (env : Env C) (walk : (Path → Option Bytes) → Path → Except Err (List Path))

theorem fixitFile_noRaise (autofix hook : Bool) (p : Path) : NoRaise (fixitFile env p autofix hook) := by
  unfold fixitFile lintFile
  exact NoRaise.except (yieldError (env.resolve p)) (fun e => fun _ => trivial) _

/-- **C51** Under every fair schedule the pool comes to an end, whatever the files, and even if they disturb each other: from some moment on every worker has finished. -/
theorem C51_fair_ends (autofix hook : Bool) (fs : List Path) (w : World) (σ : Nat → Nat) (hfair : Fair σ fs.length) :
    ∃ N, ∀ m ≥ N, (runPool (turns σ m) (startWorkers env autofix hook fs) w).1.length = fs.length ∧ ∀ k ∈ (runPool (turns σ m) (startWorkers env autofix hook fs) w).1, k.done = true := by
  obtain ⟨N, hN⟩ := all_halt (startWorkers env autofix hook fs) w σ (by simpa [startWorkers] using hfair)
  refine ⟨N, fun m hm => ⟨by rw [runPool_length]; simp [startWorkers], fun k hk => ?_⟩⟩
  rcases hN m hm k hk with h | ⟨e, h⟩
  · exact h
  · have := pool_noRaise (turns σ m) (startWorkers env autofix hook fs) w (by
      intro k hk
      unfold startWorkers at hk
      obtain ⟨p, -, rfl⟩ := List.mem_map.mp hk
      exact fixitFile_noRaise env autofix hook p) k hk
    rw [h] at this
    exact this.elim

theorem joinRest_raise : ∀ (ks : List Worker) (e : Err), joinRest ks = .raise e → ∃ k ∈ ks, ∃ e, k.rest = .raise e
  | [], e, h => by simp [joinRest] at h
  | k :: ks, e, h => by
    obtain ⟨g, out⟩ := k
    cases g with
    | ret u =>
      obtain ⟨k, hk, h⟩ := joinRest_raise ks e h
      exact ⟨k, by simp [hk], h⟩
    | raise e' => exact ⟨⟨.raise e', out⟩, by simp, e', rfl⟩
    | yield y c => simp [joinRest, Gen.bind] at h
    | act a c => simp [joinRest, Gen.bind] at h

/-- **C147** Under every fair interleaving the runs all come to an end, so that from some moment on what is said of finished runs holds of all of them. -/
theorem C147_ends (autofix hook : Bool) (runs : List (List Path × List Path)) (w : World) (hh : ∀ r ∈ runs, r.1.head? ≠ some [py "-"])
    (hwalk : ∀ r ∈ runs, ∀ u : World, (∀ q, (∀ r ∈ runs, ∀ p ∈ r.2, env.resolve p ≠ q) → u.files q = w.files q) → filesUnder (walk u.files) (r.1.filter (· ≠ [py "-"])) = .ok r.2)
    (hS : Stable env (fun q => q ∈ (runs.flatMap (·.2)).map env.resolve)) (hd : ((runs.flatMap (·.2)).map env.resolve).Nodup) (σ : Nat → Nat) (hfair : Fair σ runs.length) :
    ∃ N, ∀ m ≥ N, ∀ (i : Nat) r, runs[i]? = some r → ∃ k, (runPool (turns σ m) (startRuns env walk autofix hook (runs.map (·.1))) w).1[i]? = some k ∧
      k.done = true ∧ k.out = r.2.flatMap (fun p => (alone env autofix hook w p).1) := by
  obtain ⟨N, hN⟩ := all_halt (startRuns env walk autofix hook (runs.map (·.1))) w σ (by simpa [startRuns] using hfair)
  refine ⟨N, fun m hm i r hr => ?_⟩
  obtain ⟨hfin, -, -⟩ := C147_at_the_same_time env walk autofix hook runs w hh hwalk hS hd (turns σ m)
  obtain ⟨k, hk, hout⟩ := hfin i r hr
  have hdone : k.done = true := by
    rcases hN m hm k (List.mem_of_getElem? hk) with h | ⟨e, h⟩
    · exact h
    · exfalso
      have hst := fun sched => pool_state env hS autofix hook (runs.flatMap (·.2)) w (fun p hp => Or.inl (List.mem_map_of_mem hp)) (hd.imp (fun h e => absurd e h)) sched
      obtain ⟨kss, done, h1, h2⟩ := runs_as_pool env walk autofix hook runs w hh
        (fun r hr sched => hwalk r hr _ (fun q hq => (hst sched).2.2.1 q (Or.inl (fun p hp => by
          obtain ⟨r, hr, hp⟩ := List.mem_flatMap.mp hp
          exact hq r hr p hp)))) (turns σ m)
        (startRuns env walk autofix hook (runs.map (·.1))) (runs.map (fun r => startWorkers env autofix hook r.2)) [] w
        (by
          simp only [runPool]
          congr 1
          unfold startWorkers
          rw [List.flatMap_def, List.map_flatten, List.map_map]
          rfl)
        (by
          intro i
          unfold startRuns
          constructor
          · intro r hr
            exact ⟨_, _, by rw [List.getElem?_map, List.getElem?_map, hr]; rfl, by rw [List.getElem?_map, hr]; rfl, Or.inl ⟨rfl, rfl⟩⟩
          · intro hr
            rw [List.getElem?_map, List.getElem?_map, hr]; rfl)
      obtain ⟨b, ks, e1, e2, e3⟩ := h2 i r hr
      rw [hk] at e1
      cases e1
      rcases e3 with ⟨rfl, -⟩ | ⟨rfl, -, -⟩
      · cases ha : r.1 with
        | nil => rw [ha] at h; cases h
        | cons p ps => rw [ha] at h; simp [fixitPaths, look] at h
      · obtain ⟨k, hkm, e', he⟩ := joinRest_raise ks e h
        have := pool_noRaise done (startWorkers env autofix hook (runs.flatMap (·.2))) w (by
          intro k hk
          unfold startWorkers at hk
          obtain ⟨p, -, rfl⟩ := List.mem_map.mp hk
          exact fixitFile_noRaise env autofix hook p) k (by
            rw [h1]
            exact List.mem_flatten.mpr ⟨ks, List.mem_of_getElem? e2, hkm⟩)
        rw [he] at this
        exact this
  exact ⟨k, hk, hdone, (hout hdone).1⟩

/-- Fair schedules exist: taking turns. -/
example (n : Nat) : Fair (fun k => k % n) n := fun i hi m =>
  ⟨m * n + i, by have : m ≤ m * n := Nat.le_mul_of_pos_right m (by omega)
                 omega, by simp [Nat.mod_eq_of_lt hi]⟩

end
end Fixit
