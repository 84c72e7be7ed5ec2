import Verif.Props.BatchesEnd
import Verif.Props.SameFile

/-!
# C139: several runs at the same time, over files some of which are the same
-/

namespace Fixit
open Py Spec Gen

theorem flat_index_inv {A B : Type} : ∀ (rss : List (List A)) (kss : List (List B)), (∀ (i : Nat) r, rss[i]? = some r → ∃ ks, kss[i]? = some ks ∧ ks.length = r.length) →
    ∀ (n : Nat) p, rss.flatten[n]? = some p → ∃ (i : Nat) (r : List A) (j : Nat) (ks : List B) (k : B), rss[i]? = some r ∧ r[j]? = some p ∧ kss[i]? = some ks ∧ ks[j]? = some k ∧ kss.flatten[n]? = some k
  | [], _, _, n, p, hn => by simp at hn
  | r0 :: rss, [], h, _, _, _ => by have := h 0 r0 rfl; simp at this
  | r0 :: rss, ks0 :: kss, h, n, p, hn => by
    obtain ⟨ks, h1, h2⟩ := h 0 r0 rfl
    simp only [List.getElem?_cons_zero, Option.some.injEq] at h1
    subst h1
    rw [List.flatten_cons] at hn
    by_cases hl : n < r0.length
    · rw [List.getElem?_append_left hl] at hn
      refine ⟨0, r0, n, ks0, ks0[n]'(by omega), rfl, hn, rfl, List.getElem?_eq_getElem _, ?_⟩
      rw [List.flatten_cons, List.getElem?_append_left (by omega)]
      exact List.getElem?_eq_getElem _
    · rw [List.getElem?_append_right (by omega)] at hn
      obtain ⟨i, r, j, ks, k, e1, e2, e3, e4, e5⟩ := flat_index_inv rss kss (fun i r hr => h (i + 1) r hr) _ p hn
      refine ⟨i + 1, r, j, ks, k, by simpa using e1, e2, by simpa using e3, e4, ?_⟩
      rw [List.flatten_cons, List.getElem?_append_right (by omega), h2]
      exact e5

section
variable {C : Type} (env : Env C) (walk : (Path → Option Bytes) → Path → Except Err (List Path))

/-- **C139** Several runs at the same time over arguments under which some of the same files are found. What is found under the arguments does not depend on what these files contain. Then at every
moment each file has its old content, its new content, or none while it is rewritten; all other files are as before; when all runs that handle a file have finished, it has the content that fixing it once
on its own gives; and a run that has finished has yielded, file by file, what each of its files gives on its own, for one of these contents. -/
theorem C139_runs {autofix hook : Bool} (runs : List (List Path × List Path)) (w : World) (hh : ∀ r ∈ runs, r.1.head? ≠ some [py "-"])
    (hwalk : ∀ r ∈ runs, ∀ u : World, (∀ q, (∀ r ∈ runs, ∀ p ∈ r.2, env.resolve p ≠ q) → u.files q = w.files q) → filesUnder (walk u.files) (r.1.filter (· ≠ [py "-"])) = .ok r.2)
    (h : OnceIsEnough env autofix hook w (runs.flatMap (·.2))) (sched : List Nat) :
    let now := runPool sched (startRuns env walk autofix hook (runs.map (·.1))) w
    (∀ r ∈ runs, ∀ p ∈ r.2, ContentSeen env autofix hook w p (now.2.files (env.resolve p))) ∧
    (∀ q, (∀ r ∈ runs, ∀ p ∈ r.2, env.resolve p ≠ q) → now.2.files q = w.files q) ∧
    (∀ r ∈ runs, ∀ p ∈ r.2, (∀ (i : Nat) r' k, runs[i]? = some r' → (∃ p' ∈ r'.2, env.resolve p' = env.resolve p) → now.1[i]? = some k → k.done = true) →
      now.2.files (env.resolve p) = afterAlone env autofix hook w p (w.files (env.resolve p))) ∧
    (∀ (i : Nat) r, runs[i]? = some r → ∃ k, now.1[i]? = some k ∧ (k.done = true → ∃ outs : List (List Result), k.out = outs.flatten ∧ outs.length = r.2.length ∧
      ∀ (j : Nat) p ys, r.2[j]? = some p → outs[j]? = some ys → ∃ c, ContentSeen env autofix hook w p c ∧ ys = (alone env autofix hook (holding w (env.resolve p) c) p).1)) := by
  intro now
  have hothers : ∀ sched q, (∀ r ∈ runs, ∀ p ∈ r.2, env.resolve p ≠ q) → (runPool sched (startWorkers env autofix hook (runs.flatMap (·.2))) w).2.files q = w.files q := by
    intro sched q hq
    obtain ⟨σ, hr⟩ := h.racing sched
    refine hr.others q ?_
    rintro ⟨p, hp, hpq⟩
    obtain ⟨r, hr, hp⟩ := List.mem_flatMap.mp hp
    exact hq r hr p hp hpq
  obtain ⟨kss, done, h1, h2⟩ := runs_as_pool env walk autofix hook runs w hh
    (fun r hr sched => hwalk r hr _ (hothers sched)) sched
    (startRuns env walk autofix hook (runs.map (·.1))) (runs.map (fun r => startWorkers env autofix hook r.2)) [] w
    (by
      simp only [runPool]
      congr 1
      unfold startWorkers
      rw [List.flatMap_def, List.map_flatten, List.map_map]
      rfl)
    (by
      intro i
      unfold startRuns
      constructor
      · intro r hr
        exact ⟨_, _, by rw [List.getElem?_map, List.getElem?_map, hr]; rfl, by rw [List.getElem?_map, hr]; rfl, Or.inl ⟨rfl, rfl⟩⟩
      · intro hr
        rw [List.getElem?_map, List.getElem?_map, hr]; rfl)
  have hlens : ∀ (i : Nat) r, (runs.map (·.2))[i]? = some r → ∃ ks, kss[i]? = some ks ∧ ks.length = r.length := by
    intro i fs hi
    rw [List.getElem?_map] at hi
    cases hr : runs[i]? with
    | none => rw [hr] at hi; cases hi
    | some r =>
      rw [hr] at hi
      cases hi
      obtain ⟨b, ks, -, e2, e3⟩ := h2 i r hr
      refine ⟨ks, e2, ?_⟩
      rcases e3 with ⟨-, rfl⟩ | ⟨-, -, h⟩
      · simp [startWorkers]
      · exact h
  have hnow : now.2 = (runPool done (startWorkers env autofix hook (runs.flatMap (·.2))) w).2 := by rw [h1]
  have hall : ∀ (i : Nat) r b ks, runs[i]? = some r → Stands env walk autofix hook r b ks → b.done = true → ∀ k ∈ ks, k.done = true := by
    intro i r b ks hr e3 hdone
    rcases e3 with ⟨rfl, rfl⟩ | ⟨rfl, -, -⟩
    · cases ha : r.1 with
      | nil =>
        have := hwalk r (List.mem_of_getElem? hr) w (fun _ _ => rfl)
        rw [ha] at this
        simp only [List.filter_nil, filesUnder, Except.ok.injEq] at this
        rw [← this]
        simp [startWorkers]
      | cons p ps => rw [ha] at hdone; simp [fixitPaths, look, Worker.done] at hdone
    · unfold Worker.done joined at hdone
      simp only at hdone
      cases hj : joinRest ks with
      | ret u => exact joinRest_ret ks u hj
      | raise e => rw [hj] at hdone; cases hdone
      | yield y c => rw [hj] at hdone; cases hdone
      | act a c => rw [hj] at hdone; cases hdone
  refine ⟨?_, ?_, ?_, ?_⟩
  · intro r hr p hp
    rw [hnow]
    exact C139_content h done p (List.mem_flatMap.mpr ⟨r, hr, hp⟩)
  · intro q hq
    rw [hnow]
    exact hothers done q hq
  · intro r hr p hp hdone
    rw [hnow]
    refine C139_finished h done p (List.mem_flatMap.mpr ⟨r, hr, hp⟩) ?_
    intro n p' k hn hp' hk
    rw [List.flatMap_def] at hn
    obtain ⟨i, fs, j, ks, k', e1, e2, e3, e4, e5⟩ := flat_index_inv (runs.map (·.2)) kss hlens n p' hn
    rw [h1] at hk
    simp only at hk
    rw [e5] at hk
    cases hk
    rw [List.getElem?_map] at e1
    cases hr' : runs[i]? with
    | none => rw [hr'] at e1; cases e1
    | some r' =>
      rw [hr'] at e1
      cases e1
      obtain ⟨b, ks', f1, f2, f3⟩ := h2 i r' hr'
      rw [e3] at f2
      cases f2
      exact hall i r' b ks hr' f3 (hdone i r' b hr' ⟨p', List.mem_of_getElem? e2, hp'⟩ f1) k (List.mem_of_getElem? e4)
  · intro i r hr
    obtain ⟨b, ks, e1, e2, e3⟩ := h2 i r hr
    refine ⟨b, e1, fun hdone => ⟨ks.map Worker.out, ?_, ?_, ?_⟩⟩
    · rcases e3 with ⟨rfl, rfl⟩ | ⟨rfl, -, -⟩
      · rw [flatten_empty]
        intro k hk
        unfold startWorkers at hk
        obtain ⟨p, -, rfl⟩ := List.mem_map.mp hk
        rfl
      · rfl
    · obtain ⟨ks', e4, e5⟩ := hlens i r.2 (by rw [List.getElem?_map, hr]; rfl)
      rw [e2] at e4
      cases e4
      rw [List.length_map, e5]
    · intro j p ys hj hys
      obtain ⟨n, ks', k, f1, f2, f3, f4⟩ := flat_index (runs.map (·.2)) kss hlens i r.2 j p (by rw [List.getElem?_map, hr]; rfl) hj
      rw [e2] at f2
      cases f2
      rw [← List.flatMap_def] at f1
      rw [List.getElem?_map, f3] at hys
      cases hys
      refine C139_results h done n p k f1 ?_ (hall i r b ks hr e3 hdone k (List.mem_of_getElem? f3))
      rw [h1]
      exact f4

/-- **C139** Under every fair interleaving the runs all come to an end, and then each file has the content that fixing it once on its own gives. -/
theorem C139_runs_end {autofix hook : Bool} (runs : List (List Path × List Path)) (w : World) (hh : ∀ r ∈ runs, r.1.head? ≠ some [py "-"])
    (hwalk : ∀ r ∈ runs, ∀ u : World, (∀ q, (∀ r ∈ runs, ∀ p ∈ r.2, env.resolve p ≠ q) → u.files q = w.files q) → filesUnder (walk u.files) (r.1.filter (· ≠ [py "-"])) = .ok r.2)
    (h : OnceIsEnough env autofix hook w (runs.flatMap (·.2))) (σ : Nat → Nat) (hfair : Fair σ runs.length) :
    ∃ N, ∀ m ≥ N, let now := runPool (turns σ m) (startRuns env walk autofix hook (runs.map (·.1))) w
      (∀ k ∈ now.1, k.done = true) ∧ ∀ r ∈ runs, ∀ p ∈ r.2, now.2.files (env.resolve p) = afterAlone env autofix hook w p (w.files (env.resolve p)) := by
  obtain ⟨N, hN⟩ := all_halt (startRuns env walk autofix hook (runs.map (·.1))) w σ (by simpa [startRuns] using hfair)
  refine ⟨N, fun m hm => ?_⟩
  have hdone : ∀ k ∈ (runPool (turns σ m) (startRuns env walk autofix hook (runs.map (·.1))) w).1, k.done = true := by
    intro k hk
    rcases hN m hm k hk with h' | ⟨e, h'⟩
    · exact h'
    · exfalso
      obtain ⟨kss, done, h1, h2⟩ := runs_as_pool env walk autofix hook runs w hh
        (fun r hr sched => hwalk r hr _ (by
          intro q hq
          obtain ⟨σ', hr'⟩ := h.racing sched
          refine hr'.others q ?_
          rintro ⟨p, hp, hpq⟩
          obtain ⟨r, hr, hp⟩ := List.mem_flatMap.mp hp
          exact hq r hr p hp hpq)) (turns σ m)
        (startRuns env walk autofix hook (runs.map (·.1))) (runs.map (fun r => startWorkers env autofix hook r.2)) [] w
        (by
          simp only [runPool]
          congr 1
          unfold startWorkers
          rw [List.flatMap_def, List.map_flatten, List.map_map]
          rfl)
        (by
          intro i
          unfold startRuns
          constructor
          · intro r hr
            exact ⟨_, _, by rw [List.getElem?_map, List.getElem?_map, hr]; rfl, by rw [List.getElem?_map, hr]; rfl, Or.inl ⟨rfl, rfl⟩⟩
          · intro hr
            rw [List.getElem?_map, List.getElem?_map, hr]; rfl)
      obtain ⟨i, hi⟩ := List.getElem?_of_mem hk
      have hil := (List.getElem?_eq_some_iff.mp hi).1
      rw [runPool_length] at hil
      have hil : i < runs.length := by simpa [startRuns] using hil
      obtain ⟨b, ks, e1, e2, e3⟩ := h2 i _ (List.getElem?_eq_getElem hil)
      rw [hi] at e1
      cases e1
      rcases e3 with ⟨rfl, -⟩ | ⟨rfl, -, -⟩
      · cases ha : (runs[i]).1 with
        | nil => rw [ha] at h'; cases h'
        | cons p ps => rw [ha] at h'; simp [fixitPaths, look] at h'
      · obtain ⟨k, hkm, e', he⟩ := joinRest_raise ks e h'
        have := pool_noRaise done (startWorkers env autofix hook (runs.flatMap (·.2))) w (by
          intro k hk
          unfold startWorkers at hk
          obtain ⟨p, -, rfl⟩ := List.mem_map.mp hk
          exact fixitFile_noRaise env autofix hook p) k (by
            rw [h1]
            exact List.mem_flatten.mpr ⟨ks, List.mem_of_getElem? e2, hkm⟩)
        rw [he] at this
        exact this
  exact ⟨hdone, fun r hr p hp => (C139_runs env walk runs w hh hwalk h (turns σ m)).2.2.1 r hr p hp (fun i r' k _ _ hk => hdone k (List.mem_of_getElem? hk))⟩

end
end Fixit
