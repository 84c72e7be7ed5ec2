import Verif.Props.Interrupted

/-!
# C147: several fixing runs at the same time
-/

namespace Spec
open Py Fixit

/-- Several processes, each a sequential `fixit_paths` over its own arguments, all about to start. -/
def startRuns {C : Type} (env : Env C) (walk : (Path → Option Bytes) → Path → Except Err (List Path)) (autofix hook : Bool) (argss : List (List Path)) : List Worker :=
  argss.map (fun args => ⟨fixitPaths env walk autofix hook args, []⟩)

end Spec

namespace Fixit
open Py Spec Gen

/-- One generator after the other. -/
def joinRest : List Worker → Linting Unit
  | [] => .ret ()
  | k :: ks => k.rest.bind (fun _ => joinRest ks)

/-- One process that does what these would do, one after the other. -/
def joined (ks : List Worker) : Worker := ⟨joinRest ks, (ks.map Worker.out).flatten⟩

/-- All before the current one are done, all behind it have nothing yet. -/
def InOrder : List Worker → Prop
  | [] => True
  | k :: ks => (k.done = true ∧ InOrder ks) ∨ ∀ k' ∈ ks, k'.out = []

theorem InOrder.of_empty : ∀ {ks : List Worker}, (∀ k ∈ ks, k.out = []) → InOrder ks
  | [], _ => trivial
  | _ :: _, h => Or.inr (fun k' hk' => h k' (List.mem_cons_of_mem _ hk'))

theorem flatten_empty : ∀ (ks : List Worker), (∀ k ∈ ks, k.out = []) → (ks.map Worker.out).flatten = []
  | [], _ => rfl
  | k :: ks, h => by simp [h k (by simp), flatten_empty ks (fun k' hk' => h k' (by simp [hk']))]

theorem step_prefix (g : Linting Unit) (a b : List Result) (w : World) :
    Worker.step ⟨g, a ++ b⟩ w = (⟨(Worker.step ⟨g, b⟩ w).1.rest, a ++ (Worker.step ⟨g, b⟩ w).1.out⟩, (Worker.step ⟨g, b⟩ w).2) := by
  cases g <;> simp [Worker.step]

/-- A step of the joined process is a step of one of them, or none. -/
theorem joined_step (w : World) : ∀ (ks : List Worker), InOrder ks →
    (∃ (j : Nat) (k : Worker), ks[j]? = some k ∧ InOrder (ks.set j (k.step w).1) ∧ (joined ks).step w = (joined (ks.set j (k.step w).1), (k.step w).2)) ∨
    (joined ks).step w = (joined ks, w)
  | [], _ => Or.inr rfl
  | k :: ks, h => by
    obtain ⟨g, out⟩ := k
    have hdone : InOrder ks → ∀ u, g = .ret u →
        (∃ (j : Nat) (k : Worker), ((⟨g, out⟩ : Worker) :: ks)[j]? = some k ∧ InOrder (((⟨g, out⟩ : Worker) :: ks).set j (k.step w).1) ∧
          (joined (⟨g, out⟩ :: ks)).step w = (joined (((⟨g, out⟩ : Worker) :: ks).set j (k.step w).1), (k.step w).2)) ∨
        (joined (⟨g, out⟩ :: ks)).step w = (joined (⟨g, out⟩ :: ks), w) := by
      rintro ho u rfl
      have hj : joined (⟨.ret u, out⟩ :: ks) = ⟨joinRest ks, out ++ (ks.map Worker.out).flatten⟩ := rfl
      rcases joined_step w ks ho with ⟨j, k, h1, h2, h3⟩ | h3
      · refine Or.inl ⟨j + 1, k, by simpa using h1, Or.inl ⟨rfl, h2⟩, ?_⟩
        rw [hj, step_prefix]
        unfold joined at h3
        rw [h3]
        rfl
      · right
        rw [hj, step_prefix]
        unfold joined at h3
        rw [h3]
    cases g with
    | ret u =>
      refine hdone ?_ u rfl
      rcases h with h | h
      · exact h.2
      · exact InOrder.of_empty h
    | raise e => exact Or.inr rfl
    | yield y c =>
      rcases h with h | h
      · simp [Worker.done] at h
      · refine Or.inl ⟨0, _, rfl, Or.inr h, ?_⟩
        simp only [joined, joinRest, List.map_cons, List.flatten_cons, flatten_empty ks h, Gen.bind, Worker.step, List.append_nil, List.set_cons_zero]
    | act a c =>
      rcases h with h | h
      · simp [Worker.done] at h
      · refine Or.inl ⟨0, _, rfl, Or.inr h, ?_⟩
        simp only [joined, joinRest, List.map_cons, List.flatten_cons, flatten_empty ks h, Gen.bind, Worker.step, List.append_nil, List.set_cons_zero]

theorem flatten_set {A : Type} : ∀ (kss : List (List A)) (i j : Nat) (ks : List A) (k k' : A), kss[i]? = some ks → ks[j]? = some k →
    ∃ n : Nat, kss.flatten[n]? = some k ∧ (kss.set i (ks.set j k')).flatten = kss.flatten.set n k'
  | [], i, j, ks, k, k', h, _ => by simp at h
  | l :: kss, 0, j, ks, k, k', h, hj => by
    simp only [List.getElem?_cons_zero, Option.some.injEq] at h
    subst h
    have hl : j < l.length := (List.getElem?_eq_some_iff.mp hj).1
    refine ⟨j, ?_, ?_⟩
    · rw [List.flatten_cons, List.getElem?_append_left hl]; exact hj
    · rw [List.set_cons_zero, List.flatten_cons, List.flatten_cons, List.set_append_left _ _ hl]
  | l :: kss, i + 1, j, ks, k, k', h, hj => by
    simp only [List.getElem?_cons_succ] at h
    obtain ⟨n, h1, h2⟩ := flatten_set kss i j ks k k' h hj
    refine ⟨l.length + n, ?_, ?_⟩
    · rw [List.flatten_cons, List.getElem?_append_right (by omega), Nat.add_sub_cancel_left]; exact h1
    · rw [List.set_cons_succ, List.flatten_cons, List.flatten_cons, List.set_append_right _ _ (by omega), Nat.add_sub_cancel_left, h2]

theorem runPool_append : ∀ (s t : List Nat) (ks : List Worker) (w : World), runPool (s ++ t) ks w = runPool t (runPool s ks w).1 (runPool s ks w).2
  | [], t, ks, w => rfl
  | i :: s, t, ks, w => by
    simp only [List.cons_append, runPool]
    split <;> exact runPool_append s t _ _

theorem joinRest_ret : ∀ (ks : List Worker) (u : Unit), joinRest ks = .ret u → ∀ k ∈ ks, k.done = true
  | [], _, _ => by simp
  | k :: ks, u, h => by
    obtain ⟨g, out⟩ := k
    cases g with
    | ret v =>
      intro k' hk'
      rcases List.mem_cons.mp hk' with rfl | hk'
      · rfl
      · exact joinRest_ret ks u h k' hk'
    | raise e => simp [joinRest, Gen.bind] at h
    | yield y c => simp [joinRest, Gen.bind] at h
    | act a c => simp [joinRest, Gen.bind] at h

section
variable {C : Type} (env : Env C) (walk : (Path → Option Bytes) → Path → Except Err (List Path))

theorem eachFile_join (autofix hook : Bool) : ∀ fs : List Path, joined (startWorkers env autofix hook fs) = ⟨eachFile env autofix hook fs, []⟩ := by
  intro fs
  have h1 : ∀ fs : List Path, joinRest (startWorkers env autofix hook fs) = eachFile env autofix hook fs := by
    intro fs
    induction fs with
    | nil => rfl
    | cons p fs ih =>
      show (fixitFile env p autofix hook).bind (fun _ => joinRest (startWorkers env autofix hook fs)) = _
      rw [ih]
      rfl
  unfold joined
  rw [h1, flatten_empty]
  intro k hk
  unfold startWorkers at hk
  obtain ⟨p, -, rfl⟩ := List.mem_map.mp hk
  rfl

/-- A process and the workers it stands for: about to start, or on its way. -/
def Stands (autofix hook : Bool) (r : List Path × List Path) (b : Worker) (ks : List Worker) : Prop :=
  (b = ⟨fixitPaths env walk autofix hook r.1, []⟩ ∧ ks = startWorkers env autofix hook r.2) ∨ (b = joined ks ∧ InOrder ks ∧ ks.length = r.2.length)

/-- The first step finds the files. -/
theorem starts (autofix hook : Bool) (args fs : List Path) (w : World) (hh : args.head? ≠ some [py "-"]) (hf : filesUnder (walk w.files) (args.filter (· ≠ [py "-"])) = .ok fs) :
    (⟨fixitPaths env walk autofix hook args, []⟩ : Worker).step w = (joined (startWorkers env autofix hook fs), w) := by
  rw [eachFile_join]
  cases args with
  | nil => simp [filesUnder] at hf; subst hf; rfl
  | cons p ps =>
    unfold fixitPaths scan
    simp only [List.isEmpty_cons, Bool.false_eq_true, if_false, look, Worker.step]
    rw [scanFrom_files _ _ _ _ rfl (Or.inr hh), hf]
    rfl

/-- The processes, wherever they are, are where a pool of workers, one for each file, could be. -/
theorem runs_as_pool (autofix hook : Bool) (runs : List (List Path × List Path)) (w : World) (hh : ∀ r ∈ runs, r.1.head? ≠ some [py "-"])
    (hwalk : ∀ r ∈ runs, ∀ sched, filesUnder (walk (runPool sched (startWorkers env autofix hook (runs.flatMap (·.2))) w).2.files) (r.1.filter (· ≠ [py "-"])) = .ok r.2) :
    ∀ (sched : List Nat) (bs : List Worker) (kss : List (List Worker)) (done : List Nat) (v : World),
      runPool done (startWorkers env autofix hook (runs.flatMap (·.2))) w = (kss.flatten, v) →
      (∀ i : Nat, (∀ r, runs[i]? = some r → ∃ b ks, bs[i]? = some b ∧ kss[i]? = some ks ∧ Stands env walk autofix hook r b ks) ∧ (runs[i]? = none → bs[i]? = none)) →
      ∃ (kss' : List (List Worker)) (done' : List Nat),
        runPool done' (startWorkers env autofix hook (runs.flatMap (·.2))) w = (kss'.flatten, (runPool sched bs v).2) ∧
        ∀ i : Nat, ∀ r, runs[i]? = some r → ∃ b ks, (runPool sched bs v).1[i]? = some b ∧ kss'[i]? = some ks ∧ Stands env walk autofix hook r b ks
  | [], bs, kss, done, v, hd, hs => ⟨kss, done, hd, fun i => (hs i).1⟩
  | i :: sched, bs, kss, done, v, hd, hs => by
    simp only [runPool]
    cases hb : bs[i]? with
    | none => exact runs_as_pool autofix hook runs w hh hwalk sched bs kss done v hd hs
    | some b =>
      simp only
      cases hr : runs[i]? with
      | none => have := (hs i).2 hr; rw [hb] at this; cases this
      | some r =>
        obtain ⟨b', ks, hb', hks, hst⟩ := (hs i).1 r hr
        rw [hb] at hb'
        cases hb'
        have hil : i < bs.length := (List.getElem?_eq_some_iff.mp hb).1
        have hikl : i < kss.length := (List.getElem?_eq_some_iff.mp hks).1
        -- it is enough to give the workers after the step
        have enough : ∀ (ks' : List Worker) (done' : List Nat), runPool done' (startWorkers env autofix hook (runs.flatMap (·.2))) w = ((kss.set i ks').flatten, (b.step v).2) →
            Stands env walk autofix hook r (b.step v).1 ks' → ∃ (kss' : List (List Worker)) (done' : List Nat),
              runPool done' (startWorkers env autofix hook (runs.flatMap (·.2))) w = (kss'.flatten, (runPool sched (bs.set i (b.step v).1) (b.step v).2).2) ∧
              ∀ i' : Nat, ∀ r, runs[i']? = some r → ∃ b₁ ks, (runPool sched (bs.set i (b.step v).1) (b.step v).2).1[i']? = some b₁ ∧ kss'[i']? = some ks ∧ Stands env walk autofix hook r b₁ ks := by
          intro ks' done' h1 h2
          refine runs_as_pool autofix hook runs w hh hwalk sched _ (kss.set i ks') done' _ h1 ?_
          intro j
          constructor
          · intro r' hr'
            by_cases hij : i = j
            · subst hij
              rw [hr] at hr'
              cases hr'
              exact ⟨_, ks', by rw [List.getElem?_set_self hil], by rw [List.getElem?_set_self hikl], h2⟩
            · obtain ⟨b₁, ks₁, e1, e2, e3⟩ := (hs j).1 r' hr'
              exact ⟨b₁, ks₁, by rw [List.getElem?_set_ne hij]; exact e1, by rw [List.getElem?_set_ne hij]; exact e2, e3⟩
          · intro hn
            by_cases hij : i = j
            · subst hij; rw [hr] at hn; cases hn
            · rw [List.getElem?_set_ne hij]; exact (hs j).2 hn
        have same : kss.set i ks = kss := by
          apply List.ext_getElem?
          intro j
          by_cases hij : i = j
          · subst hij; rw [List.getElem?_set_self hikl, hks]
          · rw [List.getElem?_set_ne hij]
        rcases hst with ⟨rfl, rfl⟩ | ⟨rfl, ho, hlen⟩
        · have hwk := hwalk r (List.mem_of_getElem? hr) done
          rw [hd] at hwk
          rw [starts env walk autofix hook r.1 r.2 v (hh r (List.mem_of_getElem? hr)) hwk] at enough ⊢
          refine enough _ done (by rw [same]; exact hd) (Or.inr ⟨rfl, InOrder.of_empty ?_, by simp [startWorkers]⟩)
          intro k hk
          unfold startWorkers at hk
          obtain ⟨p, -, rfl⟩ := List.mem_map.mp hk
          rfl
        · rcases joined_step v ks ho with ⟨j, k, h1, h2, h3⟩ | h3
          · obtain ⟨n, h4, h5⟩ := flatten_set kss i j ks k (k.step v).1 hks h1
            rw [h3] at enough ⊢
            refine enough (ks.set j (k.step v).1) (done ++ [n]) ?_ (Or.inr ⟨rfl, h2, by rw [List.length_set]; exact hlen⟩)
            rw [runPool_append, hd]
            simp only [runPool, h4, h5]
          · rw [h3] at enough ⊢
            exact enough ks done (by rw [same]; exact hd) (Or.inr ⟨rfl, ho, hlen⟩)

theorem flat_index {A B : Type} : ∀ (rss : List (List A)) (kss : List (List B)), (∀ (i : Nat) r, rss[i]? = some r → ∃ ks, kss[i]? = some ks ∧ ks.length = r.length) →
    ∀ (i : Nat) r (j : Nat) p, rss[i]? = some r → r[j]? = some p → ∃ (n : Nat) (ks : List B) (k : B), rss.flatten[n]? = some p ∧ kss[i]? = some ks ∧ ks[j]? = some k ∧ kss.flatten[n]? = some k
  | [], _, _, i, r, j, p, hi, _ => by simp at hi
  | r0 :: rss, [], h, _, _, _, _, _, _ => by have := h 0 r0 rfl; simp at this
  | r0 :: rss, ks0 :: kss, h, 0, r, j, p, hi, hj => by
    simp only [List.getElem?_cons_zero, Option.some.injEq] at hi
    subst hi
    obtain ⟨ks, h1, h2⟩ := h 0 r0 rfl
    simp only [List.getElem?_cons_zero, Option.some.injEq] at h1
    subst h1
    have hl : j < r0.length := (List.getElem?_eq_some_iff.mp hj).1
    refine ⟨j, ks0, ks0[j]'(by omega), ?_, rfl, List.getElem?_eq_getElem _, ?_⟩
    · rw [List.flatten_cons, List.getElem?_append_left hl]; exact hj
    · rw [List.flatten_cons, List.getElem?_append_left (by omega)]; exact List.getElem?_eq_getElem _
  | r0 :: rss, ks0 :: kss, h, i + 1, r, j, p, hi, hj => by
    obtain ⟨ks, h1, h2⟩ := h 0 r0 rfl
    simp only [List.getElem?_cons_zero, Option.some.injEq] at h1
    subst h1
    obtain ⟨n, ks, k, e1, e2, e3, e4⟩ := flat_index rss kss (fun i r hr => h (i + 1) r hr) i r j p (by simpa using hi) hj
    refine ⟨r0.length + n, ks, k, ?_, by simpa using e2, e3, ?_⟩
    · rw [List.flatten_cons, List.getElem?_append_right (by omega), Nat.add_sub_cancel_left]; exact e1
    · rw [List.flatten_cons, ← h2, List.getElem?_append_right (by omega), Nat.add_sub_cancel_left]; exact e4

/-- **C147** Several runs at the same time, over parts of the files (what pre-commit does): `runs` are their arguments, with the files found under them. The files are distinct, none takes part in the
configuration or in rules, and what is found under the arguments does not depend on what the files contain. Then at every moment, whatever the processes have done so far in whatever order: a process that
has finished has yielded, file by file, what each of its files gives alone, and each of its files is as fixing it alone leaves it; every file being worked on is in a state that fixing it alone goes
through; and all other files are as before. -/
theorem C147_at_the_same_time (autofix hook : Bool) (runs : List (List Path × List Path)) (w : World) (hh : ∀ r ∈ runs, r.1.head? ≠ some [py "-"])
    (hwalk : ∀ r ∈ runs, ∀ u : World, (∀ q, (∀ r ∈ runs, ∀ p ∈ r.2, env.resolve p ≠ q) → u.files q = w.files q) → filesUnder (walk u.files) (r.1.filter (· ≠ [py "-"])) = .ok r.2)
    (hS : Stable env (fun q => q ∈ (runs.flatMap (·.2)).map env.resolve)) (hd : ((runs.flatMap (·.2)).map env.resolve).Nodup) (sched : List Nat) :
    let now := runPool sched (startRuns env walk autofix hook (runs.map (·.1))) w
    (∀ (i : Nat) r, runs[i]? = some r → ∃ k, now.1[i]? = some k ∧ (k.done = true →
      k.out = r.2.flatMap (fun p => (alone env autofix hook w p).1) ∧ ∀ p ∈ r.2, now.2.files (env.resolve p) = (alone env autofix hook w p).2.2.files (env.resolve p))) ∧
    (∀ r ∈ runs, ∀ p ∈ r.2, ∃ m, ∃ w' ∈ (fixitFile env p autofix hook).worlds (List.replicate m none) w, now.2.files (env.resolve p) = w'.files (env.resolve p)) ∧
    (∀ q, (∀ r ∈ runs, ∀ p ∈ r.2, env.resolve p ≠ q) → now.2.files q = w.files q) := by
  intro now
  have hst := fun sched => pool_state env hS autofix hook (runs.flatMap (·.2)) w (fun p hp => Or.inl (List.mem_map_of_mem hp)) (hd.imp (fun h e => absurd e h)) sched
  have hout : ∀ q, (∀ r ∈ runs, ∀ p ∈ r.2, env.resolve p ≠ q) → ∀ p ∈ runs.flatMap (·.2), env.resolve p ≠ q := by
    intro q hq p hp
    obtain ⟨r, hr, hp⟩ := List.mem_flatMap.mp hp
    exact hq r hr p hp
  obtain ⟨kss, done, h1, h2⟩ := runs_as_pool env walk autofix hook runs w hh
    (fun r hr sched => hwalk r hr _ (fun q hq => (hst sched).2.2.1 q (Or.inl (hout q hq)))) sched
    (startRuns env walk autofix hook (runs.map (·.1))) (runs.map (fun r => startWorkers env autofix hook r.2)) [] w
    (by
      simp only [runPool]
      congr 1
      unfold startWorkers
      rw [List.flatMap_def, List.map_flatten, List.map_map]
      rfl)
    (by
      intro i
      unfold startRuns
      constructor
      · intro r hr
        exact ⟨_, _, by rw [List.getElem?_map, List.getElem?_map, hr]; rfl, by rw [List.getElem?_map, hr]; rfl, Or.inl ⟨rfl, rfl⟩⟩
      · intro hr
        rw [List.getElem?_map, List.getElem?_map, hr]; rfl)
  have hlens : ∀ (i : Nat) r, (runs.map (·.2))[i]? = some r → ∃ ks, kss[i]? = some ks ∧ ks.length = r.length := by
    intro i fs hi
    rw [List.getElem?_map] at hi
    cases hr : runs[i]? with
    | none => rw [hr] at hi; cases hi
    | some r =>
      rw [hr] at hi
      cases hi
      obtain ⟨b, ks, -, e2, e3⟩ := h2 i r hr
      refine ⟨ks, e2, ?_⟩
      rcases e3 with ⟨-, rfl⟩ | ⟨-, -, h⟩
      · simp [startWorkers]
      · exact h
  have hnow : now.2 = (runPool done (startWorkers env autofix hook (runs.flatMap (·.2))) w).2 := by rw [h1]
  refine ⟨?_, ?_, ?_⟩
  · intro i r hr
    obtain ⟨b, ks, e1, e2, e3⟩ := h2 i r hr
    refine ⟨b, e1, fun hdone => ?_⟩
    have hall : ∀ k ∈ ks, k.done = true := by
      rcases e3 with ⟨rfl, rfl⟩ | ⟨rfl, -, -⟩
      · cases ha : r.1 with
        | nil =>
          have := hwalk r (List.mem_of_getElem? hr) w (fun _ _ => rfl)
          rw [ha] at this
          simp only [List.filter_nil, filesUnder, Except.ok.injEq] at this
          rw [← this]
          simp [startWorkers]
        | cons p ps => rw [ha] at hdone; simp [fixitPaths, look, Worker.done] at hdone
      · unfold Worker.done joined at hdone
        simp only at hdone
        cases hj : joinRest ks with
        | ret u => exact joinRest_ret ks u hj
        | raise e => rw [hj] at hdone; cases hdone
        | yield y c => rw [hj] at hdone; cases hdone
        | act a c => rw [hj] at hdone; cases hdone
    have hbout : b.out = (ks.map Worker.out).flatten := by
      rcases e3 with ⟨rfl, rfl⟩ | ⟨rfl, -, -⟩
      · rw [flatten_empty]
        intro k hk
        unfold startWorkers at hk
        obtain ⟨p, -, rfl⟩ := List.mem_map.mp hk
        rfl
      · rfl
    obtain ⟨ks', e4, e5⟩ := hlens i r.2 (by rw [List.getElem?_map, hr]; rfl)
    rw [e2] at e4
    cases e4
    have each : ∀ (j : Nat) p, r.2[j]? = some p → ∃ k, ks[j]? = some k ∧ k.out = (alone env autofix hook w p).1 ∧
        now.2.files (env.resolve p) = (alone env autofix hook w p).2.2.files (env.resolve p) := by
      intro j p hj
      obtain ⟨n, ks', k, f1, f2, f3, f4⟩ := flat_index (runs.map (·.2)) kss hlens i r.2 j p (by rw [List.getElem?_map, hr]; rfl) hj
      rw [e2] at f2
      cases f2
      rw [← List.flatMap_def] at f1
      obtain ⟨g1, g2⟩ := (hst done).2.1 n p f1
      rw [h1] at g1 g2
      simp only at g1 g2
      rw [f4] at g1
      simp only [Option.some.injEq] at g1
      have hkd : k.done = true := hall k (List.mem_of_getElem? f3)
      rw [g1] at hkd
      obtain ⟨d1, d2⟩ := stepsOf_drain _ _ _ _ hkd
      refine ⟨k, f3, by rw [g1, d1]; rfl, ?_⟩
      rw [hnow, h1]
      simp only
      rw [g2, d2]
      rfl
    constructor
    · rw [hbout, List.flatMap_def]
      congr 1
      apply List.ext_getElem?
      intro j
      rw [List.getElem?_map, List.getElem?_map]
      cases hj : r.2[j]? with
      | none =>
        have : ks[j]? = none := by rw [List.getElem?_eq_none_iff] at hj ⊢; omega
        rw [this]; rfl
      | some p =>
        obtain ⟨k, h1, h2, -⟩ := each j p hj
        rw [h1]
        simp [h2]
    · intro p hp
      obtain ⟨j, hj⟩ := List.getElem?_of_mem hp
      obtain ⟨k, -, -, h⟩ := each j p hj
      exact h
  · intro r hr p hp
    rw [hnow]
    exact C77_crash_states_parallel env autofix hook _ w hS hd done p (List.mem_flatMap.mpr ⟨r, hr, hp⟩)
  · intro q hq
    rw [hnow]
    exact (hst done).2.2.1 q (Or.inl (hout q hq))

end
end Fixit
