import Verif.Spec.Crash
import Verif.Props.Paths

/-!
# C145: a run over several files that is interrupted, and repeated
-/

namespace Fixit
open Py Spec Gen

/-- The steps of a run of two generators in sequence. -/
theorem steps_bind {W Y S R Q : Type} (k : R → Gen W Y S Q) : ∀ (g : Gen W Y S R) (ss : List S) (w : W) (x : W × W), x ∈ (g.bind k).steps ss w →
    x ∈ g.steps ss w ∨ ∃ ys r w1, g.run ss w = (ys, .returned r, w1) ∧ x ∈ (k r).steps (ss.drop ys.length) w1
  | .ret r, ss, w, x, h => Or.inr ⟨[], r, w, rfl, h⟩
  | .raise e, ss, w, x, h => Or.inl h
  | .yield y j, [], w, x, h => Or.inl h
  | .yield y j, s :: ss, w, x, h => by
    simp only [Gen.bind, steps] at h ⊢
    rcases steps_bind k (j s) ss w x h with h | ⟨ys, r, w1, h1, h2⟩
    · exact Or.inl h
    · exact Or.inr ⟨y :: ys, r, w1, by simp only [run, h1], by simpa using h2⟩
  | .act a j, ss, w, x, h => by
    simp only [Gen.bind, steps, List.mem_cons] at h ⊢
    rcases h with h | h
    · exact Or.inl (Or.inl h)
    · rcases steps_bind k (j w) ss (a w) x h with h | ⟨ys, r, w1, h1, h2⟩
      · exact Or.inl (Or.inr h)
      · exact Or.inr ⟨ys, r, w1, by simpa only [run] using h1, h2⟩

/-- A point of a run of two generators in sequence lies in the first or, when that returned, in the second. -/
theorem worlds_bind {W Y S R Q : Type} (k : R → Gen W Y S Q) : ∀ (g : Gen W Y S R) (ss : List S) (w x : W), x ∈ (g.bind k).worlds ss w →
    x ∈ g.worlds ss w ∨ ∃ ys r w1, g.run ss w = (ys, .returned r, w1) ∧ x ∈ (k r).worlds (ss.drop ys.length) w1
  | .ret r, ss, w, x, h => Or.inr ⟨[], r, w, rfl, h⟩
  | .raise e, ss, w, x, h => Or.inl h
  | .yield y j, [], w, x, h => Or.inl h
  | .yield y j, s :: ss, w, x, h => by
    simp only [Gen.bind, worlds, List.mem_cons] at h ⊢
    rcases h with h | h
    · exact Or.inl (Or.inl h)
    · rcases worlds_bind k (j s) ss w x h with h | ⟨ys, r, w1, h1, h2⟩
      · exact Or.inl (Or.inr h)
      · exact Or.inr ⟨y :: ys, r, w1, by simp only [run, h1], by simpa using h2⟩
  | .act a j, ss, w, x, h => by
    simp only [Gen.bind, worlds, List.mem_cons] at h ⊢
    rcases h with h | h
    · exact Or.inl (Or.inl h)
    · rcases worlds_bind k (j w) ss (a w) x h with h | ⟨ys, r, w1, h1, h2⟩
      · exact Or.inl (Or.inr h)
      · exact Or.inr ⟨ys, r, w1, by simpa only [run] using h1, h2⟩

/-- A crash of a run of two generators in sequence. -/
theorem crash_bind {Y S R Q : Type} (k : R → Gen World Y S Q) (g : Gen World Y S R) (ss : List S) (w u : World) (h : CrashPoint (g.bind k) ss w u) :
    CrashPoint g ss w u ∨ ∃ ys r w1, g.run ss w = (ys, .returned r, w1) ∧ CrashPoint (k r) (ss.drop ys.length) w1 u := by
  rcases h with ⟨x, hx, hu⟩ | ⟨xy, hx, hu⟩
  · rcases worlds_bind k g ss w x hx with h | ⟨ys, r, w1, h1, h2⟩
    · exact Or.inl (Or.inl ⟨x, h, hu⟩)
    · exact Or.inr ⟨ys, r, w1, h1, Or.inl ⟨x, h2, hu⟩⟩
  · rcases steps_bind k g ss w xy hx with h | ⟨ys, r, w1, h1, h2⟩
    · exact Or.inl (Or.inr ⟨xy, h, hu⟩)
    · exact Or.inr ⟨ys, r, w1, h1, Or.inr ⟨xy, h2, hu⟩⟩

/-- A consumer that goes on longer sees all that one who stops earlier sees. -/
theorem worlds_longer {W Y S R : Type} (s : S) : ∀ (g : Gen W Y S R) (m k : Nat) (w x : W), m ≤ k → x ∈ g.worlds (List.replicate m s) w →
    x ∈ g.worlds (List.replicate k s) w
  | .ret r, m, k, w, x, _, h => h
  | .raise e, m, k, w, x, _, h => h
  | .yield y j, 0, k, w, x, _, h => by
    simp only [List.replicate_zero, worlds, List.mem_singleton] at h
    subst h
    cases k <;> simp [List.replicate_succ, worlds]
  | .yield y j, m + 1, k, w, x, hk, h => by
    obtain ⟨k, rfl⟩ : ∃ k', k = k' + 1 := ⟨k - 1, by omega⟩
    simp only [List.replicate_succ, worlds, List.mem_cons] at h ⊢
    exact h.imp id (worlds_longer s (j s) m k w x (by omega))
  | .act a j, m, k, w, x, hk, h => by
    simp only [worlds, List.mem_cons] at h ⊢
    exact h.imp id (worlds_longer s (j w) m k (a w) x hk)

/-- Its steps too. -/
theorem steps_longer {W Y S R : Type} (s : S) : ∀ (g : Gen W Y S R) (m k : Nat) (w : W) (x : W × W), m ≤ k → x ∈ g.steps (List.replicate m s) w →
    x ∈ g.steps (List.replicate k s) w
  | .ret r, m, k, w, x, _, h => h
  | .raise e, m, k, w, x, _, h => h
  | .yield y j, 0, k, w, x, _, h => by simp [steps] at h
  | .yield y j, m + 1, k, w, x, hk, h => by
    obtain ⟨k, rfl⟩ : ∃ k', k = k' + 1 := ⟨k - 1, by omega⟩
    simp only [List.replicate_succ, steps] at h ⊢
    exact steps_longer s (j s) m k w x (by omega) h
  | .act a j, m, k, w, x, hk, h => by
    simp only [steps, List.mem_cons] at h ⊢
    exact h.imp id (steps_longer s (j w) m k (a w) x hk)

/-- Each step is recorded by some of the events of the run. -/
theorem honest_steps {Y S R : Type} {g : Gen World Y S R} (h : Honest g) : ∀ (ss : List S) (w : World) (xy : World × World), xy ∈ g.steps ss w →
    ∃ evs ev evs', xy.1.files = replay w.files evs ∧ xy.2.files = replay w.files (evs ++ ev) ∧ (g.run ss w).2.2.log = w.log ++ (evs ++ ev ++ evs') := by
  induction h with
  | ret r => intro ss w xy h; simp [Gen.steps] at h
  | raise e => intro ss w xy h; simp [Gen.steps] at h
  | yield y k hk ih =>
    intro ss w xy h
    cases ss with
    | nil => simp [Gen.steps] at h
    | cons s ss => exact ih s ss w xy h
  | act a k ha hk ih =>
    intro ss w xy h
    obtain ⟨evs0, e1, e2⟩ := ha w
    simp only [Gen.steps, List.mem_cons] at h
    rcases h with rfl | h
    · obtain ⟨evs, evs', h1, -, -⟩ := honest_worlds (hk w) ss (a w) _ (run_world_mem (k w) ss (a w))
      exact ⟨[], evs0, evs, rfl, e2, by simp only [run]; rw [h1, e1]; simp⟩
    · obtain ⟨evs, ev, evs', h1, h2, h3⟩ := ih w ss (a w) xy h
      refine ⟨evs0 ++ evs, ev, evs', ?_, ?_, ?_⟩
      · rw [h1, e2, replay_append]
      · rw [h2, e2, ← replay_append, List.append_assoc]
      · simp only [run]
        rw [h3, e1]
        simp [List.append_assoc]

variable {C : Type} (env : Env C)

/-- Where a file can be when a run on it dies: its content, or a beginning of what was to be written in the end. -/
theorem crash_content (p : Path) (autofix hook : Bool) (ss : List Answer) (w u : World) (hu : CrashPoint (fixitFile env p autofix hook) ss w u) :
    (∀ q, q ≠ env.resolve p → u.files q = w.files q) ∧
    (u.files (env.resolve p) = w.files (env.resolve p) ∨
     ∃ content cfg b c n, loaded env w.files (env.resolve p) = .ok (content, cfg) ∧
      fixedContent env (env.resolve p) content cfg (accepted autofix (found env w.files (env.resolve p) content cfg) ss) = .ok b ∧ b ≠ content ∧
      ((fixitFile env p autofix hook).run ss w).2.2.files (env.resolve p) = some c ∧ (c = b ∨ ∃ m, c = b.take m) ∧ u.files (env.resolve p) = some (c.take n)) := by
  have hrun := lintFile_world env (env.resolve p) autofix hook ss w
  obtain ⟨evs0, hupd, hcase⟩ := fileFinish_upd env w.files (env.resolve p) autofix hook ss
  obtain ⟨all, more, g1, g2, g3⟩ := honest_worlds (honest_lintFile env (env.resolve p) autofix hook) ss w _ (run_world_mem _ ss w)
  have hfinal : ((fixitFile env p autofix hook).run ss w).2.2.files = replay w.files (fileEvents all) := by rw [replay_fileEvents]; exact g2
  have hevents : fileEvents all = [] ∨ ∃ content cfg b c, loaded env w.files (env.resolve p) = .ok (content, cfg) ∧
      fixedContent env (env.resolve p) content cfg (accepted autofix (found env w.files (env.resolve p) content cfg) ss) = .ok b ∧ b ≠ content ∧
      (c = b ∨ ∃ m, c = b.take m) ∧ fileEvents all = [.opened (env.resolve p), .wrote (env.resolve p) c] := by
    have hn : newEvents w ((fixitFile env p autofix hook).run ss w).2.2 = all := newEvents_append w _ _ g1
    split at hrun
    · left
      have : all = [] := by
        rw [← hn]
        show newEvents w ((lintFile env (env.resolve p) autofix hook).run ss w).2.2 = []
        rw [hrun]; simp [newEvents]
      rw [this]; rfl
    · have hall : all = evs0 := by
        rw [← hn]
        refine newEvents_append w _ _ ?_
        show ((lintFile env (env.resolve p) autofix hook).run ss w).2.2.log = _
        rw [hrun, hupd]
      rw [hall]
      rcases hcase with hc | ⟨content, cfg, b, c, hl, ha, hb, hb1, hb2, hc, hc2⟩
      · exact Or.inl hc
      · right
        have hfi : foundIn env w.files (env.resolve p) = found env w.files (env.resolve p) content cfg := by simp [foundIn, hl]
        rw [hfi] at hb
        refine ⟨content, cfg, b, c, hl, hb, hb2, ?_, hc⟩
        rcases hc2 with ⟨h, -⟩ | ⟨n, e, -, h, -⟩
        · exact Or.inl h
        · exact Or.inr ⟨n, h⟩
  -- what each beginning of the events leaves
  have hpre : ∀ (pre post : List Event), fileEvents all = fileEvents pre ++ post →
      (fileEvents pre = [] ∧ replay w.files pre = w.files) ∨
      ∃ content cfg b c, loaded env w.files (env.resolve p) = .ok (content, cfg) ∧
        fixedContent env (env.resolve p) content cfg (accepted autofix (found env w.files (env.resolve p) content cfg) ss) = .ok b ∧ b ≠ content ∧
        (c = b ∨ ∃ m, c = b.take m) ∧ ((fixitFile env p autofix hook).run ss w).2.2.files (env.resolve p) = some c ∧
        (∀ q, q ≠ env.resolve p → replay w.files pre q = w.files q) ∧
        (replay w.files pre (env.resolve p) = some [] ∨ replay w.files pre (env.resolve p) = some c) := by
    intro pre post hpp
    rcases hevents with he | ⟨content, cfg, b, c, k1, k2, k3, k4, he⟩
    · rw [he] at hpp
      have := (List.append_eq_nil_iff.mp hpp.symm).1
      exact Or.inl ⟨this, by rw [← replay_fileEvents, this]; rfl⟩
    · have hfc : ((fixitFile env p autofix hook).run ss w).2.2.files (env.resolve p) = some c := by
        rw [hfinal, he]; simp [replay, Spec.Event.apply]
      rw [he] at hpp
      rw [← replay_fileEvents]
      match hfe : fileEvents pre, hpp with
      | [], _ => exact Or.inl ⟨rfl, rfl⟩
      | [e1], hc =>
        simp only [List.singleton_append, List.cons.injEq] at hc
        refine Or.inr ⟨content, cfg, b, c, k1, k2, k3, k4, hfc, fun q hq => ?_, Or.inl ?_⟩
        · rw [← hc.1]; simp [replay, Spec.Event.apply, hq]
        · rw [← hc.1]; simp [replay, Spec.Event.apply]
      | [e1, e2], hc =>
        simp only [List.cons_append, List.nil_append, List.cons.injEq] at hc
        refine Or.inr ⟨content, cfg, b, c, k1, k2, k3, k4, hfc, fun q hq => ?_, Or.inr ?_⟩
        · rw [← hc.1, ← hc.2.1]; simp [replay, Spec.Event.apply, hq]
        · rw [← hc.1, ← hc.2.1]; simp [replay, Spec.Event.apply]
      | e1 :: e2 :: e3 :: l, hc => simp at hc
  rcases hu with ⟨x, hx, hux⟩ | ⟨⟨x, y⟩, hx, n, hux⟩
  · obtain ⟨evs, evs', h1, h2, h3⟩ := honest_worlds (honest_lintFile env (env.resolve p) autofix hook) ss w x hx
    have hall : all = evs ++ evs' := by
      have : w.log ++ all = w.log ++ (evs ++ evs') := by rw [← g1, ← List.append_assoc, ← h3]
      exact List.append_cancel_left this
    rw [hux, h2]
    rcases hpre evs (fileEvents evs') (by rw [hall, fileEvents_append]) with ⟨-, h⟩ | ⟨content, cfg, b, c, k1, k2, k3, k4, k5, k6, k7⟩
    · rw [h]; exact ⟨fun _ _ => rfl, Or.inl rfl⟩
    · refine ⟨k6, Or.inr ?_⟩
      rcases k7 with k7 | k7
      · exact ⟨content, cfg, b, c, 0, k1, k2, k3, k5, k4, by rw [k7]; rfl⟩
      · exact ⟨content, cfg, b, c, c.length, k1, k2, k3, k5, k4, by rw [k7, List.take_length]⟩
  · obtain ⟨evs, ev, evs', h1, h2, h3⟩ := honest_steps (honest_lintFile env (env.resolve p) autofix hook) ss w (x, y) hx
    have hall : all = evs ++ ev ++ evs' := by
      have : w.log ++ all = w.log ++ (evs ++ ev ++ evs') := by rw [← g1]; exact h3
      exact List.append_cancel_left this
    simp only at h1 h2
    have hx' := hpre evs (fileEvents (ev ++ evs')) (by rw [hall, List.append_assoc, fileEvents_append])
    have hy' := hpre (evs ++ ev) (fileEvents evs') (by rw [hall, fileEvents_append])
    rw [← h1] at hx'
    rw [← h2] at hy'
    rcases hy' with ⟨hye, hy'⟩ | ⟨content, cfg, b, c, k1, k2, k3, k4, k5, k6, k7⟩
    · rw [fileEvents_append, List.append_eq_nil_iff] at hye
      have hxw : x.files = w.files := by rw [h1, ← replay_fileEvents, hye.1]; rfl
      have : ∀ q, u.files q = w.files q := fun q => by rw [(hux q).1 (by simp only [hy', hxw]), hxw]
      exact ⟨fun q _ => this q, Or.inl (this _)⟩
    · have hxo : ∀ q, q ≠ env.resolve p → x.files q = w.files q := by
        intro q hq
        rcases hx' with ⟨-, hx'⟩ | ⟨_, _, _, _, -, -, -, -, -, k6', -⟩
        · rw [hx']
        · exact k6' q hq
      refine ⟨fun q hq => ?_, ?_⟩
      · rw [(hux q).1 (by simp only; rw [k6 q hq, hxo q hq]), hxo q hq]
      · by_cases hsame : y.files (env.resolve p) = x.files (env.resolve p)
        · have hu' := (hux (env.resolve p)).1 hsame
          simp only at hu'
          rw [← hsame] at hu'
          rw [hu']
          right
          rcases k7 with k7 | k7
          · exact ⟨content, cfg, b, c, 0, k1, k2, k3, k5, k4, by rw [k7]; rfl⟩
          · exact ⟨content, cfg, b, c, c.length, k1, k2, k3, k5, k4, by rw [k7, List.take_length]⟩
        · have hu' := (hux (env.resolve p)).2 hsame
          simp only at hu'
          rw [hu']
          right
          rcases k7 with k7 | k7
          · exact ⟨content, cfg, b, c, 0, k1, k2, k3, k5, k4, by rw [k7]; simp⟩
          · exact ⟨content, cfg, b, c, n, k1, k2, k3, k5, k4, by rw [k7]; rfl⟩

/-- **C77** Whenever the process dies during a run, also in the middle of the write, the linted file holds its original content or a beginning of the new content, which is that
of the accepted fixes; no other file has changed. -/
theorem C77_crash_midway (p : Path) (autofix hook : Bool) (ss : List Answer) (w u : World) (hu : CrashPoint (fixitFile env p autofix hook) ss w u) :
    (u.files (env.resolve p) = w.files (env.resolve p) ∨
     ∃ content cfg b n, loaded env w.files (env.resolve p) = .ok (content, cfg) ∧
      fixedContent env (env.resolve p) content cfg (accepted autofix (found env w.files (env.resolve p) content cfg) ss) = .ok b ∧ b ≠ content ∧
      u.files (env.resolve p) = some (b.take n)) ∧
    ∀ q, q ≠ env.resolve p → u.files q = w.files q := by
  obtain ⟨h1, h2⟩ := crash_content env p autofix hook ss w u hu
  refine ⟨h2.imp id ?_, h1⟩
  rintro ⟨content, cfg, b, c, n, k1, k2, k3, -, k4, k5⟩
  rcases k4 with rfl | ⟨m, rfl⟩
  · exact ⟨content, cfg, c, n, k1, k2, k3, k5⟩
  · exact ⟨content, cfg, b, min n m, k1, k2, k3, by rw [k5, List.take_take]⟩

/-- For a consumer that answers nothing, and against the file fixed to the end. -/
theorem crash_alone (p : Path) (autofix hook : Bool) (m : Nat) (w u : World) (hu : CrashPoint (fixitFile env p autofix hook) (List.replicate m none) w u) :
    u.files (env.resolve p) = w.files (env.resolve p) ∨ ∃ b n, finalContent env autofix hook w p = some b ∧ u.files (env.resolve p) = some (b.take n) := by
  have hu' : CrashPoint (fixitFile env p autofix hook) (List.replicate (max m ((fixitFile env p autofix hook).drain none w).1.length) none) w u := by
    rcases hu with ⟨x, hx, h⟩ | ⟨x, hx, h⟩
    · exact Or.inl ⟨x, worlds_longer none _ m _ w x (Nat.le_max_left _ _) hx, h⟩
    · exact Or.inr ⟨x, steps_longer none _ m _ w x (Nat.le_max_left _ _) hx, h⟩
  have h := (crash_content env p autofix hook _ w u hu').2
  rw [run_replicate none _ w _ (Nat.le_max_right _ _)] at h
  rcases h with h | ⟨_, _, _, c, n, -, -, -, h1, -, h2⟩
  · exact Or.inl h
  · exact Or.inr ⟨c, n, h1, h2⟩

/-- The content that fixing gives depends on the file itself and the files that are not linted. -/
theorem finalContent_congr (autofix hook : Bool) (p : Path) (S : Path → Prop) (hS : Stable env S) (hp : S (env.resolve p)) (w w' : World)
    (h : ∀ q, q = env.resolve p ∨ ¬ S q → w.files q = w'.files q) : finalContent env autofix hook w p = finalContent env autofix hook w' p := by
  have := (C52_contents_of_others_irrelevant env autofix hook p S hS hp
    (List.replicate (max ((fixitFile env p autofix hook).drain none w).1.length ((fixitFile env p autofix hook).drain none w').1.length) none) w w' h).2
  rw [run_replicate none _ w _ (Nat.le_max_left _ _), run_replicate none _ w' _ (Nat.le_max_right _ _)] at this
  exact this

/-- A run over several files dies after its end, or in the run of one of the files, all those before it being done. -/
theorem crash_eachFile (autofix hook : Bool) : ∀ (fs : List Path) (ss : List Answer) (w u : World), CrashPoint (eachFile env autofix hook fs) ss w u →
    (∃ ys w1, (eachFile env autofix hook fs).run ss w = (ys, .returned (), w1) ∧ u.files = w1.files) ∨
    ∃ before cur rest ys w1, fs = before ++ cur :: rest ∧ (eachFile env autofix hook before).run ss w = (ys, .returned (), w1) ∧
      CrashPoint (fixitFile env cur autofix hook) (ss.drop ys.length) w1 u
  | [], ss, w, u, h => by
    rcases h with ⟨x, hx, h⟩ | ⟨x, hx, h⟩
    · simp only [eachFile, worlds, List.mem_singleton] at hx
      subst hx
      exact Or.inl ⟨[], x, rfl, h⟩
    · simp [eachFile, steps] at hx
  | p :: fs, ss, w, u, h => by
    simp only [eachFile] at h
    rcases crash_bind _ _ _ _ _ h with h | ⟨ys, r, w1, h1, h2⟩
    · exact Or.inr ⟨[], p, fs, [], w, rfl, rfl, h⟩
    · rcases crash_eachFile autofix hook fs _ _ _ h2 with ⟨zs, w2, h3, h4⟩ | ⟨before, cur, rest, zs, w2, h3, h4, h5⟩
      · left
        refine ⟨ys ++ zs, w2, ?_, h4⟩
        simp only [eachFile]
        rw [run_bind_returned h1, h3]
      · right
        refine ⟨p :: before, cur, rest, ys ++ zs, w2, by rw [h3]; rfl, ?_, ?_⟩
        · simp only [eachFile]
          rw [run_bind_returned h1, h4]
        · rw [List.length_append, ← List.drop_drop]
          exact h5

/-- A run over several files changes no other file. -/
theorem eachFile_others (autofix hook : Bool) : ∀ (fs : List Path) (ss : List Answer) (w w1 : World) (ys : List Result),
    (eachFile env autofix hook fs).run ss w = (ys, .returned (), w1) → ∀ q, q ∉ fs.map env.resolve → w1.files q = w.files q := by
  intro fs
  induction fs with
  | nil =>
    intro ss w w1 ys h q _
    simp only [eachFile, run, Prod.mk.injEq] at h
    rw [h.2.2]
  | cons p ps ih =>
    intro ss w w1 ys h q hq
    simp only [List.map_cons, List.mem_cons, not_or] at hq
    simp only [eachFile] at h
    have hm := run_world_mem (fixitFile env p autofix hook) ss w
    cases hr : (fixitFile env p autofix hook).run ss w with
    | mk a b =>
      obtain ⟨st, v⟩ := b
      rw [hr] at hm
      have hv := C43_other_files_untouched env p autofix hook ss w v q hq.1 hm
      cases st with
      | returned r =>
        rw [run_bind_returned hr] at h
        simp only [Prod.mk.injEq] at h
        rw [← hv]
        exact ih (ss.drop a.length) v w1 _ (by rw [← h.2]) q hq.2
      | raised e => rw [run_bind_raised hr] at h; simp at h
      | suspended => rw [run_bind_suspended hr] at h; simp at h

/-- **C145** Wherever a run over several distinct files is interrupted, whatever was answered: the files before some file are as when the run had been over these
only, that file holds its content or a beginning of its new content, and no other file has changed. -/
theorem C145_interrupted_any_answers (autofix hook : Bool) (fs : List Path) (ss : List Answer) (w u : World) (hd : (fs.map env.resolve).Nodup)
    (hu : CrashPoint (eachFile env autofix hook fs) ss w u) :
    (∃ ys w1, (eachFile env autofix hook fs).run ss w = (ys, .returned (), w1) ∧ u.files = w1.files) ∨
    ∃ before cur rest ys w1, fs = before ++ cur :: rest ∧ (eachFile env autofix hook before).run ss w = (ys, .returned (), w1) ∧
      (∀ q, q ≠ env.resolve cur → u.files q = w1.files q) ∧
      (u.files (env.resolve cur) = w.files (env.resolve cur) ∨ ∃ b n, u.files (env.resolve cur) = some (b.take n) ∧
        ∃ content cfg, loaded env w1.files (env.resolve cur) = .ok (content, cfg) ∧ fixedContent env (env.resolve cur) content cfg
          (accepted autofix (found env w1.files (env.resolve cur) content cfg) (ss.drop ys.length)) = .ok b) ∧
      ∀ q, q ∉ (before ++ [cur]).map env.resolve → u.files q = w.files q := by
  rcases crash_eachFile env autofix hook fs ss w u hu with h | ⟨before, cur, rest, ys, w1, h1, h2, h3⟩
  · exact Or.inl h
  · obtain ⟨hc, ho⟩ := C77_crash_midway env cur autofix hook _ w1 u h3
    have hb := eachFile_others env autofix hook before ss w w1 ys h2
    refine Or.inr ⟨before, cur, rest, ys, w1, h1, h2, ho, ?_, fun q hq => ?_⟩
    · have hcur : env.resolve cur ∉ before.map env.resolve := by
        intro hm
        rw [h1, List.map_append, List.map_cons, List.nodup_append] at hd
        exact hd.2.2 _ hm _ (by simp) rfl
      rcases hc with h | ⟨content, cfg, b, n, h4, h5, -, h6⟩
      · exact Or.inl (by rw [h, hb _ hcur])
      · exact Or.inr ⟨b, n, h6, content, cfg, h4, h5⟩
    · simp only [List.map_append, List.map_cons, List.map_nil, List.mem_append, List.mem_singleton, not_or] at hq
      rw [ho q hq.2, hb q hq.1]

/-- **C145** Wherever a fixing run over several distinct files is interrupted, by the consumer, a signal or a crash: either it was over, with every file as fixing it
alone leaves it, or up to some file all are as fixing them alone leaves them, from there on all have the content they had, and only that one file may
hold a beginning of its new content. -/
theorem C145_interrupted (autofix hook : Bool) (fs : List Path) (n : Nat) (w u : World) (hS : Stable env (fun q => q ∈ fs.map env.resolve))
    (hd : (fs.map env.resolve).Nodup) (hu : CrashPoint (eachFile env autofix hook fs) (List.replicate n none) w u) :
    ((∀ p ∈ fs, u.files (env.resolve p) = finalContent env autofix hook w p) ∧ ∀ q, q ∉ fs.map env.resolve → u.files q = w.files q) ∨
    ∃ before cur rest, LeftBehind env autofix hook w fs u before cur rest := by
  have hdone : ∀ (before : List Path) (w1 : World) (ys : List Result), (∀ p ∈ before, p ∈ fs) → (before.map env.resolve).Nodup →
      (eachFile env autofix hook before).run (List.replicate n none) w = (ys, .returned (), w1) →
      (∀ p ∈ before, w1.files (env.resolve p) = finalContent env autofix hook w p) ∧ ∀ q, q ∉ before.map env.resolve → w1.files q = w.files q := by
    intro before w1 ys hsub hd' hr
    obtain ⟨-, h2, h3, h4, -⟩ := eachFile_run env hS autofix hook w before (List.replicate n none) w
      (fun p hp => Or.inl (List.mem_map_of_mem (hsub p hp))) (hd'.imp (fun h e => absurd e h)) (fun q _ => rfl)
    rw [hr] at h2 h3 h4
    have ho := oneByOne_alone env autofix hook w before n h2.symm
    rw [ho] at h3 h4
    refine ⟨fun p hp => h3 (p, alone env autofix hook w p) ?_, fun q hq => h4 q (Or.inl (fun x hx e => hq ?_))⟩
    · rw [List.mem_iff_getElem] at hp
      obtain ⟨i, hi, rfl⟩ := hp
      rw [List.mem_iff_getElem]
      exact ⟨i, by simpa using hi, by simp⟩
    · rw [← e]; exact List.mem_map_of_mem (List.of_mem_zip hx).1
  rcases crash_eachFile env autofix hook fs _ w u hu with ⟨ys, w1, h, hu1⟩ | ⟨before, cur, rest, ys, w1, h1, h2, h3⟩
  · obtain ⟨k1, k2⟩ := hdone fs w1 ys (fun _ h => h) hd h
    rw [hu1]
    exact Or.inl ⟨k1, k2⟩
  · right
    subst h1
    have hd0 := hd
    rw [List.map_append, List.map_cons, List.nodup_append, List.nodup_cons] at hd
    obtain ⟨hd1, ⟨hd2, -⟩, hd3⟩ := hd
    obtain ⟨hb1, hb2⟩ := hdone before w1 ys (fun p hp => by simp [hp]) hd1 h2
    have hoth : ∀ q, q ≠ env.resolve cur → u.files q = w1.files q := (C77_crash_midway env cur autofix hook _ w1 u h3).2
    have hcur : env.resolve cur ∉ before.map env.resolve := fun hm => hd3 _ hm _ (by simp) rfl
    rw [List.drop_replicate] at h3
    refine ⟨before, cur, rest, rfl, fun p hp => ?_, ?_, fun p hp => ?_, fun q hq => ?_⟩
    · rw [hoth _ (fun e => hcur (e ▸ List.mem_map_of_mem hp)), hb1 p hp]
    · have hc := crash_alone env cur autofix hook _ w1 u h3
      rw [hb2 _ hcur, finalContent_congr env autofix hook cur _ hS (by simp) w1 w] at hc
      · exact hc
      · intro q hq
        refine hb2 q ?_
        rcases hq with rfl | hq
        · exact hcur
        · intro hm
          exact hq (by simp only [List.map_append, List.mem_append]; exact Or.inl hm)
    · have hne : env.resolve p ≠ env.resolve cur := fun e => hd2 (e ▸ List.mem_map_of_mem hp)
      rw [hoth _ hne, hb2 _ (fun hm => hd3 _ hm _ (List.mem_cons_of_mem _ (List.mem_map_of_mem hp)) rfl)]
    · simp only [List.map_append, List.map_cons, List.mem_append, List.mem_cons, not_or] at hq
      rw [hoth q hq.2.1, hb2 q hq.1]

variable (walk : (Path → Option Bytes) → Path → Except Err (List Path))

/-- **C145** Repeating: from any state `u` in which the files that are not linted are as at the beginning, a completed run in either mode leaves every file that in `u`
has its old content or its new one, and that fixing once is enough for, as an uninterrupted run does. -/
theorem C145_repeat_each (autofix hook parallel : Bool) (paths : List Path) (n : Nat) (w u u' : World) (ys : List Result) (fs : List Path)
    (hh : paths.head? ≠ some [py "-"]) (hf : filesUnder (walk u.files) (paths.filter (· ≠ [py "-"])) = .ok fs)
    (hS : Stable env (fun q => q ∈ fs.map env.resolve)) (hd : (fs.map env.resolve).Nodup)
    (hu : ∀ q, q ∉ fs.map env.resolve → u.files q = w.files q)
    (hr : PathsRun env walk autofix hook parallel paths (List.replicate n none) u (ys, .returned (), u'))
    (p : Path) (hp : p ∈ fs) (hsome : u.files (env.resolve p) = w.files (env.resolve p) ∨
      u.files (env.resolve p) = finalContent env autofix hook w p ∧ FixedOnce env autofix hook w p) :
    u'.files (env.resolve p) = finalContent env autofix hook w p := by
  obtain ⟨-, h2, -⟩ := C51_fix_any_schedule env walk autofix hook parallel paths n u u' ys fs hh hf hS hd hr
  have h2 : u'.files (env.resolve p) = finalContent env autofix hook u p := h2 p hp
  rw [h2]
  rcases hsome with h | ⟨h, honce⟩
  · refine finalContent_congr env autofix hook p _ hS (List.mem_map_of_mem hp) u w (fun q hq => ?_)
    rcases hq with rfl | hq
    · exact h
    · exact hu q hq
  · rw [← honce]
    refine finalContent_congr env autofix hook p _ hS (List.mem_map_of_mem hp) _ _ (fun q hq => ?_)
    have hoth : ∀ q, q ≠ env.resolve p → (alone env autofix hook w p).2.2.files q = w.files q := by
      intro q hq
      have hm := run_world_mem (fixitFile env p autofix hook) (List.replicate ((fixitFile env p autofix hook).drain none w).1.length none) w
      rw [run_replicate none _ w _ (Nat.le_refl _)] at hm
      exact C43_other_files_untouched env p autofix hook _ w _ q hq hm
    rcases hq with rfl | hq
    · rw [h]; rfl
    · rw [hu q hq, hoth q (fun e => hq (e ▸ List.mem_map_of_mem hp))]

/-- **C145** A run over several distinct files that fixing once is enough for, interrupted at any point `u` and repeated to its end, in either mode, leaves every file as the
uninterrupted run does, except at most one: the file that was being rewritten, when the interruption left it with neither its old nor its new content. -/
theorem C145_repeat (autofix hook parallel : Bool) (paths : List Path) (m n k : Nat) (w w' u u' : World) (ys zs : List Result) (fs : List Path) (par : Bool)
    (hh : paths.head? ≠ some [py "-"]) (hf : filesUnder (walk w.files) (paths.filter (· ≠ [py "-"])) = .ok fs)
    (hfu : filesUnder (walk u.files) (paths.filter (· ≠ [py "-"])) = .ok fs)
    (hS : Stable env (fun q => q ∈ fs.map env.resolve)) (hd : (fs.map env.resolve).Nodup) (honce : ∀ p ∈ fs, FixedOnce env autofix hook w p)
    (hu : CrashPoint (eachFile env autofix hook fs) (List.replicate m none) w u)
    (hw : PathsRun env walk autofix hook par paths (List.replicate k none) w (zs, .returned (), w'))
    (hr : PathsRun env walk autofix hook parallel paths (List.replicate n none) u (ys, .returned (), u')) :
    u'.files = w'.files ∨ ∃ cur ∈ fs, u.files (env.resolve cur) ≠ w.files (env.resolve cur) ∧ u.files (env.resolve cur) ≠ finalContent env autofix hook w cur ∧
      (∃ b n, finalContent env autofix hook w cur = some b ∧ u.files (env.resolve cur) = some (b.take n)) ∧ ∀ q, q ≠ env.resolve cur → u'.files q = w'.files q := by
  obtain ⟨-, hw2, hw3⟩ := C51_fix_any_schedule env walk autofix hook par paths k w w' zs fs hh hf hS hd hw
  obtain ⟨-, -, hr3⟩ := C51_fix_any_schedule env walk autofix hook parallel paths n u u' ys fs hh hfu hS hd hr
  have hw2 : ∀ p ∈ fs, w'.files (env.resolve p) = finalContent env autofix hook w p := hw2
  have hout : (∀ q, q ∉ fs.map env.resolve → u.files q = w.files q) → ∀ q, q ∉ fs.map env.resolve → u'.files q = w'.files q := by
    intro h q hq
    have hq' : ∀ p ∈ fs, env.resolve p ≠ q := fun p hp e => hq (e ▸ List.mem_map_of_mem hp)
    rw [hr3 q hq', hw3 q hq', h q hq]
  have hin : (∀ q, q ∉ fs.map env.resolve → u.files q = w.files q) → ∀ p ∈ fs, (u.files (env.resolve p) = w.files (env.resolve p) ∨
      u.files (env.resolve p) = finalContent env autofix hook w p) → u'.files (env.resolve p) = w'.files (env.resolve p) := by
    intro h p hp hs
    rw [hw2 p hp]
    exact C145_repeat_each env walk autofix hook parallel paths n w u u' ys fs hh hfu hS hd h hr p hp (hs.imp id (fun h => ⟨h, honce p hp⟩))
  rcases C145_interrupted env autofix hook fs m w u hS hd hu with ⟨h1, h2⟩ | ⟨before, cur, rest, hl⟩
  · left
    funext q
    by_cases hq : q ∈ fs.map env.resolve
    · obtain ⟨p, hp, rfl⟩ := List.mem_map.mp hq
      exact hin h2 p hp (Or.inr (h1 p hp))
    · exact hout h2 q hq
  · have hbut : ∀ q, q ≠ env.resolve cur → u'.files q = w'.files q := by
      intro q hne
      by_cases hq : q ∈ fs.map env.resolve
      · obtain ⟨p, hp, rfl⟩ := List.mem_map.mp hq
        refine hin hl.others p hp ?_
        have := hp
        rw [hl.split, List.mem_append, List.mem_cons] at this
        rcases this with h | rfl | h
        · exact Or.inr (hl.done p h)
        · exact absurd rfl hne
        · exact Or.inl (hl.notYet p h)
      · exact hout hl.others q hq
    have hcur : cur ∈ fs := by rw [hl.split]; simp
    by_cases h : u.files (env.resolve cur) = w.files (env.resolve cur) ∨ u.files (env.resolve cur) = finalContent env autofix hook w cur
    · left
      funext q
      by_cases hne : q = env.resolve cur
      · rw [hne]; exact hin hl.others cur hcur h
      · exact hbut q hne
    · rw [not_or] at h
      exact Or.inr ⟨cur, hcur, h.1, h.2, hl.current.resolve_left h.1, hbut⟩

/-- One more step of the pool. -/
theorem runPool_one_more : ∀ (sched : List Nat) (ks : List Worker) (w : World) (i : Nat) (k : Worker), (runPool sched ks w).1[i]? = some k →
    (runPool (sched ++ [i]) ks w).2 = (k.step (runPool sched ks w).2).2
  | [], ks, w, i, k, h => by
    simp only [runPool] at h
    simp only [List.nil_append, runPool, h]
  | j :: sched, ks, w, i, k, h => by
    simp only [List.cons_append, runPool] at h ⊢
    split
    · rename_i hj; simp only [hj] at h; exact runPool_one_more sched ks w i k h
    · rename_i k' hj; simp only [hj] at h; exact runPool_one_more sched _ _ i k h

/-- Two consecutive states of a worker are a step of its run, or its world has not changed. -/
theorem stepsOf_step (n : Nat) : ∀ (g : Linting Unit) (out : List Result) (w : World) (m : Nat), n < m →
    (stepsOf (n + 1) (⟨g, out⟩, w)).2 = (stepsOf n (⟨g, out⟩, w)).2 ∨
    ((stepsOf n (⟨g, out⟩, w)).2, (stepsOf (n + 1) (⟨g, out⟩, w)).2) ∈ g.steps (List.replicate m none) w := by
  induction n with
  | zero =>
    intro g out w m hm
    cases g with
    | ret r => exact Or.inl rfl
    | raise e => exact Or.inl rfl
    | yield y k => exact Or.inl rfl
    | act a k => exact Or.inr (by simp [stepsOf, Worker.step, steps])
  | succ n ih =>
    intro g out w m hm
    obtain ⟨m, rfl⟩ : ∃ m', m = m' + 1 := ⟨m - 1, by omega⟩
    cases g with
    | ret r =>
      left
      rw [stepsOf_done _ _ rfl, stepsOf_done _ _ rfl]
    | raise e =>
      have : ∀ n, stepsOf n ((⟨.raise e, out⟩ : Worker), w) = (⟨.raise e, out⟩, w) := by
        intro n
        induction n with
        | zero => rfl
        | succ n ih => simp only [stepsOf, Worker.step]; exact ih
      left
      rw [this, this]
    | yield y k =>
      rcases ih (k none) (out ++ [y]) w m (by omega) with h | h
      · exact Or.inl h
      · exact Or.inr (by simp only [List.replicate_succ, steps]; exact h)
    | act a k =>
      rcases ih (k w) out (a w) (m + 1) (by omega) with h | h
      · exact Or.inl h
      · exact Or.inr (by simp only [steps]; exact List.mem_cons_of_mem _ h)

/-- **C145** The process pool, killed after any steps of its workers, each of which may be in the middle of its next step: each file on its own has its content or a beginning
(nothing, some, or all) of its new content, and no other file has changed. -/
theorem C145_interrupted_pool (autofix hook : Bool) (fs : List Path) (w u : World) (hS : Stable env (fun q => q ∈ fs.map env.resolve))
    (hd : (fs.map env.resolve).Nodup) (sched : List Nat) (hu : PoolCrash env autofix hook fs w sched u) :
    (∀ p ∈ fs, u.files (env.resolve p) = w.files (env.resolve p) ∨ ∃ b n, finalContent env autofix hook w p = some b ∧ u.files (env.resolve p) = some (b.take n)) ∧
    ∀ q, q ∉ fs.map env.resolve → u.files q = w.files q := by
  have hstate := fun sched => pool_state env hS autofix hook fs w (fun p hp => Or.inl (List.mem_map_of_mem hp)) (hd.imp (fun h e => absurd e h)) sched
  refine ⟨fun p hp => ?_, fun q hq => ?_⟩
  · obtain ⟨j, hj⟩ := List.getElem?_of_mem hp
    rcases hu (env.resolve p) with h | ⟨i, k, n, hk, hne, h⟩
    · obtain ⟨m, w', hm, he⟩ := C77_crash_states_parallel env autofix hook fs w hS hd sched p hp
      rw [h, he]
      exact crash_alone env p autofix hook m w w' (Or.inl ⟨w', hm, rfl⟩)
    · rw [← runPool_one_more _ _ _ _ _ hk] at hne h
      obtain ⟨-, a2, -⟩ := hstate sched
      obtain ⟨-, b2, -⟩ := hstate (sched ++ [i])
      rw [(a2 j p hj).2, (b2 j p hj).2] at hne
      rw [(b2 j p hj).2] at h
      by_cases hij : i = j
      · subst hij
        have hc : (sched ++ [i]).count i = sched.count i + 1 := by simp
        rw [hc] at hne h
        rcases stepsOf_step (sched.count i) (fixitFile env p autofix hook) [] w (sched.count i + 1) (by omega) with hs | hs
        · rw [hs] at hne; exact absurd rfl hne
        · let x := (stepsOf (sched.count i) ((⟨fixitFile env p autofix hook, []⟩ : Worker), w)).2
          let y := (stepsOf (sched.count i + 1) ((⟨fixitFile env p autofix hook, []⟩ : Worker), w)).2
          let v : World := ⟨fun q => if y.files q = x.files q then x.files q else (y.files q).map (·.take n), []⟩
          have hv : CrashPoint (fixitFile env p autofix hook) (List.replicate (sched.count i + 1) none) w v := by
            refine Or.inr ⟨(x, y), hs, n, fun q => ⟨fun e => ?_, fun e => ?_⟩⟩
            · exact if_pos e
            · exact if_neg e
          have hvu : v.files (env.resolve p) = u.files (env.resolve p) := by
            rw [h]; exact if_neg hne
          have := crash_alone env p autofix hook _ w v hv
          rw [hvu] at this
          exact this
      · have hc : (sched ++ [i]).count j = sched.count j := by
          rw [List.count_append, List.count_cons_of_ne (fun e => hij e)]; simp
        rw [hc] at hne
        exact absurd rfl hne
  · have hq' : ∀ p ∈ fs, env.resolve p ≠ q := fun p hp e => hq (e ▸ List.mem_map_of_mem hp)
    obtain ⟨-, -, a3, -⟩ := hstate sched
    rcases hu q with h | ⟨i, k, n, hk, hne, h⟩
    · rw [h, a3 q (Or.inl hq')]
    · rw [← runPool_one_more _ _ _ _ _ hk] at hne
      obtain ⟨-, -, b3, -⟩ := hstate (sched ++ [i])
      exact absurd (by rw [a3 q (Or.inl hq'), b3 q (Or.inl hq')]) hne

end Fixit
