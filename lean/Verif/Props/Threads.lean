import Verif.Model.Threads

/-!
# C126: collecting rules in several threads at once
-/

namespace Spec
open Py Fixit

/-- A thread between appending its directory to `sys.path` and removing it. -/
def Stage.mine : Stage → Bool
  | .body m _ => m
  | .imported m _ _ _ => m
  | .rooted m _ _ _ => m
  | .leaving m _ => m
  | _ => false

/-- A thread that has got past the question whether its directory is there. -/
def Stage.under : Stage → Bool
  | .body _ _ | .imported _ _ _ _ | .rooted _ _ _ _ | .leaving _ _ => true
  | _ => false

/-- A thread inside the part that changes `fixit.local`. -/
def Stage.inLocal : Stage → Bool
  | .imported _ _ _ _ | .rooted _ _ _ _ | .leaving _ _ => true
  | _ => false

/-- At most one thread is inside that part. -/
def Alone (ts : List Loader) : Prop := ∀ (i j : Nat) (t u : Loader), ts[i]? = some t → ts[j]? = some u → Stage.inLocal t.stage = true → Stage.inLocal u.stage = true → i = j

/-- The reference something was seen for. -/
def Seen.ref : Seen → ThreadRef
  | .absolute m _ => .absolute m
  | .loc r m _ => .loc r m

/-- No other job has this directory for root imports. -/
def OwnDirectory (jobs : List Job) (i : Nat) (p : PStr) : Prop := (∃ j, jobs[i]? = some j ∧ j.rootDir = some p) ∧ ∀ k j, jobs[k]? = some j → j.rootDir = some p → k = i

end Spec

namespace Fixit
open Py Spec

variable (ex : Path → PStr → Bool)

/-- This thread has put this directory on `sys.path`. -/
def holds (p : PStr) (t : Loader) : Bool := Stage.mine t.stage && decide (t.job.rootDir = some p)

theorem step_job (t : Loader) (s : SharedImports) : (t.step ex s).1.job = t.job := by
  unfold Loader.step
  repeat' split
  all_goals rfl

theorem run_induct {P : Threads → Prop} (w : Threads) (h0 : P w) (hs : ∀ w i t, P w → w.loaders[i]? = some t → P ⟨(t.step ex w.shared).2, w.loaders.set i (t.step ex w.shared).1⟩) :
    ∀ schedule : List Nat, P (w.run ex schedule) := by
  intro schedule
  induction schedule generalizing w with
  | nil => exact h0
  | cons i is ih =>
    apply ih
    unfold Threads.step
    cases h : w.loaders[i]? with
    | none => exact h0
    | some t => exact hs w i t h0 h

theorem removeFirst_prefix (p : PStr) : ∀ (a b : List PStr), p ∉ a → removeFirst p (a ++ b) = a ++ removeFirst p b
  | [], b, _ => rfl
  | x :: a, b, h => by
    rw [List.mem_cons, not_or] at h
    rw [List.cons_append, removeFirst, if_neg (fun e => h.1 e.symm), removeFirst_prefix p a b h.2]
    rfl

theorem count_removeFirst_path (p q : PStr) : ∀ (b : List PStr), p ∈ b → (removeFirst p b).count q + (if q = p then 1 else 0) = b.count q
  | [], h => by cases h
  | x :: b, h => by
    rw [removeFirst]
    by_cases hx : x = p
    · subst hx
      rw [if_pos rfl, List.count_cons]
      by_cases hq : q = x
      · subst hq; simp
      · rw [if_neg hq, if_neg (by simpa using fun e => hq e.symm)]
    · rw [if_neg hx, List.count_cons, List.count_cons]
      have hb : p ∈ b := by
        rcases List.mem_cons.1 h with h | h
        · exact absurd h.symm hx
        · exact h
      have := count_removeFirst_path p q b hb
      omega

/-- What holds of `sys.path` at any time. -/
structure PathInv (init : List PStr) (jobs : List Job) (w : Threads) : Prop where
  jobs : w.loaders.map (·.job) = jobs
  ext : ∃ ext, w.shared.sysPath = init ++ ext ∧ ∀ p, ext.count p = w.loaders.countP (holds p)
  fresh : ∀ t ∈ w.loaders, ∀ p, t.job.rootDir = some p → t.stage = .absent ∨ Stage.mine t.stage = true → p ∉ init
  noFail : ∀ t ∈ w.loaders, t.stage ≠ .failed
  dir : ∀ t ∈ w.loaders, Stage.mine t.stage = true ∨ t.stage = .absent → ∃ p, t.job.rootDir = some p

theorem countP_set' {α : Type} (f : α → Bool) : ∀ (l : List α) (i : Nat) (a b : α), l[i]? = some a →
    (l.set i b).countP f + (if f a then 1 else 0) = l.countP f + (if f b then 1 else 0)
  | [], i, a, b, h => by simp at h
  | x :: l, 0, a, b, h => by
    simp only [List.getElem?_cons_zero, Option.some.injEq] at h
    subst h
    rw [List.set_cons_zero, List.countP_cons, List.countP_cons]
    omega
  | x :: l, i + 1, a, b, h => by
    rw [List.set_cons_succ, List.countP_cons, List.countP_cons]
    have := countP_set' f l i a b (by simpa using h)
    omega

theorem importPackage_sysPath (s : SharedImports) : s.importPackage.sysPath = s.sysPath := by unfold SharedImports.importPackage; split <;> rfl
theorem setRoot_sysPath (s : SharedImports) (r : Path) : (s.setRoot r).sysPath = s.sysPath := by unfold SharedImports.setRoot; split <;> rfl
theorem importLocal_sysPath (s : SharedImports) (m : PStr) : (s.importLocal ex m).2.sysPath = s.sysPath := by
  unfold SharedImports.importLocal
  repeat' split
  all_goals first | rfl | exact importPackage_sysPath s

/-- What a step does to `sys.path` and to the thread's share in it. -/
theorem step_cases (t : Loader) (s : SharedImports) (hd : Stage.mine t.stage = true → ∃ p, t.job.rootDir = some p ∧ p ∈ s.sysPath)
    (ha : t.stage = .absent → ∃ p, t.job.rootDir = some p) (hf : t.stage ≠ .failed) :
    ((t.step ex s).2.sysPath = s.sysPath ∧ Stage.mine (t.step ex s).1.stage = Stage.mine t.stage ∧ (t.step ex s).1.stage ≠ .failed ∧
      ((t.step ex s).1.stage = .absent → ∃ p, t.job.rootDir = some p ∧ p ∉ s.sysPath)) ∨
    (∃ p, t.job.rootDir = some p ∧ t.stage = .absent ∧ (t.step ex s).2.sysPath = s.sysPath ++ [p] ∧ (t.step ex s).1.stage = .body true t.job.refs) ∨
    (∃ p, t.job.rootDir = some p ∧ Stage.mine t.stage = true ∧ p ∈ s.sysPath ∧ (t.step ex s).2.sysPath = removeFirst p s.sysPath ∧ (t.step ex s).1.stage = .finished) := by
  obtain ⟨job, stage, seen⟩ := t
  cases stage with
  | start =>
    left
    cases hr : job.rootDir with
    | none => simp [Loader.step, hr, Stage.mine]
    | some p =>
      by_cases hp : p ∈ s.sysPath
      · simp [Loader.step, hr, hp, Stage.mine]
      · simp [Loader.step, hr, hp, Stage.mine]
  | absent =>
    obtain ⟨p, hp⟩ := ha rfl
    simp only at hp
    right; left
    exact ⟨p, hp, rfl, by simp [Loader.step, hp], by simp [Loader.step, hp]⟩
  | body mine todo =>
    cases todo with
    | nil =>
      cases mine with
      | false => left; simp [Loader.step, Stage.mine]
      | true =>
        obtain ⟨p, hp, hi⟩ := hd rfl
        simp only at hp
        right; right
        exact ⟨p, hp, rfl, hi, by simp [Loader.step, hp, hi], by simp [Loader.step, hp, hi]⟩
    | cons r rest =>
      left
      cases r with
      | absolute m => simp [Loader.step, Stage.mine]
      | loc r m => simp [Loader.step, Stage.mine, importPackage_sysPath]
  | imported mine r m rest => left; simp [Loader.step, Stage.mine, setRoot_sysPath]
  | rooted mine r m rest => left; simp [Loader.step, Stage.mine, importLocal_sysPath]
  | leaving mine rest => left; simp [Loader.step, Stage.mine, SharedImports.popLocals]
  | finished => left; simp [Loader.step]
  | failed => exact absurd rfl hf

theorem mem_set_cases {α : Type} {l : List α} {i : Nat} {a x : α} (h : x ∈ l.set i a) : x = a ∨ x ∈ l := by
  rcases List.mem_or_eq_of_mem_set h with h | h
  · exact .inr h
  · exact .inl h

theorem map_set_same {α β : Type} (f : α → β) : ∀ (l : List α) (i : Nat) (a b : α), l[i]? = some a → f b = f a → (l.set i b).map f = l.map f
  | [], i, a, b, h, _ => by simp at h
  | x :: l, 0, a, b, h, e => by
    simp only [List.getElem?_cons_zero, Option.some.injEq] at h
    subst h
    simp [e]
  | x :: l, i + 1, a, b, h, e => by
    simp only [List.set_cons_succ, List.map_cons]
    rw [map_set_same f l i a b (by simpa using h) e]

theorem PathInv.on_path {init : List PStr} {jobs : List Job} {w : Threads} (h : PathInv init jobs w) {t : Loader} (ht : t ∈ w.loaders) (hm : Stage.mine t.stage = true) :
    ∃ p, t.job.rootDir = some p ∧ p ∈ w.shared.sysPath := by
  obtain ⟨p, hp⟩ := h.dir t ht (.inl hm)
  obtain ⟨ext, he, hc⟩ := h.ext
  refine ⟨p, hp, ?_⟩
  rw [he]
  apply List.mem_append_right
  rw [← List.count_pos_iff, hc p, List.countP_pos_iff]
  exact ⟨t, ht, by simp [holds, hm, hp]⟩

theorem pathInv_step (init : List PStr) (jobs : List Job) (w : Threads) (i : Nat) (t : Loader) (h : PathInv init jobs w) (ht : w.loaders[i]? = some t) :
    PathInv init jobs ⟨(t.step ex w.shared).2, w.loaders.set i (t.step ex w.shared).1⟩ := by
  have hmem : t ∈ w.loaders := List.mem_of_getElem? ht
  obtain ⟨ext, he, hc⟩ := h.ext
  have hjob := step_job ex t w.shared
  have hcount := fun p => countP_set' (holds p) w.loaders i t (t.step ex w.shared).1 ht
  have hjobs : (w.loaders.set i (t.step ex w.shared).1).map (·.job) = jobs := by
    rw [map_set_same _ _ _ _ _ ht hjob]; exact h.jobs
  rcases step_cases ex t w.shared (fun hm => h.on_path hmem hm) (fun ha => h.dir t hmem (.inr ha)) (h.noFail t hmem) with
    ⟨hs, hm, hnf, hab⟩ | ⟨p, hp, ha, hs, hb⟩ | ⟨p, hp, hm, hi, hs, hfin⟩
  · refine ⟨hjobs, ⟨ext, by rw [hs, he], fun p => ?_⟩, ?_, ?_, ?_⟩
    · have := hcount p
      have hh : holds p (t.step ex w.shared).1 = holds p t := by simp only [holds, hjob, hm]
      rw [hh] at this
      rw [hc p]
      exact (Nat.add_right_cancel this).symm
    · intro u hu p hp hst
      rcases mem_set_cases hu with rfl | hu
      · rw [hjob] at hp
        rcases hst with hst | hst
        · obtain ⟨q, hq, hqn⟩ := hab hst
          rw [hp, Option.some.injEq] at hq; subst hq
          rw [he, List.mem_append, not_or] at hqn
          exact hqn.1
        · rw [hm] at hst
          exact h.fresh t hmem p hp (.inr hst)
      · exact h.fresh u hu p hp hst
    · intro u hu
      rcases mem_set_cases hu with rfl | hu
      · exact hnf
      · exact h.noFail u hu
    · intro u hu hst
      rcases mem_set_cases hu with rfl | hu
      · rw [hjob]
        rcases hst with hst | hst
        · rw [hm] at hst; exact h.dir t hmem (.inl hst)
        · obtain ⟨q, hq, _⟩ := hab hst; exact ⟨q, hq⟩
      · exact h.dir u hu hst
  · refine ⟨hjobs, ⟨ext ++ [p], by rw [hs, he, List.append_assoc], fun q => ?_⟩, ?_, ?_, ?_⟩
    · have := hcount q
      have h1 : holds q (t.step ex w.shared).1 = decide (p = q) := by simp [holds, hjob, hb, Stage.mine, hp]
      have h3 : holds q t = false := by simp [holds, ha, Stage.mine]
      rw [h1, h3] at this
      rw [List.count_append, hc q]
      by_cases hq : p = q
      · subst hq; simp at this ⊢; omega
      · simp [hq] at this ⊢; omega
    · intro u hu q hq hst
      rcases mem_set_cases hu with rfl | hu
      · rw [hjob] at hq
        exact h.fresh t hmem q hq (.inl ha)
      · exact h.fresh u hu q hq hst
    · intro u hu
      rcases mem_set_cases hu with rfl | hu
      · rw [hb]; exact fun e => by cases e
      · exact h.noFail u hu
    · intro u hu hst
      rcases mem_set_cases hu with rfl | hu
      · rw [hjob]; exact ⟨p, hp⟩
      · exact h.dir u hu hst
  · have hpn : p ∉ init := h.fresh t hmem p hp (.inr hm)
    have hpe : p ∈ ext := by
      rw [he, List.mem_append] at hi
      exact hi.resolve_left hpn
    refine ⟨hjobs, ⟨removeFirst p ext, by rw [hs, he, removeFirst_prefix p _ _ hpn], fun q => ?_⟩, ?_, ?_, ?_⟩
    · have := hcount q
      have h2 := count_removeFirst_path p q ext hpe
      have h1 : holds q (t.step ex w.shared).1 = false := by simp [holds, hfin, Stage.mine]
      have h3 : holds q t = decide (p = q) := by simp [holds, hm, hp]
      rw [h1, h3] at this
      rw [hc q] at h2
      by_cases hq : p = q
      · subst hq; simp at this h2 ⊢; omega
      · have hq' : ¬ q = p := fun e => hq e.symm
        simp [hq] at this
        simp [hq'] at h2
        show List.count q (removeFirst p ext) = List.countP (holds q) (w.loaders.set i (t.step ex w.shared).1)
        omega
    · intro u hu q hq hst
      rcases mem_set_cases hu with rfl | hu
      · rw [hfin] at hst
        rcases hst with hst | hst <;> simp [Stage.mine] at hst
      · exact h.fresh u hu q hq hst
    · intro u hu
      rcases mem_set_cases hu with rfl | hu
      · rw [hfin]; exact fun e => by cases e
      · exact h.noFail u hu
    · intro u hu hst
      rcases mem_set_cases hu with rfl | hu
      · rw [hjob]; exact ⟨p, hp⟩
      · exact h.dir u hu hst

theorem pathInv_begin (init : List PStr) (jobs : List Job) : PathInv init jobs (Threads.begin init jobs) := by
  have hst : ∀ t ∈ (Threads.begin init jobs).loaders, t.stage = .start := by
    intro t ht
    obtain ⟨j, _, rfl⟩ := List.mem_map.1 ht
    rfl
  refine ⟨?_, ⟨[], by simp [Threads.begin], fun p => ?_⟩, ?_, ?_, ?_⟩
  · simp [Threads.begin, Function.comp_def, Job.begin]
  · rw [List.count_nil, eq_comm, List.countP_eq_zero]
    intro t ht
    simp [holds, hst t ht, Stage.mine]
  · intro t ht p _ h
    rw [hst t ht] at h
    rcases h with h | h <;> simp [Stage.mine] at h
  · intro t ht h
    rw [hst t ht] at h; cases h
  · intro t ht h
    rw [hst t ht] at h
    rcases h with h | h <;> simp [Stage.mine] at h

theorem pathInv_run (init : List PStr) (jobs : List Job) (schedule : List Nat) : PathInv init jobs ((Threads.begin init jobs).run ex schedule) :=
  run_induct ex (P := PathInv init jobs) _ (pathInv_begin init jobs) (fun w i t h ht => pathInv_step ex init jobs w i t h ht) schedule

/-! ## `sys.path` -/

/-- **C126 (`sys.path`).** At any time, whatever the order of the threads' steps: what was there at the beginning is there, in its place; after it comes each directory as often as there are threads that have put it there and
not removed it yet; no thread has failed to remove its directory. -/
theorem C126_sys_path (init : List PStr) (jobs : List Job) (schedule : List Nat) :
    (∃ ext, ((Threads.begin init jobs).run ex schedule).shared.sysPath = init ++ ext ∧
      ∀ p, ext.count p = (((Threads.begin init jobs).run ex schedule).loaders.filter fun t => Stage.mine t.stage && decide (t.job.rootDir = some p)).length) ∧
    ∀ t ∈ ((Threads.begin init jobs).run ex schedule).loaders, t.stage ≠ .failed := by
  have h := pathInv_run ex init jobs schedule
  obtain ⟨ext, he, hc⟩ := h.ext
  exact ⟨⟨ext, he, fun p => by rw [hc p, List.countP_eq_length_filter]; rfl⟩, h.noFail⟩

/-- **C126 (afterwards).** When all threads have ended, `sys.path` is what it was. -/
theorem C126_sys_path_after (init : List PStr) (jobs : List Job) (schedule : List Nat)
    (hall : ∀ t ∈ ((Threads.begin init jobs).run ex schedule).loaders, t.stage = .finished) :
    ((Threads.begin init jobs).run ex schedule).shared.sysPath = init := by
  obtain ⟨ext, he, hc⟩ := (pathInv_run ex init jobs schedule).ext
  cases ext with
  | nil => rw [he, List.append_nil]
  | cons p ext =>
    exfalso
    have h0 : (((Threads.begin init jobs).run ex schedule).loaders).countP (holds p) = 0 := by
      rw [List.countP_eq_zero]
      intro t ht
      simp [holds, hall t ht, Stage.mine]
    have := hc p
    rw [h0, List.count_cons_self] at this
    omega

/-- What a thread has seen holds of the path at the moment it looked. -/
theorem step_seen (t : Loader) (s : SharedImports) :
    (t.step ex s).1.seen = t.seen ∨
    (∃ mine m rest, t.stage = .body mine (.absolute m :: rest) ∧ (t.step ex s).1.seen = t.seen ++ [.absolute m s.sysPath]) ∨
    (∃ mine r m rest, t.stage = .rooted mine r m rest ∧ (t.step ex s).1.seen = t.seen ++ [.loc r m (s.importLocal ex m).1]) := by
  obtain ⟨job, stage, seen⟩ := t
  cases stage with
  | start =>
    left
    cases hr : job.rootDir with
    | none => simp [Loader.step, hr]
    | some p => by_cases hp : p ∈ s.sysPath <;> simp [Loader.step, hr, hp]
  | absent =>
    left
    cases hr : job.rootDir with
    | none => simp [Loader.step, hr]
    | some p => simp [Loader.step, hr]
  | body mine todo =>
    cases todo with
    | nil =>
      left
      cases mine with
      | false => simp [Loader.step]
      | true =>
        cases hr : job.rootDir with
        | none => simp [Loader.step, hr]
        | some p => by_cases hp : p ∈ s.sysPath <;> simp [Loader.step, hr, hp]
    | cons r rest =>
      cases r with
      | absolute m => exact .inr (.inl ⟨mine, m, rest, rfl, rfl⟩)
      | loc r m => left; rfl
  | imported mine r m rest => left; rfl
  | rooted mine r m rest => exact .inr (.inr ⟨mine, r, m, rest, rfl, rfl⟩)
  | leaving mine rest => left; rfl
  | finished => left; rfl
  | failed => left; rfl

/-- **C126 (what absolute imports see).** An absolute reference is looked for in what was on `sys.path` at the beginning, and then only in root directories of the documents being validated. -/
theorem C126_absolute_sees (init : List PStr) (jobs : List Job) (schedule : List Nat) :
    ∀ t ∈ ((Threads.begin init jobs).run ex schedule).loaders, ∀ m path, Seen.absolute m path ∈ t.seen →
      ∃ ext, path = init ++ ext ∧ ∀ q ∈ ext, ∃ j ∈ jobs, j.rootDir = some q := by
  refine (run_induct ex (P := fun w => PathInv init jobs w ∧ ∀ t ∈ w.loaders, ∀ m path, Seen.absolute m path ∈ t.seen →
      ∃ ext, path = init ++ ext ∧ ∀ q ∈ ext, ∃ j ∈ jobs, j.rootDir = some q) _ ⟨pathInv_begin init jobs, ?_⟩ ?_ schedule).2
  · intro t ht m path hs
    obtain ⟨j, _, rfl⟩ := List.mem_map.1 ht
    cases hs
  · rintro w i t ⟨hinv, hseen⟩ ht
    have hmem : t ∈ w.loaders := List.mem_of_getElem? ht
    refine ⟨pathInv_step ex init jobs w i t hinv ht, ?_⟩
    intro u hu m path hs
    rcases mem_set_cases hu with rfl | hu
    · rcases step_seen ex t w.shared with h | ⟨_, m', _, _, h⟩ | ⟨_, _, _, _, _, h⟩
      · rw [h] at hs; exact hseen t hmem m path hs
      · rw [h, List.mem_append] at hs
        rcases hs with hs | hs
        · exact hseen t hmem m path hs
        · rw [List.mem_singleton] at hs
          injection hs with _ hs; subst hs
          obtain ⟨ext, he, hc⟩ := hinv.ext
          refine ⟨ext, he, fun q hq => ?_⟩
          rw [← List.count_pos_iff, hc q, List.countP_pos_iff] at hq
          obtain ⟨v, hv, hh⟩ := hq
          simp only [holds, Bool.and_eq_true, decide_eq_true_eq] at hh
          refine ⟨v.job, ?_, hh.2⟩
          rw [← hinv.jobs]
          exact List.mem_map.2 ⟨v, hv, rfl⟩
      · rw [h, List.mem_append] at hs
        rcases hs with hs | hs
        · exact hseen t hmem m path hs
        · rw [List.mem_singleton] at hs; cases hs
    · exact hseen u hu m path hs

/-- The invariant for a thread whose directory nobody else has. -/
structure OwnInv (init : List PStr) (i : Nat) (p : PStr) (w : Threads) : Prop where
  stays : ∀ t, w.loaders[i]? = some t → Stage.under t.stage = true → Stage.mine t.stage = true ∨ p ∈ init
  sees : ∀ t, w.loaders[i]? = some t → ∀ m path, Seen.absolute m path ∈ t.seen → p ∈ path

theorem under_step (t : Loader) (s : SharedImports) (hu : Stage.under (t.step ex s).1.stage = true) :
    Stage.mine (t.step ex s).1.stage = true ∨ (Stage.under t.stage = true ∧ Stage.mine (t.step ex s).1.stage = Stage.mine t.stage) ∨
    (t.stage = .start ∧ ∀ p, t.job.rootDir = some p → p ∈ s.sysPath) := by
  obtain ⟨job, stage, seen⟩ := t
  cases stage with
  | start =>
    cases hr : job.rootDir with
    | none => exact .inr (.inr ⟨rfl, fun p hp => by (cases hp)⟩)
    | some p =>
      by_cases hp : p ∈ s.sysPath
      · refine .inr (.inr ⟨rfl, fun q hq => ?_⟩)
        rw [Option.some.injEq] at hq; subst hq; exact hp
      · simp [Loader.step, hr, hp, Stage.under] at hu
  | absent =>
    cases hr : job.rootDir with
    | none => simp [Loader.step, hr, Stage.under] at hu
    | some p => left; simp [Loader.step, hr, Stage.mine]
  | body mine todo =>
    cases todo with
    | nil =>
      cases mine with
      | false => simp [Loader.step, Stage.under] at hu
      | true =>
        cases hr : job.rootDir with
        | none => simp [Loader.step, hr, Stage.under] at hu
        | some p => by_cases hp : p ∈ s.sysPath <;> simp [Loader.step, hr, hp, Stage.under] at hu
    | cons r rest =>
      cases r with
      | absolute m => exact .inr (.inl ⟨rfl, rfl⟩)
      | loc r m => exact .inr (.inl ⟨rfl, rfl⟩)
  | imported mine r m rest => exact .inr (.inl ⟨rfl, rfl⟩)
  | rooted mine r m rest => exact .inr (.inl ⟨rfl, rfl⟩)
  | leaving mine rest => exact .inr (.inl ⟨rfl, rfl⟩)
  | finished => simp [Loader.step, Stage.under] at hu
  | failed => simp [Loader.step, Stage.under] at hu

/-- **C126 (a root directory of one's own).** If no other document being validated has the same directory for root imports, the document's absolute references are all looked for with that directory on `sys.path`,
whatever the order of the steps. -/
theorem C126_own_directory (init : List PStr) (jobs : List Job) (schedule : List Nat) (i : Nat) (p : PStr) (hown : OwnDirectory jobs i p) (t₀ : Loader)
    (ht₀ : ((Threads.begin init jobs).run ex schedule).loaders[i]? = some t₀) (m : PStr) (path : List PStr) (hs₀ : Seen.absolute m path ∈ t₀.seen) : p ∈ path := by
  have key : PathInv init jobs ((Threads.begin init jobs).run ex schedule) ∧ OwnInv init i p ((Threads.begin init jobs).run ex schedule) := by
    refine run_induct ex (P := fun w => PathInv init jobs w ∧ OwnInv init i p w) _ ⟨pathInv_begin init jobs, ?_⟩ ?_ schedule
    · have hst : ∀ t, (Threads.begin init jobs).loaders[i]? = some t → t.stage = .start ∧ t.seen = [] := by
        intro t ht
        obtain ⟨j, _, rfl⟩ := List.mem_map.1 (List.mem_of_getElem? ht)
        exact ⟨rfl, rfl⟩
      refine ⟨fun t ht hu => ?_, fun t ht m path hs => ?_⟩
      · rw [(hst t ht).1] at hu; cases hu
      · rw [(hst t ht).2] at hs; cases hs
    · rintro w k t ⟨hinv, ho⟩ ht
      refine ⟨pathInv_step ex init jobs w k t hinv ht, ?_⟩
      have hmem : t ∈ w.loaders := List.mem_of_getElem? ht
      by_cases hk : k = i
      · subst hk
        have hjobt : jobs[k]? = some t.job := by
          rw [← hinv.jobs, List.getElem?_map, ht]; rfl
        have hroot : t.job.rootDir = some p := by
          obtain ⟨j, hj, hjp⟩ := hown.1
          rw [hjobt, Option.some.injEq] at hj; rw [hj]; exact hjp
        have hlook : ∀ u, (w.loaders.set k (t.step ex w.shared).1)[k]? = some u → u = (t.step ex w.shared).1 := by
          intro u hu
          rw [List.getElem?_set_self' , ht] at hu
          simpa using hu.symm
        have hon : Stage.under t.stage = true → p ∈ w.shared.sysPath := by
          intro hu
          rcases ho.stays t ht hu with h | h
          · obtain ⟨q, hq, hi⟩ := hinv.on_path hmem h
            rw [hroot, Option.some.injEq] at hq; rw [hq]; exact hi
          · obtain ⟨ext, he, _⟩ := hinv.ext
            rw [he]; exact List.mem_append_left _ h
        refine ⟨fun u hu hun => ?_, fun u hu m path hs => ?_⟩
        · rw [hlook u hu] at hun ⊢
          rcases under_step ex t w.shared hun with h | ⟨h, e⟩ | ⟨hst, h⟩
          · exact .inl h
          · rw [e]; exact ho.stays t ht h
          · right
            have hi := h p hroot
            obtain ⟨ext, he, hc⟩ := hinv.ext
            rw [he, List.mem_append] at hi
            rcases hi with hi | hi
            · exact hi
            · exfalso
              rw [← List.count_pos_iff, hc p, List.countP_pos_iff] at hi
              obtain ⟨v, hv, hh⟩ := hi
              simp only [holds, Bool.and_eq_true, decide_eq_true_eq] at hh
              obtain ⟨l, hl⟩ := List.getElem?_of_mem hv
              have hl' : jobs[l]? = some v.job := by
                rw [← hinv.jobs, List.getElem?_map, hl]; rfl
              have := hown.2 l v.job hl' hh.2
              subst this
              rw [ht, Option.some.injEq] at hl
              rw [← hl, hst] at hh
              cases hh.1
        · rw [hlook u hu] at hs
          rcases step_seen ex t w.shared with h | ⟨_, m', _, hst, h⟩ | ⟨_, _, _, _, _, h⟩
          · rw [h] at hs; exact ho.sees t ht m path hs
          · rw [h, List.mem_append] at hs
            rcases hs with hs | hs
            · exact ho.sees t ht m path hs
            · rw [List.mem_singleton] at hs
              injection hs with _ hs; subst hs
              exact hon (by rw [hst]; rfl)
          · rw [h, List.mem_append] at hs
            rcases hs with hs | hs
            · exact ho.sees t ht m path hs
            · rw [List.mem_singleton] at hs; cases hs
      · have hlook : (w.loaders.set k (t.step ex w.shared).1)[i]? = w.loaders[i]? := List.getElem?_set_ne hk
        exact ⟨fun u hu => ho.stays u (hlook ▸ hu), fun u hu => ho.sees u (hlook ▸ hu)⟩
  exact key.2.sees t₀ ht₀ m path hs₀

/-! ## `fixit.local` -/

theorem mem_set_index {α : Type} {l : List α} {k : Nat} {a x : α} (h : x ∈ l.set k a) : x = a ∨ ∃ j, j ≠ k ∧ l[j]? = some x := by
  obtain ⟨j, hj⟩ := List.getElem?_of_mem h
  by_cases e : k = j
  · subst e
    left
    rw [List.getElem?_set_self'] at hj
    cases hl : l[k]? with
    | none => rw [hl] at hj; cases hj
    | some y => rw [hl] at hj; simpa using hj.symm
  · right
    rw [List.getElem?_set_ne e] at hj
    exact ⟨j, fun h => e h.symm, hj⟩

/-- What `localState` says of one thread. -/
def localAt (s : SharedImports) : Stage → Prop
  | .imported _ _ _ _ => s.package ≠ none ∧ s.loaded = []
  | .rooted _ r _ _ => s.package = some (some r) ∧ s.loaded = []
  | _ => True

theorem localAt_outside (s : SharedImports) (g : Stage) (h : Stage.inLocal g = false) : localAt s g := by
  cases g <;> first | trivial | cases h

/-- `fixit.local` as a thread alone in that part finds it. -/
structure LocalState (w : Threads) : Prop where
  outside : (∀ t ∈ w.loaders, Stage.inLocal t.stage = false) → w.shared.package = none ∧ w.shared.loaded = []
  inside : ∀ t ∈ w.loaders, localAt w.shared t.stage

/-- What the thread reports about local references. -/
def OwnModules (t : Loader) : Prop := ∀ r m got, Seen.loc r m got ∈ t.seen → got = if ex r m then some r else none

/-- Outside that part a thread leaves `fixit.local` alone. -/
theorem step_outside (t : Loader) (s : SharedImports) (h : Stage.inLocal t.stage = false) (h' : Stage.inLocal (t.step ex s).1.stage = false) :
    (t.step ex s).2.package = s.package ∧ (t.step ex s).2.loaded = s.loaded := by
  obtain ⟨job, stage, seen⟩ := t
  cases stage with
  | start =>
    cases hr : job.rootDir with
    | none => simp [Loader.step, hr]
    | some p => by_cases hp : p ∈ s.sysPath <;> simp [Loader.step, hr, hp]
  | absent =>
    cases hr : job.rootDir with
    | none => simp [Loader.step, hr]
    | some p => simp [Loader.step, hr]
  | body mine todo =>
    cases todo with
    | nil =>
      cases mine with
      | false => simp [Loader.step]
      | true =>
        cases hr : job.rootDir with
        | none => simp [Loader.step, hr]
        | some p => by_cases hp : p ∈ s.sysPath <;> simp [Loader.step, hr, hp]
    | cons r rest =>
      cases r with
      | absolute m => exact ⟨rfl, rfl⟩
      | loc r m => cases h'
  | imported mine r m rest => cases h
  | rooted mine r m rest => cases h
  | leaving mine rest => cases h
  | finished => exact ⟨rfl, rfl⟩
  | failed => exact ⟨rfl, rfl⟩

/-- A thread goes into that part only through a local reference, and out of it only by removing the modules. -/
theorem step_inside (t : Loader) (s : SharedImports) (h : Stage.inLocal t.stage = true ∨ Stage.inLocal (t.step ex s).1.stage = true) :
    (∃ mine r m rest, t.stage = .body mine (.loc r m :: rest) ∧ (t.step ex s).1.stage = .imported mine r m rest ∧ (t.step ex s).2 = s.importPackage) ∨
    (∃ mine r m rest, t.stage = .imported mine r m rest ∧ (t.step ex s).1.stage = .rooted mine r m rest ∧ (t.step ex s).2 = s.setRoot r) ∨
    (∃ mine r m rest, t.stage = .rooted mine r m rest ∧ (t.step ex s).1.stage = .leaving mine rest ∧ (t.step ex s).2 = (s.importLocal ex m).2) ∨
    (∃ mine rest, t.stage = .leaving mine rest ∧ (t.step ex s).1.stage = .body mine rest ∧ (t.step ex s).2 = s.popLocals) := by
  obtain ⟨job, stage, seen⟩ := t
  cases stage with
  | start =>
    exfalso
    rcases h with h | h
    · cases h
    · cases hr : job.rootDir with
      | none => simp [Loader.step, hr, Stage.inLocal] at h
      | some p => by_cases hp : p ∈ s.sysPath <;> simp [Loader.step, hr, hp, Stage.inLocal] at h
  | absent =>
    exfalso
    rcases h with h | h
    · cases h
    · cases hr : job.rootDir with
      | none => simp [Loader.step, hr, Stage.inLocal] at h
      | some p => simp [Loader.step, hr, Stage.inLocal] at h
  | body mine todo =>
    cases todo with
    | nil =>
      exfalso
      rcases h with h | h
      · cases h
      · cases mine with
        | false => simp [Loader.step, Stage.inLocal] at h
        | true =>
          cases hr : job.rootDir with
          | none => simp [Loader.step, hr, Stage.inLocal] at h
          | some p => by_cases hp : p ∈ s.sysPath <;> simp [Loader.step, hr, hp, Stage.inLocal] at h
    | cons r rest =>
      cases r with
      | absolute m => rcases h with h | h <;> cases h
      | loc r m => exact .inl ⟨mine, r, m, rest, rfl, rfl, rfl⟩
  | imported mine r m rest => exact .inr (.inl ⟨mine, r, m, rest, rfl, rfl, rfl⟩)
  | rooted mine r m rest => exact .inr (.inr (.inl ⟨mine, r, m, rest, rfl, rfl, rfl⟩))
  | leaving mine rest => exact .inr (.inr (.inr ⟨mine, rest, rfl, rfl, rfl⟩))
  | finished => rcases h with h | h <;> cases h
  | failed => rcases h with h | h <;> cases h

theorem local_step (w : Threads) (k : Nat) (hl : LocalState w) (hh : ∀ t ∈ w.loaders, OwnModules ex t) (hA : Alone w.loaders) (hA' : Alone (w.step ex k).loaders) :
    LocalState (w.step ex k) ∧ ∀ t ∈ (w.step ex k).loaders, OwnModules ex t := by
  unfold Threads.step at hA' ⊢
  cases ht : w.loaders[k]? with
  | none => exact ⟨hl, hh⟩
  | some t =>
    rw [ht] at hA'
    simp only at hA' ⊢
    have hmem : t ∈ w.loaders := List.mem_of_getElem? ht
    have hk : (w.loaders.set k (t.step ex w.shared).1)[k]? = some (t.step ex w.shared).1 := by
      rw [List.getElem?_set_self', ht]; rfl
    -- the others, while this one is inside
    have hothers : Stage.inLocal t.stage = true ∨ Stage.inLocal (t.step ex w.shared).1.stage = true →
        ∀ j, j ≠ k → ∀ u, w.loaders[j]? = some u → Stage.inLocal u.stage = false := by
      intro hin j hj u hu
      cases hb : Stage.inLocal u.stage with
      | false => rfl
      | true =>
        exfalso
        rcases hin with hin | hin
        · exact hj (hA j k u t hu ht hb hin)
        · exact hj (hA' j k u _ (by rw [List.getElem?_set_ne (fun e => hj e.symm)]; exact hu) hk hb hin)
    constructor
    · by_cases hin : Stage.inLocal t.stage = true ∨ Stage.inLocal (t.step ex w.shared).1.stage = true
      · have hoth := hothers hin
        -- enough to look at this thread
        have enough : (Stage.inLocal (t.step ex w.shared).1.stage = false → (t.step ex w.shared).2.package = none ∧ (t.step ex w.shared).2.loaded = []) →
            localAt (t.step ex w.shared).2 (t.step ex w.shared).1.stage → LocalState ⟨(t.step ex w.shared).2, w.loaders.set k (t.step ex w.shared).1⟩ := by
          intro h1 h2
          refine ⟨fun hall => h1 (hall _ (List.mem_of_getElem? hk)), fun u hu => ?_⟩
          rcases mem_set_index hu with rfl | ⟨j, hj, hu⟩
          · exact h2
          · exact localAt_outside _ _ (hoth j hj u hu)
        apply enough
        · intro ho
          rcases step_inside ex t w.shared hin with ⟨_, _, _, _, _, h2, _⟩ | ⟨_, _, _, _, _, h2, _⟩ | ⟨_, _, _, _, _, h2, _⟩ | ⟨_, _, _, _, h3⟩
          · rw [h2] at ho; cases ho
          · rw [h2] at ho; cases ho
          · rw [h2] at ho; cases ho
          · rw [h3]; exact ⟨rfl, rfl⟩
        · rcases step_inside ex t w.shared hin with ⟨_, r, m, _, h1, h2, h3⟩ | ⟨_, r, m, _, h1, h2, h3⟩ | ⟨_, _, _, _, h1, h2, h3⟩ | ⟨_, _, h1, h2, h3⟩
          · rw [h2, h3]
            have hnone : ∀ u ∈ w.loaders, Stage.inLocal u.stage = false := by
              intro u hu
              obtain ⟨j, hj⟩ := List.getElem?_of_mem hu
              by_cases e : j = k
              · subst e
                rw [ht, Option.some.injEq] at hj
                rw [← hj, h1]; rfl
              · exact hoth j e u hj
            obtain ⟨hp, hld⟩ := hl.outside hnone
            simp [localAt, SharedImports.importPackage, hp, hld]
          · rw [h2, h3]
            have := hl.inside t hmem
            rw [h1] at this
            obtain ⟨hp, hld⟩ := this
            cases hpk : w.shared.package with
            | none => exact absurd hpk hp
            | some x => simp [localAt, SharedImports.setRoot, hpk, hld]
          · rw [h2]; trivial
          · rw [h2]; trivial
      · rw [not_or, Bool.not_eq_true, Bool.not_eq_true] at hin
        obtain ⟨hp, hld⟩ := step_outside ex t w.shared hin.1 hin.2
        constructor
        · intro hall
          show (t.step ex w.shared).2.package = none ∧ (t.step ex w.shared).2.loaded = []
          rw [hp, hld]
          apply hl.outside
          intro u hu
          obtain ⟨j, hj⟩ := List.getElem?_of_mem hu
          by_cases e : k = j
          · subst e
            rw [ht, Option.some.injEq] at hj
            rw [← hj]; exact hin.1
          · exact hall u (List.mem_of_getElem? (i := j) (by rw [List.getElem?_set_ne e]; exact hj))
        · intro u hu
          rcases mem_set_cases hu with rfl | hu
          · exact localAt_outside _ _ hin.2
          · have := hl.inside u hu
            show localAt (t.step ex w.shared).2 u.stage
            revert this
            cases u.stage <;> simp only [localAt, hp, hld, imp_self]
    · intro u hu
      rcases mem_set_cases hu with rfl | hu
      · intro r m got hs
        rcases step_seen ex t w.shared with h | ⟨_, m', _, _, h⟩ | ⟨_, r', m', _, h1, h⟩
        · rw [h] at hs; exact hh t hmem r m got hs
        · rw [h, List.mem_append] at hs
          rcases hs with hs | hs
          · exact hh t hmem r m got hs
          · rw [List.mem_singleton] at hs; cases hs
        · rw [h, List.mem_append] at hs
          rcases hs with hs | hs
          · exact hh t hmem r m got hs
          · rw [List.mem_singleton] at hs
            injection hs with e1 e2 e3
            subst e1 e2 e3
            have := hl.inside t hmem
            rw [h1] at this
            obtain ⟨hp, hld⟩ := this
            have hip : w.shared.importPackage.package = some (some r) := by simp [SharedImports.importPackage, hp]
            simp only [SharedImports.importLocal, hld, List.lookup_nil, hip]
            split <;> rfl
      · exact hh u hu

/-- **C126 (one at a time).** As long as no two threads are inside the part that changes `fixit.local` at the same time, each local reference gets its own module from its own directory if that module is there, and nothing
otherwise. -/
theorem C126_local_alone (init : List PStr) (jobs : List Job) (schedule : List Nat)
    (halone : ∀ n, Alone ((Threads.begin init jobs).run ex (schedule.take n)).loaders) :
    ∀ t ∈ ((Threads.begin init jobs).run ex schedule).loaders, ∀ r m got, Seen.loc r m got ∈ t.seen → got = if ex r m then some r else none := by
  suffices h : ∀ n, (LocalState ((Threads.begin init jobs).run ex (schedule.take n)) ∧ ∀ t ∈ ((Threads.begin init jobs).run ex (schedule.take n)).loaders, OwnModules ex t) by
    have := (h schedule.length).2
    rw [List.take_length] at this
    exact this
  intro n
  induction n with
  | zero =>
    refine ⟨⟨fun _ => ⟨rfl, rfl⟩, fun t ht => ?_⟩, fun t ht r m got h => ?_⟩
    · obtain ⟨j, _, rfl⟩ := List.mem_map.1 ht
      trivial
    · obtain ⟨j, _, rfl⟩ := List.mem_map.1 ht
      cases h
  | succ n ih =>
    have hA := halone n
    have hA' := halone (n + 1)
    cases hn : schedule[n]? with
    | none =>
      have : schedule.take (n + 1) = schedule.take n := by
        rw [List.take_of_length_le, List.take_of_length_le]
        · exact List.getElem?_eq_none_iff.1 hn
        · exact Nat.le_succ_of_le (List.getElem?_eq_none_iff.1 hn)
      rw [this]; exact ih
    | some k =>
      have htk : schedule.take (n + 1) = schedule.take n ++ [k] := by
        rw [List.take_add_one, hn]; rfl
      rw [htk] at hA' ⊢
      rw [Threads.run, List.foldl_append, List.foldl_cons, List.foldl_nil] at hA' ⊢
      change Alone (Threads.step ex ((Threads.begin init jobs).run ex (schedule.take n)) k).loaders at hA'
      change LocalState (Threads.step ex ((Threads.begin init jobs).run ex (schedule.take n)) k) ∧ ∀ t ∈ (Threads.step ex ((Threads.begin init jobs).run ex (schedule.take n)) k).loaders, OwnModules ex t
      generalize (Threads.begin init jobs).run ex (schedule.take n) = w at ih hA hA'
      exact local_step ex w k ih.1 ih.2 hA hA'

/-! ## Every reference is looked for, and every thread ends -/

/-- What a thread has still to look for. -/
def remaining (t : Loader) : List ThreadRef :=
  match t.stage with
  | .start | .absent => t.job.refs
  | .body _ todo => todo
  | .imported _ r m rest | .rooted _ r m rest => .loc r m :: rest
  | .leaving _ rest => rest
  | .finished | .failed => []

theorem step_remaining (t : Loader) (s : SharedImports) (h : t.seen.map Seen.ref ++ remaining t = t.job.refs) :
    (t.step ex s).1.seen.map Seen.ref ++ remaining (t.step ex s).1 = t.job.refs := by
  obtain ⟨job, stage, seen⟩ := t
  cases stage with
  | start =>
    cases hr : job.rootDir with
    | none => simpa [Loader.step, hr, remaining] using h
    | some p => by_cases hp : p ∈ s.sysPath <;> simpa [Loader.step, hr, hp, remaining] using h
  | absent =>
    cases hr : job.rootDir with
    | none => simpa [Loader.step, hr, remaining] using h
    | some p => simpa [Loader.step, hr, remaining] using h
  | body mine todo =>
    cases todo with
    | nil =>
      cases mine with
      | false => simpa [Loader.step, remaining] using h
      | true =>
        cases hr : job.rootDir with
        | none => simpa [Loader.step, hr, remaining] using h
        | some p => by_cases hp : p ∈ s.sysPath <;> simpa [Loader.step, hr, hp, remaining] using h
    | cons r rest =>
      cases r with
      | absolute m => simpa [Loader.step, remaining, Seen.ref] using h
      | loc r m => simpa [Loader.step, remaining] using h
  | imported mine r m rest => simpa [Loader.step, remaining] using h
  | rooted mine r m rest => simpa [Loader.step, remaining, Seen.ref] using h
  | leaving mine rest => simpa [Loader.step, remaining] using h
  | finished => exact h
  | failed => exact h

/-- **C126 (nothing is left out).** A thread that has ended has looked for all its references, in order. -/
theorem C126_in_order (init : List PStr) (jobs : List Job) (schedule : List Nat) :
    ∀ t ∈ ((Threads.begin init jobs).run ex schedule).loaders, t.stage = .finished → t.seen.map Seen.ref = t.job.refs := by
  have key : ∀ t ∈ ((Threads.begin init jobs).run ex schedule).loaders, t.seen.map Seen.ref ++ remaining t = t.job.refs := by
    refine run_induct ex (P := fun w => ∀ t ∈ w.loaders, t.seen.map Seen.ref ++ remaining t = t.job.refs) _ ?_ ?_ schedule
    · intro t ht
      obtain ⟨j, _, rfl⟩ := List.mem_map.1 ht
      rfl
    · intro w i t h ht u hu
      rcases mem_set_cases hu with rfl | hu
      · rw [step_job]; exact step_remaining ex t w.shared (h t (List.mem_of_getElem? ht))
      · exact h u hu
  intro t ht hf
  have := key t ht
  simpa [remaining, hf] using this

/-- The steps a thread has still to take, at most. -/
def stepsLeft (t : Loader) : Nat :=
  match t.stage with
  | .start => 4 * t.job.refs.length + 3
  | .absent => 4 * t.job.refs.length + 2
  | .body _ todo => 4 * todo.length + 1
  | .imported _ _ _ rest => 4 * rest.length + 4
  | .rooted _ _ _ rest => 4 * rest.length + 3
  | .leaving _ rest => 4 * rest.length + 2
  | .finished | .failed => 0

theorem step_stepsLeft (t : Loader) (s : SharedImports) (hd : t.stage = .absent → ∃ p, t.job.rootDir = some p) : stepsLeft (t.step ex s).1 ≤ stepsLeft t - 1 := by
  obtain ⟨job, stage, seen⟩ := t
  cases stage with
  | start =>
    cases hr : job.rootDir with
    | none => simp [Loader.step, hr, stepsLeft]
    | some p => by_cases hp : p ∈ s.sysPath <;> simp [Loader.step, hr, hp, stepsLeft]
  | absent =>
    obtain ⟨p, hp⟩ := hd rfl
    simp only at hp
    simp [Loader.step, hp, stepsLeft]
  | body mine todo =>
    cases todo with
    | nil =>
      cases mine with
      | false => simp [Loader.step, stepsLeft]
      | true =>
        cases hr : job.rootDir with
        | none => simp [Loader.step, hr, stepsLeft]
        | some p => by_cases hp : p ∈ s.sysPath <;> simp [Loader.step, hr, hp, stepsLeft]
    | cons r rest =>
      cases r with
      | absolute m => simp [Loader.step, stepsLeft]; omega
      | loc r m => simp [Loader.step, stepsLeft]; omega
  | imported mine r m rest => simp [Loader.step, stepsLeft]
  | rooted mine r m rest => simp [Loader.step, stepsLeft]
  | leaving mine rest => simp [Loader.step, stepsLeft]
  | finished => simp [Loader.step, stepsLeft]
  | failed => simp [Loader.step, stepsLeft]

theorem run_stepsLeft (init : List PStr) (jobs : List Job) (i : Nat) : ∀ (schedule : List Nat) (w : Threads), PathInv init jobs w → ∀ t, w.loaders[i]? = some t →
    ∃ u, (w.run ex schedule).loaders[i]? = some u ∧ stepsLeft u ≤ stepsLeft t - schedule.count i
  | [], w, _, t, ht => ⟨t, ht, by simp⟩
  | k :: ks, w, hinv, t, ht => by
    show ∃ u, ((w.step ex k).run ex ks).loaders[i]? = some u ∧ _
    unfold Threads.step
    cases hk : w.loaders[k]? with
    | none =>
      have hne : k ≠ i := fun e => by (subst e; rw [ht] at hk; cases hk)
      obtain ⟨u, hu, hle⟩ := run_stepsLeft init jobs i ks w hinv t ht
      refine ⟨u, hu, ?_⟩
      rw [List.count_cons, if_neg (by simpa using hne)]
      exact hle
    | some v =>
      have hinv' := pathInv_step ex init jobs w k v hinv hk
      by_cases e : k = i
      · subst e
        rw [ht, Option.some.injEq] at hk
        subst hk
        obtain ⟨u, hu, hle⟩ := run_stepsLeft init jobs k ks _ hinv' (t.step ex w.shared).1 (by simp only; rw [List.getElem?_set_self', ht]; rfl)
        refine ⟨u, hu, ?_⟩
        have := step_stepsLeft ex t w.shared (fun ha => hinv.dir t (List.mem_of_getElem? ht) (.inr ha))
        rw [List.count_cons_self]
        omega
      · obtain ⟨u, hu, hle⟩ := run_stepsLeft init jobs i ks _ hinv' t (by simp only; rw [List.getElem?_set_ne e]; exact ht)
        refine ⟨u, hu, ?_⟩
        rw [List.count_cons, if_neg (by simpa using e)]
        exact hle

/-- **C126 (no thread waits).** Whatever the others do, a thread that is given four steps for each reference and three more has ended. -/
theorem C126_ends (init : List PStr) (jobs : List Job) (schedule : List Nat) (i : Nat) (j : Job) (hj : jobs[i]? = some j) (hsteps : 4 * j.refs.length + 3 ≤ schedule.count i) :
    ∃ t, ((Threads.begin init jobs).run ex schedule).loaders[i]? = some t ∧ t.stage = .finished := by
  have hb : (Threads.begin init jobs).loaders[i]? = some j.begin := by simp [Threads.begin, hj]
  obtain ⟨u, hu, hle⟩ := run_stepsLeft ex init jobs i schedule _ (pathInv_begin init jobs) j.begin hb
  refine ⟨u, hu, ?_⟩
  have hsl : stepsLeft j.begin = 4 * j.refs.length + 3 := rfl
  rw [hsl] at hle
  have h0 : stepsLeft u = 0 := by omega
  have hnf := (pathInv_run ex init jobs schedule).noFail u (List.mem_of_getElem? hu)
  unfold stepsLeft at h0
  split at h0
  all_goals first | omega | assumption | (rename_i e; exact absurd e hnf)

/-! ## What does not hold -/

def pathA : Path := [py "/", py "a"]
def pathB : Path := [py "/", py "b"]

/-- The modules of the example: `rules` is in the directories `/a` and `/b`. -/
def exampleModules : Path → PStr → Bool := fun r m => (r == pathA || r == pathB) && m == py "rules"

/-- What the threads have seen. -/
def seenAt (w : Threads) (i : Nat) : List Seen := ((w.loaders[i]?).map (·.seen)).getD []

/-- **C126 (finding: a root directory shared).** Two documents of one project, root imports on. The second thread begins while the first has the directory on `sys.path`; the first ends and takes it away;
the second looks for its rules without it. -/
theorem C126_shared_directory :
    seenAt ((Threads.begin [py "/lib"] [⟨some (py "/p"), [.absolute (py "rules")]⟩, ⟨some (py "/p"), [.absolute (py "rules")]⟩]).run exampleModules [0, 0, 1, 0, 0, 1, 1]) 0 =
      [.absolute (py "rules") [py "/lib", py "/p"]] ∧
    seenAt ((Threads.begin [py "/lib"] [⟨some (py "/p"), [.absolute (py "rules")]⟩, ⟨some (py "/p"), [.absolute (py "rules")]⟩]).run exampleModules [0, 0, 1, 0, 0, 1, 1]) 1 =
      [.absolute (py "rules") [py "/lib"]] := ⟨rfl, rfl⟩

/-- **C126 (finding: another directory's rules).** Two documents with local rules in different directories: the first thread gets the second one's module, and both are linted with the rules of one directory. -/
theorem C126_wrong_directory :
    seenAt ((Threads.begin [] [⟨none, [.loc pathA (py "rules")]⟩, ⟨none, [.loc pathB (py "rules")]⟩]).run exampleModules [0, 0, 0, 1, 1, 1, 0, 1, 0, 1, 0, 1]) 0 =
      [.loc pathA (py "rules") (some pathB)] ∧
    seenAt ((Threads.begin [] [⟨none, [.loc pathA (py "rules")]⟩, ⟨none, [.loc pathB (py "rules")]⟩]).run exampleModules [0, 0, 0, 1, 1, 1, 0, 1, 0, 1, 0, 1]) 1 =
      [.loc pathB (py "rules") (some pathB)] := by decide +kernel

/-- **C126 (finding: another directory's rules, from `sys.modules`).** The other way round: the second thread comes in after the first one imported its module and before it removed it, sets the directory to its own, and still gets
the first one's module. -/
theorem C126_cached_module :
    seenAt ((Threads.begin [] [⟨none, [.loc pathA (py "rules")]⟩, ⟨none, [.loc pathB (py "rules")]⟩]).run exampleModules [0, 0, 0, 0, 1, 1, 1, 1, 0, 1, 0, 1]) 0 =
      [.loc pathA (py "rules") (some pathA)] ∧
    seenAt ((Threads.begin [] [⟨none, [.loc pathA (py "rules")]⟩, ⟨none, [.loc pathB (py "rules")]⟩]).run exampleModules [0, 0, 0, 0, 1, 1, 1, 1, 0, 1, 0, 1]) 1 =
      [.loc pathB (py "rules") (some pathA)] := by decide +kernel

/-- **C126 (finding: no rules).** Two documents with the same local rules: one thread removes `fixit.local` between the other's `import` and its assignment to `__path__`, and the other does not find the module. -/
theorem C126_no_directory :
    seenAt ((Threads.begin [] [⟨none, [.loc pathA (py "rules")]⟩, ⟨none, [.loc pathA (py "rules")]⟩]).run exampleModules [0, 0, 1, 1, 1, 1, 1, 0, 0, 0, 0]) 0 =
      [.loc pathA (py "rules") none] ∧
    seenAt ((Threads.begin [] [⟨none, [.loc pathA (py "rules")]⟩, ⟨none, [.loc pathA (py "rules")]⟩]).run exampleModules [0, 0, 1, 1, 1, 1, 1, 0, 0, 0, 0]) 1 =
      [.loc pathA (py "rules") (some pathA)] := by decide +kernel

/-! ## The hypotheses can be met -/

/-- Two documents of different projects, each with its root directory, an absolute and a local reference. -/
def twoJobs : List Job := [⟨some (py "/p"), [.absolute (py "rules"), .loc pathA (py "rules")]⟩, ⟨some (py "/q"), [.loc pathB (py "rules"), .absolute (py "more")]⟩]

/-- Their steps mixed, but not in the local part. -/
def twoSchedule : List Nat := [0, 1, 0, 1, 0, 0, 0, 0, 0, 1, 1, 1, 1, 0, 1, 0, 1, 1, 1]

theorem twoJobs_own : OwnDirectory twoJobs 0 (py "/p") := by
  refine ⟨⟨_, rfl, rfl⟩, fun k j hk hj => ?_⟩
  match k, hk with
  | 0, _ => rfl
  | 1, hk =>
    simp only [twoJobs, List.getElem?_cons_succ, List.getElem?_cons_zero, Option.some.injEq] at hk
    subst hk
    exact absurd hj (by decide)
  | k + 2, hk => simp [twoJobs] at hk

theorem alone_of_two (a b : Loader) (h : Stage.inLocal a.stage = false ∨ Stage.inLocal b.stage = false) : Alone [a, b] := by
  intro i j t u ht hu h1 h2
  match i, j, ht, hu with
  | 0, 0, _, _ => rfl
  | 1, 1, _, _ => rfl
  | 0, 1, ht, hu =>
    simp at ht hu; subst ht hu
    rcases h with h | h
    · rw [h] at h1; cases h1
    · rw [h] at h2; cases h2
  | 1, 0, ht, hu =>
    simp at ht hu; subst ht hu
    rcases h with h | h
    · rw [h] at h2; cases h2
    · rw [h] at h1; cases h1
  | i + 2, _, ht, _ => simp at ht
  | 0, j + 2, _, hu => simp at hu
  | 1, j + 2, _, hu => simp at hu

/-- The stages that count. -/
def localNow (w : Threads) : List Bool := w.loaders.map fun t => Stage.inLocal t.stage

theorem alone_of_now (w : Threads) (h : localNow w = [false, false] ∨ localNow w = [true, false] ∨ localNow w = [false, true]) : Alone w.loaders := by
  obtain ⟨s, l⟩ := w
  match l with
  | [] => intro i j t u ht; simp at ht
  | [a] => simp [localNow] at h
  | [a, b] => exact alone_of_two a b (by simp [localNow] at h; rcases h with h | h | h <;> simp [h])
  | a :: b :: c :: l => simp [localNow] at h

theorem twoJobs_alone : ∀ n, Alone ((Threads.begin [py "/lib"] twoJobs).run exampleModules (twoSchedule.take n)).loaders := by
  have h : ∀ n < 20, localNow ((Threads.begin [py "/lib"] twoJobs).run exampleModules (twoSchedule.take n)) ∈ [[false, false], [true, false], [false, true]] := by decide +kernel
  intro n
  apply alone_of_now
  by_cases hn : n < 20
  · have := h n hn
    simpa using this
  · have := h 19 (by decide)
    rw [List.take_of_length_le (by decide)] at this
    rw [List.take_of_length_le (by simp [twoSchedule]; omega)]
    simpa using this

/-- Both have ended, each with its own rules, and `sys.path` is as before. -/
example : let w := (Threads.begin [py "/lib"] twoJobs).run exampleModules twoSchedule
    seenAt w 0 = [.absolute (py "rules") [py "/lib", py "/p", py "/q"], .loc pathA (py "rules") (some pathA)] ∧
    seenAt w 1 = [.loc pathB (py "rules") (some pathB), .absolute (py "more") [py "/lib", py "/q"]] ∧ w.shared.sysPath = [py "/lib"] := by decide +kernel

example : py "/p" ∈ [py "/lib", py "/p", py "/q"] :=
  C126_own_directory exampleModules [py "/lib"] twoJobs twoSchedule 0 (py "/p") twoJobs_own _ rfl (py "rules") _ (by decide +kernel)

end Fixit
