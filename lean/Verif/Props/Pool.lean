import Verif.Model.Pool
import Verif.Props.PathsCases

/-!
# C120: results that have to come back from other processes
-/

namespace Spec
open Py Fixit

/-- The result can be sent from one process to another: it is no error, or one that can be rebuilt. -/
def CanTravel (ch : Channel) (r : Result) : Prop := ∀ e, r.error = some e → ∃ e', ch.carry e = some e'

/-- `r'` is what arrives of `r`: the same, but for the exception, which is the rebuilt one. -/
def Arrives (ch : Channel) (r r' : Result) : Prop :=
  r'.path = r.path ∧ r'.violation = r.violation ∧ (r.error = none → r'.error = none) ∧ ∀ e, r.error = some e → ∃ e', ch.carry e = some e' ∧ r'.error = some e'

/-- `rs'` is what arrives of `rs`, one for one and in order. -/
inductive ArriveAll (ch : Channel) : List Result → List Result → Prop
  | nil : ArriveAll ch [] []
  | cons (r r' : Result) (rs rs' : List Result) : Arrives ch r r' → ArriveAll ch rs rs' → ArriveAll ch (r :: rs) (r' :: rs')

end Spec

namespace Fixit
open Py Spec Gen

theorem channel_result (ch : Channel) (r : Result) :
    (∀ r', ch.result r = some r' → Arrives ch r r') ∧ (ch.result r = none ↔ ¬ CanTravel ch r) := by
  obtain ⟨p, v, e⟩ := r
  cases e with
  | none => simp [Channel.result, CanTravel, Arrives]
  | some e =>
    cases h : ch.carry e with
    | none => simp [Channel.result, CanTravel, Arrives, h]
    | some e' =>
      simp only [Channel.result, CanTravel, Arrives, h]
      exact ⟨fun r' hr => by (cases hr; simp [h]), by simp [h]⟩

theorem channel_list (ch : Channel) : ∀ rs : List Result,
    (∀ rs', ch.list rs = some rs' → ArriveAll ch rs rs' ∧ rs'.length = rs.length) ∧ (ch.list rs = none ↔ ∃ r ∈ rs, ¬ CanTravel ch r)
  | [] => ⟨fun rs' h => by (cases h; exact ⟨.nil, rfl⟩), by simp [Channel.list]⟩
  | r :: rs => by
    obtain ⟨a1, a2⟩ := channel_result ch r
    obtain ⟨b1, b2⟩ := channel_list ch rs
    cases h : ch.result r with
    | none =>
      simp only [Channel.list, h]
      exact ⟨fun rs' h => by (cases h), iff_of_true trivial ⟨r, List.mem_cons_self, a2.mp h⟩⟩
    | some r' =>
      cases h' : ch.list rs with
      | none =>
        simp only [Channel.list, h, h']
        obtain ⟨x, hx, hn⟩ := b2.mp h'
        exact ⟨fun rs' h => by (cases h), iff_of_true trivial ⟨x, List.mem_cons_of_mem _ hx, hn⟩⟩
      | some rs' =>
        simp only [Channel.list, h, h']
        refine ⟨fun xs hx => ?_, iff_of_false (by simp) ?_⟩
        · cases hx
          exact ⟨.cons _ _ _ _ (a1 r' h) (b1 rs' h').1, by simp [(b1 rs' h').2]⟩
        · rintro ⟨x, hx, hn⟩
          rcases List.mem_cons.mp hx with rfl | hx
          · exact absurd (a2.mpr hn) (by simp [h])
          · exact absurd (b2.mpr ⟨x, hx, hn⟩) (by simp [h'])

theorem _root_.Spec.ArriveAll.append {ch : Channel} : ∀ {a a' b b' : List Result}, ArriveAll ch a a' → ArriveAll ch b b' → ArriveAll ch (a ++ b) (a' ++ b')
  | _, _, _, _, .nil, h => h
  | _, _, _, _, .cons r r' rs rs' h1 h2, h => .cons r r' _ _ h1 (h2.append h)

theorem _root_.Spec.ArriveAll.travels {ch : Channel} : ∀ {a a' : List Result}, ArriveAll ch a a' → ∀ r ∈ a, CanTravel ch r
  | _, _, .cons r r' rs rs' h1 h2, x, hx => by
    rcases List.mem_cons.mp hx with rfl | hx
    · intro e he
      obtain ⟨e', h, -⟩ := h1.2.2.2 e he
      exact ⟨e', h⟩
    · exact h2.travels x hx

/-- How the loop over the arriving lists ends when the caller only iterates. -/
theorem run_yieldCarried (ch : Channel) : ∀ (rss : List (List Result)) (n : Nat) (w : World),
    (∀ u, ((yieldCarried ch rss).run (List.replicate n none) w).2.1 = .returned u →
      ArriveAll ch rss.flatten ((yieldCarried ch rss).run (List.replicate n none) w).1 ∧ rss.flatten.length ≤ n) ∧
    (∀ e, ((yieldCarried ch rss).run (List.replicate n none) w).2.1 = .raised e → e = ch.broken ∧ ∃ rs ∈ rss, ∃ r ∈ rs, ¬ CanTravel ch r)
  | [], n, w => by simp [yieldCarried, run, ArriveAll.nil]
  | rs :: rss, n, w => by
    obtain ⟨b1, b2⟩ := channel_list ch rs
    cases h : ch.list rs with
    | none =>
      simp only [yieldCarried, h, run]
      obtain ⟨r, hr, hn⟩ := b2.mp h
      exact ⟨fun u hu => by (cases hu), fun e he => by cases he; exact ⟨rfl, rs, List.mem_cons_self, r, hr, hn⟩⟩
    | some rs' =>
      obtain ⟨c1, c2⟩ := b1 rs' h
      simp only [yieldCarried, h]
      rw [run_bind, run_yieldList]
      by_cases hlt : n < rs'.length
      · simp only [hlt, if_true]
        exact ⟨fun u hu => by (cases hu), fun e he => by cases he⟩
      · simp only [hlt, if_false, List.drop_replicate]
        obtain ⟨i1, i2⟩ := run_yieldCarried ch rss (n - rs'.length) w
        refine ⟨fun u hu => ?_, fun e he => ?_⟩
        · obtain ⟨j1, j2⟩ := i1 u hu
          exact ⟨by rw [List.flatten_cons]; exact c1.append j1, by rw [List.flatten_cons, List.length_append]; omega⟩
        · obtain ⟨j1, x, hx, y⟩ := i2 e he
          exact ⟨j1, x, List.mem_cons_of_mem _ hx, y⟩

section
variable {C : Type} (env : Env C) (ch : Channel) (walk : (Path → Option Bytes) → Path → Except Err (List Path))

/-- A completed run is a completed run of `PathsRun` whose results have been sent through the channel, if the pool was used. -/
theorem carried_completed (autofix hook parallel : Bool) (paths : List Path) (n : Nat) (w w' : World) (ys : List Result)
    (hr : CarriedRun env ch walk autofix hook parallel paths (List.replicate n none) w (ys, .returned (), w')) :
    ∃ ys₀, PathsRun env walk autofix hook parallel paths (List.replicate n none) w (ys₀, .returned (), w') ∧
      ((usesPool (walk w.files) parallel paths = none ∧ ys = ys₀) ∨ ((∃ fs, usesPool (walk w.files) parallel paths = some fs) ∧ ArriveAll ch ys₀ ys)) := by
  generalize hq : (ys, Status.returned (), w') = out at hr
  cases hr with
  | plain hu => exact ⟨ys, by rw [hq]; exact .plain hu, .inl ⟨hu, rfl⟩⟩
  | pool fs sched order hu hnd hdone hall =>
    simp only [Prod.mk.injEq] at hq
    obtain ⟨q1, q2, q3⟩ := hq
    obtain ⟨h1, h2⟩ := (run_yieldCarried ch (arrived (runPool sched (startWorkers env autofix hook fs) w).1 order) n w).1 () q2.symm
    have hrun := run_yieldLists (arrived (runPool sched (startWorkers env autofix hook fs) w).1 order) n w
    rw [if_neg (Nat.not_lt.mpr h2)] at hrun
    refine ⟨_, ?_, .inr ⟨⟨fs, hu⟩, by rw [q1]; exact h1⟩⟩
    have := PathsRun.pool (env := env) (walk := walk) (autofix := autofix) (hook := hook) (ss := List.replicate n none) fs sched order hu hnd hdone (fun _ => hall q2.symm)
    rw [hrun] at this
    rw [q3]
    exact this

/-- C120: fixing distinct files in the pool: a run that completes yields what arrives of what fixing each file alone yields, file by file, in some order of the files; and the files
are left as fixing each alone does. -/
theorem C120_completed (autofix hook : Bool) (paths : List Path) (n : Nat) (w w' : World) (ys : List Result) (fs : List Path)
    (hh : paths.head? ≠ some [py "-"]) (hf : filesUnder (walk w.files) (paths.filter (· ≠ [py "-"])) = .ok fs) (hmany : fs.length ≠ 1)
    (hS : Stable env (fun q => q ∈ fs.map env.resolve)) (hd : (fs.map env.resolve).Nodup)
    (hr : CarriedRun env ch walk autofix hook true paths (List.replicate n none) w (ys, .returned (), w')) :
    (∃ order : List Path, order.Perm fs ∧ ArriveAll ch (order.flatMap (fun p => (alone env autofix hook w p).1)) ys) ∧
    (∀ p ∈ fs, w'.files (env.resolve p) = (alone env autofix hook w p).2.2.files (env.resolve p)) ∧
    ∀ q, (∀ p ∈ fs, env.resolve p ≠ q) → w'.files q = w.files q := by
  obtain ⟨ys₀, h1, h2⟩ := carried_completed env ch walk autofix hook true paths n w w' ys hr
  have hpool := (C50_pool_iff walk true paths w.files fs).mpr ⟨rfl, hmany, hh, hf⟩
  rcases h2 with ⟨h2, -⟩ | ⟨-, h2⟩
  · rw [hpool] at h2; cases h2
  · obtain ⟨⟨order, a, -, b⟩, c, d⟩ := C51_fix_any_schedule env walk autofix hook true paths n w w' ys₀ fs hh hf hS hd h1
    exact ⟨⟨order, a, b ▸ h2⟩, c, d⟩

/-- C120: the same for linting, where nothing is assumed about the files. -/
theorem C120_lint_completed (hook : Bool) (paths : List Path) (n : Nat) (w w' : World) (ys : List Result) (fs : List Path)
    (hh : paths.head? ≠ some [py "-"]) (hf : filesUnder (walk w.files) (paths.filter (· ≠ [py "-"])) = .ok fs) (hmany : fs.length ≠ 1)
    (hr : CarriedRun env ch walk false hook true paths (List.replicate n none) w (ys, .returned (), w')) :
    ∃ order : List Path, order.Perm fs ∧ ArriveAll ch (order.flatMap (fun p => (alone env false hook w p).1)) ys := by
  obtain ⟨ys₀, h1, h2⟩ := carried_completed env ch walk false hook true paths n w w' ys hr
  have hpool := (C50_pool_iff walk true paths w.files fs).mpr ⟨rfl, hmany, hh, hf⟩
  rcases h2 with ⟨h2, -⟩ | ⟨-, h2⟩
  · rw [hpool] at h2; cases h2
  · obtain ⟨⟨order, a, -, b⟩, -⟩ := C51_lint_any_schedule env walk hook true paths n w w' ys₀ fs hh hf h1
    exact ⟨order, a, b ▸ h2⟩

/-- C120: when linting one of the files ends in an error that cannot be sent, no run of the pool over these files completes: it raises, or the caller stops before. -/
theorem C120_breaks (hook : Bool) (paths : List Path) (n : Nat) (w : World) (fs : List Path)
    (hh : paths.head? ≠ some [py "-"]) (hf : filesUnder (walk w.files) (paths.filter (· ≠ [py "-"])) = .ok fs) (hmany : fs.length ≠ 1)
    (p : Path) (hp : p ∈ fs) (r : Result) (hr : r ∈ (alone env false hook w p).1) (e : Err) (he : r.error = some e) (hc : ch.carry e = none)
    (ys : List Result) (st : Status Unit) (w' : World) (hrun : CarriedRun env ch walk false hook true paths (List.replicate n none) w (ys, st, w')) :
    st = .suspended ∨ st = .raised ch.broken := by
  cases st with
  | suspended => exact .inl rfl
  | returned u =>
    exfalso
    obtain ⟨order, a, b⟩ := C120_lint_completed env ch walk hook paths n w w' ys fs hh hf hmany hrun
    obtain ⟨e', h⟩ := b.travels r (List.mem_flatMap.mpr ⟨p, a.mem_iff.mpr hp, hr⟩) e he
    rw [hc] at h; cases h
  | raised x =>
    right
    generalize hq : (ys, Status.raised x, w') = out at hrun
    cases hrun with
    | plain hu => rw [(C50_pool_iff walk true paths w.files fs).mpr ⟨rfl, hmany, hh, hf⟩] at hu; cases hu
    | pool fs' sched order hu hnd hdone hall =>
      simp only [Prod.mk.injEq] at hq
      rw [((run_yieldCarried ch _ n w).2 x hq.2.1.symm).1]

/-- C120: when every error of the files can be sent, no run that only iterates raises. -/
theorem C120_never_breaks (hook : Bool) (paths : List Path) (n : Nat) (w : World) (fs : List Path)
    (hh : paths.head? ≠ some [py "-"]) (hf : filesUnder (walk w.files) (paths.filter (· ≠ [py "-"])) = .ok fs) (hmany : fs.length ≠ 1)
    (hok : ∀ p ∈ fs, ∀ r ∈ (alone env false hook w p).1, CanTravel ch r)
    (ys : List Result) (st : Status Unit) (w' : World) (hrun : CarriedRun env ch walk false hook true paths (List.replicate n none) w (ys, st, w')) (e : Err) :
    st ≠ .raised e := by
  rintro rfl
  generalize hq : (ys, Status.raised e, w') = out at hrun
  cases hrun with
  | plain hu => rw [(C50_pool_iff walk true paths w.files fs).mpr ⟨rfl, hmany, hh, hf⟩] at hu; cases hu
  | pool fs' sched order hu hnd hdone hall =>
    rw [(C50_pool_iff walk true paths w.files fs).mpr ⟨rfl, hmany, hh, hf⟩] at hu
    cases hu
    simp only [Prod.mk.injEq] at hq
    obtain ⟨-, rs, hrs, r, hr, hn⟩ := (run_yieldCarried ch _ n w).2 e hq.2.1.symm
    obtain ⟨p1, p2, -⟩ := pool_state env (stable_none env) false hook fs w (fun p _ => Or.inr rfl)
      (List.pairwise_iff_forall_sublist.mpr (fun _ _ h => h)) sched
    obtain ⟨i, hi, hri⟩ := List.mem_filterMap.mp hrs
    obtain ⟨k, hk, hkd⟩ := hdone i hi
    rw [hk] at hri
    cases hri
    have hl : i < fs.length := by
      by_cases hl : i < (runPool sched (startWorkers env false hook fs) w).1.length
      · omega
      · rw [List.getElem?_eq_none (by omega)] at hk; cases hk
    obtain ⟨g1, -⟩ := p2 i _ (List.getElem?_eq_getElem hl)
    rw [hk, Option.some.injEq] at g1
    rw [g1] at hkd hr
    have := stepsOf_drain _ _ _ _ hkd
    rw [this.1] at hr
    exact hn (hok _ (List.getElem_mem hl) r (by simpa [alone] using hr))

/-- C120: without the pool (one file, or `parallel=False`) nothing is sent anywhere. -/
theorem C120_alone (autofix hook parallel : Bool) (paths : List Path) (ss : List Answer) (w : World) (hno : usesPool (walk w.files) parallel paths = none) (out : List Result × Status Unit × World) :
    CarriedRun env ch walk autofix hook parallel paths ss w out ↔ PathsRun env walk autofix hook parallel paths ss w out := by
  constructor
  · intro h
    cases h with
    | plain hu => exact .plain hu
    | pool _ _ _ hu => rw [hno] at hu; cases hu
  · intro h
    cases h with
    | plain hu => exact .plain hu
    | pool _ _ _ hu => rw [hno] at hu; cases hu

end

/-! ## Cases -/

/-- Only parse errors (`other 7`) cannot be sent. -/
def toyChannel : Channel := ⟨fun e => match e with | .other 7 => none | e => some e, .other 8⟩

def toyPool (f g : Bytes) : List Worker × World :=
  runPool (List.replicate 20 [0, 1]).flatten (startWorkers (toyEnv none none []) false false [[py "f"], [py "g"]]) (twoFiles f g)

/-- C120: `f` cannot be parsed and that cannot be told: what was found in `g` is not shown. -/
example : ((yieldCarried toyChannel (arrived (toyPool [120] [97, 98]).1 [0, 1])).run (List.replicate 3 none) (twoFiles [120] [97, 98])).1.length = 0 ∧
    ((yieldCarried toyChannel (arrived (toyPool [120] [97, 98]).1 [0, 1])).run (List.replicate 3 none) (twoFiles [120] [97, 98])).2.1 = .raised (.other 8) := ⟨by decide +kernel, rfl⟩

/-- C120: with `parallel=False` the same files give both results. -/
example : ((fixitPaths (toyEnv none none []) toyWalk false false [[py "d"]]).run (List.replicate 3 none) (twoFiles [120] [97, 98])).1.map (fun r => (r.path, r.error.isSome)) =
      [([py "root", py "f"], true), ([py "root", py "g"], false)] := by decide +kernel

/-- C120: the hypotheses of `C120_breaks` are met. -/
example (n : Nat) (ys : List Result) (st : Status Unit) (w' : World)
    (hrun : CarriedRun (toyEnv none none []) toyChannel toyWalk false false true [[py "d"]] (List.replicate n none) (twoFiles [120] [97, 98]) (ys, st, w')) :
    st = .suspended ∨ st = .raised (.other 8) :=
  C120_breaks (toyEnv none none []) toyChannel toyWalk false [[py "d"]] n (twoFiles [120] [97, 98]) [[py "f"], [py "g"]] (by decide) rfl (by decide) [py "f"] (by simp)
    ⟨[py "root", py "f"], none, some (.other 7)⟩ List.mem_cons_self (.other 7) rfl rfl ys st w' hrun

/-- C120: a run that completes, all of whose results can be sent. -/
example : ((yieldCarried toyChannel (arrived (toyPool [98] [97, 100]).1 [1, 0])).run (List.replicate 3 none) (twoFiles [98] [97, 100])).1.map (fun r => r.path) =
      [[py "root", py "g"], [py "root", py "f"]] ∧
    isReturned ((yieldCarried toyChannel (arrived (toyPool [98] [97, 100]).1 [1, 0])).run (List.replicate 3 none) (twoFiles [98] [97, 100])).2.1 = true := by decide +kernel

end Fixit
