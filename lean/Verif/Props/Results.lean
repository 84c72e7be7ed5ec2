import Verif.Props.Stopping
import Verif.Props.Stdin

/-!
# What every result says, whichever way fixit is called (C54); fixes that would leave nothing (C53)
-/

namespace Fixit
open Py Spec Gen

/-! ## Everything a generator hands out, in whatever world it is resumed -/

/-- Everything the generator yields satisfies `P`, whatever it is sent and whatever the world is when it looks. -/
inductive Emits {W Y Q R : Type} (P : Y → Prop) : Gen W Y Q R → Prop
  | ret (r : R) : Emits P (.ret r)
  | raise (e : Err) : Emits P (.raise e)
  | yield (y : Y) (k : Q → Gen W Y Q R) : P y → (∀ s, Emits P (k s)) → Emits P (.yield y k)
  | act (a : W → W) (k : W → Gen W Y Q R) : (∀ w, Emits P (k w)) → Emits P (.act a k)

namespace Emits
variable {W Y Q R : Type} {P : Y → Prop}

theorem bind {T : Type} {g : Gen W Y Q R} (hg : Emits P g) {f : R → Gen W Y Q T} (hf : ∀ r, Emits P (f r)) : Emits P (g.bind f) := by
  induction hg with
  | ret r => exact hf r
  | raise e => exact .raise e
  | yield y k hy _ ih => exact .yield y _ hy ih
  | act a k _ ih => exact .act a _ ih

theorem except {g : Gen W Y Q R} (hg : Emits P g) {h : Err → Gen W Y Q R} (hh : ∀ e, Emits P (h e)) : Emits P (g.except h) := by
  induction hg with
  | ret r => exact .ret r
  | raise e => exact hh e
  | yield y k hy _ ih => exact .yield y _ hy ih
  | act a k _ ih => exact .act a _ ih

theorem forIn {Z T : Type} {body : Z → T → Gen W Y Q T} (hb : ∀ z t, Emits P (body z t)) : ∀ (g : Gen W Z Unit R) (t : T), Emits P (g.forIn body t)
  | .ret _, t => .ret t
  | .raise e, _ => .raise e
  | .yield z k, t => (hb z t).bind (fun t' => forIn hb (k ()) t')
  | .act a k, t => .act a _ (fun w => forIn hb (k w) t)

theorem ofExcept (r : Except Err R) : Emits P (Gen.ofExcept r : Gen W Y Q R) := by cases r <;> constructor

theorem look {k : W → Gen W Y Q R} (h : ∀ w, Emits P (k w)) : Emits P (Gen.look k) := .act _ _ h

theorem run {g : Gen W Y Q R} (h : Emits P g) : ∀ (ss : List Q) (w : W), ∀ y ∈ (g.run ss w).1, P y := by
  induction h with
  | ret r => intro ss w y hy; simp [Gen.run] at hy
  | raise e => intro ss w y hy; simp [Gen.run] at hy
  | yield y k hy _ ih =>
    intro ss w z hz
    cases ss with
    | nil => simp only [Gen.run, List.mem_singleton] at hz; exact hz ▸ hy
    | cons s ss =>
      simp only [Gen.run, List.mem_cons] at hz
      rcases hz with rfl | hz
      · exact hy
      · exact ih s ss w z hz
  | act a k _ ih => intro ss w z hz; exact ih w ss (a w) z hz

end Emits

variable {C : Type} (env : Env C)

theorem emits_bytes (path : Path) (content : Bytes) (cfg : C) (autofix hook : Bool) :
    Emits (fun r : Result => r.path = path) (fixitBytes env path content cfg autofix hook) := by
  have herr : ∀ e, Emits (fun r : Result => r.path = path) (yieldError path e) := fun e => .yield _ _ rfl (fun _ => .ret _)
  unfold fixitBytes
  refine Emits.except ?_ (fun e => (herr e).bind (fun _ => .ret _))
  unfold bytesBody
  refine Emits.look (fun u => (Emits.ofExcept _).bind (fun rules => ?_))
  split
  · exact Emits.bind (show Emits _ (yieldClean path) from .yield _ _ (by rfl) (fun _ => .ret _)) (fun _ => .ret _)
  · refine (Emits.ofExcept _).bind (fun m => Emits.bind ?_ (fun st => ?_))
    · exact Emits.forIn (fun z t => show Emits _ (onViolation path autofix z t) from .yield _ _ (by rfl) (fun _ => .ret _)) _ _
    · unfold finishBytes
      refine Emits.bind ?_ (fun _ => ?_)
      · split
        · exact .yield _ _ rfl (fun _ => .ret _)
        · exact .ret _
      · split
        · exact .ret _
        · exact .ofExcept _

theorem emits_stdin (path : Path) (autofix hook : Bool) : Emits (fun r : Result => r.path = env.resolve path) (fixitStdin env path autofix hook) := by
  unfold fixitStdin lintStdin
  refine Emits.except ((Emits.ofExcept _).bind (fun content => Emits.look (fun u => (Emits.ofExcept _).bind (fun cfg => (emits_bytes env _ _ _ _ _).bind (fun upd => ?_)))))
    (fun e => .yield _ _ rfl (fun _ => .ret _))
  split
  · unfold writeStdout
    split
    · exact .raise _
    · exact .act _ _ (fun _ => .ret _)
  · exact .ret _

theorem emits_file (path : Path) (autofix hook : Bool) : Emits (fun r : Result => r.path = env.resolve path) (fixitFile env path autofix hook) := by
  unfold fixitFile lintFile
  refine Emits.except (Emits.bind ?_ (fun content => Emits.look (fun u => (Emits.ofExcept _).bind (fun cfg => (emits_bytes env _ _ _ _ _).bind (fun upd => ?_)))))
    (fun e => .yield _ _ rfl (fun _ => .ret _))
  · unfold readBytes
    refine Emits.look (fun u => ?_)
    split
    · exact .raise _
    · split
      · exact .raise _
      · exact .ret _
  · unfold writeBack
    repeat' split
    all_goals first
      | exact .ret _
      | (unfold writeBytes
         repeat' split
         all_goals first
           | exact .raise _
           | (refine .act _ _ (fun _ => .act _ _ (fun _ => ?_)); first | exact .ret _ | exact .raise _))

/-! ## C54 -/

/-- **C54** Every result about standard input names it as the caller did. -/
theorem C54_stdin (path : Path) (autofix hook : Bool) (ss : List Answer) (w : World) (r : Result)
    (hr : r ∈ ((fixitStdin env path autofix hook).run ss w).1) : r.path = env.resolve path :=
  (emits_stdin env path autofix hook).run ss w r hr

theorem emits_each (autofix hook : Bool) : ∀ fs : List Path, Emits (fun r : Result => ∃ f ∈ fs, r.path = env.resolve f) (eachFile env autofix hook fs)
  | [] => .ret _
  | f :: fs => by
    have weaken : ∀ {P P' : Result → Prop} (g : Linting Unit), (∀ r, P r → P' r) → Emits P g → Emits P' g := by
      intro P P' g h hg
      induction hg with
      | ret r => exact .ret r
      | raise e => exact .raise e
      | yield y k hy _ ih => exact .yield y k (h y hy) ih
      | act a k _ ih => exact .act a k ih
    unfold eachFile
    exact (weaken _ (fun r hr => ⟨f, List.mem_cons_self .., hr⟩) (emits_file env f autofix hook)).bind
      (fun _ => weaken _ (fun r ⟨f', h1, h2⟩ => ⟨f', List.mem_cons_of_mem _ h1, h2⟩) (emits_each autofix hook fs))

theorem emits_yieldList (P : Result → Prop) : ∀ rs : List Result, (∀ r ∈ rs, P r) → Emits P (yieldList rs)
  | [], _ => .ret _
  | r :: rs, h => by
    unfold yieldList
    refine .yield _ _ (h r (by simp)) (fun s => ?_)
    cases s with
    | none => exact emits_yieldList P rs (fun x hx => h x (by simp [hx]))
    | some b => exact .raise _

theorem emits_yieldLists (P : Result → Prop) : ∀ rss : List (List Result), (∀ rs ∈ rss, ∀ r ∈ rs, P r) → Emits P (yieldLists rss)
  | [], _ => .ret _
  | rs :: rss, h => by
    unfold yieldLists
    exact (emits_yieldList P rs (h rs (by simp))).bind (fun _ => emits_yieldLists P rss (fun x hx => h x (by simp [hx])))

/-- Whatever steps the workers take. -/
theorem pool_emits (P : Result → Prop) : ∀ (sched : List Nat) (ks : List Worker) (w : World), (∀ k ∈ ks, Emits P k.rest ∧ ∀ r ∈ k.out, P r) →
    ∀ k ∈ (runPool sched ks w).1, ∀ r ∈ k.out, P r
  | [], ks, w, h => fun k hk => (h k hk).2
  | i :: sched, ks, w, h => by
    unfold runPool
    split
    · exact pool_emits P sched ks w h
    · rename_i k hk
      refine pool_emits P sched _ _ ?_
      intro k' hk'
      rcases List.mem_or_eq_of_mem_set hk' with h1 | rfl
      · exact h k' h1
      · obtain ⟨h1, h2⟩ := h k (List.mem_of_getElem? hk)
        unfold Worker.step
        split
        · exact ⟨h1, h2⟩
        · exact ⟨h1, h2⟩
        · rename_i y c hy
          rw [hy] at h1
          cases h1 with
          | yield _ _ hy hk =>
            refine ⟨hk none, ?_⟩
            intro r hr
            simp only [List.mem_append, List.mem_singleton] at hr
            rcases hr with hr | rfl
            · exact h2 r hr
            · exact hy
        · rename_i a c hy
          rw [hy] at h1
          cases h1 with
          | act _ _ hk => exact ⟨hk w, h2⟩

/-- **C54** Whatever `fixit_paths` yields for files, with or without the pool, under any schedule, whatever it is answered, however it ends, and even when
the same file is given twice or the files are part of the configuration: each result names one of the files found. -/
theorem C54_paths (walk : (Path → Option Bytes) → Path → Except Err (List Path)) (autofix hook parallel : Bool) (paths : List Path) (ss : List Answer)
    (w w' : World) (ys : List Result) (st : Status Unit) (fs : List Path) (hh : paths.head? ≠ some [py "-"])
    (hf : filesUnder (walk w.files) (paths.filter (· ≠ [py "-"])) = .ok fs) (hr : PathsRun env walk autofix hook parallel paths ss w (ys, st, w')) :
    ∀ r ∈ ys, ∃ f ∈ fs, r.path = env.resolve f := by
  intro r hry
  generalize hout : (ys, st, w') = out at hr
  cases hr with
  | plain hn =>
    rw [C50_files env walk autofix hook paths ss w fs hh hf] at hout
    have h1 : ys = _ := congrArg Prod.fst hout
    rw [h1] at hry
    exact (emits_each env autofix hook fs).run ss w r hry
  | pool fs' sched order hu hd hdone hall =>
    have hfs : fs' = fs := by
      have := ((C50_pool_iff walk parallel paths w.files fs').mp hu).2.2.2
      rw [hf] at this
      exact (Except.ok.inj this).symm
    subst hfs
    have h1 : ys = _ := congrArg Prod.fst hout
    rw [h1] at hry
    refine (emits_yieldLists (fun r => ∃ f ∈ fs', r.path = env.resolve f) _ ?_).run ss w r hry
    intro rs hrs x hx
    simp only [arrived, List.mem_filterMap, Option.map_eq_some_iff] at hrs
    obtain ⟨i, hi, k, hk, rfl⟩ := hrs
    refine pool_emits (fun r => ∃ f ∈ fs', r.path = env.resolve f) sched _ w ?_ k (List.mem_of_getElem? hk) x hx
    intro k' hk'
    simp only [startWorkers, List.mem_map] at hk'
    obtain ⟨p, hp, rfl⟩ := hk'
    refine ⟨?_, by simp⟩
    have weaken : ∀ {P P' : Result → Prop} (g : Linting Unit), (∀ r, P r → P' r) → Emits P g → Emits P' g := by
      intro P P' g h hg
      induction hg with
      | ret r => exact .ret r
      | raise e => exact .raise e
      | yield y k hy _ ih => exact .yield y k (h y hy) ih
      | act a k _ ih => exact .act a k ih
    exact weaken _ (fun r hr => ⟨p, hp, hr⟩) (emits_file env p autofix hook)

/-- C54: standard input under the name `g`, and two files under a directory. -/
example : ((fixitStdin (toyEnv none none [98, 110]) [py "g"] true false).run [none, none, none] (twoFiles [] [])).1.map (·.path) =
      [[py "root", py "g"], [py "root", py "g"]] ∧
    ((fixitPaths (toyEnv none none []) toyWalk true false [[py "d"]]).run (List.replicate 5 none) (twoFiles [98] [120])).1.map (·.path) =
      [[py "root", py "f"], [py "root", py "g"]] := by decide

/-! ## C53 -/

/-- **C53** When the accepted fixes leave nothing, the run is, in results, effects and everything else, the one in which no fix was accepted: no error is
reported and nothing is written. -/
theorem C53_as_if_declined (path : Path) (autofix hook : Bool) (ss : List Answer) (w : World) (content : Bytes) (cfg : C)
    (hl : loaded env w.files (env.resolve path) = .ok (content, cfg))
    (he : fixedContent env (env.resolve path) content cfg (accepted autofix (found env w.files (env.resolve path) content cfg) ss) = .ok []) :
    (fixitFile env path autofix hook).run ss w = (fixitFile env path false hook).run (ss.map (fun _ => none)) w := by
  have hb : ∀ vs : List LintViolation, accepted false vs (ss.map (fun _ => (none : Answer))) = [] := by
    intro vs
    unfold accepted
    rw [List.filterMap_eq_nil_iff]
    intro x hx
    have := (List.of_mem_zip hx).2
    rw [List.mem_map] at this
    obtain ⟨-, -, h⟩ := this
    simp [← h]
  unfold fixitFile
  rw [run_lintFile, run_lintFile]
  have hfin : fileFinish env w.files (env.resolve path) autofix hook ss = fileFinish env w.files (env.resolve path) false hook (ss.map (fun _ => none)) := by
    unfold fileFinish
    rw [hl]
    simp only
    unfold found at he
    unfold bytesFinish
    cases hc : env.collect w.files cfg with
    | error e => rfl
    | ok rules =>
      cases rules with
      | nil => rfl
      | cons r rs =>
        rw [hc] at he
        simp only at he ⊢
        cases hp : env.parse content with
        | error e => rfl
        | ok m =>
          rw [hp] at he
          simp only at he ⊢
          cases hv : env.visit w.files cfg m (r :: rs) with
          | error e => rfl
          | ok rd =>
            obtain ⟨recorded, durs⟩ := rd
            rw [hv] at he
            simp only at he ⊢
            cases hd : (displayed env (env.resolve path) m ((r :: rs).flatMap recorded)).2 with
            | some e => rfl
            | none =>
              simp only
              split
              · rfl
              · split
                · rfl
                · rw [hb]
                  rw [he]
                  simp only [List.isEmpty_nil, if_true]
                  split
                  · rfl
                  · simp [writeFinish]
  rw [hfin]
  simp only [script, List.length_map]

/-- **C53** On standard input: what is printed, if anything, is the original. -/
theorem C53_stdin (path : Path) (hook : Bool) (ss : List Answer) (w w' : World) (ys : List Result) (st : Status Unit) (content : Bytes) (cfg : C)
    (hin : env.stdin = .ok content) (hcfg : env.config w.files (env.resolve path) = .ok cfg)
    (hr : (fixitStdin env path true hook).run ss w = (ys, st, w'))
    (he : fixedContent env (env.resolve path) content cfg (found env w.files (env.resolve path) content cfg) = .ok []) :
    ∀ b ∈ stdoutWrites (newEvents w w'), b = content := by
  intro b hb
  rcases C48_prints_once env path hook ss w w' ys st content cfg hin hcfg hr with ⟨-, h⟩ | ⟨b', h1, -, -, -, h2, h3⟩ | ⟨-, -, -, -, h⟩
  · rw [h] at hb; simp at hb
  · rw [h1, List.mem_singleton] at hb
    subst hb
    by_cases hx : (∃ r ∈ ys, r.error ≠ none) ∨ found env w.files (env.resolve path) content cfg = []
    · exact h2 hx
    · obtain ⟨hx1, hx2⟩ := not_or.mp hx
      obtain ⟨fixed, h4, h5⟩ := h3 (fun r hr => Classical.byContradiction (fun hne => hx1 ⟨r, hr, hne⟩)) hx2
      rw [he] at h4
      rw [h5, ← Except.ok.inj h4, if_pos rfl]
  · rw [h] at hb; simp at hb

/-- C53: both statements of `dd` are to be removed; the hypotheses hold. -/
example :
    (loaded (toyEnv none none []) (toyWorld [100, 100]).files ((toyEnv none none []).resolve [py "f"])).toOption = some ([100, 100], ()) ∧
    (fixedContent (toyEnv none none []) [py "root", py "f"] [100, 100] ()
      (accepted true (found (toyEnv none none []) (toyWorld [100, 100]).files [py "root", py "f"] [100, 100] ()) [none, none])).toOption = some [] ∧
    accepted true (found (toyEnv none none []) (toyWorld [100, 100]).files [py "root", py "f"] [100, 100] ()) [none, none] ≠ [] := by
  refine ⟨by decide, by decide, fun h => ?_⟩
  have := congrArg List.length h
  revert this; decide

end Fixit
