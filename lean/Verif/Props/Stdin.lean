import Verif.Props.Api

/-!
# C48: standard input
-/

namespace Fixit
open Py Spec Gen

variable {C : Type} (env : Env C)

/-- The writes to standard output among some events. -/
def stdoutWrites (evs : List Event) : List Bytes := evs.filterMap (fun e => match e with | .stdout b => some b | _ => none)

theorem stdoutWrites_append (a b : List Event) : stdoutWrites (a ++ b) = stdoutWrites a ++ stdoutWrites b := by simp [stdoutWrites]

theorem stdoutWrites_hook (hook : Bool) (μ : Metrics) : stdoutWrites (hookEvents hook μ) = [] := by cases hook <;> rfl

/-- `fixit_bytes` itself prints nothing. -/
theorem bytesFinish_quiet (files : Path → Option Bytes) (path : Path) (content : Bytes) (cfg : C) (autofix hook : Bool) (ss : List Answer) :
    ∃ evs, stdoutWrites evs = [] ∧ (bytesFinish env files path content cfg autofix hook ss).upd = logged evs := by
  have hid : ∃ evs : List Event, stdoutWrites evs = [] ∧ (id : World → World) = logged evs := ⟨[], rfl, by funext w; simp [logged]⟩
  unfold bytesFinish
  split
  · exact hid
  · exact hid
  · split
    · exact hid
    · split
      · exact hid
      · split
        · exact hid
        · simp only
          split
          · exact ⟨_, stdoutWrites_hook _ _, rfl⟩
          · split
            · exact ⟨_, stdoutWrites_hook _ _, rfl⟩
            · split
              · exact ⟨_, stdoutWrites_hook _ _, rfl⟩
              · split
                · exact ⟨_, stdoutWrites_hook _ _, rfl⟩
                · exact ⟨_, stdoutWrites_hook _ _, rfl⟩

/-- Reading standard input and configuring. -/
def stdinLoaded (files : Path → Option Bytes) (path : Path) : Except Err (Bytes × C) :=
  match env.stdin with
  | .error e => .error e
  | .ok content => match env.config files path with
    | .error e => .error e
    | .ok cfg => .ok (content, cfg)

/-- Nothing was read: only the exception is reported. -/
theorem run_lintStdin_error (path : Path) (autofix hook : Bool) (ss : List Answer) (w : World) (e : Err) (h : stdinLoaded env w.files path = .error e) :
    (lintStdin env path autofix hook).run ss w = ([errorResult path e], if ss.length = 0 then .suspended else .returned (), w) := by
  unfold lintStdin
  rw [run_except]
  have : ((Gen.ofExcept env.stdin).bind (fun content => .look (fun w => (Gen.ofExcept (env.config w.files path)).bind (fun cfg =>
      (fixitBytes env path content cfg autofix hook).bind (fun updated =>
        if autofix then writeStdout env (orElseBytes updated content) else .ret ())))) : Linting Unit).run ss w = ([], .raised e, w) := by
    unfold stdinLoaded at h
    cases hs : env.stdin with
    | error e' => rw [hs] at h; injection h with h; subst h; rfl
    | ok content =>
      rw [hs] at h
      cases hc : env.config w.files path with
      | error e' =>
        rw [hc] at h; injection h with h; subst h
        simp [look, Gen.bind, run, hc, Gen.ofExcept]
      | ok cfg => rw [hc] at h; simp at h
  rw [this]
  simp [run_yieldError']

/-- The run once standard input was read. -/
theorem run_lintStdin (path : Path) (autofix hook : Bool) (ss : List Answer) (w : World) (content : Bytes) (cfg : C)
    (h : stdinLoaded env w.files path = .ok (content, cfg)) :
    (lintStdin env path autofix hook).run ss w =
      (((fixitBytes env path content cfg autofix hook).bind (fun updated =>
        if autofix then writeStdout env (orElseBytes updated content) else .ret ())).except (yieldError path)).run ss w := by
  unfold stdinLoaded at h
  cases hs : env.stdin with
  | error e' => rw [hs] at h; simp at h
  | ok content' =>
    rw [hs] at h
    cases hc : env.config w.files path with
    | error e' => rw [hc] at h; simp at h
    | ok cfg' =>
      rw [hc] at h
      simp only [Except.ok.injEq, Prod.mk.injEq] at h
      obtain ⟨rfl, rfl⟩ := h
      unfold lintStdin
      rw [run_except, run_except]
      have : ((Gen.ofExcept env.stdin).bind (fun content => .look (fun w => (Gen.ofExcept (env.config w.files path)).bind (fun cfg =>
          (fixitBytes env path content cfg autofix hook).bind (fun updated =>
            if autofix then writeStdout env (orElseBytes updated content) else .ret ())))) : Linting Unit).run ss w =
          ((fixitBytes env path content' cfg' autofix hook).bind (fun updated =>
            if autofix then writeStdout env (orElseBytes updated content') else .ret ())).run ss w := by
        rw [hs]
        simp only [look, Gen.bind, run, hc, Gen.ofExcept, id]
      rw [this]

theorem run_writeStdout (b : Bytes) (ss : List Answer) (w : World) :
    (writeStdout env b).run ss w = match env.stdoutRaises b with
      | some e => ([], .raised e, w)
      | none => ([], .returned (), { w with log := w.log ++ [.stdout b] }) := by
  unfold writeStdout
  cases env.stdoutRaises b <;> rfl

/-- A run of `fixit_bytes` never raises, prints nothing, and returns what `bytesFinish` says. -/
theorem fixitBytes_facts (path : Path) (content : Bytes) (cfg : C) (autofix hook : Bool) (ss : List Answer) (w : World) :
    ∃ ys st evs, (fixitBytes env path content cfg autofix hook).run ss w = (ys, st, ⟨w.files, w.log ++ evs⟩) ∧ stdoutWrites evs = [] ∧
      (st = .suspended ∨ (st = .returned (bytesFinish env w.files path content cfg autofix hook ss).ret ∧
        ys = (found env w.files path content cfg).map (reporting path) ++ (bytesFinish env w.files path content cfg autofix hook ss).last.toList)) := by
  have hrun := run_fixitBytes env path content cfg autofix hook ss w _ rfl
  obtain ⟨evs, he, hu⟩ := bytesFinish_quiet env w.files path content cfg autofix hook ss
  by_cases hk : ss.length < (found env w.files path content cfg).length
  · rw [script_lt _ _ _ _ _ hk] at hrun
    exact ⟨_, _, [], by rw [hrun, List.append_nil], rfl, Or.inl rfl⟩
  · cases hl : (bytesFinish env w.files path content cfg autofix hook ss).last with
    | some r =>
      rw [script_some _ _ _ r _ _ hk hl, hu] at hrun
      refine ⟨_, _, evs, hrun, he, ?_⟩
      by_cases h0 : ss.length = (found env w.files path content cfg).length
      · rw [if_pos h0]; exact Or.inl rfl
      · rw [if_neg h0]; exact Or.inr ⟨rfl, rfl⟩
    | none =>
      rw [script_none _ _ _ _ _ hk hl, hu] at hrun
      exact ⟨_, _, evs, hrun, he, Or.inr ⟨rfl, by simp⟩⟩

/-- **C48** Without autofix, standard output is never written, wherever the run stops. -/
theorem C48_lint_prints_nothing (path : Path) (hook : Bool) (ss : List Answer) (w : World) :
    stdoutWrites (newEvents w ((fixitStdin env path false hook).run ss w).2.2) = [] := by
  unfold fixitStdin
  have hnil : newEvents w w = [] := by simp [newEvents]
  cases h : stdinLoaded env w.files (env.resolve path) with
  | error e => rw [run_lintStdin_error env _ false hook ss w e h, hnil]; rfl
  | ok cc =>
    obtain ⟨content, cfg⟩ := cc
    rw [run_lintStdin env _ false hook ss w content cfg h]
    obtain ⟨ys, st, evs, hr, he, hst⟩ := fixitBytes_facts env (env.resolve path) content cfg false hook ss w
    rw [run_except, run_bind, hr]
    have hw : newEvents w ⟨w.files, w.log ++ evs⟩ = evs := newEvents_append w _ evs rfl
    rcases hst with rfl | ⟨rfl, -⟩
    · simp only [hw, he]
    · simp only [Bool.false_eq_true, if_false, run, hw, he]

/-- **C48** With autofix: while results are still being handed out nothing is printed; a completed run prints exactly once (unless standard output itself
fails, which is reported as a result), and only after every violation was handed out. What is printed is the fixed content if linting produced one that is
not empty, and otherwise exactly what was read. -/
theorem C48_prints_once (path : Path) (hook : Bool) (ss : List Answer) (w w' : World) (ys : List Result) (st : Status Unit) (content : Bytes) (cfg : C)
    (hin : env.stdin = .ok content) (hcfg : env.config w.files (env.resolve path) = .ok cfg)
    (hr : (fixitStdin env path true hook).run ss w = (ys, st, w')) :
    (st = .suspended ∧ stdoutWrites (newEvents w w') = []) ∨
    (∃ b, stdoutWrites (newEvents w w') = [b] ∧ st = .returned () ∧ env.stdoutRaises b = none ∧
      ys.take (found env w.files (env.resolve path) content cfg).length = (found env w.files (env.resolve path) content cfg).map (reporting (env.resolve path)) ∧
      ((∃ r ∈ ys, r.error ≠ none) ∨ found env w.files (env.resolve path) content cfg = [] → b = content) ∧
      ((∀ r ∈ ys, r.error = none) → found env w.files (env.resolve path) content cfg ≠ [] →
        ∃ fixed, fixedContent env (env.resolve path) content cfg (found env w.files (env.resolve path) content cfg) = .ok fixed ∧
          b = if fixed = [] then content else fixed)) ∨
    (∃ b e, env.stdoutRaises b = some e ∧ errorResult (env.resolve path) e ∈ ys ∧ stdoutWrites (newEvents w w') = []) := by
  unfold fixitStdin at hr
  have hload : stdinLoaded env w.files (env.resolve path) = .ok (content, cfg) := by simp [stdinLoaded, hin, hcfg]
  generalize env.resolve path = p at *
  rw [run_lintStdin env p true hook ss w content cfg hload] at hr
  obtain ⟨zs, zt, evs, hz, he, hst⟩ := fixitBytes_facts env p content cfg true hook ss w
  have hlen : ∀ u, zt = .returned u → (found env w.files p content cfg).length ≤ ss.length := by
    intro u hu
    have hrun := run_fixitBytes env p content cfg true hook ss w _ rfl
    by_cases hk : ss.length < (found env w.files p content cfg).length
    · rw [script_lt _ _ _ _ _ hk, hz, hu] at hrun
      simp at hrun
    · omega
  rw [run_except, run_bind, hz] at hr
  have hw : newEvents w ⟨w.files, w.log ++ evs⟩ = evs := newEvents_append w _ evs rfl
  rcases hst with rfl | ⟨rfl, hzs⟩
  · simp only [Prod.mk.injEq] at hr
    left
    exact ⟨hr.2.1.symm, by rw [← hr.2.2, hw, he]⟩
  · simp only [if_true, run_writeStdout] at hr
    have hlen := hlen _ rfl
    cases hs : env.stdoutRaises (orElseBytes (bytesFinish env w.files p content cfg true hook ss).ret content) with
    | some e =>
      right; right
      rw [hs] at hr
      simp only [run_yieldError', Prod.mk.injEq] at hr
      exact ⟨_, e, hs, by rw [← hr.1]; simp, by rw [← hr.2.2, hw, he]⟩
    | none =>
      right; left
      rw [hs] at hr
      simp only [List.append_nil, Prod.mk.injEq] at hr
      obtain ⟨hys, hst, hw'⟩ := hr
      have hbl := bytesFinish_last env w.files p content cfg true hook ss
      refine ⟨_, ?_, hst.symm, hs, ?_, ?_, ?_⟩
      · have : newEvents w w' = evs ++ [.stdout (orElseBytes (bytesFinish env w.files p content cfg true hook ss).ret content)] := by
          rw [← hw']
          exact newEvents_append w _ _ (by simp)
        rw [this, stdoutWrites_append, he]; rfl
      · rw [← hys, hzs, List.take_left' (by simp)]
      · intro hcase
        have hnone : (bytesFinish env w.files p content cfg true hook ss).ret = none := by
          cases hl : (bytesFinish env w.files p content cfg true hook ss).last with
          | some r => exact bytesFinish_ret env _ _ _ _ _ _ _ r hl
          | none =>
            rw [hl] at hbl
            exfalso
            rcases hcase with ⟨r, hr, hre⟩ | hcase
            · rw [← hys, hzs, hl] at hr
              simp only [Option.toList, List.append_nil, List.mem_map] at hr
              obtain ⟨v, -, rfl⟩ := hr
              exact hre rfl
            · exact hbl hcase
        rw [hnone]; rfl
      · intro hne hf
        have hl : (bytesFinish env w.files p content cfg true hook ss).last = none := by
          cases hl : (bytesFinish env w.files p content cfg true hook ss).last with
          | none => rfl
          | some r =>
            rw [hl] at hbl hzs
            rcases hbl with ⟨-, h⟩ | ⟨e, h⟩
            · exact absurd h hf
            · have := hne r (by rw [← hys, hzs]; simp)
              rw [h] at this
              simp [errorResult] at this
        obtain ⟨b, hb⟩ := bytesFinish_ret_some env w.files p content cfg true hook ss hl (by rwa [accepted_all _ _ hlen])
        have hfc := (bytesFinish_some env w.files p content cfg true hook ss b hb).2
        rw [accepted_all _ _ hlen] at hfc
        refine ⟨b, hfc, ?_⟩
        rw [hb]
        cases b <;> simp [orElseBytes]

/-- **C48** When standard input or the configuration cannot be read, only that exception is reported and nothing is printed. -/
theorem C48_unreadable (path : Path) (autofix hook : Bool) (ss : List Answer) (w : World) (e : Err)
    (h : env.stdin = .error e ∨ ∃ content, env.stdin = .ok content ∧ env.config w.files (env.resolve path) = .error e) :
    ((fixitStdin env path autofix hook).run ss w).1 = [errorResult (env.resolve path) e] ∧
    ((fixitStdin env path autofix hook).run ss w).2.2 = w := by
  have : stdinLoaded env w.files (env.resolve path) = .error e := by
    rcases h with h | ⟨content, h, h'⟩
    · simp [stdinLoaded, h]
    · simp [stdinLoaded, h, h']
  unfold fixitStdin
  rw [run_lintStdin_error env _ autofix hook ss w e this]
  exact ⟨rfl, rfl⟩

/-- **C45** Iterating `fixit_stdin` never raises either. -/
theorem C45_stdin_never_raises (path : Path) (autofix hook : Bool) (ss : List Answer) (w : World) (e : Err) :
    ((fixitStdin env path autofix hook).run ss w).2.1 ≠ .raised e := by
  unfold fixitStdin lintStdin
  rw [run_except]
  split
  · simp
  · simp only [run_yieldError']
    split <;> simp
  · simp

/-- What linting standard input does to the world: it calls the metrics hook, if there is one, and writes to standard output, if fixing. -/
theorem stdin_keeps (P : World → Prop) (path : Path) (autofix hook : Bool)
    (hhook : hook = true → ∀ μ (u : World), P u → P { u with log := u.log ++ [.hook μ] })
    (hout : ∀ b (u : World), P u → P { u with log := u.log ++ [.stdout b] }) : Keeps P (fixitStdin env path autofix hook) := by
  have hlook : ∀ {Y S R : Type} {k : World → Gen World Y S R}, (∀ u, Keeps P (k u)) → Keeps P (look k) :=
    fun h => .act _ _ (fun u hu => hu) (fun u _ => h u)
  have hof : ∀ {Y S R : Type} (r : Except Err R), Keeps P (Gen.ofExcept r : Gen World Y S R) := by
    intro Y S R r; cases r <;> constructor
  have hvl : ∀ (m : Node) (name : PStr) (vs : List (Violation Nat Repl)) (st : Nat × Metrics),
      Keeps P (violationLoop env (env.resolve path) m name vs st) := by
    intro m name vs
    induction vs with
    | nil => intro st; exact .ret st
    | cons v vs ih =>
      intro st
      obtain ⟨n, μ⟩ := st
      unfold violationLoop
      split
      · split
        · exact .raise _
        · exact .yield _ _ (fun _ => ih _)
      · exact .yield _ _ (fun _ => ih _)
  have hrl : ∀ (m : Node) (recorded : RuleInst → List (Violation Nat Repl)) (rs : List RuleInst) (st : Nat × Metrics),
      Keeps P (ruleLoop env (env.resolve path) m recorded rs st) := by
    intro m recorded rs
    induction rs with
    | nil => intro st; exact .ret st
    | cons r rs ih => intro st; obtain ⟨n, μ⟩ := st; unfold ruleLoop; exact (hvl _ _ _ _).bind (fun st => ih st)
  have hcall : ∀ {Y S : Type} (μ : Metrics), Keeps P (callHook env hook μ : Gen World Y S Unit) := by
    intro Y S μ
    unfold callHook
    split
    · rename_i hk
      refine .act _ _ (fun u hu => hhook hk μ u hu) (fun u _ => ?_)
      split <;> constructor
    · exact .ret _
  have herr : ∀ e, Keeps P (yieldError (env.resolve path) e) := fun e => .yield _ _ (fun _ => .ret _)
  unfold fixitStdin lintStdin
  refine Keeps.except ((hof _).bind (fun content => hlook (fun u => (hof _).bind (fun cfg => Keeps.bind ?_ (fun upd => ?_))))) herr
  · unfold fixitBytes
    refine Keeps.except ?_ (fun e => (herr e).bind (fun _ => .ret _))
    unfold bytesBody
    refine hlook (fun u => (hof _).bind (fun rules => ?_))
    split
    · exact Keeps.bind (.yield _ _ (fun _ => .ret _)) (fun _ => .ret _)
    · refine (hof _).bind (fun m => Keeps.bind ?_ (fun st => ?_))
      · refine Keeps.forIn ?_ (fun z t => .yield _ _ (fun _ => .ret _)) _
        unfold collectViolations
        exact hlook (fun u => (hof _).bind (fun rd => (hrl _ _ _ _).bind (fun nm => (hcall _).bind (fun _ => .ret _))))
      · unfold finishBytes
        refine Keeps.bind ?_ (fun _ => ?_)
        · split
          · exact .yield _ _ (fun _ => .ret _)
          · exact .ret _
        · split
          · exact .ret _
          · exact hof _
  · split
    · unfold writeStdout
      split
      · exact .raise _
      · exact .act _ _ (fun u hu => hout _ u hu) (fun _ _ => .ret _)
    · exact .ret _

/-- **C48** Linting standard input, with or without fixing, never touches a file, wherever it stops. -/
theorem C48_files_untouched (path : Path) (autofix hook : Bool) (ss : List Answer) (w w' : World) (hw : w' ∈ (fixitStdin env path autofix hook).worlds ss w) :
    w'.files = w.files :=
  (stdin_keeps env (fun u => u.files = w.files) path autofix hook (fun _ _ _ h => h) (fun _ _ h => h)).worlds ss w rfl w' hw

end Fixit
