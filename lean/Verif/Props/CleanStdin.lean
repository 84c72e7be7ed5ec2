import Verif.Props.CleanLint
import Verif.Props.StdinAsFile

/-!
# C146 for standard input
-/

namespace Fixit
open Py Spec Gen

section
variable {C : Type} (env : Env C)

/-- If there is no last result, something was found. -/
theorem bytesFinish_none (files : Path → Option Bytes) (path : Path) (content : Bytes) (cfg : C) (autofix hook : Bool) (ss : List Answer)
    (h : (bytesFinish env files path content cfg autofix hook ss).last = none) : found env files path content cfg ≠ [] := by
  unfold bytesFinish at h
  unfold found
  cases hc : env.collect files cfg with
  | error e => simp [hc] at h
  | ok rules =>
    cases rules with
    | nil => simp [hc] at h
    | cons r rs =>
      cases hpa : env.parse content with
      | error e => simp [hc, hpa] at h
      | ok m =>
        cases hvi : env.visit files cfg m (r :: rs) with
        | error e => simp [hc, hpa, hvi] at h
        | ok x =>
          obtain ⟨recorded, durs⟩ := x
          simp only [hc, hpa, hvi] at h ⊢
          split at h
          · cases h
          · split at h
            · cases h
            · intro he
              simp only [he, List.isEmpty_nil, if_true] at h
              cases h

/-- A last result reports no violation; without an error it is the clean one. -/
theorem bytesFinish_last_clean (files : Path → Option Bytes) (path : Path) (content : Bytes) (cfg : C) (autofix hook : Bool) (ss : List Answer) (r : Result)
    (h : (bytesFinish env files path content cfg autofix hook ss).last = some r) (he : r.error = none) : r = cleanResult path := by
  unfold bytesFinish at h
  repeat' (first | (simp only at h; split at h) | split at h)
  all_goals (first | (injection h with h; subst h; first | rfl | (simp [errorResult] at he)) | simp at h)

/-- When linting standard input reports nothing, so does fixing it, and what was read is printed. -/
theorem clean_stdin (name : Path) (hook : Bool) (ss : List Answer) (w w' : World) (rs : List Result)
    (hr : (fixitStdin env name false hook).run ss w = (rs, .returned (), w')) (hclean : ∀ r ∈ rs, r.violation = none ∧ r.error = none) :
    rs = [cleanResult (env.resolve name)] ∧ ∃ content, env.stdin = .ok content ∧
      (env.stdoutRaises content = none → ∃ w'', (fixitStdin env name true hook).drain none w = ([cleanResult (env.resolve name)], .returned (), w'') ∧
        w''.files = w.files ∧ stdoutWrites (newEvents w w'') = [content]) := by
  unfold fixitStdin at hr ⊢
  cases hl : stdinLoaded env w.files (env.resolve name) with
  | error e =>
    rw [run_lintStdin_error env _ false hook ss w e hl] at hr
    simp only [Prod.mk.injEq] at hr
    have := (hclean (errorResult (env.resolve name) e) (by rw [← hr.1]; simp)).2
    simp [errorResult] at this
  | ok cc =>
    obtain ⟨content, cfg⟩ := cc
    have hin : env.stdin = .ok content := by
      unfold stdinLoaded at hl
      cases hs : env.stdin with
      | error e => rw [hs] at hl; simp at hl
      | ok c =>
        rw [hs] at hl
        cases hc : env.config w.files (env.resolve name) with
        | error e => rw [hc] at hl; simp at hl
        | ok _ => rw [hc] at hl; simp at hl; rw [hl.1]
    rw [run_lintStdin env _ false hook ss w content cfg hl, run_except, run_bind, run_fixitBytes env _ content cfg false hook ss w _ rfl] at hr
    have hrs : rs = (found env w.files (env.resolve name) content cfg).map (reporting (env.resolve name)) ++
        (bytesFinish env w.files (env.resolve name) content cfg false hook ss).last.toList := by
      by_cases hk : ss.length < (found env w.files (env.resolve name) content cfg).length
      · rw [script_lt _ _ _ _ _ hk] at hr
        simp at hr
      · cases hb : (bytesFinish env w.files (env.resolve name) content cfg false hook ss).last with
        | none => rw [script_none _ _ _ _ _ hk hb] at hr; simp [run] at hr; rw [← hr.1]; simp
        | some r =>
          rw [script_some _ _ _ r _ _ hk hb] at hr
          by_cases h0 : ss.length = (found env w.files (env.resolve name) content cfg).length
          · rw [if_pos h0] at hr; simp at hr
          · rw [if_neg h0] at hr; simp [run] at hr; rw [← hr.1]; simp
    have hf : found env w.files (env.resolve name) content cfg = [] := by
      cases hx : found env w.files (env.resolve name) content cfg with
      | nil => rfl
      | cons v vs =>
        have := (hclean (reporting (env.resolve name) v) (by rw [hrs, hx]; simp)).1
        simp [reporting] at this
    have hlast : (bytesFinish env w.files (env.resolve name) content cfg false hook ss).last = some (cleanResult (env.resolve name)) := by
      cases hb : (bytesFinish env w.files (env.resolve name) content cfg false hook ss).last with
      | none => exact absurd hf (bytesFinish_none env _ _ _ _ _ _ _ hb)
      | some r => rw [bytesFinish_last_clean env _ _ _ _ _ _ _ r hb (hclean r (by rw [hrs, hb]; simp)).2]
    refine ⟨by rw [hrs, hf, hlast]; rfl, content, hin, fun hso => ?_⟩
    have hsame : bytesFinish env w.files (env.resolve name) content cfg true hook (List.replicate 1 none) = bytesFinish env w.files (env.resolve name) content cfg false hook ss := by
      apply bytesFinish_accepted
      · simp [hf, accepted]
      · intro hx; simp [hf, accepted] at hx
    obtain ⟨evs, hu, hq⟩ := bytesFinish_hooks env w.files (env.resolve name) content cfg false hook ss
    have hret := bytesFinish_ret env _ _ _ _ _ _ _ _ hlast
    have hrun : (lintStdin env (env.resolve name) true hook).run (List.replicate 1 none) w =
        ([cleanResult (env.resolve name)], .returned (), { logged evs w with log := (logged evs w).log ++ [.stdout content] }) := by
      rw [run_lintStdin env _ true hook _ w content cfg hl, run_except, run_bind, run_fixitBytes env _ content cfg true hook _ w _ rfl, hsame, hf,
        script_some _ _ _ _ _ _ (by simp) hlast, hret, hu]
      simp [run_writeStdout, orElseBytes, hso]
    have hd := run_returned_drain none () (lintStdin env (env.resolve name) true hook) 1 w (by rw [hrun])
    rw [hrun] at hd
    refine ⟨_, hd, rfl, ?_⟩
    rw [newEvents_append w _ (evs ++ [.stdout content]) (by simp [logged])]
    unfold stdoutWrites at hq ⊢
    rw [List.filterMap_append, hq]; rfl

variable (con : Console) (walk : (Path → Option Bytes) → Path → Except Err (List Path))

/-- **C146** If `fixit lint -` exits with 0, `fixit fix -` on the same standard input, whatever it is told, asks nothing, changes no file, exits with 0, prints what `lint` printed, and writes to standard
output, once, exactly what it read (when standard output can be written). -/
theorem C146_clean_stdin (flag ldiff diff hook : Bool) (fmt : OutputFormat) (template : Toml) (args : List Path) (name : Path) (replies : List Reply) (w w' : World)
    (outs c : List Out) (hargs : StdinArgs args name) (hfmt : fmt ≠ .custom) (hso : ∀ b, env.stdoutRaises b = none)
    (h : LintRun env con walk ldiff hook (.ok (fmt, template)) args w (outs, .exit 0, w')) :
    let out := (fixCommand env con walk flag diff hook (.ok (fmt, template)) args).run replies (w, c)
    out.1 = [] ∧ out.2.1 = .returned 0 ∧ out.2.2.1.files = w.files ∧ out.2.2.2 = c ++ outs ∧
    ∃ content, env.stdin = .ok content ∧ stdoutWrites (newEvents w out.2.2.1) = [content] := by
  intro out
  obtain ⟨hne, hhead⟩ := stdin_args_shape args name hargs
  obtain ⟨n, rs, fmt', template', t, printed, hcfg, hr, hl, hcode, ho, ht⟩ := lint_exit env con walk ldiff hook _ args w w' outs 0 h
  cases hcfg
  rw [defaultPaths_eq, if_neg hne] at hr
  have hcl : ∀ r ∈ rs, r.violation = none ∧ r.error = none := by
    have hc := ht.code
    rw [← hcode, bits_add] at hc
    intro r hr
    constructor
    · cases hv : r.violation with
      | none => rfl
      | some v =>
        have hx : ∃ r ∈ rs, r.violation ≠ none := ⟨r, hr, by simp [hv]⟩
        simp [hx] at hc
        omega
    · cases hv : r.error with
      | none => rfl
      | some v =>
        have hx : ∃ r ∈ rs, r.error ≠ none := ⟨r, hr, by simp [hv]⟩
        simp [hx] at hc
  have hrun : ∃ w1, (fixitStdin env name false hook).run (List.replicate n none) w = (rs, .returned (), w1) := by
    generalize hx : (rs, Gen.Status.returned (), w') = x at hr
    cases hr with
    | pool fs sched order hp => rw [stdin_args_pool args name hargs] at hp; cases hp
    | plain hp => rw [stdin_args_run env walk args name hargs] at hx; exact ⟨w', hx.symm⟩
  obtain ⟨w1, hrun⟩ := hrun
  obtain ⟨hrs, content, hin, hfix⟩ := clean_stdin env name hook _ w w1 rs hrun hcl
  obtain ⟨w2, hd, hf2, hs2⟩ := hfix (hso content)
  have hd' : (fixitPaths env walk true hook args).drain none w = ([cleanResult (env.resolve name)], .returned (), w2) := by
    rw [← hd]
    exact drain_congr none _ _ w (fun ss => stdin_args_run env walk args name hargs true hook ss w) () (by rw [hd])
  obtain ⟨f1, f2, f3, visited, dirty, f4, f5, f6⟩ := fix_asks_nothing env con walk flag diff hook fmt template args replies w w2 c _ hne (by simp [hhead]) hfmt hd'
  refine ⟨f1, f2, by rw [f3]; exact hf2, ?_, content, hin, by rw [f3]; exact hs2⟩
  obtain ⟨n', rs', lvisited, ldirty, lprinted, hr', hl1, hl2, hl3, fmt'', template'', blocks, hcfg', hb, hpr⟩ := C56_summary env con walk ldiff hook _ args w w' outs 0 h
  have hrs' : rs' = rs := by
    rw [if_neg hne] at hr'
    generalize hx : (rs', Gen.Status.returned (), w') = x at hr'
    cases hr' with
    | pool fs sched order hp => rw [stdin_args_pool args name hargs] at hp; cases hp
    | plain hp =>
      rw [stdin_args_run env walk args name hargs] at hx
      have a := run_returned_drain none () (fixitStdin env name false hook) n' w (by rw [← hx])
      have b := run_returned_drain none () (fixitStdin env name false hook) n w (by rw [hrun])
      rw [← hx] at a
      rw [hrun, a] at b
      exact congrArg Prod.fst b
  subst hrs' 
  rw [hrs] at hl1 hl2 hl3 hb
  cases hcfg'
  rw [f6, hl3, hpr, lists_length f4 hl1, lists_length f5 hl2]
  have hb' : blocks = [[]] := by
    simp only [List.mapM_cons, List.mapM_nil, print_clean] at hb
    cases hb; rfl
  rw [hb', printedFor_clean con _ _ _ _ _ (by intro r hr; exact ⟨_, by simpa using hr⟩)]
  simp [cleanResult, Result.fixable]

end
end Fixit
