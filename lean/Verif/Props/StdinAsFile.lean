import Verif.Props.Stdin
import Verif.Props.CliAuto

/-!
# C130: standard input is treated as the file it stands for
-/

namespace Fixit
open Py Spec Gen

section
variable {C : Type} (env : Env C)

theorem bytesFinish_congr (f f' : Path → Option Bytes) (path : Path) (content : Bytes) (cfg : C) (autofix hook : Bool) (ss : List Answer)
    (hc : env.collect f = env.collect f') (hv : env.visit f = env.visit f') :
    bytesFinish env f path content cfg autofix hook ss = bytesFinish env f' path content cfg autofix hook ss ∧ found env f path content cfg = found env f' path content cfg := by
  constructor
  · unfold bytesFinish; rw [hc, hv]
  · unfold found; rw [hc, hv]

theorem bytesFinish_hooks (files : Path → Option Bytes) (path : Path) (content : Bytes) (cfg : C) (autofix hook : Bool) (ss : List Answer) :
    ∃ evs, (bytesFinish env files path content cfg autofix hook ss).upd = logged evs ∧ stdoutWrites evs = [] := by
  obtain ⟨evs, h1, h2⟩ := bytesFinish_quiet env files path content cfg autofix hook ss
  exact ⟨evs, h2, h1⟩

/-- A run of `fixit_stdin` when standard output works: the run of `fixit_bytes`, then the output. -/
theorem run_stdin_works (path : Path) (autofix hook : Bool) (ss : List Answer) (w : World) (content : Bytes) (cfg : C)
    (h : stdinLoaded env w.files path = .ok (content, cfg)) (hout : ∀ b, env.stdoutRaises b = none) :
    (lintStdin env path autofix hook).run ss w =
      match (fixitBytes env path content cfg autofix hook).run ss w with
      | (ys, .returned u, w') => (ys, .returned (), if autofix then { w' with log := w'.log ++ [.stdout (orElseBytes u content)] } else w')
      | (ys, .suspended, w') => (ys, .suspended, w')
      | (ys, .raised e, w') => (ys ++ [errorResult path e], if (ss.drop ys.length).length = 0 then .suspended else .returned (), w') := by
  rw [run_lintStdin env path autofix hook ss w content cfg h, run_except, run_bind]
  rcases (fixitBytes env path content cfg autofix hook).run ss w with ⟨ys, st, w'⟩
  cases st with
  | suspended => rfl
  | raised e => simp [run_yieldError']
  | returned u =>
    cases autofix with
    | false => simp [run]
    | true => simp [run_writeStdout, hout]

theorem hookCalls_append (a b : List Event) : hookCalls (a ++ b) = hookCalls a ++ hookCalls b := by simp [hookCalls]

/-- Writing back, when it does not fail: no result, no call of the hook; the file is what would be printed. -/
theorem writeFinish_works (path : Path) (content : Bytes) (updated : Option Bytes) (hw : Writable env path) (w : World) (hf : w.files path = some content) :
    (writeFinish env path content updated).last = none ∧
    ((writeFinish env path content updated).upd w).files path = some (orElseBytes updated content) ∧
    ∃ evs, ((writeFinish env path content updated).upd w).log = w.log ++ evs ∧ hookCalls evs = [] := by
  unfold writeFinish
  cases updated with
  | none => exact ⟨rfl, hf, [], by simp, rfl⟩
  | some b =>
    cases b with
    | nil => exact ⟨rfl, hf, [], by simp, rfl⟩
    | cons x xs =>
      simp only [List.isEmpty_cons, Bool.false_eq_true, if_false]
      by_cases hb : x :: xs = content
      · rw [if_pos hb]; exact ⟨rfl, by rw [orElseBytes, hb]; exact hf, [], by simp, rfl⟩
      · rw [if_neg hb, hw.opens]
        simp only [hw.writes]
        refine ⟨trivial, by simp [World.put, World.note, orElseBytes], [.opened path, .wrote path (x :: xs)], by simp [World.put, World.note], rfl⟩

/-- **C130** Linting or fixing standard input under the name of a file does what it would do to the file if that were its content: whatever the answers, the same results, ending in the
same way, the same calls of the metrics hook; no file is changed; and when fixing, what is printed is what the file would be. (The file takes no part in configuration or rules; nothing
that is written fails.) -/
theorem C130_as_file (path : Path) (autofix hook : Bool) (ss : List Answer) (w saved : World) (content : Bytes)
    (hs : Saved env (env.resolve path) w saved content) (hw : Writable env (env.resolve path)) (hS : Stable env (fun q => q = env.resolve path)) :
    let stdin := (fixitStdin env path autofix hook).run ss w
    let file := (fixitFile env path autofix hook).run ss saved
    stdin.1 = file.1 ∧ stdin.2.1 = file.2.1 ∧ hookCalls (newEvents w stdin.2.2) = hookCalls (newEvents saved file.2.2) ∧ stdin.2.2.files = w.files ∧
    (autofix = false → stdoutWrites (newEvents w stdin.2.2) = []) ∧
    (autofix = true → (∃ cfg, env.config w.files (env.resolve path) = .ok cfg) → stdin.2.1 = .returned () →
      ∃ b, stdoutWrites (newEvents w stdin.2.2) = [b] ∧ file.2.2.files (env.resolve path) = some b) := by
  intro stdin file
  obtain ⟨hin, hfile, hread, hoth⟩ := hs
  obtain ⟨k1, k2, k3⟩ := hS saved.files w.files hoth
  have hfiles : stdin.2.2.files = w.files :=
    C48_files_untouched env path autofix hook ss w _ (run_world_mem (fixitStdin env path autofix hook) ss w)
  have hstdin : stdin = (lintStdin env (env.resolve path) autofix hook).run ss w := rfl
  have hfiler : file = script (env.resolve path) (foundIn env saved.files (env.resolve path)) (fileFinish env saved.files (env.resolve path) autofix hook ss) ss saved :=
    run_lintFile env _ autofix hook ss saved
  have hquiet : autofix = false → stdoutWrites (newEvents w stdin.2.2) = [] := fun h => by
    subst h; exact C48_lint_prints_nothing env path hook ss w
  clear_value stdin file
  generalize env.resolve path = p at *
  have hnil : ∀ u : World, newEvents u u = [] := fun u => by simp [newEvents]
  cases hc : env.config w.files p with
  | error e =>
    have h1 : loaded env saved.files p = .error e := by simp [loaded, hfile, hread, k1, hc]
    have h2 : stdinLoaded env w.files p = .error e := by simp [stdinLoaded, hin, hc]
    rw [run_lintStdin_error env p autofix hook ss w e h2] at hstdin
    have h3 : foundIn env saved.files p = [] := by simp [foundIn, h1]
    have h4 : fileFinish env saved.files p autofix hook ss = ⟨id, some (errorResult p e), ()⟩ := by simp [fileFinish, h1]
    rw [h3, h4] at hfiler
    simp only [script, List.length_nil, Nat.not_lt_zero, if_false, List.map_nil, List.nil_append, id_eq] at hfiler
    subst hstdin hfiler
    refine ⟨rfl, rfl, by simp [hnil], rfl, hquiet, ?_⟩
    rintro - ⟨cfg, h⟩; cases h
  | ok cfg =>
    have h1 : loaded env saved.files p = .ok (content, cfg) := by simp [loaded, hfile, hread, k1, hc]
    have h2 : stdinLoaded env w.files p = .ok (content, cfg) := by simp [stdinLoaded, hin, hc]
    obtain ⟨hB, hfd⟩ := bytesFinish_congr env saved.files w.files p content cfg autofix hook ss k2 k3
    have h3 : foundIn env saved.files p = found env w.files p content cfg := by simp [foundIn, h1, hfd]
    rw [run_stdin_works env p autofix hook ss w content cfg h2 hw.prints, run_fixitBytes env p content cfg autofix hook ss w _ rfl] at hstdin
    have h4 : fileFinish env saved.files p autofix hook ss =
        ⟨(writeFinish env p content (bytesFinish env w.files p content cfg autofix hook ss).ret).upd ∘ (bytesFinish env w.files p content cfg autofix hook ss).upd,
          match (bytesFinish env w.files p content cfg autofix hook ss).last with
          | some r => some r
          | none => (writeFinish env p content (bytesFinish env w.files p content cfg autofix hook ss).ret).last, ()⟩ := by
      simp only [fileFinish, h1, hB]
      cases (bytesFinish env w.files p content cfg autofix hook ss).last <;> rfl
    rw [h3, h4] at hfiler
    obtain ⟨evs, hu, hq⟩ := bytesFinish_hooks env w.files p content cfg autofix hook ss
    have hret := bytesFinish_ret env w.files p content cfg autofix hook ss
    obtain ⟨w1, w2, evs', w3, w4⟩ := writeFinish_works env p content (bytesFinish env w.files p content cfg autofix hook ss).ret hw (logged evs saved) hfile
    generalize bytesFinish env w.files p content cfg autofix hook ss = B at *
    generalize found env w.files p content cfg = vs at *
    have e1 : ∀ (u : World) (l : List Event), newEvents u (logged l u) = l := fun u l => newEvents_append u _ l rfl
    by_cases hk : ss.length < vs.length
    · rw [script_lt _ _ _ _ _ hk] at hstdin hfiler
      subst hstdin hfiler
      exact ⟨rfl, rfl, by simp [hnil], rfl, hquiet, fun _ _ h => by cases h⟩
    · have e3 : hookCalls (newEvents saved ((writeFinish env p content B.ret).upd (B.upd saved))) = hookCalls evs := by
        rw [hu, newEvents_append saved _ (evs ++ evs') (by rw [w3]; simp [logged])]
        rw [hookCalls_append, w4, List.append_nil]
      cases hl : B.last with
      | none =>
        rw [script_none _ _ _ _ _ hk hl] at hstdin
        rw [script_none _ _ _ _ _ hk (by rw [hl]; exact w1)] at hfiler
        simp only [Function.comp_apply, hu] at hstdin hfiler e3
        subst hstdin hfiler
        refine ⟨rfl, rfl, ?_, hfiles, hquiet, ?_⟩
        · rw [e3]
          cases autofix with
          | false => rw [if_neg (by simp), e1]
          | true =>
            rw [if_pos rfl, newEvents_append w _ (evs ++ [.stdout (orElseBytes B.ret content)]) (by simp [logged]), hookCalls_append]
            simp [hookCalls]
        · rintro rfl - -
          refine ⟨orElseBytes B.ret content, ?_, w2⟩
          simp only [if_true]
          rw [newEvents_append w _ (evs ++ [.stdout (orElseBytes B.ret content)]) (by simp [logged]), stdoutWrites_append, hq]
          rfl
      | some r =>
        rw [script_some _ _ _ r _ _ hk hl] at hstdin
        rw [script_some _ _ _ r _ _ hk (by rw [hl])] at hfiler
        simp only [Function.comp_apply, hu] at hstdin hfiler e3
        by_cases h0 : ss.length = vs.length
        · simp only [if_pos h0] at hstdin hfiler
          subst hstdin hfiler
          refine ⟨rfl, rfl, by rw [e3, e1], hfiles, hquiet, fun _ _ h => by cases h⟩
        · simp only [if_neg h0] at hstdin hfiler
          subst hstdin hfiler
          refine ⟨rfl, rfl, ?_, hfiles, hquiet, ?_⟩
          · rw [e3]
            cases autofix with
            | false => rw [if_neg (by simp), e1]
            | true =>
              rw [if_pos rfl, newEvents_append w _ (evs ++ [.stdout (orElseBytes B.ret content)]) (by simp [logged]), hookCalls_append]
              simp [hookCalls]
          · rintro rfl - -
            refine ⟨orElseBytes B.ret content, ?_, w2⟩
            simp only [if_true]
            rw [newEvents_append w _ (evs ++ [.stdout (orElseBytes B.ret content)]) (by simp [logged]), stdoutWrites_append, hq]
            rfl

/-- Without answers, to the end. -/
theorem C130_drained (path : Path) (autofix hook : Bool) (w saved : World) (content : Bytes)
    (hs : Saved env (env.resolve path) w saved content) (hw : Writable env (env.resolve path)) (hS : Stable env (fun q => q = env.resolve path)) :
    let stdin := (fixitStdin env path autofix hook).drain none w
    let file := alone env autofix hook saved path
    stdin.1 = file.1 ∧ stdin.2.1 = .returned () ∧ (autofix = true → (∃ cfg, env.config w.files (env.resolve path) = .ok cfg) →
      ∃ b, stdoutWrites (newEvents w stdin.2.2) = [b] ∧ file.2.2.files (env.resolve path) = some b) := by
  intro stdin file
  have hret := alone_returns env autofix hook saved path
  have hrun := run_replicate none (fixitFile env path autofix hook) saved _ (Nat.le_refl _)
  obtain ⟨h1, h2, -, -, -, h3⟩ := C130_as_file env path autofix hook (List.replicate (drain none (fixitFile env path autofix hook) saved).1.length none) w saved content hs hw hS
  rw [hrun] at h1 h2 h3
  have e2 : (drain none (fixitFile env path autofix hook) saved).2.1 = .returned () := hret
  rw [e2] at h2
  have e1 : stdin = _ := run_returned_drain none () _ _ w h2
  rw [e1]
  exact ⟨h1, h2, fun a b => h3 a b h2⟩

end

section
variable {C : Type} (env : Env C) (con : Console) (walk : (Path → Option Bytes) → Path → Except Err (List Path))

theorem stdin_args_run (args : List Path) (name : Path) (hargs : StdinArgs args name) (autofix hook : Bool) (ss : List Answer) (w : World) :
    (fixitPaths env walk autofix hook args).run ss w = (fixitStdin env name autofix hook).run ss w := by
  cases hargs with
  | unnamed rest h => exact C50_stdin_unnamed env walk autofix hook rest ss w h
  | named name rest hn h => exact C50_stdin_named env walk autofix hook name rest ss w hn h

theorem stdin_args_shape (args : List Path) (name : Path) (hargs : StdinArgs args name) : args ≠ [] ∧ args.head? = some [py "-"] := by
  cases hargs <;> exact ⟨by simp, rfl⟩

theorem stdin_args_pool (args : List Path) (name : Path) (hargs : StdinArgs args name) (parallel : Bool) (f : Path → Except Err (List Path)) :
    usesPool f parallel args = none := by
  have h : ∃ st, scan f args = .ok st ∧ st.isStdin = true := by
    cases hargs with
    | unnamed rest h =>
      refine ⟨⟨[], true, [py "stdin"]⟩, ?_, rfl⟩
      unfold scan
      simp only [scanFrom, stdinArg, if_true, stdinName]
      cases rest with
      | nil => rfl
      | cons q qs =>
        have hq := h q (by simp)
        simp only [scanFrom, stdinArg, hq, if_true]
        rw [if_neg (by decide), scanFrom_stdin _ _ _ _ rfl (by omega), if_pos (fun p hp => h p (by simp [hp]))]
    | named name rest hn h =>
      refine ⟨⟨[], true, name⟩, ?_, rfl⟩
      unfold scan
      simp only [scanFrom, stdinArg, if_true, stdinName, hn, if_false]
      rw [scanFrom_stdin _ _ _ _ rfl (by omega), if_pos h]
  obtain ⟨st, h1, h2⟩ := h
  unfold usesPool
  rw [h1]
  simp [h2]

theorem printedFor_text (diff : Bool) (fmt : OutputFormat) (template : Toml) (rs : List Result) :
    (printedFor con diff true fmt template rs).map Out.text = (printedFor con diff false fmt template rs).map Out.text := by
  induction rs with
  | nil => rfl
  | cons r rs ih =>
    have : ∀ b, printedFor con diff b fmt template (r :: rs) =
        (match printResult con diff b fmt template r with | .ok (outs, _) => outs | .error _ => []) ++ printedFor con diff b fmt template rs := fun _ => rfl
    rw [this, this, List.map_append, List.map_append, ih]
    congr 1
    unfold printResult
    cases r.violation with
    | none => cases r.error <;> simp [echoLine]
    | some v => simp only; cases violationLine con fmt template r v <;> simp [echoLine]

/-- A `fix` that asks nothing, with a built-in format, whose results come to an end. -/
theorem fix_asks_nothing (flag diff hook : Bool) (fmt : OutputFormat) (template : Toml) (args : List Path) (replies : List Reply) (w w' : World) (c : List Out) (ys : List Result)
    (hne : args ≠ []) (hint : (flag && !(args.head? == some [py "-"])) = false) (hfmt : fmt ≠ .custom)
    (hd : (fixitPaths env walk true hook args).drain none w = (ys, .returned (), w')) :
    let out := (fixCommand env con walk flag diff hook (.ok (fmt, template)) args).run replies (w, c)
    out.1 = [] ∧ out.2.1 = .returned 0 ∧ out.2.2.1 = w' ∧
    ∃ visited dirty, Lists visited (fun p => ∃ r ∈ ys, r.path = p) ∧ Lists dirty (fun p => ∃ r ∈ ys, r.path = p ∧ Dirty r) ∧
      out.2.2.2 = c ++ printedFor con diff (args.head? == some [py "-"]) fmt template ys ++
        [⟨true, summary visited.length dirty.length (ys.filter Result.fixable).length (ys.filter Result.fixable).length⟩] := by
  intro out
  have h := C57_session env con walk flag diff hook fmt template args replies w c
  simp only [if_neg hne, hint] at h
  simp only [Bool.not_false, Bool.false_and, Bool.false_or, Bool.false_eq_true, false_and, or_false, and_false, false_or, if_false] at h
  obtain ⟨ss, s1, s2, s3, s4⟩ := h
  have hpr : ∀ r, printable con fmt template r = true := C79_builtin_formats con fmt template hfmt
  rw [answersTo_auto _ hpr] at s1
  have hrun : (fixitPaths env walk true hook args).run ss w = (ys, .returned (), w') := by
    rw [← hd, s1]
    apply run_short_drain none _ _ w
    rw [← s1]
    exact Nat.le_refl _
  have hout : (fixCommand env con walk flag diff hook (.ok (fmt, template)) args).run replies (w, c) = out := rfl
  rw [hout, hrun] at s2 s3 s4
  have s2 : out.1 = [] := by rw [s2]; simp
  cases hst : out.2.1 with
  | returned code =>
    rw [hst] at s4
    obtain ⟨h1, -, h2⟩ := s4
    exact ⟨s2, by rw [h1], s3, h2⟩
  | raised e => rw [hst] at s4; obtain ⟨-, h | ⟨h, -⟩⟩ := s4 <;> cases h
  | suspended => rw [hst] at s4; exact absurd s4 (by simp)

theorem Lists_length {A : Type} {l l' : List A} {P : A → Prop} (h : Lists l P) (h' : Lists l' P) : l.length = l'.length :=
  ((List.perm_ext_iff_of_nodup h.nodup h'.nodup).mpr (fun a => (h.mem a).trans (h'.mem a).symm)).length_eq

theorem drain_congr {W Y S R : Type} (s : S) (g g' : Gen W Y S R) (w : W) (h : ∀ ss, g.run ss w = g'.run ss w) (x : R) (hx : (g'.drain s w).2.1 = .returned x) :
    g.drain s w = g'.drain s w := by
  have hr := run_replicate s g' w _ (Nat.le_refl _)
  have := run_returned_drain s x g (g'.drain s w).1.length w (by rw [h, hr]; exact hx)
  rw [this, h, hr]

/-- **C130** `fixit lint - name` and `fixit lint name`: the same is printed, with the same exit status. -/
theorem C130_lint (diff hook : Bool) (cfg : Except Err (OutputFormat × Toml)) (args : List Path) (name : Path) (w saved w' saved' : World) (outs outs' : List Out) (code code' : Nat)
    (content : Bytes) (hargs : StdinArgs args name) (hn : name ≠ [py "-"]) (hwalk : walk saved.files name = .ok [name])
    (hs : Saved env (env.resolve name) w saved content) (hw : Writable env (env.resolve name)) (hS : Stable env (fun q => q = env.resolve name))
    (h : LintRun env con walk diff hook cfg args w (outs, .exit code, w')) (h' : LintRun env con walk diff hook cfg [name] saved (outs', .exit code', saved')) :
    outs = outs' ∧ code = code' := by
  obtain ⟨n, rs, fmt, template, t, printed, hc, hr, hl, hcode, ho, -⟩ := lint_exit env con walk diff hook cfg args w w' outs code h
  obtain ⟨n', rs', fmt', template', t', printed', hc', hr', hl', hcode', ho', -⟩ := lint_exit env con walk diff hook cfg [name] saved saved' outs' code' h'
  rw [hc] at hc'
  simp only [Except.ok.injEq, Prod.mk.injEq] at hc'
  obtain ⟨rfl, rfl⟩ := hc'
  obtain ⟨hne, -⟩ := stdin_args_shape args name hargs
  rw [defaultPaths_eq] at hr hr'
  rw [if_neg hne] at hr
  rw [if_neg (by simp)] at hr'
  obtain ⟨⟨order, hperm, -, hrs'⟩, -⟩ := C51_lint_any_schedule env walk hook true [name] n' saved saved' rs' [name] (by simpa using hn)
    (by rw [List.filter_cons_of_pos (by simpa using hn)]; simp [filesUnder, hwalk]) hr'
  have ho1 : order = [name] := List.perm_singleton.mp hperm
  subst ho1
  have hrs : rs = rs' := by
    generalize hx : (rs, Gen.Status.returned (), w') = x at hr
    cases hr with
    | pool fs sched order hp => rw [stdin_args_pool args name hargs] at hp; cases hp
    | plain hp =>
      rw [stdin_args_run env walk args name hargs] at hx
      have := run_returned_drain none () (fixitStdin env name false hook) n w (by rw [← hx])
      rw [← hx] at this
      have hd := (C130_drained env name false hook w saved content hs hw hS).1
      rw [this] at hd
      rw [hrs']
      simpa using hd
  subst hrs
  rw [hl] at hl'
  simp only [Prod.mk.injEq, Except.ok.injEq] at hl'
  obtain ⟨rfl, rfl⟩ := hl'
  exact ⟨by rw [ho, ho'], by rw [hcode, hcode']⟩

/-- **C130** `fixit fix - name` (with whatever else it is told) and `fixit fix --automatic name`: the same texts are printed in the same order, both exit with 0 and ask nothing; standard input
leaves every file as it is, and what it writes to standard output is what the other one makes of the file. -/
theorem C130_fix (flag diff hook : Bool) (fmt : OutputFormat) (template : Toml) (args : List Path) (name : Path) (replies replies' : List Reply) (w saved : World) (c : List Out)
    (content : Bytes) (hargs : StdinArgs args name) (hn : name ≠ [py "-"]) (hwalk : walk saved.files name = .ok [name]) (hfmt : fmt ≠ .custom)
    (hs : Saved env (env.resolve name) w saved content) (hw : Writable env (env.resolve name)) (hS : Stable env (fun q => q = env.resolve name)) :
    let stdin := (fixCommand env con walk flag diff hook (.ok (fmt, template)) args).run replies (w, c)
    let file := (fixCommand env con walk false diff hook (.ok (fmt, template)) [name]).run replies' (saved, c)
    stdin.1 = [] ∧ file.1 = [] ∧ stdin.2.1 = .returned 0 ∧ file.2.1 = .returned 0 ∧
    stdin.2.2.2.map Out.text = file.2.2.2.map Out.text ∧ stdin.2.2.1.files = w.files ∧
    ((∃ cfg, env.config w.files (env.resolve name) = .ok cfg) → ∃ b, stdoutWrites (newEvents w stdin.2.2.1) = [b] ∧ file.2.2.1.files (env.resolve name) = some b) := by
  intro stdin file
  obtain ⟨hne, hhead⟩ := stdin_args_shape args name hargs
  obtain ⟨d1, d2, d3⟩ := C130_drained env name true hook w saved content hs hw hS
  have hst : (fixitPaths env walk true hook args).drain none w = (fixitStdin env name true hook).drain none w :=
    drain_congr none _ _ w (fun ss => stdin_args_run env walk args name hargs true hook ss w) () d2
  have hfl : (fixitPaths env walk true hook [name]).drain none saved = alone env true hook saved name :=
    drain_congr none _ _ saved (fun ss => run_one_file env walk name true hook ss saved hn hwalk) () (alone_returns env true hook saved name)
  obtain ⟨a1, a2, a3, v, d, a4, a5, a6⟩ := fix_asks_nothing env con walk flag diff hook fmt template args replies w ((fixitStdin env name true hook).drain none w).2.2 c
    (alone env true hook saved name).1 hne (by simp [hhead]) hfmt (by rw [hst]; exact Prod.ext d1 (Prod.ext d2 rfl))
  obtain ⟨b1, b2, b3, v', d', b4, b5, b6⟩ := fix_asks_nothing env con walk false diff hook fmt template [name] replies' saved (alone env true hook saved name).2.2 c
    (alone env true hook saved name).1 (by simp) (by simp) hfmt (by rw [hfl]; exact Prod.ext rfl (Prod.ext (alone_returns env true hook saved name) rfl))
  have a1 : stdin.1 = [] := a1
  have a2 : stdin.2.1 = .returned 0 := a2
  have a3 : stdin.2.2.1 = _ := a3
  have b3 : file.2.2.1 = _ := b3
  have a6 : stdin.2.2.2 = _ := a6
  have b6 : file.2.2.2 = _ := b6
  refine ⟨a1, b1, a2, b2, ?_, ?_, ?_⟩
  · have hb : (([name] : List Path).head? == some [py "-"]) = false := by simpa using hn
    rw [a6, b6, hb, Lists_length a4 b4, Lists_length a5 b5]
    simp only [hhead, beq_self_eq_true, List.map_append, printedFor_text]
  · rw [a3]
    have hr := run_replicate none (fixitStdin env name true hook) w _ (Nat.le_refl _)
    rw [← hr]
    exact C48_files_untouched env name true hook _ w _ (run_world_mem (fixitStdin env name true hook) _ w)
  · intro hc
    rw [a3, b3]
    exact d3 rfl hc

end

end Fixit
