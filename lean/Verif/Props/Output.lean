import Verif.Props.Commands
import Verif.Props.CliAuto
import Verif.Props.CommandsCases

/-!
# C129: everything that is printed
-/

namespace Fixit
open Py Py.Gen Spec

section
variable {C : Type} (env : Env C) (con : Console) (walk : (Path → Option Bytes) → Path → Except Err (List Path))

theorem displayPath_seen (cwd path : Path) : displayPath cwd path = seenFrom cwd path := by
  unfold displayPath seenFrom Path.under
  by_cases h : cwd <+: path
  · rw [if_pos h, if_pos (by simpa using h)]
    unfold relStr
    obtain ⟨t, rfl⟩ := h
    by_cases ht : t = []
    · subst ht; simp
    · have : cwd ++ t ≠ cwd := fun e => ht (by simpa using e)
      rw [if_neg this]
      simp [ht]
  · rw [if_neg h, if_neg (by simpa using h)]
    rfl

theorem displayMessage_noted (v : LintViolation) : displayMessage v = noted v := by
  unfold displayMessage noted
  split <;> simp

theorem printResult_written (diff stderr : Bool) (fmt : OutputFormat) (template : Toml) (r : Result) (outs : List Out) (d : Bool)
    (h : printResult con diff stderr fmt template r = .ok (outs, d)) : Written con diff stderr fmt template r outs := by
  unfold printResult at h
  unfold Written
  cases hv : r.violation with
  | some v =>
    rw [hv] at h
    simp only at h ⊢
    cases hl : violationLine con fmt template r v with
    | error e => rw [hl] at h; cases h
    | ok line =>
      rw [hl] at h
      simp only [Except.ok.injEq, Prod.mk.injEq] at h
      refine ⟨line, ?_, ?_⟩
      · unfold violationLine at hl
        unfold LineFor
        simp only [displayPath_seen, displayMessage_noted, natStr] at hl ⊢
        cases fmt with
        | fixit => simp only [Except.ok.injEq] at hl ⊢; rw [← hl]; simp
        | vscode => simp only [Except.ok.injEq] at hl ⊢; rw [← hl]; simp
        | custom => simpa using hl
      · rw [← h.1]
        unfold echoLine printDiff
        congr 1
        cases diff <;> cases v.diff <;> simp
  | none =>
    rw [hv] at h
    simp only at h ⊢
    cases he : r.error with
    | some e =>
      rw [he] at h
      simp only [Except.ok.injEq, Prod.mk.injEq] at h ⊢
      rw [← h.1]
      simp only [displayPath_seen, echoLine]
    | none =>
      rw [he] at h
      simp only [Except.ok.injEq, Prod.mk.injEq] at h ⊢
      exact h.1.symm

theorem lintLoop_written (diff : Bool) (fmt : OutputFormat) (template : Toml) : ∀ (rs : List Result) (t t' : Tally),
    (lintLoop con diff fmt template rs t).2 = .ok t' → AllWritten con diff false fmt template rs (lintLoop con diff fmt template rs t).1
  | [], t, t', h => .nil
  | r :: rs, t, t', h => by
    simp only [lintLoop] at h ⊢
    split at h
    · cases h
    · rename_i outs d hpr
      exact .cons (printResult_written con diff false fmt template r outs d hpr) (lintLoop_written diff fmt template rs _ t' h)

theorem printedFor_written (diff stderr : Bool) (fmt : OutputFormat) (template : Toml) (hpr : ∀ r, printable con fmt template r = true) : ∀ rs : List Result,
    AllWritten con diff stderr fmt template rs (printedFor con diff stderr fmt template rs)
  | [] => .nil
  | r :: rs => by
    obtain ⟨outs, d, h⟩ := (printable_spec con diff stderr fmt template r).mp (hpr r)
    have : printedFor con diff stderr fmt template (r :: rs) = outs ++ printedFor con diff stderr fmt template rs := by
      simp only [printedFor, List.flatMap_cons, h]
    rw [this]
    exact .cons (printResult_written con diff stderr fmt template r outs d h) (printedFor_written diff stderr fmt template hpr rs)

/-- Every file gives a result. -/
theorem alone_nonempty (autofix hook : Bool) (w : World) (p : Path) : (alone env autofix hook w p).1 ≠ [] := by
  intro hnil
  have h1 := run_replicate none (fixitFile env p autofix hook) w _ (Nat.le_refl _)
  have h2 := alone_returns env autofix hook w p
  have h3 := C44_clean_or_violations env p autofix hook (List.replicate (drain none (fixitFile env p autofix hook) w).1.length none) w
    (alone env autofix hook w p).2.2 (alone env autofix hook w p).1 (by rw [h1]; exact Prod.ext rfl (Prod.ext h2 rfl))
    (by intro r hr; rw [hnil] at hr; cases hr)
  by_cases hf0 : foundIn env w.files (env.resolve p) = []
  · have := h3.1 hf0; rw [hnil] at this; cases this
  · have := h3.2 hf0
    rw [hnil] at this
    exact hf0 (by simpa using this.symm)

theorem alone_path (autofix hook : Bool) (w : World) (p : Path) (r : Result) (hr : r ∈ (alone env autofix hook w p).1) : r.path = env.resolve p := by
  have h1 := run_replicate none (fixitFile env p autofix hook) w _ (Nat.le_refl _)
  exact C54_results_name_the_file env p autofix hook _ w r (by rw [h1]; exact hr)

/-- The files seen are those given. -/
theorem lists_files (autofix hook : Bool) (w : World) (fs order : List Path) (hperm : order.Perm fs) (visited : List Path)
    (h : Lists visited (fun p => ∃ r ∈ order.flatMap (fun p => (alone env autofix hook w p).1), r.path = p)) :
    Lists visited (fun q => ∃ p ∈ fs, env.resolve p = q) := by
  refine h.congr (fun q => ⟨?_, ?_⟩)
  · rintro ⟨r, hr, rfl⟩
    obtain ⟨p, hp, hm⟩ := List.mem_flatMap.mp hr
    exact ⟨p, hperm.mem_iff.mp hp, (alone_path env autofix hook w p r hm).symm⟩
  · rintro ⟨p, hp, rfl⟩
    obtain ⟨r, hr⟩ := List.exists_mem_of_ne_nil _ (alone_nonempty env autofix hook w p)
    exact ⟨r, List.mem_flatMap.mpr ⟨p, hperm.mem_iff.mpr hp, hr⟩, alone_path env autofix hook w p r hr⟩

theorem lists_dirty (autofix hook : Bool) (w : World) (fs order : List Path) (hperm : order.Perm fs) (dirty : List Path)
    (h : Lists dirty (fun p => ∃ r ∈ order.flatMap (fun p => (alone env autofix hook w p).1), r.path = p ∧ Dirty r)) :
    Lists dirty (fun q => ∃ p ∈ fs, env.resolve p = q ∧ ∃ r ∈ (alone env autofix hook w p).1, Dirty r) := by
  refine h.congr (fun q => ⟨?_, ?_⟩)
  · rintro ⟨r, hr, rfl, hd⟩
    obtain ⟨p, hp, hm⟩ := List.mem_flatMap.mp hr
    exact ⟨p, hperm.mem_iff.mp hp, (alone_path env autofix hook w p r hm).symm, r, hm, hd⟩
  · rintro ⟨p, hp, rfl, r, hr, hd⟩
    exact ⟨r, List.mem_flatMap.mpr ⟨p, hperm.mem_iff.mpr hp, hr⟩, alone_path env autofix hook w p r hr, hd⟩

end

section
variable {V M : Type} (o : Outside V M) (con : Console) (walk : (Path → Option Bytes) → Path → Except Err (List Path))

/-- **C129** Everything `fixit lint` on files prints, whatever the schedule of its workers: the results of each file, as linting it alone gives them, file after file in
some order, in the style of the configuration for the *current directory* with the options given; then the summary of all distinct files. -/
theorem C129_lint (options : Options) (diff hook : Bool) (paths fs : List Path) (w w' : World) (outs : List Out) (code : Nat)
    (hh : (if paths = [] then [con.cwd] else paths).head? ≠ some [py "-"])
    (hf : filesUnder (walk w.files) ((if paths = [] then [con.cwd] else paths).filter (· ≠ [py "-"])) = .ok fs)
    (h : o.Lint con walk options diff hook paths w (outs, .exit code, w')) :
    ∃ (cfg : Config V) (order : List Path) (printed : List Out) (visited dirty : List Path), generateConfig o.cfg o.configOrder (o.fs w.files) (o.load w.files) con.cwd none (some options) = .ok cfg ∧ order.Perm fs ∧
      AllWritten con diff false cfg.outputFormat cfg.outputTemplate (order.flatMap (fun p => (alone (o.env (some options)) false hook w p).1)) printed ∧
      Lists visited (fun q => ∃ p ∈ fs, o.base.resolve p = q) ∧
      Lists dirty (fun q => ∃ p ∈ fs, o.base.resolve p = q ∧ ∃ r ∈ (alone (o.env (some options)) false hook w p).1, Dirty r) ∧
      outs = printed ++ [⟨true, summary visited.length dirty.length
        ((fs.flatMap (fun p => (alone (o.env (some options)) false hook w p).1)).filter Result.fixable).length 0⟩] := by
  obtain ⟨n, rs, fmt, template, t, printed, hc, hr, hl, -, ho, ht⟩ := lint_exit (o.env (some options)) con walk diff hook _ paths w w' outs code h
  rw [defaultPaths_eq] at hr
  obtain ⟨⟨order, hperm, -, hrs⟩, -⟩ := C51_lint_any_schedule (o.env (some options)) walk hook true _ n w w' rs fs hh hf hr
  unfold Outside.output at hc
  cases hcfg : o.config (some options) w.files con.cwd with
  | error e => rw [hcfg] at hc; cases hc
  | ok cfg =>
    rw [hcfg] at hc
    simp only [Except.map, Except.ok.injEq, Prod.mk.injEq] at hc
    obtain ⟨rfl, rfl⟩ := hc
    have hw := lintLoop_written con diff cfg.outputFormat cfg.outputTemplate rs {} t (by rw [hl])
    rw [hl] at hw
    subst hrs
    refine ⟨cfg, order, printed, t.visited, t.dirty, hcfg, hperm, hw, ?_, ?_, ?_⟩
    · exact lists_files (o.env (some options)) false hook w fs order hperm t.visited (ht.visited.congr (by simp))
    · exact lists_dirty (o.env (some options)) false hook w fs order hperm t.dirty (ht.dirty.congr (by simp))
    · rw [ho, splash_summary, ht.autofixes, ht.fixed]
      have : ((order.flatMap (fun p => (alone (o.env (some options)) false hook w p).1)).filter Result.fixable).length =
          ((fs.flatMap (fun p => (alone (o.env (some options)) false hook w p).1)).filter Result.fixable).length :=
        ((hperm.flatMap_right _).filter _).length_eq
      simp [this]

/-- **C129** The style: what is given with `--output-format` and `--output-template`, else what the nearest configuration file of the directory with such a setting says, whatever the
tables for sub-directories in it say; `fixit` and no template if there is none. -/
theorem C129_style (options : Options) (files : Path → Option Bytes) (path : Path) (cfg : Config V)
    (h : generateConfig o.cfg o.configOrder (o.fs files) (o.load files) path none (some options) = .ok cfg) :
    ∃ ps raws, (match options.configFile with | some f => ps = [f] | none => locateConfigs (o.fs files) path none = .ok ps) ∧
      (readConfigs (o.load files) (ps.map o.real)).1 = .ok raws ∧
      (∀ f, options.outputFormat = some f → cfg.outputFormat = f) ∧
      (options.outputFormat = none →
        (nearest (fun f => truthyField (py "output-format") f.table) (Fixit.files raws).reverse = none → cfg.outputFormat = .fixit) ∧
        ∀ t, nearest (fun f => truthyField (py "output-format") f.table) (Fixit.files raws).reverse = some t → t = .str cfg.outputFormat.name) ∧
      (options.outputTemplate ≠ [] → cfg.outputTemplate = .str options.outputTemplate) ∧
      (options.outputTemplate = [] → cfg.outputTemplate = (nearest (fun f => truthyField (py "output-template") f.table) (Fixit.files raws).reverse).getD (.str [])) := by
  obtain ⟨ps, raws, r, h1, h2, h3, rfl⟩ := config_merged o options files path cfg h
  obtain ⟨k1, k2, k3⟩ := C19_output o.cfg path o.configOrder (cfg := r.1) (w := r.2) h3
  have hfmt : (applyOptions options r.1).outputFormat = options.outputFormat.getD r.1.outputFormat := by
    obtain ⟨oc, ot, orl, of, otm⟩ := options
    cases ot <;> cases of <;> cases otm <;> cases orl <;> simp [applyOptions, Options.setTags, Options.setRules, Options.setFormat, Options.setTemplate] <;> (try split) <;> simp
  have htm : (applyOptions options r.1).outputTemplate = if options.outputTemplate.isEmpty then r.1.outputTemplate else .str options.outputTemplate := by
    obtain ⟨oc, ot, orl, of, otm⟩ := options
    cases ot <;> cases of <;> cases otm <;> cases orl <;> simp [applyOptions, Options.setTags, Options.setRules, Options.setFormat, Options.setTemplate] <;> (try split) <;> simp
  refine ⟨ps, raws, h1, h2, ?_, ?_, ?_, ?_⟩
  · intro f hf; rw [hfmt, hf]; rfl
  · intro hn
    rw [hfmt, hn]
    exact ⟨k1, k2⟩
  · intro hn; rw [htm, if_neg (by simpa using hn)]
  · intro hn; rw [htm, hn]; exact k3

/-- **C129** The same for `fixit fix --automatic` and a built-in style, on distinct files none of which is part of the configuration or of a rule. The files come in the order
given, and the summary counts every fix as available and as applied. -/
theorem C129_fix (options : Options) (diff hook : Bool) (cfg : Config V) (args fs : List Path) (replies : List Reply) (w : World) (c : List Out)
    (hh : (if args = [] then [con.cwd] else args).head? ≠ some [py "-"])
    (hf : filesUnder (walk w.files) ((if args = [] then [con.cwd] else args).filter (· ≠ [py "-"])) = .ok fs)
    (hcfg : generateConfig o.cfg o.configOrder (o.fs w.files) (o.load w.files) con.cwd none (some options) = .ok cfg) (hfmt : cfg.outputFormat ≠ .custom)
    (hS : Stable (o.env (some options)) (fun q => q ∈ fs.map o.base.resolve)) (hd : (fs.map o.base.resolve).Nodup) :
    ∃ (printed : List Out) (visited dirty : List Path),
      AllWritten con diff false cfg.outputFormat cfg.outputTemplate (fs.flatMap (fun p => (alone (o.env (some options)) true hook w p).1)) printed ∧
      Lists visited (fun q => ∃ p ∈ fs, o.base.resolve p = q) ∧
      Lists dirty (fun q => ∃ p ∈ fs, o.base.resolve p = q ∧ ∃ r ∈ (alone (o.env (some options)) true hook w p).1, Dirty r) ∧
      ((o.fix con walk options false diff hook args w).run replies (w, c)).2.2.2 = c ++ printed ++ [⟨true, summary visited.length dirty.length
        ((fs.flatMap (fun p => (alone (o.env (some options)) true hook w p).1)).filter Result.fixable).length
        ((fs.flatMap (fun p => (alone (o.env (some options)) true hook w p).1)).filter Result.fixable).length⟩] := by
  have hout : o.output con options w.files = .ok (cfg.outputFormat, cfg.outputTemplate) := by
    unfold Outside.output
    rw [show o.config (some options) w.files con.cwd = .ok cfg from hcfg]
    rfl
  unfold Outside.fix
  rw [hout]
  have hauto := C57_automatic (o.env (some options)) con walk diff hook cfg.outputFormat cfg.outputTemplate args fs replies w c hh hf hfmt hS hd
  have h := C57_session (o.env (some options)) con walk false diff hook cfg.outputFormat cfg.outputTemplate args replies w c
  generalize hp : (if args = [] then [con.cwd] else args) = paths at h hh hf
  have hb : (paths.head? == some [py "-"]) = false := by simpa using hh
  simp only [hb, Bool.not_false, Bool.false_and, Bool.false_or, Bool.false_eq_true, false_and, or_false, and_false] at h
  obtain ⟨ss, s1, s2, s3, s4⟩ := h
  have hpr : ∀ r, printable con cfg.outputFormat cfg.outputTemplate r = true := C79_builtin_formats con _ _ hfmt
  rw [answersTo_auto _ hpr] at s1
  rw [hauto.2.1] at s4
  obtain ⟨-, hret, visited, dirty, hv, hdy, htext⟩ := s4
  have hret : ((fixitPaths (o.env (some options)) walk true hook paths).run ss w).2.1 = .returned () := by simpa using hret
  have hP : PathsRun (o.env (some options)) walk true hook false paths
      (List.replicate ((fixitPaths (o.env (some options)) walk true hook paths).run ss w).1.length none) w
      (((fixitPaths (o.env (some options)) walk true hook paths).run ss w).1, .returned (), ((fixitPaths (o.env (some options)) walk true hook paths).run ss w).2.2) := by
    have := PathsRun.plain (env := o.env (some options)) (walk := walk) (autofix := true) (hook := hook) (parallel := false) (paths := paths) (ss := ss) (w := w)
      (by unfold usesPool; split <;> simp [sequential])
    rw [← s1]
    have e : (fixitPaths (o.env (some options)) walk true hook paths).run ss w = (((fixitPaths (o.env (some options)) walk true hook paths).run ss w).1, .returned (),
        ((fixitPaths (o.env (some options)) walk true hook paths).run ss w).2.2) := by
      rw [← hret]
    exact e ▸ this
  obtain ⟨⟨order, -, hord, hrs⟩, -⟩ := C51_fix_any_schedule (o.env (some options)) walk true hook false paths _ w _ _ fs hh hf hS hd hP
  obtain rfl := hord rfl
  rw [hrs] at hv hdy htext
  refine ⟨_, visited, dirty, printedFor_written con diff false cfg.outputFormat cfg.outputTemplate hpr _, lists_files (o.env (some options)) true hook w _ _ (List.Perm.refl _) visited hv,
    lists_dirty (o.env (some options)) true hook w _ _ (List.Perm.refl _) dirty hdy, ?_⟩
  simpa using htext

end

/-- C129: what `fixit fix --automatic` prints for the file `abcu`, from the theorem (the hypotheses hold) and by running it. -/
example :
    (∃ printed visited dirty, AllWritten toyConsole false false .fixit (.str []) ([[py "f"]].flatMap (fun p => (alone (toyOutside.env (some {})) true false (systemWorld abcu) p).1)) printed ∧
      Lists visited (fun q => ∃ p ∈ [[py "f"]], toyOutside.base.resolve p = q) ∧
      Lists dirty (fun q => ∃ p ∈ [[py "f"]], toyOutside.base.resolve p = q ∧ ∃ r ∈ (alone (toyOutside.env (some {})) true false (systemWorld abcu) p).1, Dirty r) ∧
      ((toyOutside.fix toyConsole toyWalk {} false false false [[py "f"]] (systemWorld abcu)).run [] (systemWorld abcu, [])).2.2.2 = [] ++ printed ++
        [⟨true, summary visited.length dirty.length (([[py "f"]].flatMap (fun p => (alone (toyOutside.env (some {})) true false (systemWorld abcu) p).1)).filter Result.fixable).length
          (([[py "f"]].flatMap (fun p => (alone (toyOutside.env (some {})) true false (systemWorld abcu) p).1)).filter Result.fixable).length⟩]) ∧
    ((toyOutside.fix toyConsole toyWalk {} false false false [[py "f"]] (systemWorld abcu)).run [] (systemWorld abcu, [])).2.2.2.map (fun o => (o.err, String.ofList o.text)) =
      [(false, "f@1:2 Toy: found (has autofix)\n"), (true, "🛠️  1 file checked, 1 file with errors, 1 auto-fix available, 1 fix applied 🛠️\n")] := by
  refine ⟨C129_fix toyOutside toyConsole toyWalk {} false false (abcuConfig [py "root"]) [[py "f"]] [[py "f"]] [] (systemWorld abcu) [] (by decide) rfl
    (abcu_config _ (.inr rfl)) (by decide) ?_ (by decide), by decide +kernel⟩
  refine C93_stable toyOutside (some {}) _ ?_ (by intro oo f h1 h2; cases h1; cases h2) (fun _ _ _ => rfl) (fun _ _ _ => rfl)
  intro d n hn
  refine (fun hne => ⟨hne, hne⟩) ?_
  intro h
  have : d ++ [n] = [py "root", py "f"] := by simpa [toyOutside, toyEnv] using h
  have e : (d ++ [n]).getLast? = some (py "f") := by rw [this]; rfl
  simp only [List.getLast?_append, List.getLast?_singleton, Option.some_or, Option.some.injEq] at e
  subst e
  revert hn
  decide

end Fixit
