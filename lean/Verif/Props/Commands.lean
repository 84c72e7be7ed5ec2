import Verif.Model.Commands
import Verif.Props.SystemFails
import Verif.Props.CliAuto
import Verif.Props.Validate

/-!
# C93–C95: the commands, from the arguments to the exit status
-/

namespace Fixit
open Py Spec Gen

section
variable {V M : Type} (o : Outside V M) (con : Console) (walk : (Path → Option Bytes) → Path → Except Err (List Path))

section
variable (horder : ∀ l, (o.ruleOrder l).Perm l)
include horder

/-- C93: when every file can be linted, `fixit lint` exits with 1 if some selected rule reports something on some file that no comment silences, and with 0 if not;
whatever the schedule, and no file changes. -/
theorem C93_lint (options : Options) (diff hook : Bool) (paths fs : List Path) (w w' : World) (outs : List Out) (code : Nat)
    (hh : (if paths = [] then [con.cwd] else paths).head? ≠ some [py "-"])
    (hf : filesUnder (walk w.files) ((if paths = [] then [con.cwd] else paths).filter (· ≠ [py "-"])) = .ok fs)
    (hlints : ∀ p ∈ fs, ∃ content cfg m, Lints o (some options) w.files (o.base.resolve p) content cfg m)
    (hhook : hook = true → ∀ μ, o.base.hookRaises μ = none)
    (h : o.Lint con walk options diff hook paths w (outs, .exit code, w')) :
    (code = 0 ∨ code = 1) ∧
    (code = 1 ↔ ∃ p ∈ fs, ∃ content cfg m k call, Lints o (some options) w.files (o.base.resolve p) content cfg m ∧ Flagged o w.files cfg m k call) ∧
    w'.files = w.files := by
  obtain ⟨h1, h2, h3, h4⟩ := C55_exit_status_files (o.env (some options)) con walk diff hook _ paths w w' outs code fs hh hf h
  have herr : ¬ code / 2 = 1 := by
    rw [h2]
    rintro ⟨p, hp, e, he⟩
    obtain ⟨content, cfg, m, hl⟩ := hlints p hp
    have := (C93_file o horder (some options) w p content cfg m hl hook hhook).2.2 _ he
    simp [errorResult] at this
  have hcode : code = 0 ∨ code = 1 := by omega
  refine ⟨hcode, ?_, ?_⟩
  · have hodd : code = 1 ↔ code % 2 = 1 := by omega
    rw [hodd, h1]
    constructor
    · rintro ⟨p, hp, v, hv⟩
      obtain ⟨content, cfg, m, hl⟩ := hlints p hp
      obtain ⟨k, call, v', hfl, -⟩ := ((C93_file o horder (some options) w p content cfg m hl hook hhook).2.1 v).mp hv
      exact ⟨p, hp, content, cfg, m, k, call, hl, hfl⟩
    · rintro ⟨p, hp, content, cfg, m, k, call, hl, hfl⟩
      obtain ⟨c1, -, -⟩ := C93_file o horder (some options) w p content cfg m hl hook hhook
      have hne : ¬ (alone (o.env (some options)) false hook w p).1 = [cleanResult (o.base.resolve p)] := fun e => c1.mp e k call hfl
      have h30 : code ≠ 0 := fun e => hne (h3.mp e p hp)
      exact h1.mp (by omega)
  · obtain ⟨n, rs, hr, -⟩ := C55_exit_status (o.env (some options)) con walk diff hook _ paths w w' outs code h
    exact (C51_lint_any_schedule (o.env (some options)) walk hook true _ n w w' rs fs hh hf hr).2

/-- C93: `fixit fix --automatic` changes no file in which nothing is reported that no comment silences; any other file that can be linted gets, unless an error
is reported for it, exactly the fixes of what is reported. -/
theorem C93_fix (options : Options) (diff hook : Bool) (fmt : OutputFormat) (template : Toml) (args fs : List Path) (replies : List Reply) (w : World) (c : List Out)
    (hh : (if args = [] then [con.cwd] else args).head? ≠ some [py "-"])
    (hf : filesUnder (walk w.files) ((if args = [] then [con.cwd] else args).filter (· ≠ [py "-"])) = .ok fs)
    (hout : o.output con options w.files = .ok (fmt, template)) (hfmt : fmt ≠ .custom)
    (hS : Stable (o.env (some options)) (fun q => q ∈ fs.map o.base.resolve)) (hd : (fs.map o.base.resolve).Nodup)
    (p : Path) (hp : p ∈ fs) (content : Bytes) (cfg : Config V) (m : Node) (hl : Lints o (some options) w.files (o.base.resolve p) content cfg m)
    (hne : ∀ r ∈ (alone (o.env (some options)) true hook w p).1, r.error = none) :
    let out := (o.fix con walk options false diff hook args w).run replies (w, c)
    out.2.1 = .returned 0 ∧
    ((∀ k call, ¬ Flagged o w.files cfg m k call) → out.2.2.1.files (o.base.resolve p) = w.files (o.base.resolve p)) ∧
    ((∃ k call, Flagged o w.files cfg m k call) → ∃ (vs : List LintViolation) (b : Bytes), (∀ lv, lv ∈ vs ↔
        ∃ k call v, Flagged o w.files cfg m k call ∧ Says o m k call v ∧ display (o.env (some options)) (o.base.resolve p) m v = .ok lv) ∧
      (∃ m', applyReplacements m (vs.map LintViolation.fix) = .ok m' ∧ Formatted o cfg m' (o.base.resolve p) b) ∧
      out.2.2.1.files (o.base.resolve p) = some (if b = [] then content else b)) := by
  intro out
  have hout' : out = (fixCommand (o.env (some options)) con walk false diff hook (.ok (fmt, template)) args).run replies (w, c) := by
    show (fixCommand (o.env (some options)) con walk false diff hook (o.output con options w.files) args).run replies (w, c) = _
    rw [hout]
  obtain ⟨-, a1, -, -, a2⟩ := C57_automatic (o.env (some options)) con walk diff hook fmt template args fs replies w c hh hf hfmt hS hd
  rw [← hout'] at a1 a2
  obtain ⟨content', cfg', b1, b2, b3⟩ := a2 p hp hne
  obtain ⟨hl1, -⟩ := system_found o horder (some options) w.files (o.base.resolve p) content cfg m hl
  have hfi : foundIn (o.env (some options)) w.files (o.base.resolve p) = found (o.env (some options)) w.files (o.base.resolve p) content cfg := by
    unfold foundIn; rw [hl1]
  have hload : loaded (o.env (some options)) w.files (o.base.resolve p) = .ok (content', cfg') := b1
  rw [hl1] at hload
  cases hload
  have b2 : found (o.env (some options)) w.files (o.base.resolve p) content cfg = [] → out.2.2.1.files (o.base.resolve p) = w.files (o.base.resolve p) := b2
  have hiff := found_nil_iff o horder (some options) w.files (o.base.resolve p) content cfg m hl
  rw [hfi] at hiff
  refine ⟨a1, fun hn => b2 (hiff.mpr hn), ?_⟩
  rintro ⟨k, call, hfl⟩
  have hnn : found (o.env (some options)) w.files (o.base.resolve p) content cfg ≠ [] := fun e => hiff.mp e k call hfl
  obtain ⟨b, c1, c2⟩ := b3 hnn
  exact ⟨found (o.env (some options)) w.files (o.base.resolve p) content cfg, b,
    fun lv => by rw [← hfi]; exact C93_found o horder (some options) w.files (o.base.resolve p) content cfg m hl lv, C93_formatted o (some options) (o.base.resolve p) content cfg m _ b hl.parse c1, c2⟩

end

/-! ## When linting does not depend on the files being linted -/

theorem locateLoop_congr (fs fs' : FS) (root : Path) (h : ∀ d, ∀ n ∈ configFilenames, fs.isFile (d ++ [n]) = fs'.isFile (d ++ [n])) (path : Path) :
    locateLoop fs root path = locateLoop fs' root path := by
  fun_induction locateLoop fs root path with
  | case1 path ih =>
    rw [locateLoop.eq_def fs' root path]
    congr 1
    · simp only [configFilenames, List.map_cons, List.map_nil]
      apply List.filter_congr
      simp only [List.mem_cons, List.not_mem_nil, or_false]
      rintro f (rfl | rfl | rfl) <;> exact h path _ (by simp [configFilenames])
    · split
      · rfl
      · rename_i hp; exact ih hp

theorem locateLoop_names (fs : FS) (root : Path) (path f : Path) (hf : f ∈ locateLoop fs root path) : ∃ d, ∃ n ∈ configFilenames, f = d ++ [n] := by
  fun_induction locateLoop fs root path with
  | case1 path ih =>
    rcases List.mem_append.mp hf with hf | hf
    · rw [List.mem_filter, List.mem_map] at hf
      obtain ⟨⟨n, hn, rfl⟩, -⟩ := hf
      exact ⟨path, n, hn, rfl⟩
    · split at hf
      · cases hf
      · rename_i hp; exact ih hp hf

theorem readConfigs_congr (load load' : Path → Except Err Dict) : ∀ ps : List Path, (∀ p ∈ ps, load p = load' p) → readConfigs load ps = readConfigs load' ps
  | [], _ => rfl
  | p :: ps, h => by
    have e : readOne load p = readOne load' p := by unfold readOne; rw [h p List.mem_cons_self]
    rw [readConfigs, readConfigs, e, readConfigs_congr load load' ps (fun q hq => h q (List.mem_cons_of_mem _ hq))]

/-- C93: `Stable`, which the theorems about fixing assume, holds when none of the files being fixed has the name of a configuration file or is the one given with
`--config-file`, and neither the import system nor the visitors look at them. -/
theorem C93_stable (options : Option Options) (S : Path → Prop)
    (hnames : ∀ d, ∀ n ∈ [py "fixit.toml", py ".fixit.toml", py "pyproject.toml"], ¬ S (d ++ [n]) ∧ ¬ S (o.real (d ++ [n])))
    (hfile : ∀ oo f, options = some oo → oo.configFile = some f → ¬ S (o.real f))
    (hrules : ∀ f f' : Path → Option Bytes, (∀ q, ¬ S q → f q = f' q) → o.rules f = o.rules f')
    (hvis : ∀ f f' : Path → Option Bytes, (∀ q, ¬ S q → f q = f' q) → o.visitors f = o.visitors f') : Stable (o.env options) S := by
  intro f f' h
  refine ⟨?_, ?_, ?_⟩
  · show o.config options f = o.config options f'
    funext path
    unfold Outside.config generateConfig
    have hloc : locateConfigs (o.fs f) path none = locateConfigs (o.fs f') path none := by
      unfold locateConfigs
      have e : locateLoop (o.fs f) [] = locateLoop (o.fs f') [] := by
        funext p
        apply locateLoop_congr
        intro d n hn
        show (f (d ++ [n])).isSome = (f' (d ++ [n])).isSome
        rw [h _ (hnames d n hn).1]
      show (if Path.under (if o.isDir path then path else Path.parent path) [] then Except.ok (locateLoop (o.fs f) [] (if o.isDir path then path else Path.parent path)) else _) = _
      rw [e]
      rfl
    have hload : ∀ p, ¬ S p → o.load f p = o.load f' p := by
      intro p hp
      unfold Outside.load
      rw [h p hp]
    have hread : ∀ ps, (∀ p ∈ ps, ¬ S p) → readConfigs (o.load f) ps = readConfigs (o.load f') ps := fun ps hps =>
      readConfigs_congr _ _ ps (fun p hp => hload p (hps p hp))
    cases hc : options.bind (·.configFile) with
    | some g =>
      simp only
      have hg : ¬ S (o.real g) := by
        cases options with
        | none => cases hc
        | some oo => exact hfile oo g rfl hc
      simp only [Bind.bind, Except.bind, pure, Except.pure]
      rw [show [g].map (o.fs f).real = [o.real g] from rfl, show [g].map (o.fs f').real = [o.real g] from rfl, hread [o.real g] (by simpa using hg)]
    | none =>
      simp only
      rw [hloc]
      cases hl : locateConfigs (o.fs f') path none with
      | error e => rfl
      | ok ps =>
        simp only [Bind.bind, Except.bind]
        have hps : ∀ p ∈ ps.map o.real, ¬ S p := by
          have hl' : Except.ok (locateLoop (o.fs f') [] (if o.isDir path then path else Path.parent path)) = Except.ok (ε := Err) ps := hl
          cases hl'
          intro p hp
          obtain ⟨q, hq, rfl⟩ := List.mem_map.mp hp
          obtain ⟨d, n, hn, rfl⟩ := locateLoop_names _ _ _ _ hq
          exact (hnames d n hn).2
        rw [show (o.fs f).real = o.real from rfl, show (o.fs f').real = o.real from rfl, hread (ps.map o.real) hps]
  · show o.collect f = o.collect f'
    funext cfg
    unfold Outside.collect
    rw [hrules f f' h]
  · show o.visit f = o.visit f'
    funext cfg m rules
    unfold Outside.visit
    rw [hvis f f' h]

/-! ## C94: rules and tags given on the command line -/

/-- Where a configuration comes from. -/
theorem config_merged (options : Options) (files : Path → Option Bytes) (path : Path) (cfg : Config V) (h : o.config (some options) files path = .ok cfg) :
    ∃ ps raws r, (match options.configFile with | some f => ps = [f] | none => locateConfigs (o.fs files) path none = .ok ps) ∧
      (readConfigs (o.load files) (ps.map o.real)).1 = .ok raws ∧ mergeConfigs o.cfg o.configOrder path raws none = .ok r ∧ cfg = applyOptions options r.1 := by
  unfold Outside.config generateConfig at h
  simp only [Bind.bind, pure, Except.pure, Option.bind_some] at h
  have step : ∀ ps, (readConfigs (o.load files) ps).1.bind (fun raws => (mergeConfigs o.cfg o.configOrder path raws none).bind (fun r => .ok (applyOptions options r.1))) =
      .ok cfg → ∃ raws r, (readConfigs (o.load files) ps).1 = .ok raws ∧ mergeConfigs o.cfg o.configOrder path raws none = .ok r ∧ cfg = applyOptions options r.1 := by
    intro ps h
    cases e2 : (readConfigs (o.load files) ps).1 with
    | error e => rw [e2] at h; cases h
    | ok raws =>
      rw [e2] at h
      simp only [Except.bind] at h
      cases e3 : mergeConfigs o.cfg o.configOrder path raws none with
      | error e => rw [e3] at h; cases h
      | ok r => rw [e3] at h; simp only [Except.ok.injEq] at h; exact ⟨raws, r, rfl, e3, h.symm⟩
  cases hc : options.configFile with
  | some f =>
    rw [hc] at h
    obtain ⟨raws, r, a, b, c⟩ := step [o.real f] h
    exact ⟨[f], raws, r, rfl, a, b, c⟩
  | none =>
    rw [hc] at h
    cases e1 : locateConfigs (o.fs files) path none with
    | error e => rw [e1] at h; cases h
    | ok ps =>
      rw [e1] at h
      obtain ⟨raws, r, a, b, c⟩ := step (ps.map o.real) h
      exact ⟨ps, raws, r, rfl, a, b, c⟩

/-- What the options make of a configuration. -/
theorem config_options (options : Options) (files : Path → Option Bytes) (path : Path) (cfg : Config V) (h : o.config (some options) files path = .ok cfg) :
    (options.rules ≠ [] → cfg.enable = options.rules ∧ cfg.disable = []) ∧
    (∀ t, options.tags = some t → (t.incl ≠ [] ∨ t.excl ≠ []) → cfg.tags = t) ∧
    ((∀ t, options.tags = some t → t.incl = [] ∧ t.excl = []) → cfg.tags = {}) := by
  obtain ⟨ps, raws, r, -, -, hm, rfl⟩ := config_merged o options files path cfg h
  obtain ⟨s, -, hc, -⟩ := mergeConfigs_ok o.cfg path (cfg := r.1) (w := r.2) hm
  have htags : r.1.tags = {} := by rw [hc]; rfl
  obtain ⟨oc, ot, orl, of, otm⟩ := options
  refine ⟨?_, ?_, ?_⟩
  · intro hne
    cases orl with
    | nil => exact absurd rfl hne
    | cons a b => cases ot <;> cases of <;> cases otm <;> simp [applyOptions, Options.setTags, Options.setRules, Options.setFormat, Options.setTemplate] <;> (try split) <;> simp
  · intro t ht hne
    simp only at ht
    subst ht
    have : t.truthy = true := by
      obtain ⟨i, e⟩ := t
      cases i <;> cases e <;> simp_all [Tags.truthy]
    cases orl <;> cases of <;> cases otm <;> simp [applyOptions, Options.setTags, Options.setRules, Options.setFormat, Options.setTemplate, this]
  · intro hno
    cases ot with
    | none => cases orl <;> cases of <;> cases otm <;> simp [applyOptions, Options.setTags, Options.setRules, Options.setFormat, Options.setTemplate, htags]
    | some t =>
      obtain ⟨e1, e2⟩ := hno t rfl
      have : t.truthy = false := by simp [Tags.truthy, e1, e2]
      cases orl <;> cases of <;> cases otm <;> simp [applyOptions, Options.setTags, Options.setRules, Options.setFormat, Options.setTemplate, this, htags]

/-- C94: with `--rules`, what the configuration files enable and disable does not matter: the rules selected for a file are the classes that the references given
lead to, as far as the tags given and the Python version admit them. -/
theorem C94_rules_override (options : Options) (files : Path → Option Bytes) (path : Path) (cfg : Config V) (h : o.config (some options) files path = .ok cfg)
    (hr : options.rules ≠ []) (k : Nat) :
    Active o files cfg k ↔ Resolved (outcomes ((o.rules files).find (searchPath cfg o.sysPath)) o.mods options.rules) k ∧
      (∀ t, options.tags = some t → (t.incl ≠ [] ∨ t.excl ≠ []) → Selected t.incl t.excl ((o.rules files).tags k)) ∧
      ∀ v, cfg.pyver = some v → (o.rules files).supports v k = .ok true := by
  obtain ⟨c1, c2, c3⟩ := config_options o options files path cfg h
  obtain ⟨e1, e2⟩ := c1 hr
  have hsel : Selected cfg.tags.incl cfg.tags.excl ((o.rules files).tags k) ↔
      ∀ t, options.tags = some t → (t.incl ≠ [] ∨ t.excl ≠ []) → Selected t.incl t.excl ((o.rules files).tags k) := by
    by_cases hn : ∀ t, options.tags = some t → t.incl = [] ∧ t.excl = []
    · rw [c3 hn]
      constructor
      · intro _ t ht hne
        obtain ⟨a, b⟩ := hn t ht
        simp [a, b] at hne
      · intro _; simp [Selected]
    · obtain ⟨t, ht⟩ := Classical.not_forall.mp hn
      have ht' := Classical.not_imp.mp ht
      have hne : t.incl ≠ [] ∨ t.excl ≠ [] := Classical.not_and_iff_not_or_not.mp ht'.2
      rw [c2 t ht'.1 hne]
      constructor
      · intro hs t' ht2 _
        rw [ht'.1] at ht2; cases ht2; exact hs
      · intro hs; exact hs t ht'.1 hne
  constructor
  · rintro ⟨a1, -, a3, a4⟩
    unfold enabled at a1
    rw [e1] at a1
    exact ⟨a1, hsel.mp a3, a4⟩
  · rintro ⟨a1, a3, a4⟩
    refine ⟨?_, ?_, hsel.mpr a3, a4⟩
    · unfold enabled; rw [e1]; exact a1
    · intro hd
      unfold disabled at hd
      rw [e2] at hd
      obtain ⟨q, cs, hm, -⟩ := hd
      cases hm

/-- C94: without `--rules` the configuration files decide: a reference is enabled, or disabled, as the nearest table that applies to the file and mentions it says, and
only `fixit.rules` is enabled without being mentioned. -/
theorem C94_configured (hcorder : ∀ l, (o.configOrder l).Perm l) (options : Options) (files : Path → Option Bytes) (path : Path) (cfg : Config V)
    (h : o.config (some options) files path = .ok cfg) (hr : options.rules = []) :
    ∃ ps raws, (match options.configFile with | some f => ps = [f] | none => locateConfigs (o.fs files) path none = .ok ps) ∧
      (readConfigs (o.load files) (ps.map o.real)).1 = .ok raws ∧
      ∀ text, ((∃ q ∈ cfg.enable, q.str = text) ↔ lastMention (allMentions path (Fixit.files raws)) text = some true ∨
          (lastMention (allMentions path (Fixit.files raws)) text = none ∧ text = py "fixit.rules")) ∧
        ((∃ q ∈ cfg.disable, q.str = text) ↔ lastMention (allMentions path (Fixit.files raws)) text = some false) := by
  obtain ⟨ps, raws, r, h1, h2, h3, rfl⟩ := config_merged o options files path cfg h
  refine ⟨ps, raws, h1, h2, fun text => ?_⟩
  have := C17_last_mention_wins o.cfg path o.configOrder hcorder (cfg := r.1) (w := r.2) h3 text
  obtain ⟨oc, ot, orl, of, otm⟩ := options
  simp only at hr
  subst hr
  have he : (applyOptions ⟨oc, ot, [], of, otm⟩ r.1).enable = r.1.enable ∧ (applyOptions ⟨oc, ot, [], of, otm⟩ r.1).disable = r.1.disable := by
    cases ot <;> cases of <;> cases otm <;> simp [applyOptions, Options.setTags, Options.setRules, Options.setFormat, Options.setTemplate] <;> (try split) <;> simp
  rw [he.1, he.2]
  exact this

/-- C94: from the command line: `--rules` with well-formed references and no `--tags` selects, for every file, the classes the references lead to, as far as the Python
version admits them. -/
theorem C94_command_line (tagOrder : List PStr → List PStr) (order : List QualifiedRule → List QualifiedRule) (hq : ∀ l, (order l).Perm l) (cwd : Path) (flags : Flags)
    (items : List PStr) (hi : ruleEntries flags.rules items) (hne : items ≠ []) (hok : ∀ i ∈ items, ∃ q, parseRule i cwd = .ok q) (htags : flags.tags = []) :
    ∃ options, mainOptions o.unicode tagOrder order cwd flags = .ok options ∧ options.configFile = flags.configFile ∧
      ∀ files path cfg, o.config (some options) files path = .ok cfg → ∀ k,
        (Active o files cfg k ↔ Resolved (outcomes ((o.rules files).find (searchPath cfg o.sysPath)) o.mods options.rules) k ∧
          ∀ v, cfg.pyver = some v → (o.rules files).supports v k = .ok true) ∧
        ∀ q, q ∈ options.rules ↔ ∃ i ∈ items, parseRule i cwd = .ok q := by
  obtain ⟨l, h1, h2, -⟩ := C58_rules_option order hq cwd flags.rules items hi hok
  have hl : l ≠ [] := by
    rintro rfl
    cases items with
    | nil => exact hne rfl
    | cons i is =>
      obtain ⟨q, hq⟩ := hok i (by simp)
      exact absurd ((h2 q).mpr ⟨i, by simp, hq⟩) (by simp)
  refine ⟨{ configFile := flags.configFile, tags := some {}, rules := l, outputFormat := flags.outputFormat, outputTemplate := flags.outputTemplate }, ?_, rfl, ?_⟩
  · unfold mainOptions
    rw [htags, h1]
    rfl
  · intro files path cfg h k
    refine ⟨?_, h2⟩
    rw [C94_rules_override o _ files path cfg h hl k]
    constructor
    · rintro ⟨a, -, b⟩; exact ⟨a, b⟩
    · rintro ⟨a, b⟩
      refine ⟨a, ?_, b⟩
      rintro t ht hne
      cases ht
      simp at hne

/-- C94: `fixit upgrade` lints with the rule classes found in `fixit.upgrade`, whatever is configured or given with `--rules`. -/
theorem C94_upgrade_rules (options : Options) (files : Path → Option Bytes) (path : Path) (cfg : Config V)
    (h : o.config (some (upgradeOptions options)) files path = .ok cfg) (k : Nat) (ha : Active o files cfg k) :
    ∃ cs, ((o.rules files).find (searchPath cfg o.sysPath) o.mods { module := py "fixit.upgrade" }).1 = .ok cs ∧ k ∈ cs := by
  obtain ⟨⟨q, cs, hm, -, hk⟩, -⟩ := (C94_rules_override o (upgradeOptions options) files path cfg h (by simp [upgradeOptions]) k).mp ha
  simp only [upgradeOptions, outcomes, List.mem_singleton, Prod.mk.injEq] at hm
  exact ⟨cs, hm.2.symm, hk⟩

/-- C94: what `fixit upgrade` leaves in a file: its content unless a class found in `fixit.upgrade` reports something on it that no comment silences, and
otherwise the content with exactly the fixes of those reports. -/
theorem C94_upgrade (horder : ∀ l, (o.ruleOrder l).Perm l) (options : Options) (hook : Bool) (fmt : OutputFormat) (template : Toml) (args fs : List Path)
    (replies : List Reply) (w : World) (c : List Out)
    (hh : (if args = [] then [con.cwd] else args).head? ≠ some [py "-"])
    (hf : filesUnder (walk w.files) ((if args = [] then [con.cwd] else args).filter (· ≠ [py "-"])) = .ok fs)
    (hout : o.output con (upgradeOptions options) w.files = .ok (fmt, template)) (hfmt : fmt ≠ .custom)
    (hS : Stable (o.env (some (upgradeOptions options))) (fun q => q ∈ fs.map o.base.resolve)) (hd : (fs.map o.base.resolve).Nodup)
    (p : Path) (hp : p ∈ fs) (content : Bytes) (cfg : Config V) (m : Node)
    (hl : Lints o (some (upgradeOptions options)) w.files (o.base.resolve p) content cfg m)
    (hne : ∀ r ∈ (alone (o.env (some (upgradeOptions options))) true hook w p).1, r.error = none) :
    let out := (o.upgrade con walk options hook args w).run replies (w, c)
    let fromUpgrade := fun k call => Flagged o w.files cfg m k call ∧
      ∃ cs, ((o.rules w.files).find (searchPath cfg o.sysPath) o.mods { module := py "fixit.upgrade" }).1 = .ok cs ∧ k ∈ cs
    out.2.1 = .returned 0 ∧
    ((∀ k call, ¬ fromUpgrade k call) → out.2.2.1.files (o.base.resolve p) = w.files (o.base.resolve p)) ∧
    ((∃ k call, fromUpgrade k call) → ∃ (vs : List LintViolation) (b : Bytes), (∀ lv, lv ∈ vs ↔
        ∃ k call v, fromUpgrade k call ∧ Says o m k call v ∧ display (o.env (some (upgradeOptions options))) (o.base.resolve p) m v = .ok lv) ∧
      (∃ m', applyReplacements m (vs.map LintViolation.fix) = .ok m' ∧ Formatted o cfg m' (o.base.resolve p) b) ∧
      out.2.2.1.files (o.base.resolve p) = some (if b = [] then content else b)) := by
  intro out fromUpgrade
  have hiff : ∀ k call, fromUpgrade k call ↔ Flagged o w.files cfg m k call := fun k call =>
    ⟨fun h => h.1, fun h => ⟨h, C94_upgrade_rules o options w.files _ cfg hl.config k h.1⟩⟩
  obtain ⟨a1, a2, a3⟩ := C93_fix o con walk horder (upgradeOptions options) false hook fmt template args fs replies w c hh hf hout hfmt hS hd p hp content cfg m hl hne
  simp only [hiff]
  exact ⟨a1, a2, a3⟩

/-! ## C95: debug -/

theorem describeDisabled_ok (make : Nat → Except Err Unit) (str : Nat → PStr) : ∀ l : List (Nat × Reason), (∀ e ∈ l, make e.1 = .ok ()) →
    describeDisabled make str l = .ok (l.map (fun e => disabledText (str e.1) e.2))
  | [], _ => rfl
  | (k, y) :: l, h => by
    simp only [describeDisabled, h (k, y) List.mem_cons_self, describeDisabled_ok make str l (fun e he => h e (List.mem_cons_of_mem _ he)), Bind.bind, Except.bind, pure, Except.pure, List.map_cons]

theorem describeDisabled_error (make : Nat → Except Err Unit) (str : Nat → PStr) : ∀ (l : List (Nat × Reason)) (e : Err),
    describeDisabled make str l = .error e ↔ ∃ pre x post, l = pre ++ x :: post ∧ (∀ y ∈ pre, make y.1 = .ok ()) ∧ make x.1 = .error e
  | [], e => by simp [describeDisabled]
  | (k, y) :: l, e => by
    rw [describeDisabled]
    cases hk : make k with
    | error e' =>
      simp only [Bind.bind, Except.bind, Except.error.injEq]
      constructor
      · rintro rfl; exact ⟨[], (k, y), l, rfl, by simp, hk⟩
      · rintro ⟨pre, x, post, h, hp, hx⟩
        cases pre with
        | nil => simp only [List.nil_append, List.cons.injEq] at h; rw [← h.1, hk] at hx; cases hx; rfl
        | cons a pre => simp only [List.cons_append, List.cons.injEq] at h; have := hp a List.mem_cons_self; rw [← h.1, hk] at this; cases this
    | ok u =>
      have ih := describeDisabled_error make str l e
      have hstep : ((do { let rs ← describeDisabled make str l; return disabledText (str k) y :: rs } : Except Err (List PStr)) = .error e) ↔ describeDisabled make str l = .error e := by
        cases describeDisabled make str l <;> simp [Bind.bind, Except.bind, pure, Except.pure]
      simp only [Bind.bind, Except.bind] at hstep ⊢
      rw [hstep, ih]
      constructor
      · rintro ⟨pre, x, post, rfl, hp, hx⟩
        refine ⟨(k, y) :: pre, x, post, rfl, ?_, hx⟩
        intro z hz
        rcases List.mem_cons.mp hz with rfl | hz
        · exact hk
        · exact hp z hz
      · rintro ⟨pre, x, post, h, hp, hx⟩
        cases pre with
        | nil => simp only [List.nil_append, List.cons.injEq] at h; rw [← h.1, hk] at hx; cases hx
        | cons a pre =>
          simp only [List.cons_append, List.cons.injEq] at h
          exact ⟨pre, x, post, h.2, fun z hz => hp z (List.mem_cons_of_mem _ hz), hx⟩

theorem reasons_iff (horder : ∀ l, (o.ruleOrder l).Perm l) (files : Path → Option Bytes) (cfg : Config V)
    (c : Collected Nat M) (hc : (collectRules (o.rules files) o.ruleOrder cfg o.sysPath o.mods).1 = .ok c) (k : Nat) (y : Reason) :
    (k, y) ∈ c.reasons ↔ DroppedFor o files cfg k y := by
  obtain ⟨r1, r2, r3⟩ := C33_reason_is_first_stage (o.rules files) horder cfg o.sysPath o.mods c hc k
  cases y with
  | disabled => exact r1
  | tags => exact r2
  | pythonVersion => exact r3

/-- C95: `fixit debug` shows, for a path whose configuration can be read and whose rules can be made, that configuration, the names of exactly the rules that
`fixit lint` would use on it with the same options, in order, and of the others each with the reason: disabled, left out by the tags, or by the version. -/
theorem C95_debug (horder : ∀ l, (o.ruleOrder l).Perm l) (str : Nat → PStr) (options : Options) (files : Path → Option Bytes) (path : Path) (cfg : Config V)
    (hcfg : generateConfig o.cfg o.configOrder (o.fs files) (o.load files) (o.base.resolve path) none (some options) = .ok cfg)
    (c : Collected Nat M) (hc : (collectRules (o.rules files) o.ruleOrder cfg o.sysPath o.mods).1 = .ok c)
    (hmake : ∀ k y, DroppedFor o files cfg k y → (o.rules files).make k = .ok ()) :
    ∃ on off : List PStr, o.debugPath true str options files path = ([.path (o.base.resolve path), .config cfg, .enabled on, .disabled off], none) ∧
      on.Pairwise (fun a b => strLt b a = false) ∧ (∃ ks : List Nat, ks.Nodup ∧ on.Perm (ks.map str) ∧ ∀ k, k ∈ ks ↔ Active o files cfg k) ∧
      off.Pairwise (fun a b => strLt b a = false) ∧
      (∀ text, text ∈ off ↔ ∃ k, (text = str k ++ py " (disabled)" ∧ DroppedFor o files cfg k .disabled) ∨
        (text = str k ++ py " (tags)" ∧ DroppedFor o files cfg k .tags) ∨
        (text = str k ++ py " (python-version)" ∧ DroppedFor o files cfg k .pythonVersion)) := by
  have hd := describeDisabled_ok (o.rules files).make str c.reasons (fun e he => hmake e.1 e.2 ((reasons_iff o horder files cfg c hc e.1 e.2).mp he))
  obtain ⟨hn, hact⟩ := C28_collected_exact (o.rules files) horder cfg o.sysPath o.mods c hc
  refine ⟨sortStrs (c.rules.map str), sortStrs (c.reasons.map (fun e => disabledText (str e.1) e.2)), ?_, ?_, ?_, ?_, ?_⟩
  · unfold Outside.debugPath Outside.config pprintPair
    rw [hcfg]
    simp only [hc, hd, if_true]
    rfl
  · exact sortBy_sorted id (c.rules.map str)
  · refine ⟨c.rules, hn, sortBy_perm _ _, fun k => ?_⟩
    rw [hact k]
    exact ⟨fun ⟨a, b, c, d⟩ => ⟨a, b, c, d⟩, fun ⟨a, b, c, d⟩ => ⟨a, b, c, d⟩⟩
  · exact sortBy_sorted id _
  · intro text
    have t1 : ∀ s, disabledText s .disabled = s ++ py " (disabled)" := fun s => by unfold disabledText; rw [List.append_assoc, List.append_assoc]; rfl
    have t2 : ∀ s, disabledText s .tags = s ++ py " (tags)" := fun s => by unfold disabledText; rw [List.append_assoc, List.append_assoc]; rfl
    have t3 : ∀ s, disabledText s .pythonVersion = s ++ py " (python-version)" := fun s => by unfold disabledText; rw [List.append_assoc, List.append_assoc]; rfl
    have hmem : text ∈ sortStrs (c.reasons.map (fun e => disabledText (str e.1) e.2)) ↔ text ∈ c.reasons.map (fun e => disabledText (str e.1) e.2) := (sortBy_perm _ _).mem_iff
    have hr := reasons_iff o horder files cfg c hc
    rw [hmem, List.mem_map]
    constructor
    · rintro ⟨⟨k, y⟩, hm, rfl⟩
      refine ⟨k, ?_⟩
      cases y with
      | disabled => exact .inl ⟨t1 _, (hr k _).mp hm⟩
      | tags => exact .inr (.inl ⟨t2 _, (hr k _).mp hm⟩)
      | pythonVersion => exact .inr (.inr ⟨t3 _, (hr k _).mp hm⟩)
    · rintro ⟨k, hk⟩
      rcases hk with ⟨rfl, hm⟩ | ⟨rfl, hm⟩ | ⟨rfl, hm⟩
      · exact ⟨(k, .disabled), (hr k _).mpr hm, t1 _⟩
      · exact ⟨(k, .tags), (hr k _).mpr hm, t2 _⟩
      · exact ⟨(k, .pythonVersion), (hr k _).mpr hm, t3 _⟩

/-- C95: when a class that was dropped cannot be made, an exception ends the command, after the rules in use were shown; such a class is no obstacle to linting. -/
theorem C95_dropped_raises (horder : ∀ l, (o.ruleOrder l).Perm l) (str : Nat → PStr) (options : Options) (files : Path → Option Bytes) (path : Path) (cfg : Config V)
    (hcfg : generateConfig o.cfg o.configOrder (o.fs files) (o.load files) (o.base.resolve path) none (some options) = .ok cfg)
    (c : Collected Nat M) (hc : (collectRules (o.rules files) o.ruleOrder cfg o.sysPath o.mods).1 = .ok c)
    (k : Nat) (y : Reason) (hk : DroppedFor o files cfg k y) (e : Err) (he : (o.rules files).make k = .error e) :
    ∃ on k' y' e', o.debugPath true str options files path = ([.path (o.base.resolve path), .config cfg, .enabled on], some e') ∧
      DroppedFor o files cfg k' y' ∧ (o.rules files).make k' = .error e' := by
  have hr := reasons_iff o horder files cfg c hc
  cases hd : describeDisabled (o.rules files).make str c.reasons with
  | ok ds =>
    exfalso
    obtain ⟨pre, post, hl⟩ := List.append_of_mem ((hr k y).mpr hk)
    have hall : ∀ l ds, describeDisabled (o.rules files).make str l = .ok ds → ∀ x ∈ l, (o.rules files).make x.1 = .ok () := by
      intro l
      induction l with
      | nil => intro _ _ x hx; cases hx
      | cons a l ih =>
        intro ds h x hx
        rw [describeDisabled] at h
        cases ha : (o.rules files).make a.1 with
        | error e => rw [ha] at h; cases h
        | ok u =>
          rcases List.mem_cons.mp hx with rfl | hx
          · exact ha
          · cases hl : describeDisabled (o.rules files).make str l with
            | error e => rw [ha, hl] at h; cases h
            | ok ds' => exact ih ds' hl x hx
    have := hall _ _ hd (k, y) ((hr k y).mpr hk)
    rw [he] at this
    cases this
  | error e' =>
    obtain ⟨pre, x, post, hl, -, hx⟩ := (describeDisabled_error _ str _ _).mp hd
    refine ⟨sortStrs (c.rules.map str), x.1, x.2, e', ?_, (hr _ _).mp (by rw [hl]; simp), hx⟩
    unfold Outside.debugPath Outside.config pprintPair
    rw [hcfg]
    simp only [hc, hd, if_true]

/-- C95: a path whose configuration cannot be read, or whose rules cannot be made, ends the command with that error before anything is shown of it. -/
theorem C95_fails (rich : Bool) (str : Nat → PStr) (options : Options) (files : Path → Option Bytes) (path : Path) (e : Err)
    (h : generateConfig o.cfg o.configOrder (o.fs files) (o.load files) (o.base.resolve path) none (some options) = .error e ∨
      ∃ cfg, generateConfig o.cfg o.configOrder (o.fs files) (o.load files) (o.base.resolve path) none (some options) = .ok cfg ∧
        (collectRules (o.rules files) o.ruleOrder cfg o.sysPath o.mods).1 = .error e) :
    o.debugPath rich str options files path = ([], some e) := by
  unfold Outside.debugPath Outside.config
  rcases h with h | ⟨cfg, h, hc⟩
  · rw [h]
  · rw [h]; simp only [hc]

/-- C95, **finding**: without `rich`, which is not among the dependencies, `fixit debug` shows nothing for any path: it always ends with an exception. -/
theorem C95_needs_rich (str : Nat → PStr) (options : Options) (files : Path → Option Bytes) (paths : List Path) :
    ∃ e, o.debug con false str options files paths = ([], some e) ∧
      ∀ p cfg c, (if paths = [] then [con.cwd] else paths).head? = some p →
        generateConfig o.cfg o.configOrder (o.fs files) (o.load files) (o.base.resolve p) none (some options) = .ok cfg →
        (collectRules (o.rules files) o.ruleOrder cfg o.sysPath o.mods).1 = .ok c → e = .attribute := by
  have hone : ∀ p, ∃ e, o.debugPath false str options files p = ([], some e) ∧
      ∀ cfg c, generateConfig o.cfg o.configOrder (o.fs files) (o.load files) (o.base.resolve p) none (some options) = .ok cfg →
        (collectRules (o.rules files) o.ruleOrder cfg o.sysPath o.mods).1 = .ok c → e = .attribute := by
    intro p
    unfold Outside.debugPath Outside.config pprintPair
    cases h : generateConfig o.cfg o.configOrder (o.fs files) (o.load files) (o.base.resolve p) none (some options) with
    | error e => exact ⟨e, rfl, by intro cfg c h'; cases h'⟩
    | ok cfg =>
      cases hc : (collectRules (o.rules files) o.ruleOrder cfg o.sysPath o.mods).1 with
      | error e => refine ⟨e, by simp only [hc], ?_⟩; intro cfg' c h' h''; cases h'; rw [hc] at h''; cases h''
      | ok c => exact ⟨.attribute, by simp [hc], fun _ _ _ _ => rfl⟩
  unfold Outside.debug
  rw [defaultPaths_eq]
  have hne : (if paths = [] then [con.cwd] else paths) ≠ [] := by split <;> simp_all
  generalize (if paths = [] then [con.cwd] else paths) = ps at hne ⊢
  cases ps with
  | nil => exact absurd rfl hne
  | cons p ps =>
    obtain ⟨e, h1, h2⟩ := hone p
    refine ⟨e, by simp only [Outside.debugPaths, h1], ?_⟩
    intro q cfg c hq hcfg hc
    simp only [List.head?_cons, Option.some.injEq] at hq
    subst hq
    exact h2 cfg c hcfg hc

/-- C95: `debug` on several paths shows each in turn; -/
theorem C95_debug_paths (rich : Bool) (str : Nat → PStr) (options : Options) (files : Path → Option Bytes) (paths : List Path) :
    (∀ p ∈ (if paths = [] then [con.cwd] else paths), (o.debugPath rich str options files p).2 = none) →
      o.debug con rich str options files paths = ((if paths = [] then [con.cwd] else paths).flatMap (fun p => (o.debugPath rich str options files p).1), none) := by
  unfold Outside.debug
  rw [defaultPaths_eq]
  generalize (if paths = [] then [con.cwd] else paths) = ps
  intro h
  induction ps with
  | nil => rfl
  | cons p ps ih =>
    have h1 := h p List.mem_cons_self
    rw [Outside.debugPaths]
    rcases he : o.debugPath rich str options files p with ⟨ls, e⟩
    rw [he] at h1
    simp only at h1
    subst h1
    simp only [ih (fun q hq => h q (List.mem_cons_of_mem _ hq)), List.flatMap_cons, he]

/-- C95: it stops at the first that raises. -/
theorem C95_debug_stops (rich : Bool) (str : Nat → PStr) (options : Options) (files : Path → Option Bytes) (paths pre post : List Path) (p : Path) (e : Err)
    (hp : (if paths = [] then [con.cwd] else paths) = pre ++ p :: post) (hpre : ∀ q ∈ pre, (o.debugPath rich str options files q).2 = none)
    (he : (o.debugPath rich str options files p).2 = some e) :
    o.debug con rich str options files paths = ((pre ++ [p]).flatMap (fun q => (o.debugPath rich str options files q).1), some e) := by
  unfold Outside.debug
  rw [defaultPaths_eq, hp]
  clear hp
  induction pre with
  | nil =>
    rw [List.nil_append, Outside.debugPaths]
    rcases hd : o.debugPath rich str options files p with ⟨ls, e'⟩
    rw [hd] at he
    simp only at he
    subst he
    simp [hd]
  | cons q pre ih =>
    have h1 := hpre q List.mem_cons_self
    rw [List.cons_append, Outside.debugPaths]
    rcases hd : o.debugPath rich str options files q with ⟨ls, e'⟩
    rw [hd] at h1
    simp only at h1
    subst h1
    simp only [ih (fun q' hq => hpre q' (List.mem_cons_of_mem _ hq)), List.cons_append, List.flatMap_cons, hd]

/-- C32: a configuration file that does not exist or is not TOML gets one complaint, and the exit status of a failure. -/
theorem C32_command_unreadable (files : Path → Option Bytes) (path : Path) (e : Err)
    (h : (files (o.real path) = none ∧ e = o.missing) ∨ ∃ b, files (o.real path) = some b ∧ o.toml b = .error e) :
    o.validate files path = ([.invalid e], .failed) := by
  have hl : o.load files (o.real path) = .error e := by
    unfold Outside.load
    rcases h with ⟨h, rfl⟩ | ⟨b, h, hb⟩
    · rw [h]
    · rw [h]; exact hb
  unfold Outside.validate validateConfig
  simp [readConfigs, readOne, hl, Bind.bind, Except.bind]

/-- C32: `fixit validate-config` exits with success exactly when there is nothing to complain about, and otherwise prints the complaints. -/
theorem C32_command (files : Path → Option Bytes) (path : Path) {verdict : QualifiedRule → Option Err} (hv : LoadsLike ((o.rules files).find o.sysPath) verdict)
    (text : Bytes) (data d : Dict) (hfile : files (o.real path) = some text) (htoml : o.toml text = .ok data) (ht : ToolTables data) (hd : contribution data = some d)
    (hs : ShapedForValidation d) :
    (o.validate files path).1 = (references path d).filterMap (problem verdict path.parent) ∧
    ((o.validate files path).2 = .ok ↔
      ∀ t ctx, (t, ctx) ∈ references path d → ∃ s q, t = .str s ∧ parseRule s path.parent = .ok q ∧ ∀ m, ∃ cs, ((o.rules files).find o.sysPath m q).1 = .ok cs) := by
  have hl : o.load files (o.real path) = .ok data := by unfold Outside.load; rw [hfile]; exact htoml
  refine ⟨C32_reports_exact hv (fun p => o.load files (o.real p)) path data d o.mods hl ht hd hs, ?_⟩
  rw [← C32_clean_iff_all_load hv (fun p => o.load files (o.real p)) path data d o.mods hl ht hd hs]
  unfold Outside.validate
  simp only
  cases validateConfig ((o.rules files).find o.sysPath) (o.load files) path o.mods <;> simp
end
end Fixit
