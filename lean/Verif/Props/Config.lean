import Verif.Proof.Validity

/-!
# C21–C23, C27: scope of overrides, root import, malformed configurations, unknown options
-/

namespace Fixit
open Py Spec

variable {V : Type} (env : CfgEnv V) (path : Path) (order : List QualifiedRule → List QualifiedRule)

/-! ## C21: overrides and scopes -/

/-- Only sections whose scope contains the target matter: two stacks with the same applicable sections merge to the same
rule selection, options, python-version and formatter. -/
theorem C21_only_applicable_sections_matter {raw raw' : List RawConfig} {root root' : Option Path} {cfg cfg' : Config V} {w w' : List PStr}
    (h : mergeConfigs env order path raw root = .ok (cfg, w)) (h' : mergeConfigs env order path raw' root' = .ok (cfg', w'))
    (hsame : applicable path (files raw) = applicable path (files raw')) :
    cfg.enable = cfg'.enable ∧ cfg.disable = cfg'.disable ∧ cfg.options = cfg'.options ∧ cfg.pyver = cfg'.pyver ∧ cfg.formatter = cfg'.formatter := by
  obtain ⟨s, -, rfl, -, hm⟩ := mergeConfigs_ok env path h
  obtain ⟨s', -, rfl, -, hm'⟩ := mergeConfigs_ok env path h'
  have e : (mergeInit env root).merged = (mergeInit env root').merged := rfl
  rw [hsame, e, hm'] at hm
  have e' : s'.merged = s.merged := by simpa using hm
  simp [mergeFinish, e']

/-- The table with the value of one key replaced. -/
theorem field_middle_ne {k k' : PStr} (h : k' ≠ k) (d1 d2 : Dict) (v : Toml) :
    field k (d1 ++ (k', v) :: d2) = field k (d1 ++ d2) := by
  induction d1 with
  | nil => simp [field, h]
  | cons e es ih => obtain ⟨a, b⟩ := e; simp only [List.cons_append, field, ih]

theorem field_middle_eq {k : PStr} {d1 : Dict} (h : k ∉ d1.map (·.1)) (d2 : Dict) (v : Toml) :
    field k (d1 ++ (k, v) :: d2) = some v := by
  induction d1 with
  | nil => simp [field]
  | cons e es ih =>
    obtain ⟨a, b⟩ := e
    simp only [List.map_cons, List.mem_cons, not_or] at h
    simp only [List.cons_append, field, if_neg (Ne.symm h.1)]
    exact ih h.2

theorem unknownPart_eq (d : Dict) : unknownPart d = d.filter (fun e => e.1 ∉ knownKeys) := by
  unfold unknownPart del5 ddel
  simp only [List.filter_filter]
  congr 1
  funext e
  rw [Bool.eq_iff_iff]
  simp only [knownKeys, List.mem_cons, List.not_mem_nil, or_false, not_or, Bool.and_eq_true, decide_eq_true_eq, ne_eq]
  constructor
  · rintro ⟨a, b, c, d, e, f, g, h, i, j⟩; exact ⟨j, i, h, g, f, e, d, c, b, a⟩
  · rintro ⟨a, b, c, d, e, f, g, h, i, j⟩; exact ⟨j, i, h, g, f, e, d, c, b, a⟩

/-- Equal fields, equal steps. -/
theorem mergeStep_congr (c c' : RawConfig) (hp : c.path = c'.path) (s s' : MState V) (hs : s.root = s'.root ∧ s.rootImport = s'.rootImport ∧
      s.outputFormat = s'.outputFormat ∧ s.outputTemplate = s'.outputTemplate ∧ s.merged = s'.merged)
    (hf : ∀ k, k ∈ knownKeys → k ≠ py "overrides" → field k c.data = field k c'.data)
    (hov : ∀ m m', (do applyOverrides env path c.dir (← asSequence (py "overrides") (field (py "overrides") c.data)) m) = Except.ok m' →
      (do applyOverrides env path c.dir (← asSequence (py "overrides") (field (py "overrides") c'.data)) m) = Except.ok m') (t : MState V)
    (h : mergeStep env path c s = .ok t) :
    mergeStep env path c' s' = .ok { t with warnings := s'.warnings ++ (unknownPart c'.data).map (·.1) } := by
  obtain ⟨s1, s2, s3, s4, s5⟩ := hs
  have hd : c'.dir = c.dir := by simp [RawConfig.dir, hp]
  rw [mergeStep_eq] at h ⊢
  have ht : ∀ k, k ∈ knownKeys → k ≠ py "overrides" → truthyField k c'.data = truthyField k c.data := by
    intro k hk hne; unfold truthyField; rw [hf k hk hne]
  have hr : stepRoot c' s'.root = stepRoot c s.root := by
    unfold stepRoot; rw [ht _ (by decide) (by decide), hd, s1]
  have htab : tableOf c'.data = tableOf c.data := by
    unfold tableOf
    simp only [dget_eq_field]
    rw [hf (py "enable") (by decide) (by decide), hf (py "disable") (by decide) (by decide), hf (py "options") (by decide) (by decide),
      hf (py "python-version") (by decide) (by decide), hf (py "formatter") (by decide) (by decide)]
  have happ : applySection env path ⟨c'.dir, c'.dir, c'.data⟩ s'.merged = applySection env path ⟨c.dir, c.dir, c.data⟩ s.merged := by
    unfold applySection; simp only [htab, hd, s5]
  rw [hr, happ, ht (py "enable-root-import") (by decide) (by decide), ht (py "output-format") (by decide) (by decide),
    ht (py "output-template") (by decide) (by decide), hd, ← s2, ← s3, ← s4]
  simp only [bind_ok, pure_ok] at h ⊢
  obtain ⟨ri, h1, fmt, h2, m, h3, os, h4, m', h5, rfl⟩ := h
  rw [dget_eq_field] at h4
  have := hov m m' (by rw [bind_ok]; exact ⟨os, h4, h5⟩)
  rw [bind_ok] at this
  obtain ⟨os', h6, h7⟩ := this
  exact ⟨ri, h1, fmt, h2, m, h3, os', by rw [dget_eq_field]; exact h6, m', h7, rfl⟩

theorem mergeLoop_append (l₁ l₂ : List RawConfig) (s : MState V) :
    mergeLoop env path (l₁ ++ l₂) s = (do mergeLoop env path l₂ (← mergeLoop env path l₁ s)) := by
  induction l₁ generalizing s with
  | nil => rfl
  | cons c cs ih => simp only [List.cons_append, mergeLoop, bind_assoc, ih]

/-- Equality of everything except the log. -/
def SameMerge (s s' : MState V) : Prop :=
  s.root = s'.root ∧ s.rootImport = s'.rootImport ∧ s.outputFormat = s'.outputFormat ∧ s.outputTemplate = s'.outputTemplate ∧ s.merged = s'.merged

theorem mergeLoop_same (cs : List RawConfig) : ∀ (s s' t : MState V), SameMerge s s' → mergeLoop env path cs s = .ok t →
    ∃ t', mergeLoop env path cs s' = .ok t' ∧ SameMerge t t' ∧ ∃ w, t.warnings = s.warnings ++ w ∧ t'.warnings = s'.warnings ++ w := by
  induction cs with
  | nil => intro s s' t hs h; cases h; exact ⟨s', rfl, hs, [], by simp⟩
  | cons c cs ih =>
    intro s s' t hs h
    simp only [mergeLoop] at h ⊢
    rw [bind_ok] at h
    obtain ⟨s1, h1, h2⟩ := h
    have h1' := mergeStep_congr env path c c rfl s s' hs (fun _ _ _ => rfl) (fun _ _ h => h) s1 h1
    obtain ⟨t', ht', hst, w, hw, hw'⟩ := ih s1 { s1 with warnings := s'.warnings ++ (unknownPart c.data).map (·.1) } t
      ⟨rfl, rfl, rfl, rfl, rfl⟩ h2
    refine ⟨t', ?_, hst, (unknownPart c.data).map (·.1) ++ w, ?_, ?_⟩
    · rw [bind_ok]; exact ⟨_, h1', ht'⟩
    · rw [hw, (mergeStep_ok env path h1).warnings, List.append_assoc]
    · rw [hw', List.append_assoc]

theorem finish_same {s s' : MState V} (h : SameMerge s s') : mergeFinish order path s = mergeFinish order path s' := by
  obtain ⟨h1, h2, h3, h4, h5⟩ := h
  simp [mergeFinish, h1, h2, h3, h4, h5]

/-- One config of the stack is replaced by another that behaves the same. -/
theorem merge_replace {pre post : List RawConfig} {c c' : RawConfig} {root : Option Path} (hp : c.path = c'.path)
    (hf : ∀ k, k ∈ knownKeys → k ≠ py "overrides" → field k c.data = field k c'.data)
    (hov : ∀ m m', (do applyOverrides env path c.dir (← asSequence (py "overrides") (field (py "overrides") c.data)) m) = Except.ok m' →
      (do applyOverrides env path c.dir (← asSequence (py "overrides") (field (py "overrides") c'.data)) m) = Except.ok m')
    {cfg : Config V} {w : List PStr} (h : mergeConfigs env order path (pre ++ c :: post) root = .ok (cfg, w)) :
    ∃ w', mergeConfigs env order path (pre ++ c' :: post) root = .ok (cfg, w') ∧
      ∃ a b, w = a ++ (unknownPart c.data).map (·.1) ++ b ∧ w' = a ++ (unknownPart c'.data).map (·.1) ++ b := by
  unfold mergeConfigs at h ⊢
  simp only [List.reverse_append, List.reverse_cons, List.append_assoc, List.singleton_append, mergeLoop_append, mergeLoop, bind_ok, pure_ok] at h ⊢
  obtain ⟨s, ⟨s1, h1, s2, h2, h3⟩, h4⟩ := h
  have h2' := mergeStep_congr env path c c' hp s1 s1 ⟨rfl, rfl, rfl, rfl, rfl⟩ hf hov s2 h2
  obtain ⟨t', ht', hst, b, hb, hb'⟩ := mergeLoop_same env path _ s2 { s2 with warnings := s1.warnings ++ (unknownPart c'.data).map (·.1) } s
    ⟨rfl, rfl, rfl, rfl, rfl⟩ h3
  simp only [Prod.mk.injEq] at h4
  refine ⟨t'.warnings, ⟨t', ⟨s1, h1, _, h2', ht'⟩, ?_⟩, s1.warnings, b, ?_, by rw [hb']; simp⟩
  · rw [← finish_same path order hst, h4.1]
  · rw [← h4.2, hb, (mergeStep_ok env path h2).warnings]; simp

theorem applyOverrides_drop {dir : Path} {o : Toml} {sec : Section} (ho : overrideSection dir o = some sec)
    (hs : ¬ sec.scope.isPrefixOf path = true) (l1 l2 : List Toml) {m m' : Merged V}
    (h : applyOverrides env path dir (l1 ++ o :: l2) m = .ok m') : applyOverrides env path dir (l1 ++ l2) m = .ok m' := by
  induction l1 generalizing m with
  | nil =>
    simp only [List.nil_append, applyOverrides, bind_ok] at h ⊢
    obtain ⟨m1, h1, h2⟩ := h
    obtain ⟨sec', hs', h1⟩ := applyOverride_ok env path h1
    rw [ho] at hs'; cases hs'
    rw [applySection_skip env path hs h1] at h2
    exact h2
  | cons x xs ih =>
    simp only [List.cons_append, applyOverrides, bind_ok] at h ⊢
    obtain ⟨m1, h1, h2⟩ := h
    exact ⟨m1, h1, ih h2⟩

/-- Deleting an override whose path does not contain the target changes nothing, wherever it is in the stack. -/
theorem C21_inapplicable_override_is_inert {pre post : List RawConfig} {file : Path} {d1 d2 : Dict} {l1 l2 : List Toml} {o : Toml} {sec : Section}
    (hd : py "overrides" ∉ d1.map (·.1)) (ho : overrideSection (Path.parent file) o = some sec) (hs : ¬ sec.scope <+: path)
    {root : Option Path} {cfg : Config V} {w : List PStr}
    (h : mergeConfigs env order path (pre ++ ⟨file, d1 ++ (py "overrides", .arr (l1 ++ o :: l2)) :: d2⟩ :: post) root = .ok (cfg, w)) :
    mergeConfigs env order path (pre ++ ⟨file, d1 ++ (py "overrides", .arr (l1 ++ l2)) :: d2⟩ :: post) root = .ok (cfg, w) := by
  have hs' : ¬ sec.scope.isPrefixOf path = true := by rw [List.isPrefixOf_iff_prefix]; exact hs
  obtain ⟨w', h', a, b, hw, hw'⟩ := merge_replace env path order
    (c := ⟨file, d1 ++ (py "overrides", .arr (l1 ++ o :: l2)) :: d2⟩) (c' := ⟨file, d1 ++ (py "overrides", .arr (l1 ++ l2)) :: d2⟩) rfl
    (by intro k _ hk; simp only; rw [field_middle_ne (Ne.symm hk), field_middle_ne (Ne.symm hk)])
    (by
      intro m m' hm
      simp only [field_middle_eq hd, asSequence] at hm ⊢
      exact applyOverrides_drop env path ho hs' l1 l2 hm) h
  have e : unknownPart (d1 ++ (py "overrides", .arr (l1 ++ o :: l2)) :: d2) = unknownPart (d1 ++ (py "overrides", .arr (l1 ++ l2)) :: d2) := by
    have hk : decide (py "overrides" ∉ knownKeys) = false := by decide
    rw [unknownPart_eq, unknownPart_eq, List.filter_append, List.filter_append, List.filter_cons, List.filter_cons]
    simp only [hk]
    rfl
  rw [hw, show (RawConfig.mk file (d1 ++ (py "overrides", .arr (l1 ++ o :: l2)) :: d2)).data = d1 ++ (py "overrides", .arr (l1 ++ o :: l2)) :: d2 from rfl, e]
  rw [hw'] at h'
  exact h'

example : overrideSection [py "a"] (.tbl [(py "path", .str (py "c")), (py "formatter", .str (py "ufmt"))]) =
      some ⟨[py "a"], [py "a", py "c"], [(py "path", .str (py "c")), (py "formatter", .str (py "ufmt"))]⟩ ∧
    ¬ ([py "a", py "c"] <+: [py "a", py "b", py "x.py"]) := ⟨rfl, by decide⟩

/-! ## C27: unknown options -/

/-- A key that is no known option is logged, and the merged configuration is the one without it. -/
theorem C27_unknown_key_warned_and_inert {pre post : List RawConfig} {file : Path} {d1 d2 : Dict} {k : PStr} {v : Toml}
    (hk : k ∉ knownKeys) {root : Option Path} {cfg : Config V} {w : List PStr}
    (h : mergeConfigs env order path (pre ++ ⟨file, d1 ++ (k, v) :: d2⟩ :: post) root = .ok (cfg, w)) :
    k ∈ w ∧ ∃ w', mergeConfigs env order path (pre ++ ⟨file, d1 ++ d2⟩ :: post) root = .ok (cfg, w') := by
  have hne : ∀ k', k' ∈ knownKeys → k ≠ k' := by intro k' h' e; subst e; exact hk h'
  obtain ⟨w', h', a, b, hw, -⟩ := merge_replace env path order
    (c := ⟨file, d1 ++ (k, v) :: d2⟩) (c' := ⟨file, d1 ++ d2⟩) rfl
    (by intro k' hk' _; exact field_middle_ne (hne k' hk') d1 d2 v)
    (by
      intro m m' hm
      simp only [field_middle_ne (hne (py "overrides") (by decide)) d1 d2 v] at hm
      exact hm) h
  refine ⟨?_, w', h'⟩
  rw [hw, unknownPart_eq]
  simp only [List.mem_append, List.mem_map, List.mem_filter, decide_eq_true_eq]
  exact Or.inl (Or.inr ⟨(k, v), ⟨by simp, hk⟩, rfl⟩)

/-- Conversely, adding an unknown key cannot make merging fail. -/
theorem C27_unknown_key_harmless {pre post : List RawConfig} {file : Path} {d1 d2 : Dict} {k : PStr} (v : Toml)
    (hk : k ∉ knownKeys) {root : Option Path} {cfg : Config V} {w : List PStr}
    (h : mergeConfigs env order path (pre ++ ⟨file, d1 ++ d2⟩ :: post) root = .ok (cfg, w)) :
    ∃ w', mergeConfigs env order path (pre ++ ⟨file, d1 ++ (k, v) :: d2⟩ :: post) root = .ok (cfg, w') := by
  have hne : ∀ k', k' ∈ knownKeys → k ≠ k' := by intro k' h' e; subst e; exact hk h'
  obtain ⟨w', h', -⟩ := merge_replace env path order
    (c := ⟨file, d1 ++ d2⟩) (c' := ⟨file, d1 ++ (k, v) :: d2⟩) rfl
    (by intro k' hk' _; exact (field_middle_ne (hne k' hk') d1 d2 v).symm)
    (by
      intro m m' hm
      simp only [field_middle_ne (hne (py "overrides") (by decide)) d1 d2 v]
      exact hm) h
  exact ⟨w', h'⟩

theorem mergeLoop_warnings {cs : List RawConfig} {s s' : MState V} (h : mergeLoop env path cs s = .ok s') :
    s'.warnings = s.warnings ++ cs.flatMap (fun c => (unknownPart c.data).map (·.1)) := by
  induction cs generalizing s with
  | nil => cases h; simp
  | cons c cs ih =>
    simp only [mergeLoop] at h
    rw [bind_ok] at h
    obtain ⟨s1, h1, h2⟩ := h
    rw [ih h2, (mergeStep_ok env path h1).warnings]
    simp

/-- Exactly the unknown keys are logged, one warning each, lowest-priority file first. -/
theorem C27_warnings_exact {raw : List RawConfig} {root : Option Path} {cfg : Config V} {w : List PStr}
    (h : mergeConfigs env order path raw root = .ok (cfg, w)) :
    w = (files raw).reverse.flatMap (fun f => (f.table.map (·.1)).filter (fun k => k ∉ knownKeys)) := by
  obtain ⟨s, hl, -, rfl, -⟩ := mergeConfigs_ok env path h
  rw [mergeLoop_warnings env path hl]
  unfold files
  rw [← List.map_reverse, List.flatMap_map]
  simp only [mergeInit, List.nil_append]
  congr 1
  funext c
  rw [unknownPart_eq]
  simp only [RawConfig.file]
  rw [List.filter_map]
  rfl

example : py "mystery" ∉ knownKeys := by decide

/-! ## C22: root import -/

theorem rootDir_cons_some (asked : Option Path) (f : File) (fs : List File) (h : (truthyField (py "root") f.table).isSome = true) :
    rootDir asked (f :: fs) = f.dir := by
  unfold rootDir
  obtain ⟨v, hv⟩ := Option.isSome_iff_exists.1 h
  simp [hv]

/-- The root after processing `cs` (lowest priority first) is the specified one. -/
theorem mergeLoop_root {asked : Option Path} {cs : List RawConfig} : ∀ {s : MState V},
    mergeLoop env path cs (mergeInit env asked) = .ok s → s.root.getD [] = rootDir asked (files cs.reverse) ∧
      (s.root = none → cs = [] ∧ asked = none) := by
  have key : ∀ (l : List RawConfig) {s : MState V}, mergeLoop env path l.reverse (mergeInit env asked) = .ok s →
      s.root.getD [] = rootDir asked (files l) ∧ (s.root = none → l = [] ∧ asked = none) := by
    intro l
    induction l with
    | nil =>
      intro s h
      cases h
      cases asked <;> simp [mergeInit, rootDir, files]
    | cons c cs ih =>
      intro s h
      rw [List.reverse_cons, mergeLoop_append, bind_ok] at h
      obtain ⟨s1, h1, h2⟩ := h
      simp only [mergeLoop, bind_ok, Except.ok.injEq] at h2
      obtain ⟨s2, h2, rfl⟩ := h2
      obtain ⟨ih1, ih2⟩ := ih h1
      have hr := (mergeStep_ok env path h2).root
      refine ⟨?_, by rw [hr]; simp⟩
      rw [hr]
      simp only [Option.getD_some, stepRoot]
      by_cases ht : (truthyField (py "root") c.data).isSome = true
      · rw [if_pos ht]
        exact (rootDir_cons_some asked c.file (files cs) ht).symm
      · rw [if_neg ht]
        have htn : truthyField (py "root") c.data = none := by simpa using ht
        cases hroot : s1.root with
        | none =>
          obtain ⟨rfl, rfl⟩ := ih2 hroot
          simp [rootDir, files, RawConfig.file, htn]
        | some r =>
          rw [hroot] at ih1
          simp only [Option.getD_some] at ih1 ⊢
          rw [ih1]
          have : cs ≠ [] ∨ asked ≠ none := by
            by_cases hc : cs = []
            · right
              subst hc
              intro ha
              subst ha
              simp only [List.reverse_nil, mergeLoop, Except.ok.injEq] at h1
              subst h1
              simp [mergeInit] at hroot
            · exact Or.inl hc
          unfold rootDir
          simp only [files, List.map_cons, List.filterMap_cons, RawConfig.file, htn, Option.map_none]
          cases hfm : List.filterMap (fun f : File => Option.map (fun _ => f.dir) (truthyField (py "root") f.table)) (List.map RawConfig.file cs) with
          | cons a as =>
            have : List.filterMap (fun f : File => Option.map (fun _ => f.dir) (truthyField (py "root") f.table))
              (List.map (fun c => ({ dir := c.dir, table := c.data } : File)) cs) = a :: as := hfm
            simp only
          | nil =>
            have h0 : List.filterMap (fun f : File => Option.map (fun _ => f.dir) (truthyField (py "root") f.table))
              (List.map (fun c => ({ dir := c.dir, table := c.data } : File)) cs) = [] := hfm
            simp only
            cases asked with
            | some r => rfl
            | none =>
              cases cs with
              | nil => simp at this
              | cons x xs => simp
  intro s h
  have := key cs.reverse (s := s) (by rw [List.reverse_reverse]; exact h)
  exact ⟨this.1, fun hn => by have := this.2 hn; simpa using this⟩

/-- The root of the merged configuration. -/
theorem C22_root_is_specified {raw : List RawConfig} {root : Option Path} {cfg : Config V} {w : List PStr}
    (h : mergeConfigs env order path raw root = .ok (cfg, w)) : cfg.root = rootDir root (files raw) := by
  obtain ⟨s, hl, rfl, -, -⟩ := mergeConfigs_ok env path h
  have := (mergeLoop_root env path hl).1
  rw [List.reverse_reverse] at this
  exact this

/-- What a true `enable-root-import` value stands for. -/
def rootImportValue : Toml → RootImport
  | .str s => .sub (relParts s)
  | _ => .on

theorem rootImportOf_some {root dir : Path} {cur ri : RootImport} {v : Toml} (h : rootImportOf root dir cur (some v) = .ok ri) :
    root = dir ∧ ri = rootImportValue v ∧ ∀ s, v = .str s → s.head? ≠ some '/' ∧ py ".." ∉ relParts s := by
  simp only [rootImportOf] at h
  split at h
  · simp at h
  · rename_i hr
    have hr' : root = dir := by simpa using hr
    refine ⟨hr', ?_⟩
    cases v with
    | str s =>
      simp only at h
      split at h
      · simp at h
      · split at h
        · simp at h
        · rename_i h1 h2
          simp only [Except.ok.injEq] at h
          refine ⟨h.symm, ?_⟩
          intro s' e; cases e
          refine ⟨?_, h2⟩
          intro hh
          apply h1
          cases s with
          | nil => simp at hh
          | cons c cs => simp at hh; subst hh; simp [startsWith]
    | _ => simp only [Except.ok.injEq] at h; exact ⟨h.symm, by intro s e; simp at e⟩

/-- Root import comes from the nearest file that turns it on; that file's directory is the root given the file and the files below it in priority;
a string value is relative and has no `..`. -/
theorem C22_root_import {raw : List RawConfig} {root : Option Path} {cfg : Config V} {w : List PStr}
    (h : mergeConfigs env order path raw root = .ok (cfg, w)) :
    ((∀ c ∈ raw, truthyField (py "enable-root-import") c.data = none) ∧ cfg.rootImport = .off) ∨
    (∃ pre c post v, raw = pre ++ c :: post ∧ (∀ x ∈ pre, truthyField (py "enable-root-import") x.data = none) ∧
      truthyField (py "enable-root-import") c.data = some v ∧ cfg.rootImport = rootImportValue v ∧
      c.dir = rootDir root (files (c :: post)) ∧ (∀ s, v = .str s → s.head? ≠ some '/' ∧ py ".." ∉ relParts s)) := by
  obtain ⟨s, hl, rfl, -, -⟩ := mergeConfigs_ok env path h
  simp only [mergeFinish]
  clear h
  induction raw generalizing s with
  | nil => left; simp only [List.reverse_nil, mergeLoop, Except.ok.injEq] at hl; subst hl; simp [mergeInit]
  | cons c cs ih =>
    have hroot := (mergeLoop_root env path hl).1
    rw [List.reverse_reverse] at hroot
    rw [List.reverse_cons, mergeLoop_append, bind_ok] at hl
    obtain ⟨s1, h1, h2⟩ := hl
    simp only [mergeLoop, bind_ok, Except.ok.injEq] at h2
    obtain ⟨s2, h2, rfl⟩ := h2
    have hs := mergeStep_ok env path h2
    have hri := hs.rootImport
    cases hv : truthyField (py "enable-root-import") c.data with
    | none =>
      rw [hv] at hri
      simp only [rootImportOf, Except.ok.injEq] at hri
      rcases ih s1 h1 with ⟨ha, hb⟩ | ⟨pre, c', post, v, e, hp, hc, hb, hd, hsv⟩
      · left
        refine ⟨?_, by rw [← hri, hb]⟩
        intro x hx
        rw [List.mem_cons] at hx
        rcases hx with rfl | hx
        · exact hv
        · exact ha x hx
      · right
        refine ⟨c :: pre, c', post, v, by rw [e]; rfl, ?_, hc, by rw [← hri, hb], hd, hsv⟩
        intro x hx
        rw [List.mem_cons] at hx
        rcases hx with rfl | hx
        · exact hv
        · exact hp x hx
    | some v =>
      right
      rw [hv] at hri
      obtain ⟨a, b, d⟩ := rootImportOf_some hri
      refine ⟨[], c, cs, v, rfl, by simp, hv, b, ?_, d⟩
      rw [hs.root] at hroot
      simp only [Option.getD_some] at hroot
      rw [← hroot, a]

theorem resolve_parts (dir : Path) : ∀ (cs : List PStr), py ".." ∉ cs.filter (fun c => c ≠ [] ∧ c ≠ py ".") →
    cs.foldl resolveStep dir = dir ++ cs.filter (fun c => c ≠ [] ∧ c ≠ py ".") := by
  intro cs
  induction cs generalizing dir with
  | nil => intro _; simp
  | cons c cs ih =>
    intro h
    simp only [List.foldl_cons]
    by_cases hc : c = [] ∨ c = py "."
    · have h1 : resolveStep dir c = dir := by rw [resolveStep, if_pos hc]
      have h2 : (c :: cs).filter (fun c => decide (c ≠ [] ∧ c ≠ py ".")) = cs.filter (fun c => decide (c ≠ [] ∧ c ≠ py ".")) := by
        rw [List.filter_cons, if_neg]
        simp only [decide_eq_true_eq, ne_eq]
        rintro ⟨a, b⟩
        rcases hc with h | h
        · exact a h
        · exact b h
      rw [h1, h2]
      rw [h2] at h
      exact ih dir h
    · have h2 : (c :: cs).filter (fun c => decide (c ≠ [] ∧ c ≠ py ".")) = c :: cs.filter (fun c => decide (c ≠ [] ∧ c ≠ py ".")) := by
        rw [List.filter_cons, if_pos]
        simp only [decide_eq_true_eq, ne_eq]
        exact ⟨fun e => hc (Or.inl e), fun e => hc (Or.inr e)⟩
      rw [h2] at h ⊢
      simp only [List.mem_cons, not_or] at h
      have h1 : resolveStep dir c = dir ++ [c] := by rw [resolveStep, if_neg hc, if_neg (Ne.symm h.1)]
      rw [h1, ih _ h.2]
      simp

/-- Hence the directory put on `sys.path` is the root directory or inside it. -/
theorem C22_import_dir_inside_root (root : Path) (s : PStr) (h1 : s.head? ≠ some '/') (h2 : py ".." ∉ relParts s) :
    root <+: resolveFrom root s := by
  have hs : startsWith s ['/'] = false := by
    cases s with
    | nil => rfl
    | cons c cs =>
      have : c ≠ '/' := by simpa using h1
      simp [startsWith, List.isPrefixOf, Ne.symm this]
  unfold resolveFrom
  rw [hs]
  rw [resolve_parts _ _ h2]
  exact List.prefix_append _ _

example : ∃ cfg w, mergeConfigs exEnv id [py "a", py "b", py "x.py"] exStack none = .ok (cfg, w) ∧ cfg.rootImport ≠ .off ∧ cfg.root = [] :=
  ⟨_, _, rfl, by decide, by decide⟩
/-- And it is refused elsewhere. -/
example : mergeConfigs exEnv id [py "a", py "x.py"] [⟨[py "a", py "fixit.toml"], [(py "enable-root-import", .bool true)]⟩, ⟨[py "fixit.toml"], [(py "root", .bool true)]⟩] none
    matches .error (.config _) := by rfl

/-! ## C23: malformed configurations -/

/-- Everything about one file that does not depend on the rest of the stack is in order. -/
structure ValidFile (f : File) : Prop where
  outputFormat : ∀ t, truthyField (py "output-format") f.table = some t → ∃ o : OutputFormat, t = .str o.name
  shaped : WellShaped f.table
  usable : f.dir <+: path → UsableIn env f.table
  overrides : AbsentOrArray (field (py "overrides") f.table)
  entries : ∀ o ∈ elems (field (py "overrides") f.table), ValidOverride env path f.dir o

/-- Root import is used only at the root, with a plain relative path. -/
def ValidRootImport (root : Option Path) (fs : List File) : Prop :=
  ∀ pre f post v, fs = pre ++ f :: post → truthyField (py "enable-root-import") f.table = some v →
    f.dir = rootDir root (f :: post) ∧ ∀ s, v = .str s → s.head? ≠ some '/' ∧ py ".." ∉ relParts s

theorem outputFormatOf_iff (cur : OutputFormat) (v : Option Toml) :
    (∃ f, outputFormatOf cur v = .ok f) ↔ ∀ t, v = some t → ∃ o : OutputFormat, t = .str o.name := by
  cases v with
  | none => simp [outputFormatOf]
  | some t =>
    simp only [outputFormatOf, Option.some.injEq, forall_eq']
    cases t with
    | str s =>
      simp only [OutputFormat.ofToml, Toml.str.injEq]
      constructor
      · intro h
        by_cases h1 : s = py "custom"
        · exact ⟨.custom, h1⟩
        · by_cases h2 : s = py "fixit"
          · exact ⟨.fixit, h2⟩
          · by_cases h3 : s = py "vscode"
            · exact ⟨.vscode, h3⟩
            · simp [h1, h2, h3] at h
      · rintro ⟨o, rfl⟩
        cases o
        · exact ⟨.custom, rfl⟩
        · exact ⟨.fixit, rfl⟩
        · exact ⟨.vscode, rfl⟩
    | _ => simp [OutputFormat.ofToml]

theorem rootImportOf_iff (root dir : Path) (cur : RootImport) (v : Option Toml) :
    (∃ r, rootImportOf root dir cur v = .ok r) ↔ ∀ t, v = some t → root = dir ∧ ∀ s, t = .str s → s.head? ≠ some '/' ∧ py ".." ∉ relParts s := by
  cases v with
  | none => simp [rootImportOf]
  | some t =>
    constructor
    · rintro ⟨r, h⟩ t' e
      cases e
      obtain ⟨a, -, b⟩ := rootImportOf_some h
      exact ⟨a, b⟩
    · intro h
      obtain ⟨a, b⟩ := h t rfl
      simp only [rootImportOf]
      rw [if_neg (by simpa using a)]
      cases t with
      | str s =>
        obtain ⟨b1, b2⟩ := b s rfl
        have hs : startsWith s ['/'] = false := by
          cases s with
          | nil => rfl
          | cons c cs =>
            have : c ≠ '/' := by simpa using b1
            simp [startsWith, List.isPrefixOf, Ne.symm this]
        simp only [hs, Bool.false_eq_true, if_false, if_neg b2]
        exact ⟨_, rfl⟩
      | _ => exact ⟨_, rfl⟩

theorem mergeStep_iff (c : RawConfig) (s : MState V) :
    (∃ t, mergeStep env path c s = .ok t) ↔ ValidFile env path c.file ∧
      (∀ t, truthyField (py "enable-root-import") c.data = some t → stepRoot c s.root = c.dir ∧ ∀ x, t = .str x → x.head? ≠ some '/' ∧ py ".." ∉ relParts x) := by
  rw [mergeStep_eq]
  simp only [bind_ok, pure_ok, dget_eq_field]
  constructor
  · rintro ⟨t, ri, h1, fmt, h2, m, h3, os, h4, m', h5, -⟩
    obtain ⟨a, b⟩ := (applySection_iff env path ⟨c.dir, c.dir, c.data⟩ s.merged).1 ⟨m, h3⟩
    refine ⟨⟨(outputFormatOf_iff _ _).1 ⟨_, h2⟩, a, ?_, (asSequence_iff _).1 ⟨_, h4⟩, ?_⟩, (rootImportOf_iff _ _ _ _).1 ⟨_, h1⟩⟩
    · intro hp; exact b (by rw [List.isPrefixOf_iff_prefix]; exact hp)
    · have := (applyOverrides_iff env path c.dir os m).1 ⟨_, h5⟩
      rw [asSequence_elems h4] at this
      exact this
  · rintro ⟨⟨a, b, c', d, e⟩, f⟩
    obtain ⟨ri, h1⟩ := (rootImportOf_iff (stepRoot c s.root) c.dir s.rootImport (truthyField (py "enable-root-import") c.data)).2 f
    obtain ⟨fmt, h2⟩ := (outputFormatOf_iff s.outputFormat (truthyField (py "output-format") c.data)).2 a
    obtain ⟨m, h3⟩ := (applySection_iff env path ⟨c.dir, c.dir, c.data⟩ s.merged).2 ⟨b, fun hp => c' (by rw [List.isPrefixOf_iff_prefix] at hp; exact hp)⟩
    obtain ⟨os, h4⟩ := (asSequence_iff _).2 d
    obtain ⟨m', h5⟩ := (applyOverrides_iff env path c.dir os m).2 (by rw [asSequence_elems h4]; exact e)
    exact ⟨_, ri, h1, fmt, h2, m, h3, os, h4, m', h5, rfl⟩

/-- The root in force while a file is processed is the one of the files so far. -/
theorem stepRoot_rootDir {c : RawConfig} {cs : List RawConfig} {root : Option Path} {s1 : MState V} (h1 : mergeLoop env path cs.reverse (mergeInit env root) = .ok s1) :
    stepRoot c s1.root = rootDir root (files (c :: cs)) := by
  -- reuse the root lemma on a step that certainly succeeds at computing the root
  have hr := (mergeLoop_root env path h1)
  rw [List.reverse_reverse] at hr
  unfold stepRoot
  by_cases ht : (truthyField (py "root") c.data).isSome = true
  · rw [if_pos ht]; exact (rootDir_cons_some root c.file (files cs) ht).symm
  · rw [if_neg ht]
    have htn : truthyField (py "root") c.data = none := by simpa using ht
    cases hroot : s1.root with
    | none =>
      obtain ⟨h0, rfl⟩ := hr.2 hroot
      have h0 : cs = [] := by simpa using h0
      subst h0
      simp [rootDir, files, RawConfig.file, htn]
    | some r =>
      have h1r := hr.1
      rw [hroot] at h1r
      simp only [Option.getD_some] at h1r ⊢
      rw [h1r]
      have hne : cs ≠ [] ∨ root ≠ none := by
        by_cases hc : cs = []
        · right
          subst hc
          intro ha
          subst ha
          simp only [List.reverse_nil, mergeLoop, Except.ok.injEq] at h1
          subst h1
          simp [mergeInit] at hroot
        · exact Or.inl hc
      unfold rootDir
      have e : List.filterMap (fun f : File => Option.map (fun _ => f.dir) (truthyField (py "root") f.table)) (files (c :: cs)) =
          List.filterMap (fun f : File => Option.map (fun _ => f.dir) (truthyField (py "root") f.table)) (files cs) := by
        simp [files, RawConfig.file, htn]
      rw [e]
      cases List.filterMap (fun f : File => Option.map (fun _ => f.dir) (truthyField (py "root") f.table)) (files cs) with
      | cons a as => rfl
      | nil =>
        simp only
        cases root with
        | some r => rfl
        | none =>
          cases cs with
          | nil => simp at hne
          | cons x xs => simp [files]

/-- Merging succeeds exactly for well-formed stacks. -/
theorem C23_accepts_iff_valid (raw : List RawConfig) (root : Option Path) :
    (∃ r, mergeConfigs env order path raw root = .ok r) ↔
      (∀ f ∈ files raw, ValidFile env path f) ∧ ValidRootImport root (files raw) := by
  have key : (∃ s, mergeLoop env path raw.reverse (mergeInit env root) = .ok s) ↔
      (∀ f ∈ files raw, ValidFile env path f) ∧ ValidRootImport root (files raw) := by
    induction raw with
    | nil => simp [mergeLoop, files, ValidRootImport]
    | cons c cs ih =>
      have hroots : ∀ s1, mergeLoop env path cs.reverse (mergeInit env root) = .ok s1 → stepRoot c s1.root = rootDir root (files (c :: cs)) :=
        fun s1 h1 => stepRoot_rootDir env path h1
      rw [List.reverse_cons]
      simp only [mergeLoop_append, mergeLoop, bind_ok, Except.ok.injEq]
      constructor
      · rintro ⟨s, s1, h1, s2, h2, rfl⟩
        obtain ⟨ha, hb⟩ := ih.1 ⟨s1, h1⟩
        obtain ⟨hc, hd⟩ := (mergeStep_iff env path c s1).1 ⟨s2, h2⟩
        rw [hroots s1 h1] at hd
        refine ⟨?_, ?_⟩
        · intro f hf
          simp only [files, List.map_cons, List.mem_cons] at hf
          rcases hf with rfl | hf
          · exact hc
          · exact ha f hf
        · intro pre f post v e hv
          cases pre with
          | nil =>
            simp only [files, List.map_cons, List.nil_append, List.cons.injEq] at e
            obtain ⟨rfl, rfl⟩ := e
            obtain ⟨x, y⟩ := hd v hv
            exact ⟨x.symm, y⟩
          | cons p ps =>
            simp only [files, List.map_cons, List.cons_append, List.cons.injEq] at e
            exact hb ps f post v e.2 hv
      · rintro ⟨ha, hb⟩
        obtain ⟨s1, h1⟩ := ih.2 ⟨fun f hf => ha f (by simp only [files, List.map_cons, List.mem_cons]; exact Or.inr hf),
          fun pre f post v e hv => hb (c.file :: pre) f post v (by simp only [files, List.map_cons, List.cons_append]; congr 1) hv⟩
        obtain ⟨s2, h2⟩ := (mergeStep_iff env path c s1).2 ⟨ha c.file (by simp [files]), by
          intro v hv
          obtain ⟨x, y⟩ := hb [] c.file (files cs) v rfl hv
          refine ⟨?_, y⟩
          rw [hroots s1 h1]
          exact x.symm⟩
        exact ⟨s2, s1, h1, s2, h2, rfl⟩
  rw [← key]
  unfold mergeConfigs
  simp only [bind_ok, pure_ok]
  constructor
  · rintro ⟨r, s, hs, -⟩; exact ⟨s, hs⟩
  · rintro ⟨s, hs⟩; exact ⟨_, s, hs, rfl⟩

/-- The computation fails, if at all, with ConfigError. -/
def OnlyConfigError {α : Type} (x : Except Err α) : Prop := ∀ e, x = .error e → ∃ m, e = .config m

theorem OnlyConfigError.bind {α β : Type} {x : Except Err α} {f : α → Except Err β} (hx : OnlyConfigError x)
    (hf : ∀ a, x = .ok a → OnlyConfigError (f a)) : OnlyConfigError (x >>= f) := by
  intro e he
  cases x with
  | error e' => simp only [Bind.bind, Except.bind, Except.error.injEq] at he; subst he; exact hx e' rfl
  | ok a => exact hf a rfl e he

theorem OnlyConfigError.ok {α : Type} (a : α) : OnlyConfigError (.ok a : Except Err α) := by intro e h; simp at h
theorem OnlyConfigError.pure {α : Type} (a : α) : OnlyConfigError (pure a : Except Err α) := OnlyConfigError.ok a
theorem OnlyConfigError.config {α : Type} (m : List Piece) : OnlyConfigError (.error (.config m) : Except Err α) := by
  intro e h; cases h; exact ⟨m, rfl⟩

/-- The value types Python would choke on are absent from a section: rule names are strings, the version is a string, the formatter is
not an array or table, each rule's options are a table. -/
structure WellTyped (d : Dict) : Prop where
  rules : ∀ t ∈ elems (field (py "enable") d) ++ elems (field (py "disable") d), ∃ s, t = .str s
  version : ∀ t, field (py "python-version") d = some t → ∃ s, t = .str s
  formatter : ∀ t, field (py "formatter") d = some t → ∃ s, t = .str s
  options : ∀ t, field (py "options") d = some (.tbl t) → ∀ e ∈ t, ∃ o, e.2 = .tbl o

/-- The same for a file and its overrides, whose `path` must be a string. -/
structure WellTypedFile (f : File) : Prop where
  main : WellTyped f.table
  overrides : ∀ d, Toml.tbl d ∈ elems (field (py "overrides") f.table) → WellTyped d ∧ ∀ p, field (py "path") d = some p → ∃ s, p = .str s

theorem parseRule_oce (s : PStr) (r : Path) : OnlyConfigError (parseRule s r) := by
  intro e he
  by_cases h : ∃ q, parseRule s r = .ok q
  · obtain ⟨q, hq⟩ := h; rw [hq] at he; simp at he
  · obtain ⟨m, hm⟩ := C08_rejects_with_config_error s r (fun hh => h ((C08_accepts_iff_grammar s r).2 hh))
    rw [hm] at he; cases he; exact ⟨m, rfl⟩

theorem enableLoop_oce {dir : Path} {ts : List Toml} (h : ∀ t ∈ ts, ∃ s, t = .str s) : ∀ m : Merged V, OnlyConfigError (enableLoop dir ts m) := by
  induction ts with
  | nil => intro m; exact OnlyConfigError.ok _
  | cons t ts ih =>
    intro m
    obtain ⟨s, rfl⟩ := h t (by simp)
    exact OnlyConfigError.bind (parseRule_oce s dir) (fun q _ => ih (fun t ht => h t (by simp [ht])) _)

theorem disableLoop_oce {dir : Path} {ts : List Toml} (h : ∀ t ∈ ts, ∃ s, t = .str s) : ∀ m : Merged V, OnlyConfigError (disableLoop dir ts m) := by
  induction ts with
  | nil => intro m; exact OnlyConfigError.ok _
  | cons t ts ih =>
    intro m
    obtain ⟨s, rfl⟩ := h t (by simp)
    exact OnlyConfigError.bind (parseRule_oce s dir) (fun q _ => ih (fun t ht => h t (by simp [ht])) _)

theorem asSequence_oce {key : PStr} (v : Option Toml) : OnlyConfigError (asSequence key v) := by
  cases v with
  | none => exact OnlyConfigError.ok _
  | some t => cases t <;> first | exact OnlyConfigError.ok _ | exact OnlyConfigError.config _

theorem scalarOptions_oce (d : Dict) : OnlyConfigError (scalarOptions d) := by
  induction d with
  | nil => exact OnlyConfigError.ok _
  | cons e es ih =>
    obtain ⟨k, v⟩ := e
    simp only [scalarOptions]
    cases v.toOptVal with
    | none => exact OnlyConfigError.config _
    | some x => exact OnlyConfigError.bind ih (fun _ _ => OnlyConfigError.pure _)

theorem optionTables_oce {d : Dict} (h : ∀ e ∈ d, ∃ o, e.2 = Toml.tbl o) : OnlyConfigError (optionTables d) := by
  induction d with
  | nil => exact OnlyConfigError.ok _
  | cons e es ih =>
    obtain ⟨k, v⟩ := e
    obtain ⟨o, ho⟩ := h (k, v) (by simp)
    simp only at ho
    subst ho
    simp only [optionTables]
    exact OnlyConfigError.bind (scalarOptions_oce o) (fun _ _ => OnlyConfigError.bind (ih (fun e he => h e (by simp [he]))) (fun _ _ => OnlyConfigError.pure _))

theorem asOptions_oce {key : PStr} {v : Option Toml} (h : ∀ t, v = some (.tbl t) → ∀ e ∈ t, ∃ o, e.2 = Toml.tbl o) : OnlyConfigError (asOptions key v) := by
  cases v with
  | none => exact OnlyConfigError.ok _
  | some t =>
    cases t with
    | tbl d => exact optionTables_oce (h d rfl)
    | _ => exact OnlyConfigError.config _

theorem applySection_oce {sec : Section} (h : WellTyped sec.table) (m : Merged V) : OnlyConfigError (applySection env path sec m) := by
  unfold applySection
  refine OnlyConfigError.bind ?_ ?_
  · unfold tableOf
    simp only [dget_eq_field]
    exact OnlyConfigError.bind (asSequence_oce _) (fun _ _ => OnlyConfigError.bind (asSequence_oce _)
      (fun _ _ => OnlyConfigError.bind (asOptions_oce h.options) (fun _ _ => OnlyConfigError.pure _)))
  · intro t ht
    obtain ⟨h1, h2, -, h4, h5⟩ := tableOf_ok ht
    unfold processSubpath
    split
    · have hr := h.rules
      rw [← asSequence_elems h1, ← asSequence_elems h2] at hr
      refine OnlyConfigError.bind (enableLoop_oce (fun x hx => hr x (by simp [hx])) m) (fun m1 _ => ?_)
      refine OnlyConfigError.bind (disableLoop_oce (fun x hx => hr x (by simp [hx])) m1) (fun m2 _ => ?_)
      refine OnlyConfigError.bind ?_ (fun m3 _ => ?_)
      · unfold setVersion
        cases hv : t.pyver with
        | none => exact OnlyConfigError.ok _
        | some v =>
          obtain ⟨s, rfl⟩ := h.version v (by rw [← h4, hv])
          simp only
          split
          · refine OnlyConfigError.bind ?_ (fun _ _ => OnlyConfigError.pure _)
            simp only [versionOf]
            cases env.parseVersion s with
            | none => exact OnlyConfigError.config _
            | some x => exact OnlyConfigError.ok _
          · exact OnlyConfigError.ok _
      · unfold setFormatter
        cases hv : t.formatter with
        | none => exact OnlyConfigError.ok _
        | some v =>
          obtain ⟨s, rfl⟩ := h.formatter v (by rw [← h5, hv])
          simp only
          split
          · refine OnlyConfigError.bind ?_ (fun _ _ => OnlyConfigError.pure _)
            simp only [formatterOf]
            split
            · exact OnlyConfigError.ok _
            · exact OnlyConfigError.config _
          · exact OnlyConfigError.ok _
    · exact OnlyConfigError.ok _

theorem applyOverrides_oce {dir : Path} {os : List Toml}
    (h : ∀ d, Toml.tbl d ∈ os → WellTyped d ∧ ∀ p, field (py "path") d = some p → ∃ s, p = .str s) :
    ∀ m : Merged V, OnlyConfigError (applyOverrides env path dir os m) := by
  induction os with
  | nil => intro m; exact OnlyConfigError.ok _
  | cons o os ih =>
    intro m
    simp only [applyOverrides]
    refine OnlyConfigError.bind ?_ (fun m1 _ => ih (fun d hd => h d (by simp [hd])) m1)
    cases o with
    | tbl d =>
      obtain ⟨hw, hp⟩ := h d (by simp)
      simp only [applyOverride, dget_eq_field]
      cases hf : field (py "path") d with
      | none => exact OnlyConfigError.config _
      | some p =>
        obtain ⟨s, rfl⟩ := hp p hf
        simp only
        split
        · exact OnlyConfigError.bind (OnlyConfigError.ok _) (fun _ _ => applySection_oce env path hw m)
        · exact OnlyConfigError.config _
    | _ => exact OnlyConfigError.config _

theorem mergeStep_oce {c : RawConfig} (h : WellTypedFile c.file) (s : MState V) : OnlyConfigError (mergeStep env path c s) := by
  rw [mergeStep_eq]
  refine OnlyConfigError.bind ?_ (fun _ _ => OnlyConfigError.bind ?_ (fun _ _ => OnlyConfigError.bind (applySection_oce env path h.main _)
    (fun m _ => OnlyConfigError.bind (asSequence_oce _) (fun os hos => OnlyConfigError.bind ?_ (fun _ _ => OnlyConfigError.pure _)))))
  · cases truthyField (py "enable-root-import") c.data with
    | none => exact OnlyConfigError.ok _
    | some v =>
      simp only [rootImportOf]
      split
      · exact OnlyConfigError.config _
      · cases v with
        | str x =>
          simp only
          split
          · exact OnlyConfigError.config _
          · split
            · exact OnlyConfigError.config _
            · exact OnlyConfigError.ok _
        | _ => exact OnlyConfigError.ok _
  · cases truthyField (py "output-format") c.data with
    | none => exact OnlyConfigError.ok _
    | some v =>
      simp only [outputFormatOf]
      cases OutputFormat.ofToml v with
      | none => exact OnlyConfigError.config _
      | some f => exact OnlyConfigError.ok _
  · rw [dget_eq_field] at hos
    refine applyOverrides_oce env path ?_ m
    rw [asSequence_elems hos]
    exact h.overrides

/-- Configs of the right value types fail, if at all, with ConfigError. -/
theorem C23_well_typed_only_config_error (raw : List RawConfig) (root : Option Path) (h : ∀ f ∈ files raw, WellTypedFile f) :
    OnlyConfigError (mergeConfigs env order path raw root) := by
  unfold mergeConfigs
  refine OnlyConfigError.bind ?_ (fun _ _ => OnlyConfigError.pure _)
  have : ∀ (cs : List RawConfig), (∀ c ∈ cs, WellTypedFile c.file) → ∀ s : MState V, OnlyConfigError (mergeLoop env path cs s) := by
    intro cs
    induction cs with
    | nil => intro _ s; exact OnlyConfigError.ok _
    | cons c cs ih =>
      intro hc s
      exact OnlyConfigError.bind (mergeStep_oce env path (hc c (by simp)) s) (fun s1 _ => ih (fun x hx => hc x (by simp [hx])) s1)
  refine this _ ?_ _
  intro c hc
  exact h c.file (by simp only [files]; exact List.mem_map_of_mem (by simpa using hc))

/-- Otherwise a different exception can escape: a non-string rule name raises TypeError, a non-table rule option AttributeError. -/
theorem C23_other_errors_escape :
    mergeConfigs exEnv id [py "a"] [⟨[py "fixit.toml"], [(py "enable", .arr [.int 1])]⟩] none matches .error .type ∧
    mergeConfigs exEnv id [py "a"] [⟨[py "fixit.toml"], [(py "python-version", .float 3)]⟩] none matches .error .type ∧
    mergeConfigs exEnv id [py "a"] [⟨[py "fixit.toml"], [(py "options", .tbl [(py "R", .int 1)])]⟩] none matches .error .attribute :=
  ⟨rfl, rfl, rfl⟩

/-- **C23** Reading fails only with what a file itself fails with (unreadable, or not TOML), or with AttributeError, because `tool`, or a `tool.fixit` that is not empty, is not a table. -/
theorem C23_unreadable (load : Path → Except Err Dict) (ps : List Path) (e : Err) (h : (readConfigs load ps).1 = .error e) :
    ∃ p ∈ ps, load p = .error e ∨ (e = .attribute ∧ ∃ d, load p = .ok d ∧ Misshapen d) := by
  induction ps with
  | nil => cases h
  | cons p ps ih =>
    simp only [readConfigs] at h
    cases hr : readOne load p with
    | error e' =>
      rw [hr] at h
      simp only [Except.error.injEq] at h
      subst h
      refine ⟨p, by simp, ?_⟩
      unfold readOne at hr
      cases hl : load p with
      | error e2 => rw [hl] at hr; left; simpa [Bind.bind, Except.bind] using hr
      | ok d =>
        right
        rw [hl] at hr
        simp only [Bind.bind, Except.bind, fixitTable, dget_eq_field] at hr
        cases ht : field (py "tool") d with
        | none => rw [ht] at hr; cases hr
        | some t =>
          cases t with
          | tbl tool =>
            rw [ht] at hr
            simp only at hr
            cases hf : field (py "fixit") tool with
            | none => rw [hf] at hr; cases hr
            | some f =>
              rw [hf] at hr
              simp only at hr
              split at hr
              · rename_i htr
                cases f with
                | tbl x => cases hr
                | _ => cases hr; exact ⟨rfl, d, rfl, .fixit _ _ ht hf htr (fun x hx => by cases hx)⟩
              · cases hr
          | _ => rw [ht] at hr; cases hr; exact ⟨rfl, d, rfl, .tool _ ht (fun x hx => by cases hx)⟩
    | ok o =>
      rw [hr] at h
      have hrest : (readConfigs load ps).1 = .error e := by
        cases o with
        | none => exact h
        | some db =>
          obtain ⟨d, b⟩ := db
          cases b with
          | true => cases h
          | false =>
            simp only at h
            cases hx : (readConfigs load ps).1 with
            | error e2 => rw [hx] at h; simpa [Except.map] using h
            | ok cs => rw [hx] at h; cases h
      obtain ⟨q, hq, hq'⟩ := ih hrest
      exact ⟨q, List.mem_cons_of_mem _ hq, hq'⟩

/-- **C23** Such a file, once it is its turn, ends the reading with AttributeError. -/
theorem C23_misshapen (load : Path → Except Err Dict) (p : Path) (ps : List Path) (d : Dict) (hl : load p = .ok d) (hm : Misshapen d) :
    readConfigs load (p :: ps) = (.error .attribute, [p]) := by
  have : readOne load p = .error .attribute := by
    unfold readOne
    rw [hl]
    simp only [Bind.bind, Except.bind, fixitTable, dget_eq_field]
    cases hm with
    | tool t ht hne =>
      rw [ht]
      cases t with
      | tbl x => exact absurd rfl (hne x)
      | _ => rfl
    | fixit tool f ht hf htr hne =>
      simp only [ht, hf, htr, if_true]
      cases f with
      | tbl x => exact absurd rfl (hne x)
      | _ => rfl
  simp only [readConfigs, this]

/-- A `pyproject.toml` that says `tool = 1`, one that says `fixit = "x"`, and one that says `fixit = ""`, which is as good as nothing. -/
example :
    (readConfigs (fun _ => .ok [(py "tool", .int 1)]) [[py "pyproject.toml"]]).1 matches .error .attribute ∧
    (readConfigs (fun _ => .ok [(py "tool", .tbl [(py "fixit", .str (py "x"))])]) [[py "pyproject.toml"]]).1 matches .error .attribute ∧
    (readConfigs (fun _ => .ok [(py "tool", .tbl [(py "fixit", .str [])])]) [[py "pyproject.toml"]]).1 matches .ok [] :=
  ⟨rfl, rfl, rfl⟩

example : (∀ f ∈ files exStack, ValidFile exEnv [py "a", py "b", py "x.py"] f) ∧ ValidRootImport none (files exStack) := by
  rw [← C23_accepts_iff_valid exEnv _ id]
  obtain ⟨cfg, w, h, -⟩ := exStack_merges
  exact ⟨_, h⟩
/-- Rejected: an unknown formatter, an override without a path. -/
example : mergeConfigs exEnv id [py "a"] [⟨[py "fixit.toml"], [(py "formatter", .str (py "yapf"))]⟩] none matches .error (.config _) := rfl
example : mergeConfigs exEnv id [py "a"] [⟨[py "fixit.toml"], [(py "overrides", .arr [.tbl [(py "enable", .arr [])]])]⟩] none matches .error (.config _) := rfl

end Fixit
