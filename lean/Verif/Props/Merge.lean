import Verif.Proof.Mentions

/-!
# C11, C17–C22, C26, C27: merging configuration files

`raw` is the list given to `merge_configs`, highest priority first; `files raw` is the same as specification files.
`order` is the set iteration order, any permutation.
-/

namespace Fixit
open Py Spec

variable {V : Type} (env : CfgEnv V) (path : Path) (order : List QualifiedRule → List QualifiedRule)

theorem init_good (root : Option Path) : GoodSets ((mergeInit env root).merged.enable, (mergeInit env root).merged.disable) := by
  refine ⟨?_, by simp [mergeInit], by simp [mergeInit, KeyNodup], by simp [mergeInit, KeyNodup]⟩
  intro q hq
  simp only [mergeInit, List.mem_singleton] at hq
  subst hq
  exact ⟨py "fixit.rules", [], by decide⟩

theorem merged_steps {raw : List RawConfig} {root : Option Path} {m : Merged V}
    (h : applySections env path (applicable path (files raw)) (mergeInit env root).merged = .ok m) :
    Steps ((mergeInit env root).merged.enable, (mergeInit env root).merged.disable) (allMentions path (files raw)) (m.enable, m.disable) := by
  refine applySections_steps env path ?_ h
  intro s hs
  simp only [applicable, List.mem_filter] at hs
  exact hs.2

theorem hasText_sort {l : List QualifiedRule} (horder : ∀ l, (order l).Perm l) (text : PStr) :
    HasText (sortRules (order l)) text ↔ HasText l text := by
  unfold HasText sortRules
  simp only [mem_sortBy, (horder l).mem_iff]

/-! ## C17: the last mention wins -/

theorem C17_last_mention_wins (horder : ∀ l, (order l).Perm l) {raw : List RawConfig} {root : Option Path} {cfg : Config V} {w : List PStr}
    (h : mergeConfigs env order path raw root = .ok (cfg, w)) (text : PStr) :
    ((∃ q ∈ cfg.enable, q.str = text) ↔ lastMention (allMentions path (files raw)) text = some true ∨
      (lastMention (allMentions path (files raw)) text = none ∧ text = py "fixit.rules")) ∧
    ((∃ q ∈ cfg.disable, q.str = text) ↔ lastMention (allMentions path (files raw)) text = some false) := by
  obtain ⟨s, -, rfl, -, hm⟩ := mergeConfigs_ok env path h
  have ht := (merged_steps env path hm).texts (init_good env root) text
  have e1 := hasText_sort order (l := s.merged.enable) horder text
  have e2 := hasText_sort order (l := s.merged.disable) horder text
  constructor
  · show HasText (sortRules (order s.merged.enable)) text ↔ _
    rw [e1, ht.1]
    have : HasText (mergeInit env root).merged.enable text ↔ text = py "fixit.rules" := by
      constructor
      · rintro ⟨q, hq, rfl⟩
        simp only [mergeInit, List.mem_singleton] at hq
        subst hq; decide
      · rintro rfl; exact ⟨{ module := py "fixit.rules" }, by simp [mergeInit], by decide⟩
    simp only [this]
  · show HasText (sortRules (order s.merged.disable)) text ↔ _
    rw [e2, ht.2]
    have : ¬ HasText (mergeInit env root).merged.disable text := by
      rintro ⟨q, hq, -⟩; simp [mergeInit] at hq
    simp [this]

/-! ## C18: disjoint, sorted, duplicate-free -/

theorem sorted_strict {l : List QualifiedRule} (horder : ∀ l, (order l).Perm l) (hp : ∀ q ∈ l, Parsed q) (hn : KeyNodup QualifiedRule.key l) :
    (sortRules (order l)).Pairwise (fun a b => strLt a.str b.str = true) := by
  have hs : SortedByKey QualifiedRule.str (sortRules (order l)) := sortBy_sorted _ _
  have hk : ((sortRules (order l)).map QualifiedRule.key).Nodup :=
    (((sortBy_perm _ _).trans (horder l)).map QualifiedRule.key).nodup_iff.2 hn
  have hk' : (sortRules (order l)).Pairwise (fun a b => a.key ≠ b.key) := by
    rw [List.Nodup, List.pairwise_map] at hk; exact hk
  have := List.Pairwise.and hs hk'
  refine List.Pairwise.imp_of_mem ?_ this
  intro a b ha hb hab
  have ha' : a ∈ l := by rw [sortRules, mem_sortBy, (horder l).mem_iff] at ha; exact ha
  have hb' : b ∈ l := by rw [sortRules, mem_sortBy, (horder l).mem_iff] at hb; exact hb
  rcases strLt_total a.str b.str with h | h | h
  · exact h
  · exact absurd (((hp a ha').key_iff (hp b hb')).1 h) hab.2
  · rw [hab.1] at h; simp at h

theorem C18_disjoint_sorted (horder : ∀ l, (order l).Perm l) {raw : List RawConfig} {root : Option Path} {cfg : Config V} {w : List PStr}
    (h : mergeConfigs env order path raw root = .ok (cfg, w)) :
    (∀ a ∈ cfg.enable, ∀ b ∈ cfg.disable, a.str ≠ b.str ∧ a.key ≠ b.key) ∧
    cfg.enable.Pairwise (fun a b => strLt a.str b.str = true) ∧ cfg.disable.Pairwise (fun a b => strLt a.str b.str = true) := by
  have h17 := C17_last_mention_wins env path order horder h
  obtain ⟨s, -, rfl, -, hm⟩ := mergeConfigs_ok env path h
  have hg := (merged_steps env path hm).good (init_good env root)
  refine ⟨?_, sorted_strict order horder hg.p1 hg.n1, sorted_strict order horder hg.p2 hg.n2⟩
  intro a ha b hb
  have hne : a.str ≠ b.str := by
    intro e
    have h1 := ((h17 a.str).1).1 ⟨a, ha, rfl⟩
    have h2 := ((h17 a.str).2).1 ⟨b, hb, e.symm⟩
    rw [h2] at h1
    simp at h1
  exact ⟨hne, fun e => hne (str_of_key e)⟩

/-! ## C26: determinism -/

theorem strict_rules_ext {l₁ l₂ : List QualifiedRule} (h₁ : l₁.Pairwise (fun a b => strLt a.str b.str = true))
    (h₂ : l₂.Pairwise (fun a b => strLt a.str b.str = true)) (h : ∀ text, HasText l₁ text ↔ HasText l₂ text) :
    l₁.map QualifiedRule.str = l₂.map QualifiedRule.str := by
  refine strict_ext ?_ ?_ ?_
  · unfold StrictlySorted; rw [List.pairwise_map]; exact h₁
  · unfold StrictlySorted; rw [List.pairwise_map]; exact h₂
  · intro x; simpa [HasText, List.mem_map] using h x

/-- Set iteration order does not show in the result. -/
theorem C26_order_independent (order' : List QualifiedRule → List QualifiedRule) (horder : ∀ l, (order l).Perm l)
    (horder' : ∀ l, (order' l).Perm l) (raw : List RawConfig) (root : Option Path) :
    mergeConfigs env order path raw root = mergeConfigs env order' path raw root := by
  unfold mergeConfigs
  cases hl : mergeLoop env path raw.reverse (mergeInit env root) with
  | error e => rfl
  | ok s =>
    simp only [bind, Except.bind, pure, Except.pure, Except.ok.injEq, Prod.mk.injEq, and_true]
    have hm : applySections env path (applicable path (files raw)) (mergeInit env root).merged = .ok s.merged := by
      obtain ⟨s', h1, -, -, h2⟩ := mergeConfigs_ok (cfg := mergeFinish order path s) (w := s.warnings) (order := order) (raw := raw) (root := root)
        env path (by unfold mergeConfigs; rw [hl]; rfl)
      rw [hl] at h1; cases h1; exact h2
    have hg := (merged_steps env path hm).good (init_good env root)
    have inj : ∀ {l : List QualifiedRule}, (∀ q ∈ l, Parsed q) → KeyNodup QualifiedRule.key l →
        sortRules (order l) = sortRules (order' l) := by
      intro l hp hn
      refine sortBy_eq_of_perm QualifiedRule.str ?_ ((horder l).trans (horder' l).symm)
      intro a ha b hb hab
      have ha' := (horder l).mem_iff.1 ha
      have hb' := (horder l).mem_iff.1 hb
      have hk := ((hp a ha').key_iff (hp b hb')).1 hab
      unfold KeyNodup at hn
      have aux : ∀ (l : List QualifiedRule), (l.map QualifiedRule.key).Nodup → a ∈ l → b ∈ l → a = b := by
        intro l
        induction l with
        | nil => intro _ h; simp at h
        | cons x xs ih =>
          intro hn ha hb
          simp only [List.map_cons, List.nodup_cons] at hn
          rw [List.mem_cons] at ha hb
          rcases ha with rfl | ha <;> rcases hb with rfl | hb
          · rfl
          · exact absurd (hk ▸ List.mem_map_of_mem hb) hn.1
          · exact absurd (hk ▸ List.mem_map_of_mem ha) hn.1
          · exact ih hn.2 ha hb
      exact aux l hn ha' hb'
    unfold mergeFinish
    rw [inj hg.p1 hg.n1, inj hg.p2 hg.n2]

/-- Two stacks in which every rule has the same last mention enable and disable the same rules, in the same order. -/
theorem C26_only_last_mentions_matter (horder : ∀ l, (order l).Perm l) {raw raw' : List RawConfig} {root root' : Option Path}
    {cfg cfg' : Config V} {w w' : List PStr} (h : mergeConfigs env order path raw root = .ok (cfg, w))
    (h' : mergeConfigs env order path raw' root' = .ok (cfg', w'))
    (hsame : ∀ text, lastMention (allMentions path (files raw)) text = lastMention (allMentions path (files raw')) text) :
    cfg.enable.map QualifiedRule.str = cfg'.enable.map QualifiedRule.str ∧
    cfg.disable.map QualifiedRule.str = cfg'.disable.map QualifiedRule.str := by
  obtain ⟨-, s1, s2⟩ := C18_disjoint_sorted env path order horder h
  obtain ⟨-, s1', s2'⟩ := C18_disjoint_sorted env path order horder h'
  constructor
  · refine strict_rules_ext s1 s1' ?_
    intro text
    have a := (C17_last_mention_wins env path order horder h text).1
    have b := (C17_last_mention_wins env path order horder h' text).1
    rw [hsame] at a
    exact a.trans b.symm
  · refine strict_rules_ext s2 s2' ?_
    intro text
    have a := (C17_last_mention_wins env path order horder h text).2
    have b := (C17_last_mention_wins env path order horder h' text).2
    rw [hsame] at a
    exact a.trans b.symm

/-! ## C11: where local rules come from -/

/-- An enabled local rule is bound to the directory of the first file that enables it after its last disable. -/
theorem C11_local_rule_root (horder : ∀ l, (order l).Perm l) {raw : List RawConfig} {root : Option Path} {cfg : Config V} {w : List PStr}
    (h : mergeConfigs env order path raw root = .ok (cfg, w)) (q : QualifiedRule) (hq : q ∈ cfg.enable) (hdot : q.str.head? = some '.') :
    ∃ d, bindingDir (allMentions path (files raw)) q.str = some d ∧ q.root = some d := by
  obtain ⟨s, -, rfl, -, hm⟩ := mergeConfigs_ok env path h
  have hq' : q ∈ s.merged.enable := by
    simp only [mergeFinish, sortRules, mem_sortBy, (horder _).mem_iff] at hq; exact hq
  rcases (merged_steps env path hm).roots (init_good env root) q hq' hdot with h | h
  · exact h
  · simp only [mergeInit, List.mem_singleton] at h
    subst h
    exact absurd hdot (by decide)

/-- Non-local rules carry no directory. -/
theorem C11_absolute_rule_no_root (horder : ∀ l, (order l).Perm l) {raw : List RawConfig} {root : Option Path} {cfg : Config V} {w : List PStr}
    (h : mergeConfigs env order path raw root = .ok (cfg, w)) (q : QualifiedRule) (hq : q ∈ cfg.enable) (hdot : q.str.head? ≠ some '.') :
    q.root = none := by
  obtain ⟨s, -, rfl, -, hm⟩ := mergeConfigs_ok env path h
  have hq' : q ∈ s.merged.enable := by
    simp only [mergeFinish, sortRules, mem_sortBy, (horder _).mem_iff] at hq; exact hq
  obtain ⟨t, r, hp⟩ := ((merged_steps env path hm).good (init_good env root)).p1 q hq'
  refine ((C10_root_iff_dot t r q hp).2).2 ?_
  intro hd
  apply hdot
  rcases C09_round_trip_newline t r q hp with e | e
  · rw [← e]; exact hd
  · rw [e] at hd
    cases hs : q.str with
    | nil => rw [hs] at hd; simp at hd
    | cons c cs => rw [hs] at hd; simpa using hd

/-- An environment for the examples. -/
def exEnv : CfgEnv Nat where
  parseVersion s := if s = py "3.8" then some 8 else if s = py "3.9" then some 9 else none
  current := 12
  formatters := [py "black", py "ufmt"]

/-- Two nested configs that both enable `.rules`. -/
def exNested : List RawConfig :=
  [ ⟨[py "a", py "b", py "fixit.toml"], [(py "enable", .arr [.str (py ".rules")])]⟩,
    ⟨[py "a", py "fixit.toml"], [(py "enable", .arr [.str (py ".rules")]), (py "formatter", .str (py "black"))]⟩ ]

/-- Not the nearest file that enables the rule: with `/a/fixit.toml` and `/a/b/fixit.toml` both enabling `.rules`, the file
`/a/b/x.py` gets the rules of `/a`, although the nearest enabling config is that of `/a/b`. -/
theorem C11_not_nearest : ∃ cfg w, mergeConfigs exEnv id [py "a", py "b", py "x.py"] exNested none = .ok (cfg, w) ∧
    nearestEnableDir (allMentions [py "a", py "b", py "x.py"] (files exNested)) (py ".rules") = some [py "a", py "b"] ∧
    ∃ q ∈ cfg.enable, q.str = py ".rules" ∧ q.root = some [py "a"] :=
  ⟨_, _, rfl, by decide, { module := py ".rules", loc := some (py "."), root := some [py "a"] }, by decide, by decide, by decide⟩

/-! ## C19: scalar settings -/

/-- The python version is set by the nearest applicable section that has the key. -/
theorem applySections_pyver {l : List Section} (hl : ∀ s ∈ l, s.scope.isPrefixOf path = true) {m m' : Merged V}
    (h : applySections env path l m = .ok m') :
    match nearest (fun s => field (py "python-version") s.table) l with
    | none => m'.pyver = m.pyver
    | some t => if t.truthy then ∃ x, versionOf env t = .ok x ∧ m'.pyver = some x else m'.pyver = none := by
  induction l generalizing m with
  | nil => cases h; rfl
  | cons s ss ih =>
    simp only [applySections] at h
    rw [bind_ok] at h
    obtain ⟨m1, h1, h2⟩ := h
    have ih' := ih (fun x hx => hl x (List.mem_cons_of_mem _ hx)) h2
    rw [nearest_cons]
    cases hn : nearest (fun s => field (py "python-version") s.table) ss with
    | some t => rw [hn] at ih'; exact ih'
    | none =>
      rw [hn] at ih'
      simp only [Option.none_or] at ih' ⊢
      obtain ⟨t, m2, m3, ht, -, -, -, -, -, hv, -⟩ := applySection_ok env path (hl s (by simp)) h1
      obtain ⟨-, -, -, hpv, -⟩ := tableOf_ok ht
      rw [hpv] at hv
      rw [ih']
      exact hv

theorem applySections_formatter {l : List Section} (hl : ∀ s ∈ l, s.scope.isPrefixOf path = true) {m m' : Merged V}
    (h : applySections env path l m = .ok m') :
    match nearest (fun s => truthyField (py "formatter") s.table) l with
    | none => m'.formatter = m.formatter
    | some t => ∃ x, formatterOf env t = .ok x ∧ m'.formatter = some x := by
  induction l generalizing m with
  | nil => cases h; rfl
  | cons s ss ih =>
    simp only [applySections] at h
    rw [bind_ok] at h
    obtain ⟨m1, h1, h2⟩ := h
    have ih' := ih (fun x hx => hl x (List.mem_cons_of_mem _ hx)) h2
    rw [nearest_cons]
    cases hn : nearest (fun s => truthyField (py "formatter") s.table) ss with
    | some t => rw [hn] at ih'; exact ih'
    | none =>
      rw [hn] at ih'
      simp only [Option.none_or] at ih' ⊢
      obtain ⟨t, m2, m3, ht, -, -, -, -, -, -, hf⟩ := applySection_ok env path (hl s (by simp)) h1
      obtain ⟨-, -, -, -, hpf⟩ := tableOf_ok ht
      rw [hpf] at hf
      unfold truthyField
      cases hv : field (py "formatter") s.table with
      | none => rw [hv] at hf; simp only [Option.filter] at hf ⊢; rw [ih', hf]
      | some v =>
        rw [hv] at hf
        simp only [Option.filter] at hf ⊢
        by_cases htv : v.truthy = true
        · rw [if_pos htv] at hf
          simp only [htv, if_true]
          rw [ih']; exact hf
        · rw [if_neg htv] at hf
          simp only [htv]
          rw [ih', hf]; rfl

theorem applicable_scope (fs : List File) : ∀ s ∈ applicable path fs, s.scope.isPrefixOf path = true := by
  intro s hs
  simp only [applicable, List.mem_filter] at hs
  exact hs.2

/-- python-version: nearest applicable section that sets it, empty meaning no filter; otherwise the interpreter's version. -/
theorem C19_python_version {raw : List RawConfig} {root : Option Path} {cfg : Config V} {w : List PStr}
    (h : mergeConfigs env order path raw root = .ok (cfg, w)) :
    (nearest (fun s => field (py "python-version") s.table) (applicable path (files raw)) = none → cfg.pyver = some env.current) ∧
    (∀ t, nearest (fun s => field (py "python-version") s.table) (applicable path (files raw)) = some t →
      (t.truthy = true → ∃ s, t = .str s ∧ cfg.pyver = env.parseVersion s ∧ cfg.pyver ≠ none) ∧ (t.truthy = false → cfg.pyver = none)) := by
  obtain ⟨s, -, rfl, -, hm⟩ := mergeConfigs_ok env path h
  have := applySections_pyver env path (applicable_scope path _) hm
  constructor
  · intro hn; rw [hn] at this; exact this
  · intro t hn
    rw [hn] at this
    simp only at this
    constructor
    · intro ht
      rw [if_pos ht] at this
      obtain ⟨x, hx, hp⟩ := this
      cases t with
      | str v =>
        refine ⟨v, rfl, ?_⟩
        simp only [versionOf] at hx
        cases hv : env.parseVersion v with
        | none => rw [hv] at hx; simp at hx
        | some y =>
          rw [hv] at hx; simp only [Except.ok.injEq] at hx; subst hx
          exact ⟨hp, by show s.merged.pyver ≠ none; rw [hp]; simp⟩
      | _ => simp [versionOf] at hx
    · intro ht
      rw [if_neg (by simp [ht])] at this
      exact this

/-- formatter: nearest applicable section with a non-empty one; otherwise none. It is always a supported one. -/
theorem C19_formatter {raw : List RawConfig} {root : Option Path} {cfg : Config V} {w : List PStr}
    (h : mergeConfigs env order path raw root = .ok (cfg, w)) :
    (nearest (fun s => truthyField (py "formatter") s.table) (applicable path (files raw))) = cfg.formatter.map Toml.str ∧
    (∀ f, cfg.formatter = some f → f ∈ env.formatters) := by
  obtain ⟨s, -, rfl, -, hm⟩ := mergeConfigs_ok env path h
  have := applySections_formatter env path (applicable_scope path _) hm
  cases hn : nearest (fun s => truthyField (py "formatter") s.table) (applicable path (files raw)) with
  | none =>
    rw [hn] at this
    have this : s.merged.formatter = none := this
    simp [mergeFinish, this]
  | some t =>
    rw [hn] at this
    simp only at this
    obtain ⟨x, hx, hp⟩ := this
    simp only [mergeFinish, hp]
    cases t with
    | str v =>
      simp only [formatterOf] at hx
      split at hx
      · rename_i hin
        simp only [Except.ok.injEq] at hx; subst hx
        exact ⟨rfl, by intro f hf; cases hf; exact hin⟩
      · simp [badFormatter] at hx
    | _ => simp [formatterOf, badFormatter] at hx

theorem mergeLoop_output {cs : List RawConfig} {s s' : MState V} (h : mergeLoop env path cs s = .ok s') :
    (match nearest (fun c => truthyField (py "output-format") c.data) cs with
      | none => s'.outputFormat = s.outputFormat
      | some t => OutputFormat.ofToml t = some s'.outputFormat) ∧
    s'.outputTemplate = (nearest (fun c => truthyField (py "output-template") c.data) cs).getD s.outputTemplate := by
  induction cs generalizing s with
  | nil => cases h; exact ⟨rfl, rfl⟩
  | cons c cs ih =>
    simp only [mergeLoop] at h
    rw [bind_ok] at h
    obtain ⟨s1, h1, h2⟩ := h
    obtain ⟨ih1, ih2⟩ := ih h2
    have hs := mergeStep_ok env path h1
    rw [nearest_cons, nearest_cons]
    constructor
    · cases hn : nearest (fun c : RawConfig => truthyField (py "output-format") c.data) cs with
      | some t => rw [hn] at ih1; exact ih1
      | none =>
        rw [hn] at ih1
        simp only [Option.none_or] at ih1 ⊢
        have hf := hs.format
        cases ht : truthyField (py "output-format") c.data with
        | none => rw [ht] at hf; simp only [outputFormatOf, Except.ok.injEq] at hf; simp only; rw [ih1, hf]
        | some v =>
          rw [ht] at hf
          simp only [outputFormatOf] at hf
          simp only
          cases ho : OutputFormat.ofToml v with
          | none => rw [ho] at hf; simp at hf
          | some f => rw [ho] at hf; simp only [Except.ok.injEq] at hf; rw [ih1, hf]
    · rw [ih2, hs.template]
      cases nearest (fun c : RawConfig => truthyField (py "output-template") c.data) cs <;> simp

/-- output-format and output-template: nearest file with a non-empty value, whatever its directory; otherwise `fixit` and empty. -/
theorem C19_output {raw : List RawConfig} {root : Option Path} {cfg : Config V} {w : List PStr}
    (h : mergeConfigs env order path raw root = .ok (cfg, w)) :
    (nearest (fun f => truthyField (py "output-format") f.table) (files raw).reverse = none → cfg.outputFormat = .fixit) ∧
    (∀ t, nearest (fun f => truthyField (py "output-format") f.table) (files raw).reverse = some t →
      t = .str cfg.outputFormat.name) ∧
    cfg.outputTemplate = (nearest (fun f => truthyField (py "output-template") f.table) (files raw).reverse).getD (.str []) := by
  obtain ⟨s, hl, rfl, -, -⟩ := mergeConfigs_ok env path h
  obtain ⟨h1, h2⟩ := mergeLoop_output env path hl
  have e : ∀ k, nearest (fun f => truthyField k f.table) (files raw).reverse = nearest (fun c : RawConfig => truthyField k c.data) raw.reverse := by
    intro k
    unfold files nearest
    rw [← List.map_reverse, List.filterMap_map]
    rfl
  rw [e, e]
  refine ⟨?_, ?_, h2⟩
  · intro hn; rw [hn] at h1; exact h1
  · intro t hn
    rw [hn] at h1
    simp only at h1
    cases t with
    | str v =>
      simp only [mergeFinish]
      simp only [OutputFormat.ofToml] at h1
      split at h1
      · rename_i h' ; simp only [Option.some.injEq] at h1; rw [← h1, h']; rfl
      · split at h1
        · rename_i h' ; simp only [Option.some.injEq] at h1; rw [← h1, h']; rfl
        · split at h1
          · rename_i h' ; simp only [Option.some.injEq] at h1; rw [← h1, h']; rfl
          · simp at h1
    | _ => simp [OutputFormat.ofToml] at h1

/-! ## C20: rule options -/

/-- An option value as TOML. -/
def OptVal.toToml : OptVal → Toml
  | .str s => .str s
  | .int n => .int n
  | .float n => .float n
  | .bool b => .bool b

/-- A rule's options as a TOML table. -/
def optsToml (o : List (PStr × OptVal)) : Dict := o.map (fun e => (e.1, e.2.toToml))

/-- Lookup in the merged options. -/
def optGet (k : PStr) : OptTable → Option (List (PStr × OptVal))
  | [] => none
  | (k', v) :: rest => if k' = k then some v else optGet k rest

theorem optGet_dictSet (k k' : PStr) (v : List (PStr × OptVal)) (d : OptTable) :
    optGet k (dictSet k' v d) = if k' = k then some v else optGet k d := by
  induction d with
  | nil => simp [dictSet, optGet]
  | cons e es ih =>
    obtain ⟨a, b⟩ := e
    simp only [dictSet]
    by_cases h : a = k'
    · rw [if_pos h]
      subst h
      simp only [optGet]
      split <;> rfl
    · rw [if_neg h]
      simp only [optGet, ih]
      by_cases h1 : a = k
      · have : k' ≠ k := fun e => h (by rw [h1, e])
        simp [h1, this]
      · simp [h1]

theorem optGet_dictUpdate (k : PStr) : ∀ (other d : OptTable), (other.map (·.1)).Nodup →
    optGet k (dictUpdate d other) = (optGet k other).or (optGet k d) := by
  intro other
  induction other with
  | nil => intro d _; rfl
  | cons e es ih =>
    intro d hn
    obtain ⟨a, b⟩ := e
    simp only [List.map_cons, List.nodup_cons] at hn
    have : dictUpdate d ((a, b) :: es) = dictUpdate (dictSet a b d) es := rfl
    rw [this, ih _ hn.2, optGet_dictSet]
    simp only [optGet]
    by_cases h : a = k
    · subst h
      have hnone : ∀ l : OptTable, a ∉ l.map (·.1) → optGet a l = none := by
        intro l; induction l with
        | nil => intro _; rfl
        | cons x xs ihx =>
          intro hx
          obtain ⟨p, q⟩ := x
          simp only [List.map_cons, List.mem_cons, not_or] at hx
          simp only [optGet, if_neg (Ne.symm hx.1)]
          exact ihx hx.2
      rw [hnone es hn.1]; simp
    · simp [h]

theorem scalarOptions_ok {d : Dict} {o : List (PStr × OptVal)} (h : scalarOptions d = .ok o) : optsToml o = d := by
  induction d generalizing o with
  | nil => simp only [scalarOptions, Except.ok.injEq] at h; subst h; rfl
  | cons e es ih =>
    obtain ⟨k, v⟩ := e
    simp only [scalarOptions] at h
    cases hv : v.toOptVal with
    | none => rw [hv] at h; simp at h
    | some x =>
      rw [hv] at h
      simp only [bind_ok, pure_ok] at h
      obtain ⟨os, ho, rfl⟩ := h
      have := ih ho
      have hx : x.toToml = v := by
        cases v <;> simp only [Toml.toOptVal, Option.some.injEq, reduceCtorEq] at hv <;> subst hv <;> rfl
      simp only [optsToml, List.map_cons, hx]
      rw [show List.map (fun e => (e.1, OptVal.toToml e.2)) os = optsToml os from rfl, this]

theorem optionTables_ok {d : Dict} {o : OptTable} (h : optionTables d = .ok o) (k : PStr) :
    o.map (·.1) = d.map (·.1) ∧ (optGet k o).map optsToml = asTable (field k d) ∧
    (∀ v, field k d = some v → ∃ t, v = .tbl t) := by
  induction d generalizing o with
  | nil => simp only [optionTables, Except.ok.injEq] at h; subst h; exact ⟨rfl, rfl, by simp [field]⟩
  | cons e es ih =>
    obtain ⟨k', v⟩ := e
    cases v with
    | tbl t =>
      simp only [optionTables, bind_ok, pure_ok] at h
      obtain ⟨so, hs, os, ho, rfl⟩ := h
      obtain ⟨i1, i2, i3⟩ := ih ho
      refine ⟨by simp [i1], ?_, ?_⟩
      · simp only [optGet, field]
        by_cases e : k' = k
        · simp [e, scalarOptions_ok hs, asTable]
        · simpa [e] using i2
      · intro v hv
        simp only [field] at hv
        by_cases e : k' = k
        · rw [if_pos e] at hv; cases hv; exact ⟨t, rfl⟩
        · rw [if_neg e] at hv; exact i3 v hv
    | _ => simp [optionTables] at h

/-- No key of any `options` table is repeated: guaranteed by TOML. -/
def DistinctOptions (l : List Section) : Prop :=
  ∀ s ∈ l, ∀ t, field (py "options") s.table = some (.tbl t) → (t.map (·.1)).Nodup

theorem applySections_options {l : List Section} (hl : ∀ s ∈ l, s.scope.isPrefixOf path = true) (hd : DistinctOptions l) {m m' : Merged V}
    (h : applySections env path l m = .ok m') (rule : PStr) :
    (optGet rule m'.options).map optsToml = (nearest (ruleOptions rule) l).or ((optGet rule m.options).map optsToml) := by
  induction l generalizing m with
  | nil => cases h; rfl
  | cons s ss ih =>
    simp only [applySections] at h
    rw [bind_ok] at h
    obtain ⟨m1, h1, h2⟩ := h
    rw [ih (fun x hx => hl x (List.mem_cons_of_mem _ hx)) (fun x hx => hd x (List.mem_cons_of_mem _ hx)) h2, nearest_cons, Option.or_assoc]
    congr 1
    obtain ⟨t, m2, m3, ht, -, -, -, -, ho, -⟩ := applySection_ok env path (hl s (by simp)) h1
    obtain ⟨-, -, hopt, -⟩ := tableOf_ok ht
    rw [ho]
    unfold ruleOptions
    cases hf : field (py "options") s.table with
    | none =>
      rw [hf] at hopt; simp only [asOptions, Except.ok.injEq] at hopt
      rw [← hopt]; rfl
    | some v =>
      rw [hf] at hopt
      cases v with
      | tbl d =>
        simp only [asOptions] at hopt
        obtain ⟨k1, k2, -⟩ := optionTables_ok hopt rule
        have hn : (t.options.map (·.1)).Nodup := by rw [k1]; exact hd s (by simp) d hf
        rw [optGet_dictUpdate rule _ _ hn]
        rw [show (asTable (some (Toml.tbl d))).bind (fun t => asTable (field rule t)) = asTable (field rule d) from rfl]
        rw [← k2]
        cases optGet rule t.options <;> simp
      | _ => simp [asOptions] at hopt

/-- A rule's options are exactly its table in the nearest applicable section that lists the rule. -/
theorem C20_options_nearest_table {raw : List RawConfig} {root : Option Path} {cfg : Config V} {w : List PStr}
    (h : mergeConfigs env order path raw root = .ok (cfg, w)) (hd : DistinctOptions (applicable path (files raw))) (rule : PStr) :
    (optGet rule cfg.options).map optsToml = nearest (ruleOptions rule) (applicable path (files raw)) := by
  obtain ⟨s, -, rfl, -, hm⟩ := mergeConfigs_ok env path h
  have := applySections_options env path (applicable_scope path _) hd hm rule
  simpa [mergeFinish, mergeInit, optGet] using this

/-! ## An example with all of it -/

/-- Three configs over `/a/b/x.py`, with overrides. -/
def exStack : List RawConfig :=
  [ ⟨[py "a", py "b", py "fixit.toml"],
      [(py "disable", .arr [.str (py "fixit.rules:Foo")]), (py "python-version", .str (py "3.9")),
       (py "options", .tbl [(py "R", .tbl [(py "k", .int 2)])])]⟩,
    ⟨[py "a", py "pyproject.toml"],
      [(py "enable", .arr [.str (py "mod.a"), .str (py "fixit.rules:Foo")]), (py "formatter", .str (py "black")),
       (py "options", .tbl [(py "R", .tbl [(py "k", .int 1), (py "j", .str (py "v"))]), (py "S", .tbl [(py "x", .bool true)])]),
       (py "overrides", .arr [ .tbl [(py "path", .str (py "b")), (py "disable", .arr [.str (py "mod.a")])],
                               .tbl [(py "path", .str (py "c")), (py "formatter", .str (py "ufmt"))] ]),
       (py "mystery", .int 3)]⟩,
    ⟨[py "fixit.toml"], [(py "root", .bool true), (py "enable-root-import", .str (py "lib/x")), (py "output-format", .str (py "vscode"))]⟩ ]

/-- The merge succeeds, so the hypotheses of C11 and C17–C22, C26, C27 are met by a stack with real content. -/
theorem exStack_merges : ∃ cfg w, mergeConfigs exEnv id [py "a", py "b", py "x.py"] exStack none = .ok (cfg, w) ∧
    cfg.enable = [{ module := py "fixit.rules" }] ∧
    cfg.disable = [{ module := py "fixit.rules", name := some (py "Foo") }, { module := py "mod.a" }] ∧
    cfg.formatter = some (py "black") ∧ cfg.pyver = some 9 ∧
    cfg.options = [(py "R", [(py "k", .int 2)]), (py "S", [(py "x", .bool true)])] ∧
    cfg.root = [] ∧ cfg.rootImport = .sub [py "lib", py "x"] ∧ cfg.outputFormat = .vscode ∧ w = [py "mystery"] :=
  ⟨_, _, rfl, by decide, by decide, by decide, by decide, by decide, by decide, by decide, by decide, by decide⟩

example : DistinctOptions (applicable [py "a", py "b", py "x.py"] (files exStack)) := by
  intro s hs t ht
  have e : (applicable [py "a", py "b", py "x.py"] (files exStack)).map (fun s => (asTable (field (py "options") s.table)).map (·.map (·.1))) =
      [none, some [py "R", py "S"], none, some [py "R"]] := by decide
  have : (asTable (field (py "options") s.table)).map (·.map (·.1)) ∈ [none, some [py "R", py "S"], none, some [py "R"]] := by
    rw [← e]; exact List.mem_map_of_mem hs
  rw [ht] at this
  simp only [asTable, Option.map_some, List.mem_cons, List.not_mem_nil, or_false, reduceCtorEq, false_or, Option.some.injEq] at this
  rcases this with h | h <;> rw [h] <;> decide

end Fixit
