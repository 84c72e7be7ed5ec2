import Verif.Props.OneMore
import Verif.Props.Commands

/-!
# C144: restricting a run with `--tags` and `--rules`
-/

namespace Spec
open Py Fixit

/-- The same options with a tag filter. -/
def withTags (options : Options) (t : Tags) : Options := { options with tags := some t }

/-- The filter that keeps rules with the tag, and the one that drops them. -/
def onlyTag (x : PStr) : Tags := ⟨[x], []⟩
def notTag (x : PStr) : Tags := ⟨[], [x]⟩

end Spec

namespace Fixit
open Py Spec Gen Cst

variable {V M : Type} (o : Outside V M)

theorem applyOptions_tags (options : Options) (t : Tags) (ht : t.incl ≠ [] ∨ t.excl ≠ []) (c : Config V) :
    applyOptions (withTags options t) c = { applyOptions options c with tags := t } := by
  have htr : t.truthy = true := by
    unfold Tags.truthy
    rcases ht with h | h
    · cases hi : t.incl with
      | nil => exact absurd hi h
      | cons a b => simp
    · cases hi : t.excl with
      | nil => exact absurd hi h
      | cons a b => simp
  obtain ⟨oc, ot, orl, of, otm⟩ := options
  cases ot <;> cases orl <;> cases of <;> cases otm <;>
    simp [withTags, applyOptions, Options.setTags, Options.setRules, Options.setFormat, Options.setTemplate, htr] <;> (split <;> simp)

/-- What the options do to a configuration: the tags of `--tags`, and nothing else, differ. -/
theorem config_withTags (options : Options) (t : Tags) (ht : t.incl ≠ [] ∨ t.excl ≠ []) (files : Path → Option Bytes) (path : Path) (cfg : Config V)
    (h : o.config (some options) files path = .ok cfg) : o.config (some (withTags options t)) files path = .ok { cfg with tags := t } := by
  obtain ⟨ps, raws, r, h1, h2, h3, rfl⟩ := config_merged o options files path cfg h
  have hcf : (some (withTags options t)).bind (·.configFile) = options.configFile := rfl
  unfold Outside.config generateConfig
  rw [hcf]
  cases hc : options.configFile with
  | none =>
    rw [hc] at h1
    simp only at h1
    simp only [Bind.bind, Except.bind, h1, show (readConfigs (o.load files) (ps.map (o.fs files).real)).1 = .ok raws from h2, h3, Pure.pure, Except.pure, applyOptions_tags options t ht]
  | some f =>
    rw [hc] at h1
    simp only at h1
    subst h1
    simp only [Bind.bind, Except.bind, show (readConfigs (o.load files) ([f].map (o.fs files).real)).1 = .ok raws from h2, h3, Pure.pure, Except.pure, applyOptions_tags options t ht]

/-- C144: with a tag filter exactly the rules whose tags it selects remain. -/
theorem C144_selected (options : Options) (hno : options.tags = none) (files : Path → Option Bytes) (path : Path) (cfg : Config V)
    (h : o.config (some options) files path = .ok cfg) (t : Tags) (k : Nat) :
    Active o files { cfg with tags := t } k ↔ Active o files cfg k ∧ Selected t.incl t.excl ((o.rules files).tags k) := by
  have htags := (config_options o options files path cfg h).2.2 (by simp [hno])
  constructor
  · rintro ⟨h1, h2, h3, h4⟩
    refine ⟨⟨h1, h2, ?_, h4⟩, h3⟩
    rw [htags]
    exact ⟨fun _ _ => by simp, Or.inl rfl⟩
  · rintro ⟨⟨h1, h2, -, h4⟩, h3⟩
    exact ⟨h1, h2, h3, h4⟩

theorem narrow_collects (horder : ∀ l, (o.ruleOrder l).Perm l) (files : Path → Option Bytes) (cfg : Config V) (htags : cfg.tags = {}) (t : Tags) (c : Collected Nat M)
    (hc : (collectRules (o.rules files) o.ruleOrder cfg o.sysPath o.mods).1 = .ok c) :
    ∃ c', (collectRules (o.rules files) o.ruleOrder { cfg with tags := t } o.sysPath o.mods).1 = .ok c' := by
  obtain ⟨h1, h2⟩ := (C28_succeeds_iff (o.rules files) horder cfg o.sysPath o.mods).mp ⟨c, hc⟩
  have h3 : ∀ k, Candidate₂ (o.rules files) { cfg with tags := t } o.sysPath o.mods k → Candidate₂ (o.rules files) cfg o.sysPath o.mods k := by
    rintro k ⟨a, b⟩
    refine ⟨a, ?_⟩
    rw [htags]
    exact ⟨fun _ _ => by simp, Or.inl rfl⟩
  exact (C28_succeeds_iff (o.rules files) horder _ o.sysPath o.mods).mpr ⟨fun k x hx hk => h1 k x hx (h3 k hk), fun k ⟨hk, hv⟩ => h2 k ⟨h3 k hk, hv⟩⟩

/-! ## The violations -/

section
variable (v : Visits) (horder : ∀ l, (o.ruleOrder l).Perm l) {files : Path → Option Bytes} {path : Path} {content : Bytes} {m : Node}

/-- What one rule contributes is the same under any options. -/
theorem block_unique {options options' : Option Options} {k : Nat} {reps : Except Err (List Rep)} {F F' : List LintViolation}
    (h : ∃ rs vs, reps = .ok rs ∧ Recorded (o.walking v) m k (rs.map (v.call m)) vs ∧ Shown ((o.walking v).env options) path m vs F)
    (h' : ∃ rs vs, reps = .ok rs ∧ Recorded (o.walking v) m k (rs.map (v.call m)) vs ∧ Shown ((o.walking v).env options') path m vs F') : F = F' := by
  obtain ⟨rs, vs, a1, a2, a3⟩ := h
  obtain ⟨rs', vs', b1, b2, b3⟩ := h'
  rw [a1] at b1
  cases b1
  cases Recorded.unique (o.walking v) a2 b2
  have hsh : ∀ vs l, Shown ((o.walking v).env options') path m vs l → Shown ((o.walking v).env options) path m vs l := by
    intro vs l h
    induction h with
    | nil => exact .nil
    | cons v vs lv lvs h _ ih => exact .cons v vs lv lvs h ih
  exact Shown.unique a3 (hsh _ _ b3)

/-- All violations a rule contributes carry its name. -/
theorem block_names {options : Option Options} {k : Nat} {calls : List ReportCall} {vs : List (Violation Nat Repl)} {l : List LintViolation}
    (hr : Recorded (o.walking v) m k calls vs) (hsh : Shown ((o.walking v).env options) path m vs l) : ∀ lv ∈ l, lv.base.ruleName = ruleName (o.className k) := by
  have hn := Recorded.names (o.walking v) hr
  clear hr
  intro lv hlv
  induction hsh with
  | nil => cases hlv
  | cons x xs lx lxs hd _ ih =>
    rcases List.mem_cons.mp hlv with rfl | hlv
    · rw [display_base hd]; exact hn x List.mem_cons_self
    · exact ih (fun y hy => hn y (List.mem_cons_of_mem _ hy)) hlv

include horder

/-- C144: two runs on the same file with any options and configurations of the same directory show the same violations of the rules they have in common. -/
theorem C144_common {options options' : Option Options} {cfg cfg' : Config V} (h : Lints (o.walking v) options files path content cfg m)
    (h' : Lints (o.walking v) options' files path content cfg' m) (hroot : cfg'.root = cfg.root) (hpath : cfg'.path = cfg.path)
    (hk : ∀ k, Active o files cfg k ∨ Active o files cfg' k → KeepsMetadata (v.rule files cfg.root cfg.path m k)) :
    ∃ common gone extra, (foundIn ((o.walking v).env options) files path).Perm (common ++ gone) ∧ (foundIn ((o.walking v).env options') files path).Perm (common ++ extra) ∧
      (∀ lv ∈ common, ∃ k, Active o files cfg k ∧ Active o files cfg' k ∧ lv.base.ruleName = ruleName (o.className k)) ∧
      (∀ lv ∈ gone, ∃ k, Active o files cfg k ∧ ¬ Active o files cfg' k ∧ lv.base.ruleName = ruleName (o.className k)) ∧
      ∀ lv ∈ extra, ∃ k, Active o files cfg' k ∧ ¬ Active o files cfg k ∧ lv.base.ruleName = ruleName (o.className k) := by
  obtain ⟨c, F, hc, hf, hb⟩ := found_blocks o v horder options files path content cfg m h (fun k ha => hk k (.inl ha))
  obtain ⟨c', F', hc', hf', hb'⟩ := found_blocks o v horder options' files path content cfg' m h' (fun k ha => by rw [hroot, hpath]; exact hk k (.inr ha))
  obtain ⟨hnd, hact⟩ := selected_iff o horder files cfg c hc
  obtain ⟨hnd', hact'⟩ := selected_iff o horder files cfg' c' hc'
  have hsame : ∀ k ∈ c.rules.filter (fun k => k ∈ c'.rules), F k = F' k := by
    intro k hm
    obtain ⟨h1, h2⟩ := List.mem_filter.mp hm
    have hb' := hb' k (by simpa using h2)
    rw [hroot, hpath] at hb'
    exact block_unique o v (hb k h1) hb'
  have hsplit : ∀ (l : List Nat) (p : Nat → Bool), l.Perm (l.filter p ++ l.filter (fun k => !p k)) := by
    intro l p
    have := (List.filter_append_perm p l).symm
    exact this
  have hinter : (c'.rules.filter (fun k => k ∈ c.rules)).Perm (c.rules.filter (fun k => k ∈ c'.rules)) := by
    refine (List.perm_ext_iff_of_nodup (hnd'.filter _) (hnd.filter _)).mpr (fun k => ?_)
    simp only [List.mem_filter, decide_eq_true_eq]
    exact And.comm
  refine ⟨(c.rules.filter (fun k => k ∈ c'.rules)).flatMap F, (c.rules.filter (fun k => !decide (k ∈ c'.rules))).flatMap F, (c'.rules.filter (fun k => !decide (k ∈ c.rules))).flatMap F', ?_, ?_, ?_, ?_, ?_⟩
  · rw [hf, ← List.flatMap_append]
    exact (hsplit c.rules (fun k => k ∈ c'.rules)).flatMap_right F
  · rw [hf']
    refine ((hsplit c'.rules (fun k => k ∈ c.rules)).flatMap_right F').trans ?_
    rw [List.flatMap_append]
    exact List.Perm.append_right _ ((hinter.flatMap_right F').trans (perm_flatMap_ids F' F (List.Perm.refl _) (fun k hm => (hsame k hm).symm)))
  · intro lv hlv
    obtain ⟨k, hm, hlv⟩ := List.mem_flatMap.mp hlv
    obtain ⟨h1, h2⟩ := List.mem_filter.mp hm
    obtain ⟨reps, vs, a1, a2, a3⟩ := hb k h1
    exact ⟨k, (hact k).mp h1, (hact' k).mp (by simpa using h2), block_names o v a2 a3 lv hlv⟩
  · intro lv hlv
    obtain ⟨k, hm, hlv⟩ := List.mem_flatMap.mp hlv
    obtain ⟨h1, h2⟩ := List.mem_filter.mp hm
    obtain ⟨reps, vs, a1, a2, a3⟩ := hb k h1
    exact ⟨k, (hact k).mp h1, fun ha => by simp [(hact' k).mpr ha] at h2, block_names o v a2 a3 lv hlv⟩
  · intro lv hlv
    obtain ⟨k, hm, hlv⟩ := List.mem_flatMap.mp hlv
    obtain ⟨h1, h2⟩ := List.mem_filter.mp hm
    obtain ⟨reps, vs, a1, a2, a3⟩ := hb' k h1
    exact ⟨k, (hact' k).mp h1, fun ha => by simp [(hact k).mpr ha] at h2, block_names o v a2 a3 lv hlv⟩

variable (hmeta : LessIsFine v) (options : Options) (hno : options.tags = none) {cfg : Config V} (h : Lints (o.walking v) (some options) files path content cfg m)
  (hk : ∀ k, Active o files cfg k → KeepsMetadata (v.rule files cfg.root cfg.path m k))
include hmeta hno h hk

/-- C144: a file that can be linted can be linted with a tag filter. -/
theorem C144_tags_lints (t : Tags) (ht : t.incl ≠ [] ∨ t.excl ≠ []) : Lints (o.walking v) (some (withTags options t)) files path content { cfg with tags := t } m := by
  obtain ⟨c, hc, -⟩ := h.collect
  have hcfg : o.config (some options) files path = .ok cfg := h.config
  exact C140_still_lints o v horder ⟨rfl, rfl, rfl, rfl, rfl⟩ h hk rfl rfl (fun k ha => ((C144_selected o options hno files path cfg hcfg t k).mp ha).1) hmeta rfl
    (config_withTags o options t ht files path cfg hcfg)
    (narrow_collects o horder files cfg ((config_options o options files path cfg hcfg).2.2 (by simp [hno])) t c hc)

/-- **C144** `--tags` shows exactly the violations, among those there are without it, of the rules whose tags the filter selects. -/
theorem C144_tags (t : Tags) (ht : t.incl ≠ [] ∨ t.excl ≠ []) :
    ∃ gone, (foundIn ((o.walking v).env (some options)) files path).Perm (foundIn ((o.walking v).env (some (withTags options t))) files path ++ gone) ∧
      (∀ lv ∈ foundIn ((o.walking v).env (some (withTags options t))) files path, ∃ k, Active o files cfg k ∧ Selected t.incl t.excl ((o.rules files).tags k) ∧ lv.base.ruleName = ruleName (o.className k)) ∧
      ∀ lv ∈ gone, ∃ k, Active o files cfg k ∧ ¬ Selected t.incl t.excl ((o.rules files).tags k) ∧ lv.base.ruleName = ruleName (o.className k) := by
  have hcfg : o.config (some options) files path = .ok cfg := h.config
  have hsel := C144_selected o options hno files path cfg hcfg t
  obtain ⟨gone, h1, h2, h3⟩ := C140_fewer o v horder (cfg' := { cfg with tags := t }) ⟨rfl, rfl, rfl, rfl, rfl⟩ h hk rfl rfl (fun k ha => ((hsel k).mp ha).1) (C144_tags_lints o v horder hmeta options hno h hk t ht)
  refine ⟨gone, h1, fun lv hlv => ?_, fun lv hlv => ?_⟩
  · obtain ⟨k, ha, hn⟩ := h2 lv hlv
    exact ⟨k, ((hsel k).mp ha).1, ((hsel k).mp ha).2, hn⟩
  · obtain ⟨k, ha, hna, hn⟩ := h3 lv hlv
    exact ⟨k, ha, fun hs => hna ((hsel k).mpr ⟨ha, hs⟩), hn⟩

/-- **C144** For any tag, the run with it and the run without it share the violations between them: nothing is lost and nothing is shown twice. -/
theorem C144_split (x : PStr) : (foundIn ((o.walking v).env (some options)) files path).Perm
    (foundIn ((o.walking v).env (some (withTags options (onlyTag x)))) files path ++ foundIn ((o.walking v).env (some (withTags options (notTag x)))) files path) := by
  have hcfg : o.config (some options) files path = .ok cfg := h.config
  have l1 := C144_tags_lints o v horder hmeta options hno h hk (onlyTag x) (.inl (by simp [onlyTag]))
  have l2 := C144_tags_lints o v horder hmeta options hno h hk (notTag x) (.inr (by simp [notTag]))
  have s1 := C144_selected o options hno files path cfg hcfg (onlyTag x)
  have s2 := C144_selected o options hno files path cfg hcfg (notTag x)
  obtain ⟨c, F, hc, hf, hb⟩ := found_blocks o v horder _ files path content cfg m h hk
  obtain ⟨c1, F1, hc1, hf1, hb1⟩ := found_blocks o v horder _ files path content _ m l1 (fun k ha => hk k ((s1 k).mp ha).1)
  obtain ⟨c2, F2, hc2, hf2, hb2⟩ := found_blocks o v horder _ files path content _ m l2 (fun k ha => hk k ((s2 k).mp ha).1)
  obtain ⟨n0, a0⟩ := selected_iff o horder files cfg c hc
  obtain ⟨n1, a1⟩ := selected_iff o horder files _ c1 hc1
  obtain ⟨n2, a2⟩ := selected_iff o horder files _ c2 hc2
  have e1 : ∀ k, k ∈ c1.rules ↔ k ∈ c.rules ∧ x ∈ (o.rules files).tags k := by
    intro k
    rw [a1, s1, a0]
    simp [Selected, onlyTag]
  have e2 : ∀ k, k ∈ c2.rules ↔ k ∈ c.rules ∧ x ∉ (o.rules files).tags k := by
    intro k
    rw [a2, s2, a0]
    simp only [Selected, notTag, List.mem_singleton, true_or, and_true]
    constructor
    · rintro ⟨ha, hn⟩
      exact ⟨ha, fun hx => hn x hx rfl⟩
    · rintro ⟨ha, hn⟩
      exact ⟨ha, fun y hy he => hn (he ▸ hy)⟩
  have hperm : c.rules.Perm (c1.rules ++ c2.rules) := by
    refine (List.perm_ext_iff_of_nodup n0 (List.nodup_append.mpr ⟨n1, n2, ?_⟩)).mpr (fun k => ?_)
    · intro a ha b hb he
      subst he
      exact ((e2 a).mp hb).2 ((e1 a).mp ha).2
    · rw [List.mem_append, e1, e2]
      constructor
      · intro hm
        by_cases hx : x ∈ (o.rules files).tags k
        · exact .inl ⟨hm, hx⟩
        · exact .inr ⟨hm, hx⟩
      · rintro (hm | hm)
        · exact hm.1
        · exact hm.1
  rw [hf, hf1, hf2]
  refine (hperm.flatMap_right F).trans ?_
  rw [List.flatMap_append]
  refine List.Perm.append ?_ ?_
  · exact perm_flatMap_ids F F1 (List.Perm.refl _) (fun k hm => block_unique o v (hb k ((e1 k).mp hm).1) (hb1 k hm))
  · exact perm_flatMap_ids F F2 (List.Perm.refl _) (fun k hm => block_unique o v (hb k ((e2 k).mp hm).1) (hb2 k hm))

end
end Fixit
