import Verif.Props.OneMore

/-!
# C143: enabling one more reference adds the violations of its rules and leaves the others
-/

namespace Spec
open Py Fixit

/-- `cfg'` enables one reference more than `cfg`; what else concerns the choice of rules is the same. -/
structure OneMoreEnabled {V : Type} (cfg cfg' : Config V) (q : QualifiedRule) : Prop where
  enable : ∀ e, e ∈ cfg'.enable ↔ e ∈ cfg.enable ∨ e = q
  disable : ∀ d, d ∈ cfg'.disable ↔ d ∈ cfg.disable ∧ d ≠ q
  tags : cfg'.tags = cfg.tags
  pyver : cfg'.pyver = cfg.pyver
  root : cfg'.root = cfg.root
  rootImport : cfg'.rootImport = cfg.rootImport
  path : cfg'.path = cfg.path

section
variable {V M : Type} (o : Outside V M)

/-- A reference other than `q` disables the rule, and none enables it by its name. -/
def StillDisabled (files : Path → Option Bytes) (cfg : Config V) (q : QualifiedRule) (k : Nat) : Prop :=
  (∃ d ∈ cfg.disable, d ≠ q ∧ LeadsTo o files cfg d k) ∧ ¬ (ByName q ∧ LeadsTo o files cfg q k) ∧ ¬ ∃ e ∈ cfg.enable, ByName e ∧ LeadsTo o files cfg e k

end
end Spec

namespace Fixit
open Py Spec Gen Cst

/-! ## The configuration -/

section
variable {V : Type} (env : CfgEnv V) (path : Path) (order : List QualifiedRule → List QualifiedRule) (horder : ∀ l, (order l).Perm l)

include horder in
/-- C143: one more mention that enables, after all others. -/
theorem C143_config {raw raw' : List RawConfig} {root root' : Option Path} {cfg cfg' : Config V} {w w' : List PStr} (h : mergeConfigs env order path raw root = .ok (cfg, w))
    (h' : mergeConfigs env order path raw' root' = .ok (cfg', w')) (text : PStr) (dir : Path)
    (hm : allMentions path (files raw') = allMentions path (files raw) ++ [⟨true, text, dir⟩])
    (habs : ∀ q, q ∈ cfg.enable ∨ q ∈ cfg.disable → q.str.head? ≠ some '.') (hdot : text.head? ≠ some '.') :
    ∃ q, q.str = text ∧ q ∈ cfg'.enable ∧ (∀ e, e ∈ cfg'.enable ↔ e ∈ cfg.enable ∨ e = q) ∧ ∀ d, d ∈ cfg'.disable ↔ d ∈ cfg.disable ∧ d ≠ q := by
  have h17 := C17_last_mention_wins env path order horder h
  have h17' := C17_last_mention_wins env path order horder h'
  simp only [hm, lastMention_last] at h17'
  obtain ⟨q, hq, hqs⟩ := (h17' text).1.mpr (by simp)
  have hp := merged_parsed env path order horder h
  have hp' := merged_parsed env path order horder h'
  refine ⟨q, hqs, hq, fun d => ⟨fun hd => ?_, fun hd => ?_⟩, fun e => ⟨fun he => ?_, fun ⟨he, hne⟩ => ?_⟩⟩
  · by_cases hte : text = d.str
    · right
      exact (absolute_ext (hp' q (Or.inl hq)) (hp' d (Or.inl hd)) (by rw [hqs, hte]) (by rw [hqs]; exact hdot)).symm
    · left
      have := (h17' d.str).1.mp ⟨d, hd, rfl⟩
      rw [if_neg hte] at this
      obtain ⟨d0, hd0, hs0⟩ := (h17 d.str).1.mpr this
      have := absolute_ext (hp d0 (Or.inl hd0)) (hp' d (Or.inl hd)) hs0 (habs d0 (Or.inl hd0))
      exact this ▸ hd0
  · rcases hd with hd | rfl
    · by_cases hte : text = d.str
      · have := absolute_ext (hp d (Or.inl hd)) (hp' q (Or.inl hq)) (by rw [hqs, hte]) (habs d (Or.inl hd))
        exact this ▸ hq
      · have := (h17 d.str).1.mp ⟨d, hd, rfl⟩
        obtain ⟨d0, hd0, hs0⟩ := (h17' d.str).1.mpr (by rw [if_neg hte]; exact this)
        have := absolute_ext (hp d (Or.inl hd)) (hp' d0 (Or.inl hd0)) hs0.symm (habs d (Or.inl hd))
        exact this ▸ hd0
    · exact hq
  · have hne : text ≠ e.str := by
      intro hte
      have := (h17' e.str).2.mp ⟨e, he, rfl⟩
      simp [hte] at this
    have := (h17' e.str).2.mp ⟨e, he, rfl⟩
    rw [if_neg hne] at this
    obtain ⟨e0, he0, hs0⟩ := (h17 e.str).2.mpr this
    have := absolute_ext (hp e0 (Or.inr he0)) (hp' e (Or.inr he)) hs0 (habs e0 (Or.inr he0))
    subst this
    exact ⟨he0, fun heq => hne (by rw [heq, hqs])⟩
  · have hne' : text ≠ e.str := by
      intro hte
      exact hne (absolute_ext (hp e (Or.inr he)) (hp' q (Or.inl hq)) (by rw [hqs, hte]) (habs e (Or.inr he)))
    have := (h17 e.str).2.mp ⟨e, he, rfl⟩
    obtain ⟨e0, he0, hs0⟩ := (h17' e.str).2.mpr (by rw [if_neg hne']; exact this)
    have := absolute_ext (hp e (Or.inr he)) (hp' e0 (Or.inr he0)) hs0.symm (habs e (Or.inr he))
    exact this ▸ he0

end

/-! ## The selection of rules -/

variable {V M : Type} (o : Outside V M)

section
variable {files files' : Path → Option Bytes} (htools : o.rules files' = o.rules files) (hs : StatelessFind o files) {cfg cfg' : Config V} {q : QualifiedRule}
  (hq : OneMoreEnabled cfg cfg' q)
include htools hs hq

theorem oneEnabled_leads (e : QualifiedRule) (k : Nat) : LeadsTo o files' cfg' e k ↔ LeadsTo o files cfg e k := by
  unfold LeadsTo searchPath extraDir
  rw [htools, hq.rootImport, hq.root]

theorem oneEnabled_candidate (k : Nat) : Candidate₁ (o.rules files') cfg' o.sysPath o.mods k ↔
    Candidate₁ (o.rules files) cfg o.sysPath o.mods k ∨ (LeadsTo o files cfg q k ∧ ¬ StillDisabled o files cfg q k) := by
  have hs' : StatelessFind o files' := by intro a b c d; rw [htools]; exact hs a b c d
  have hl := oneEnabled_leads o htools hs hq
  unfold Candidate₁ StillDisabled
  rw [show Resolved (enabled (o.rules files') cfg' o.sysPath o.mods) k ↔ _ from resolved_enabled o hs' cfg' _ k,
    show Resolved (enabled (o.rules files) cfg o.sysPath o.mods) k ↔ _ from resolved_enabled o hs cfg _ k,
    resolved_enabled o hs' cfg' ByName k, resolved_enabled o hs cfg ByName k, resolved_disabled o hs' cfg' k, resolved_disabled o hs cfg k]
  simp only [hl, hq.enable, hq.disable, true_and]
  constructor
  · rintro ⟨⟨e, he, hle⟩, hd⟩
    by_cases hlq : LeadsTo o files cfg q k
    · refine Or.inr ⟨hlq, ?_⟩
      rintro ⟨⟨d, hd', hne, hld⟩, h2, h3⟩
      obtain ⟨e', h4 | rfl, h5, h6⟩ := hd ⟨d, ⟨hd', hne⟩, hld⟩
      · exact h3 ⟨e', h4, h5, h6⟩
      · exact h2 ⟨h5, h6⟩
    · rcases he with he | rfl
      · refine Or.inl ⟨⟨e, he, hle⟩, ?_⟩
        rintro ⟨d, hd', hld⟩
        have hne : d ≠ q := fun hdq => hlq (hdq ▸ hld)
        obtain ⟨e', h4 | rfl, h5, h6⟩ := hd ⟨d, ⟨hd', hne⟩, hld⟩
        · exact ⟨e', h4, h5, h6⟩
        · exact absurd h6 hlq
      · exact absurd hle hlq
  · rintro (⟨⟨e, he, hle⟩, hd⟩ | ⟨hlq, hn⟩)
    · refine ⟨⟨e, Or.inl he, hle⟩, ?_⟩
      rintro ⟨d, ⟨hd', -⟩, hld⟩
      obtain ⟨e', h1, h2, h3⟩ := hd ⟨d, hd', hld⟩
      exact ⟨e', Or.inl h1, h2, h3⟩
    · refine ⟨⟨q, Or.inr rfl, hlq⟩, ?_⟩
      rintro ⟨d, ⟨hd', hne⟩, hld⟩
      apply Classical.byContradiction
      intro hno
      exact hn ⟨⟨d, hd', hne, hld⟩, fun ⟨h1, h2⟩ => hno ⟨q, Or.inr rfl, h1, h2⟩, fun ⟨e, h1, h2, h3⟩ => hno ⟨e, Or.inl h1, h2, h3⟩⟩

/-- C143: what was selected stays selected; what the reference leads to is selected too, if its tags and Python version allow it and no other reference still disables it. -/
theorem C143_selected (k : Nat) : Active o files' cfg' k ↔ Active o files cfg k ∨
    (LeadsTo o files cfg q k ∧ ¬ StillDisabled o files cfg q k ∧ Selected cfg.tags.incl cfg.tags.excl ((o.rules files).tags k) ∧ ∀ v, cfg.pyver = some v → (o.rules files).supports v k = .ok true) := by
  have hc := oneEnabled_candidate o htools hs hq k
  constructor
  · intro h
    have ht := h.tags
    have hv := h.version
    rw [hq.tags, htools] at ht
    rw [hq.pyver, htools] at hv
    rcases hc.mp ⟨h.enabled, h.notDisabled⟩ with h1 | ⟨h1, h2⟩
    · exact Or.inl ⟨h1.1, h1.2, ht, hv⟩
    · exact Or.inr ⟨h1, h2, ht, hv⟩
  · rintro (h | ⟨h1, h2, ht, hv⟩)
    · have h1 := hc.mpr (Or.inl ⟨h.enabled, h.notDisabled⟩)
      refine ⟨h1.1, h1.2, ?_, ?_⟩
      · rw [hq.tags, htools]; exact h.tags
      · rw [hq.pyver, htools]; exact h.version
    · have h1 := hc.mpr (Or.inr ⟨h1, h2⟩)
      refine ⟨h1.1, h1.2, ?_, ?_⟩
      · rw [hq.tags, htools]; exact ht
      · rw [hq.pyver, htools]; exact hv

/-- C143: if selecting the rules succeeds with the reference, it did without. -/
theorem C143_collects (horder : ∀ l, (o.ruleOrder l).Perm l) (c : Collected Nat M) (hc : (collectRules (o.rules files') o.ruleOrder cfg' o.sysPath o.mods).1 = .ok c) :
    ∃ c', (collectRules (o.rules files) o.ruleOrder cfg o.sysPath o.mods).1 = .ok c' := by
  obtain ⟨h1, h2⟩ := (C28_succeeds_iff (o.rules files') horder cfg' o.sysPath o.mods).mp ⟨c, hc⟩
  have h3 : ∀ k, Candidate₂ (o.rules files) cfg o.sysPath o.mods k → Candidate₂ (o.rules files') cfg' o.sysPath o.mods k := by
    rintro k ⟨a, b⟩
    refine ⟨(oneEnabled_candidate o htools hs hq k).mpr (Or.inl a), ?_⟩
    rw [hq.tags, htools]
    exact b
  refine (C28_succeeds_iff (o.rules files) horder cfg o.sysPath o.mods).mpr ⟨?_, ?_⟩
  · intro k x hx hk
    have := h1 k x (hq.pyver.trans hx) (h3 k hk)
    rw [htools] at this
    exact this
  · rintro k ⟨hk, hv⟩
    have := h2 k ⟨h3 k hk, by rw [hq.pyver, htools]; exact hv⟩
    rw [htools] at this
    exact this

end

/-- **C143** Enabling one more reference leaves every violation there was, and adds only violations of rules the reference leads to. -/
theorem C143_enable (v : Visits) (horder : ∀ l, (o.ruleOrder l).Perm l) {files files' : Path → Option Bytes} (ht : SameTools o v files files') (hs : StatelessFind o files)
    (hmeta : LessIsFine v) {options options' : Option Options} {path : Path} {content : Bytes} {cfg cfg' : Config V} {m : Node} {q : QualifiedRule}
    (h' : Lints (o.walking v) options' files' path content cfg' m) (hk : ∀ k, Active o files' cfg' k → KeepsMetadata (v.rule files' cfg'.root cfg'.path m k))
    (hsource : files' path = files path) (hcfg : generateConfig o.cfg o.configOrder (o.fs files) (o.load files) path none options = .ok cfg) (hq : OneMoreEnabled cfg cfg' q) :
    Lints (o.walking v) options files path content cfg m ∧
    ∃ new, (foundIn ((o.walking v).env options') files' path).Perm (foundIn ((o.walking v).env options) files path ++ new) ∧
      ∀ lv ∈ new, ∃ k, Active o files' cfg' k ∧ ¬ Active o files cfg k ∧ lv.base.ruleName = ruleName (o.className k) ∧ LeadsTo o files cfg q k := by
  have hsel := C143_selected o ht.rules hs hq
  have hsub : ∀ k, Active o files cfg k → Active o files' cfg' k := fun k ha => (hsel k).mpr (Or.inl ha)
  have ht' : SameTools o v files' files := ⟨ht.rules.symm, ht.rule.symm, ht.names.symm, ht.repo.symm, ht.resolve.symm⟩
  obtain ⟨c, hc, -⟩ := h'.collect
  have h := C140_still_lints o v horder ht' h' hk hq.root.symm hq.path.symm hsub hmeta hsource.symm hcfg (C143_collects o ht.rules hs hq horder c hc)
  refine ⟨h, ?_⟩
  obtain ⟨new, h1, h2, h3⟩ := C140_fewer o v horder ht' h' hk hq.root.symm hq.path.symm hsub h
  refine ⟨new, h1, fun lv hlv => ?_⟩
  obtain ⟨k, ha, hn, hname⟩ := h3 lv hlv
  refine ⟨k, ha, hn, hname, ?_⟩
  rcases (hsel k).mp ha with h | h
  · exact absurd h hn
  · exact h.1

end Fixit
