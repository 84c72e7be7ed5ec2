import Verif.Props.Reordered
import Verif.Props.Merge

/-!
# C140: disabling one more reference takes exactly the violations of its rules away
-/

namespace Spec
open Py Fixit

/-- `cfg'` disables one reference more than `cfg`; what else concerns the choice of rules is the same. -/
structure OneMoreDisabled {V : Type} (cfg cfg' : Config V) (q : QualifiedRule) : Prop where
  enable : ∀ e, e ∈ cfg'.enable ↔ e ∈ cfg.enable ∧ e ≠ q
  disable : ∀ d, d ∈ cfg'.disable ↔ d ∈ cfg.disable ∨ d = q
  tags : cfg'.tags = cfg.tags
  pyver : cfg'.pyver = cfg.pyver
  root : cfg'.root = cfg.root
  rootImport : cfg'.rootImport = cfg.rootImport
  path : cfg'.path = cfg.path

section
variable {V M : Type} (o : Outside V M)

/-- The reference can be loaded and leads to the class. -/
def LeadsTo (files : Path → Option Bytes) (cfg : Config V) (q : QualifiedRule) (k : Nat) : Prop :=
  ∃ cs, ((o.rules files).find (searchPath cfg o.sysPath) o.mods q).1 = .ok cs ∧ k ∈ cs

/-- What a reference leads to does not depend on what was loaded before. -/
def StatelessFind (files : Path → Option Bytes) : Prop :=
  ∀ sys m m' q, ((o.rules files).find sys m q).1 = ((o.rules files).find sys m' q).1

/-- The two sets of files differ in nothing that importing rules, rules themselves or their metadata look at. -/
structure SameTools (v : Visits) (files files' : Path → Option Bytes) : Prop where
  rules : o.rules files' = o.rules files
  rule : v.rule files' = v.rule files
  names : v.names files' = v.names files
  repo : v.repoRaises files' = v.repoRaises files
  resolve : v.resolveRaises files' = v.resolveRaises files

/-- Asking for less metadata raises nothing new. -/
structure LessIsFine (v : Visits) : Prop where
  repo : ∀ files root path ps ps', (∀ p : Nat, p ∈ ps' → p ∈ ps) → v.repoRaises files root path ps = none → v.repoRaises files root path ps' = none
  resolve : ∀ files root path m ps ps', (∀ p : Nat, p ∈ ps' → p ∈ ps) → v.resolveRaises files root path m ps = none → v.resolveRaises files root path m ps' = none

end
end Spec

namespace Fixit
open Py Spec Gen Cst

/-! ## The configuration -/

section
variable {V : Type} (env : CfgEnv V) (path : Path) (order : List QualifiedRule → List QualifiedRule) (horder : ∀ l, (order l).Perm l)

theorem lastMention_last (ms : List Mention) (m : Mention) (text : PStr) :
    lastMention (ms ++ [m]) text = if m.text = text then some m.enable else lastMention ms text := by
  unfold lastMention nearest
  rw [List.filterMap_append]
  by_cases h : m.text = text
  · simp [h]
  · simp [h]

include horder in
theorem merged_parsed {raw : List RawConfig} {root : Option Path} {cfg : Config V} {w : List PStr} (h : mergeConfigs env order path raw root = .ok (cfg, w)) (q : QualifiedRule)
    (hq : q ∈ cfg.enable ∨ q ∈ cfg.disable) : ∃ t r, parseRule t r = .ok q := by
  obtain ⟨s, -, rfl, -, hm⟩ := mergeConfigs_ok env path h
  have hg := (merged_steps env path hm).good (init_good env root)
  rcases hq with hq | hq
  · simp only [mergeFinish, sortRules, mem_sortBy, (horder _).mem_iff] at hq
    exact hg.p1 q hq
  · simp only [mergeFinish, sortRules, mem_sortBy, (horder _).mem_iff] at hq
    exact hg.p2 q hq

/-- Absolute references that are written the same are the same. -/
theorem absolute_ext {q q' : QualifiedRule} (h : ∃ t r, parseRule t r = .ok q) (h' : ∃ t r, parseRule t r = .ok q') (hs : q.str = q'.str) (hd : q.str.head? ≠ some '.') : q = q' := by
  obtain ⟨t, r, h⟩ := h
  obtain ⟨t', r', h'⟩ := h'
  have hroot : ∀ (t : PStr) (r : Path) (q : QualifiedRule), parseRule t r = .ok q → q.str.head? ≠ some '.' → q.root = none := by
    intro t r q hp hdot
    refine ((C10_root_iff_dot t r q hp).2).2 ?_
    intro hd
    apply hdot
    rcases C09_round_trip_newline t r q hp with e | e
    · rw [← e]; exact hd
    · rw [e] at hd
      cases hs : q.str with
      | nil => rw [hs] at hd; cases hd
      | cons c cs => rw [hs] at hd; exact hd
  have hk := (C09_equal_string_equal_rule t t' r r' q q' h h').mp hs
  have h1 := hroot t r q h hd
  have h2 := hroot t' r' q' h' (hs ▸ hd)
  cases q; cases q'
  simp only [QualifiedRule.key, Prod.mk.injEq] at hk h1 h2
  simp [hk.1, hk.2.1, hk.2.2, h1, h2]

include horder in
/-- C140: one more mention that disables, after all others. -/
theorem C140_config {raw raw' : List RawConfig} {root root' : Option Path} {cfg cfg' : Config V} {w w' : List PStr} (h : mergeConfigs env order path raw root = .ok (cfg, w))
    (h' : mergeConfigs env order path raw' root' = .ok (cfg', w')) (text : PStr) (dir : Path)
    (hm : allMentions path (files raw') = allMentions path (files raw) ++ [⟨false, text, dir⟩])
    (habs : ∀ q, q ∈ cfg.enable ∨ q ∈ cfg.disable → q.str.head? ≠ some '.') (hdot : text.head? ≠ some '.') :
    ∃ q, q.str = text ∧ q ∈ cfg'.disable ∧ (∀ e, e ∈ cfg'.enable ↔ e ∈ cfg.enable ∧ e ≠ q) ∧ ∀ d, d ∈ cfg'.disable ↔ d ∈ cfg.disable ∨ d = q := by
  have h17 := C17_last_mention_wins env path order horder h
  have h17' := C17_last_mention_wins env path order horder h'
  simp only [hm, lastMention_last] at h17'
  obtain ⟨q, hq, hqs⟩ := (h17' text).2.mpr (by simp)
  have hp := merged_parsed env path order horder h
  have hp' := merged_parsed env path order horder h'
  refine ⟨q, hqs, hq, fun e => ⟨fun he => ?_, fun ⟨he, hne⟩ => ?_⟩, fun d => ⟨fun hd => ?_, fun hd => ?_⟩⟩
  · have hne : text ≠ e.str := by
      intro hte
      have := (h17' e.str).1.mp ⟨e, he, rfl⟩
      simp [hte] at this
    have := (h17' e.str).1.mp ⟨e, he, rfl⟩
    rw [if_neg hne] at this
    obtain ⟨e0, he0, hs0⟩ := (h17 e.str).1.mpr this
    have := absolute_ext (hp e0 (Or.inl he0)) (hp' e (Or.inl he)) hs0 (habs e0 (Or.inl he0))
    subst this
    exact ⟨he0, fun heq => hne (by rw [heq, hqs])⟩
  · have hne' : text ≠ e.str := by
      intro hte
      exact hne (absolute_ext (hp e (Or.inl he)) (hp' q (Or.inr hq)) (by rw [hqs, hte]) (habs e (Or.inl he)))
    have := (h17 e.str).1.mp ⟨e, he, rfl⟩
    obtain ⟨e0, he0, hs0⟩ := (h17' e.str).1.mpr (by rw [if_neg hne']; exact this)
    have := absolute_ext (hp e (Or.inl he)) (hp' e0 (Or.inl he0)) hs0.symm (habs e (Or.inl he))
    exact this ▸ he0
  · by_cases hte : text = d.str
    · right
      exact (absolute_ext (hp' q (Or.inr hq)) (hp' d (Or.inr hd)) (by rw [hqs, hte]) (by rw [hqs]; exact hdot)).symm
    · left
      have := (h17' d.str).2.mp ⟨d, hd, rfl⟩
      rw [if_neg hte] at this
      obtain ⟨d0, hd0, hs0⟩ := (h17 d.str).2.mpr this
      have := absolute_ext (hp d0 (Or.inr hd0)) (hp' d (Or.inr hd)) hs0 (habs d0 (Or.inr hd0))
      exact this ▸ hd0
  · rcases hd with hd | rfl
    · by_cases hte : text = d.str
      · have := absolute_ext (hp d (Or.inr hd)) (hp' q (Or.inr hq)) (by rw [hqs, hte]) (habs d (Or.inr hd))
        exact this ▸ hq
      · have := (h17 d.str).2.mp ⟨d, hd, rfl⟩
        obtain ⟨d0, hd0, hs0⟩ := (h17' d.str).2.mpr (by rw [if_neg hte]; exact this)
        have := absolute_ext (hp d (Or.inr hd)) (hp' d0 (Or.inr hd0)) hs0.symm (habs d (Or.inr hd))
        exact this ▸ hd0
    · exact hq

end

/-! ## The selection of rules -/

theorem outcomes_mem {K M Q E : Type} {find : M → Q → Except E (List K) × M} (hf : ∀ m m' q, (find m q).1 = (find m' q).1) (m0 : M) :
    ∀ (l : List Q) (m : M) (q : Q) (x : Except E (List K)), (q, x) ∈ outcomes find m l ↔ q ∈ l ∧ (find m0 q).1 = x
  | [], m, q, x => by simp [outcomes]
  | q' :: l, m, q, x => by
    simp only [outcomes, List.mem_cons, Prod.mk.injEq, outcomes_mem hf m0 l, hf m m0 q']
    constructor
    · rintro (⟨rfl, rfl⟩ | ⟨h1, h2⟩)
      · exact ⟨Or.inl rfl, rfl⟩
      · exact ⟨Or.inr h1, h2⟩
    · rintro ⟨rfl | h1, h2⟩
      · exact Or.inl ⟨rfl, h2.symm⟩
      · exact Or.inr ⟨h1, h2⟩

variable {V M : Type} (o : Outside V M)

theorem resolved_enabled {files : Path → Option Bytes} (hs : StatelessFind o files) (cfg : Config V) (P : QualifiedRule → Prop) (k : Nat) :
    ResolvedBy P (enabled (o.rules files) cfg o.sysPath o.mods) k ↔ ∃ e ∈ cfg.enable, P e ∧ LeadsTo o files cfg e k := by
  unfold ResolvedBy enabled LeadsTo
  constructor
  · rintro ⟨q, cs, h1, h2, h3⟩
    obtain ⟨h4, h5⟩ := (outcomes_mem (hs _) o.mods _ _ _ _).mp h1
    exact ⟨q, h4, h2, cs, h5, h3⟩
  · rintro ⟨q, h1, h2, cs, h3, h4⟩
    exact ⟨q, cs, (outcomes_mem (hs _) o.mods _ _ _ _).mpr ⟨h1, h3⟩, h2, h4⟩

theorem resolved_disabled {files : Path → Option Bytes} (hs : StatelessFind o files) (cfg : Config V) (k : Nat) :
    Resolved (disabled (o.rules files) cfg o.sysPath o.mods) k ↔ ∃ d ∈ cfg.disable, LeadsTo o files cfg d k := by
  unfold Resolved ResolvedBy disabled LeadsTo
  constructor
  · rintro ⟨q, cs, h1, -, h3⟩
    obtain ⟨h4, h5⟩ := (outcomes_mem (hs _) o.mods _ _ _ _).mp h1
    exact ⟨q, h4, cs, h5, h3⟩
  · rintro ⟨q, h1, cs, h3, h4⟩
    exact ⟨q, cs, (outcomes_mem (hs _) o.mods _ _ _ _).mpr ⟨h1, h3⟩, trivial, h4⟩

section
variable {files files' : Path → Option Bytes} (htools : o.rules files' = o.rules files) (hs : StatelessFind o files) {cfg cfg' : Config V} {q : QualifiedRule}
  (hq : OneMoreDisabled cfg cfg' q)
include htools hs hq

theorem oneMore_leads (e : QualifiedRule) (k : Nat) : LeadsTo o files' cfg' e k ↔ LeadsTo o files cfg e k := by
  unfold LeadsTo searchPath extraDir
  rw [htools, hq.rootImport, hq.root]

theorem oneMore_candidate (k : Nat) : Candidate₁ (o.rules files') cfg' o.sysPath o.mods k ↔
    Candidate₁ (o.rules files) cfg o.sysPath o.mods k ∧ (LeadsTo o files cfg q k → ∃ e ∈ cfg.enable, e ≠ q ∧ ByName e ∧ LeadsTo o files cfg e k) := by
  have hs' : StatelessFind o files' := by intro a b c d; rw [htools]; exact hs a b c d
  have hl := oneMore_leads o htools hs hq
  unfold Candidate₁
  rw [show Resolved (enabled (o.rules files') cfg' o.sysPath o.mods) k ↔ _ from resolved_enabled o hs' cfg' _ k,
    show Resolved (enabled (o.rules files) cfg o.sysPath o.mods) k ↔ _ from resolved_enabled o hs cfg _ k,
    resolved_enabled o hs' cfg' ByName k, resolved_enabled o hs cfg ByName k, resolved_disabled o hs' cfg' k, resolved_disabled o hs cfg k]
  simp only [hl, hq.enable, hq.disable, true_and]
  constructor
  · rintro ⟨⟨e, ⟨he, hne⟩, hle⟩, hd⟩
    refine ⟨⟨⟨e, he, hle⟩, ?_⟩, ?_⟩
    · rintro ⟨d, hd', hld⟩
      obtain ⟨e', ⟨h1, h2⟩, h3, h4⟩ := hd ⟨d, Or.inl hd', hld⟩
      exact ⟨e', h1, h3, h4⟩
    · intro hlq
      obtain ⟨e', ⟨h1, h2⟩, h3, h4⟩ := hd ⟨q, Or.inr rfl, hlq⟩
      exact ⟨e', h1, h2, h3, h4⟩
  · rintro ⟨⟨⟨e, he, hle⟩, hd⟩, hn⟩
    constructor
    · by_cases hne : e = q
      · obtain ⟨e', h1, h2, h3, h4⟩ := hn (hne ▸ hle)
        exact ⟨e', ⟨h1, h2⟩, h4⟩
      · exact ⟨e, ⟨he, hne⟩, hle⟩
    · rintro ⟨d, hd', hld⟩
      rcases hd' with hd' | rfl
      · obtain ⟨e', h1, h2, h3⟩ := hd ⟨d, hd', hld⟩
        by_cases hne : e' = q
        · obtain ⟨e'', h1, h2, h3, h4⟩ := hn (hne ▸ h3)
          exact ⟨e'', ⟨h1, h2⟩, h3, h4⟩
        · exact ⟨e', ⟨h1, hne⟩, h2, h3⟩
      · obtain ⟨e'', h1, h2, h3, h4⟩ := hn hld
        exact ⟨e'', ⟨h1, h2⟩, h3, h4⟩

/-- C140: exactly the rules the reference leads to are no longer selected, except those that another enabled reference names. -/
theorem C140_selected (k : Nat) : Active o files' cfg' k ↔
    Active o files cfg k ∧ (LeadsTo o files cfg q k → ∃ e ∈ cfg.enable, e ≠ q ∧ ByName e ∧ LeadsTo o files cfg e k) := by
  have hc := oneMore_candidate o htools hs hq k
  constructor
  · intro h
    obtain ⟨h1, h2⟩ := hc.mp ⟨h.enabled, h.notDisabled⟩
    refine ⟨⟨h1.1, h1.2, ?_, ?_⟩, h2⟩
    · have := h.tags; rw [hq.tags, htools] at this; exact this
    · have := h.version; rw [hq.pyver, htools] at this; exact this
  · rintro ⟨h, hn⟩
    have h1 := hc.mpr ⟨⟨h.enabled, h.notDisabled⟩, hn⟩
    refine ⟨h1.1, h1.2, ?_, ?_⟩
    · rw [hq.tags, htools]; exact h.tags
    · rw [hq.pyver, htools]; exact h.version

/-- C140: selecting the rules still succeeds. -/
theorem C140_collects (horder : ∀ l, (o.ruleOrder l).Perm l) (c : Collected Nat M) (hc : (collectRules (o.rules files) o.ruleOrder cfg o.sysPath o.mods).1 = .ok c) :
    ∃ c', (collectRules (o.rules files') o.ruleOrder cfg' o.sysPath o.mods).1 = .ok c' := by
  obtain ⟨h1, h2⟩ := (C28_succeeds_iff (o.rules files) horder cfg o.sysPath o.mods).mp ⟨c, hc⟩
  have h3 : ∀ k, Candidate₂ (o.rules files') cfg' o.sysPath o.mods k → Candidate₂ (o.rules files) cfg o.sysPath o.mods k := by
    rintro k ⟨a, b⟩
    refine ⟨((oneMore_candidate o htools hs hq k).mp a).1, ?_⟩
    rw [hq.tags, htools] at b
    exact b
  refine (C28_succeeds_iff (o.rules files') horder cfg' o.sysPath o.mods).mpr ⟨?_, ?_⟩
  · intro k x hx hk
    rw [htools]
    exact h1 k x (hq.pyver ▸ hx) (h3 k hk)
  · rintro k ⟨hk, hv⟩
    rw [htools]
    refine h2 k ⟨h3 k hk, ?_⟩
    rw [hq.pyver, htools] at hv
    exact hv

end

/-! ## The violations -/

section
variable (v : Visits) (horder : ∀ l, (o.ruleOrder l).Perm l) {files files' : Path → Option Bytes} (ht : SameTools o v files files') {options options' : Option Options}
  {path : Path} {content : Bytes} {cfg cfg' : Config V} {m : Node} (h : Lints (o.walking v) options files path content cfg m)
  (hk : ∀ k, Active o files cfg k → KeepsMetadata (v.rule files cfg.root cfg.path m k))
  (hroot : cfg'.root = cfg.root) (hpath : cfg'.path = cfg.path) (hsub : ∀ k, Active o files' cfg' k → Active o files cfg k)
include horder ht h hk hroot hpath hsub

/-- C140: with fewer rules selected, a file that can be linted can still be linted. -/
theorem C140_still_lints (hmeta : LessIsFine v) (hsource : files' path = files path)
    (hcfg : generateConfig o.cfg o.configOrder (o.fs files') (o.load files') path none options' = .ok cfg')
    (hc : ∃ c', (collectRules (o.rules files') o.ruleOrder cfg' o.sysPath o.mods).1 = .ok c') : Lints (o.walking v) options' files' path content cfg' m := by
  obtain ⟨h1, h2, h3, ⟨c, hc0, hraised, hall⟩, h5⟩ := h
  obtain ⟨c', hc'⟩ := hc
  obtain ⟨hnd, hact⟩ := selected_iff o horder files cfg c hc0
  obtain ⟨hnd', hact'⟩ := selected_iff o horder files' cfg' c' hc'
  have hin : ∀ k ∈ c'.rules, k ∈ c.rules := fun k hm => (hact k).mpr (hsub k ((hact' k).mp hm))
  have hk1 : ∀ k ∈ c.rules, KeepsMetadata (v.rule files cfg.root cfg.path m k) := fun k hm => hk k ((hact k).mp hm)
  have hk2 : ∀ k ∈ c'.rules, KeepsMetadata (v.rule files' cfg'.root cfg'.path m k) := fun k hm => by rw [ht.rule, hroot, hpath]; exact hk1 k (hin k hm)
  have hraised : ((o.walking v).visitors files cfg m (c.rules.map o.inst)).raised = none := hraised
  obtain ⟨r1, r2, r3⟩ := (raised_iff o v files cfg m c.rules hk1).mp hraised
  have hraised' : ((o.walking v).visitors files' cfg' m (c'.rules.map o.inst)).raised = none := by
    refine (raised_iff o v files' cfg' m c'.rules hk2).mpr ⟨?_, ?_, fun k hm => ?_⟩
    · have hmem : ∀ p, p ∈ v.needs c'.rules → p ∈ v.needs c.rules := by
        intro p
        rw [needs_mem, needs_mem]
        exact fun ⟨g, k, a, b⟩ => ⟨g, k, hin k a, b⟩
      unfold Visits.repo at r1 ⊢
      split
      · rfl
      · rename_i hne
        have : v.needs c.rules ≠ [] := by
          intro he
          apply hne
          rw [List.eq_nil_iff_forall_not_mem]
          intro p hp
          have := hmem p hp
          rw [he] at this
          cases this
        rw [if_neg this] at r1
        rw [ht.repo, hroot, hpath]
        exact hmeta.repo _ _ _ _ _ hmem r1
    · rw [ht.resolve, hroot, hpath]
      refine hmeta.resolve _ _ _ _ _ _ (fun p hp => ?_) r2
      obtain ⟨k, hk', hp⟩ := List.mem_flatMap.mp hp
      exact List.mem_flatMap.mpr ⟨k, hin k hk', hp⟩
    · rw [ht.rule, ht.names, hroot, hpath]
      exact r3 k (hin k hm)
  refine ⟨by rw [hsource]; exact h1, h2, hcfg, ⟨c', hc', hraised', ?_⟩, h5⟩
  intro r call hm hsil
  have hm : (r, call) ∈ ((o.walking v).visitors files' cfg' m (c'.rules.map o.inst)).calls := hm
  rw [calls_mem o v files' cfg' m c'.rules hnd' hraised' hk2] at hm
  obtain ⟨k, hm, hr, reps, hreps, hcall⟩ := hm
  rw [ht.rule, ht.names, hroot, hpath] at hreps
  exact hall r call ((calls_mem o v files cfg m c.rules hnd hraised hk1 r call).mpr ⟨k, hin k hm, hr, reps, hreps, hcall⟩) hsil

/-- C140: with fewer rules selected, exactly the violations of the others are gone. -/
theorem C140_fewer (h' : Lints (o.walking v) options' files' path content cfg' m) :
    ∃ gone, (foundIn ((o.walking v).env options) files path).Perm (foundIn ((o.walking v).env options') files' path ++ gone) ∧
      (∀ lv ∈ foundIn ((o.walking v).env options') files' path, ∃ k, Active o files' cfg' k ∧ lv.base.ruleName = ruleName (o.className k)) ∧
      ∀ lv ∈ gone, ∃ k, Active o files cfg k ∧ ¬ Active o files' cfg' k ∧ lv.base.ruleName = ruleName (o.className k) := by
  have hk' : ∀ k, Active o files' cfg' k → KeepsMetadata (v.rule files' cfg'.root cfg'.path m k) := fun k ha => by rw [ht.rule, hroot, hpath]; exact hk k (hsub k ha)
  obtain ⟨c, F, hc, hf, hb⟩ := found_blocks o v horder options files path content cfg m h hk
  obtain ⟨c', F', hc', hf', hb'⟩ := found_blocks o v horder options' files' path content cfg' m h' hk'
  obtain ⟨hnd, hact⟩ := selected_iff o horder files cfg c hc
  obtain ⟨hnd', hact'⟩ := selected_iff o horder files' cfg' c' hc'
  have hin : ∀ k ∈ c'.rules, k ∈ c.rules := fun k hm => (hact k).mpr (hsub k ((hact' k).mp hm))
  have hname : ∀ (options : Option Options) (l : List LintViolation) (k : Nat) calls vs, Recorded (o.walking v) m k calls vs → Shown ((o.walking v).env options) path m vs l →
      ∀ lv ∈ l, lv.base.ruleName = ruleName (o.className k) := by
    intro options l k calls vs hr hsh lv hlv
    have hn := Recorded.names (o.walking v) hr
    clear hr
    induction hsh with
    | nil => cases hlv
    | cons x xs lx lxs hd _ ih =>
      rcases List.mem_cons.mp hlv with rfl | hlv
      · rw [display_base hd]; exact hn x List.mem_cons_self
      · exact ih hlv (fun y hy => hn y (List.mem_cons_of_mem _ hy))
  have hsame : ∀ k ∈ c'.rules, F k = F' k := by
    intro k hm
    obtain ⟨reps, vs, a1, a2, a3⟩ := hb k (hin k hm)
    obtain ⟨reps', vs', b1, b2, b3⟩ := hb' k hm
    rw [ht.rule, ht.names, hroot, hpath, a1] at b1
    cases b1
    cases Recorded.unique (o.walking v) a2 b2
    have hsh : ∀ vs l, Shown ((o.walking v).env options') path m vs l → Shown ((o.walking v).env options) path m vs l := by
      intro vs l h
      induction h with
      | nil => exact .nil
      | cons v vs lv lvs h _ ih => exact .cons v vs lv lvs h ih
    exact Shown.unique a3 (hsh _ _ b3)
  have hperm : c.rules.Perm (c'.rules ++ c.rules.filter (fun k => k ∉ c'.rules)) := by
    refine (List.perm_ext_iff_of_nodup hnd ?_).mpr (fun k => ?_)
    · refine List.nodup_append.mpr ⟨hnd', hnd.filter _, ?_⟩
      intro a ha b hb hab
      subst hab
      have := (List.mem_filter.mp hb).2
      simp only [decide_eq_true_eq] at this
      exact this ha
    · simp only [List.mem_append, List.mem_filter, decide_eq_true_eq]
      constructor
      · intro hm
        by_cases hm' : k ∈ c'.rules
        · exact Or.inl hm'
        · exact Or.inr ⟨hm, hm'⟩
      · rintro (hm | ⟨hm, -⟩)
        · exact hin k hm
        · exact hm
  refine ⟨(c.rules.filter (fun k => k ∉ c'.rules)).flatMap F, ?_, ?_, ?_⟩
  · rw [hf, hf']
    refine (hperm.flatMap_right F).trans ?_
    rw [List.flatMap_append]
    refine List.Perm.append_right _ ?_
    exact perm_flatMap_ids F F' (List.Perm.refl _) hsame
  · intro lv hlv
    rw [hf'] at hlv
    obtain ⟨k, hm, hlv⟩ := List.mem_flatMap.mp hlv
    obtain ⟨reps, vs, a1, a2, a3⟩ := hb' k hm
    exact ⟨k, (hact' k).mp hm, hname options' _ k _ vs a2 a3 lv hlv⟩
  · intro lv hlv
    obtain ⟨k, hm, hlv⟩ := List.mem_flatMap.mp hlv
    obtain ⟨hm, hn⟩ := List.mem_filter.mp hm
    simp only [decide_eq_true_eq] at hn
    obtain ⟨reps, vs, a1, a2, a3⟩ := hb k hm
    exact ⟨k, (hact k).mp hm, fun ha => hn ((hact' k).mpr ha), hname options _ k _ vs a2 a3 lv hlv⟩

end

/-- **C140** Disabling one more reference takes exactly the violations of the rules it leads to away - all of them, but for those of rules that another enabled reference
names - and leaves everything else as it was. -/
theorem C140_disable (v : Visits) (horder : ∀ l, (o.ruleOrder l).Perm l) {files files' : Path → Option Bytes} (ht : SameTools o v files files') (hs : StatelessFind o files)
    (hmeta : LessIsFine v) {options options' : Option Options} {path : Path} {content : Bytes} {cfg cfg' : Config V} {m : Node} {q : QualifiedRule}
    (h : Lints (o.walking v) options files path content cfg m) (hk : ∀ k, Active o files cfg k → KeepsMetadata (v.rule files cfg.root cfg.path m k))
    (hsource : files' path = files path) (hcfg : generateConfig o.cfg o.configOrder (o.fs files') (o.load files') path none options' = .ok cfg') (hq : OneMoreDisabled cfg cfg' q) :
    Lints (o.walking v) options' files' path content cfg' m ∧
    ∃ gone, (foundIn ((o.walking v).env options) files path).Perm (foundIn ((o.walking v).env options') files' path ++ gone) ∧
      (∀ lv ∈ gone, ∃ k, Active o files cfg k ∧ lv.base.ruleName = ruleName (o.className k) ∧ LeadsTo o files cfg q k ∧
        ¬ ∃ e ∈ cfg.enable, e ≠ q ∧ ByName e ∧ LeadsTo o files cfg e k) ∧
      ∀ lv ∈ foundIn ((o.walking v).env options') files' path, ∃ k, Active o files cfg k ∧ lv.base.ruleName = ruleName (o.className k) ∧
        (LeadsTo o files cfg q k → ∃ e ∈ cfg.enable, e ≠ q ∧ ByName e ∧ LeadsTo o files cfg e k) := by
  have hsel := C140_selected o ht.rules hs hq
  have hsub : ∀ k, Active o files' cfg' k → Active o files cfg k := fun k ha => ((hsel k).mp ha).1
  obtain ⟨c, hc, -⟩ := h.collect
  have h' := C140_still_lints o v horder ht h hk hq.root hq.path hsub hmeta hsource hcfg (C140_collects o ht.rules hs hq horder c hc)
  refine ⟨h', ?_⟩
  obtain ⟨gone, h1, h2, h3⟩ := C140_fewer o v horder ht h hk hq.root hq.path hsub h'
  refine ⟨gone, h1, ?_, ?_⟩
  · intro lv hlv
    obtain ⟨k, ha, hn, hname⟩ := h3 lv hlv
    have hn : ¬ (LeadsTo o files cfg q k → ∃ e ∈ cfg.enable, e ≠ q ∧ ByName e ∧ LeadsTo o files cfg e k) := fun hi => hn ((hsel k).mpr ⟨ha, hi⟩)
    exact ⟨k, ha, hname, Classical.byContradiction (fun hl => hn (fun hl' => absurd hl' hl)), fun he => hn (fun _ => he)⟩
  · intro lv hlv
    obtain ⟨k, ha, hname⟩ := h2 lv hlv
    exact ⟨k, hsub k ha, hname, ((hsel k).mp ha).2⟩

end Fixit
