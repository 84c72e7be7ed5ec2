import Verif.Proof.Collect
import Verif.Spec.Tags
import Verif.Props.Refs

/-!
# C28, C29, C30, C33: collecting rules
-/

set_option linter.unusedSectionVars false

namespace Fixit
open Py Spec

section
variable {K V M : Type} [DecidableEq K] (env : CollectEnv K V M)

/-- The directory `enable-root-import` makes importable: none, the root, or a directory given relative to the root. -/
def extraDir (cfg : Config V) : Option Path :=
  match cfg.rootImport with
  | .off => none
  | .on => some cfg.root
  | .sub parts => some (cfg.root ++ parts)

theorem importDir_eq (cfg : Config V) : importDir cfg = extraDir cfg := by
  unfold importDir extraDir
  cases cfg.rootImport <;> rfl

/-- `sys.path` while rules are imported: the root import directory is added at the end unless already there. -/
def searchPath (cfg : Config V) (sysPath : List PStr) : List PStr :=
  match extraDir cfg with
  | none => sysPath
  | some p => if asPosix p ∈ sysPath then sysPath else sysPath ++ [asPosix p]

/-- The outcomes of loading the enabled references. -/
def enabled (cfg : Config V) (sysPath : List PStr) (mods : M) : List (QualifiedRule × Except Err (List K)) :=
  outcomes (env.find (searchPath cfg sysPath)) mods cfg.enable

/-- The outcomes of then loading the disabled references. -/
def disabled (cfg : Config V) (sysPath : List PStr) (mods : M) : List (QualifiedRule × Except Err (List K)) :=
  outcomes (env.find (searchPath cfg sysPath)) (after (env.find (searchPath cfg sysPath)) mods cfg.enable) cfg.disable

/-- A reference to one rule by name (`module:Name`). -/
def ByName (q : QualifiedRule) : Prop := ∃ n, q.name = some n ∧ n ≠ []

theorem named_isSome (q : QualifiedRule) : q.named.isSome = true ↔ ByName q := by
  unfold QualifiedRule.named ByName
  cases q.name with
  | none => simp
  | some n => cases n <;> simp

/-- Enabled, and not disabled unless it was enabled by name. -/
def Candidate₁ (cfg : Config V) (sysPath : List PStr) (mods : M) (c : K) : Prop :=
  Resolved (enabled env cfg sysPath mods) c ∧ (Resolved (disabled env cfg sysPath mods) c → ResolvedBy ByName (enabled env cfg sysPath mods) c)

/-- …and passing the tag filter. -/
def Candidate₂ (cfg : Config V) (sysPath : List PStr) (mods : M) (c : K) : Prop :=
  Candidate₁ env cfg sysPath mods c ∧ Selected cfg.tags.incl cfg.tags.excl (env.tags c)

/-- …and supporting the target Python version. -/
def Candidate₃ (cfg : Config V) (sysPath : List PStr) (mods : M) (c : K) : Prop :=
  Candidate₂ env cfg sysPath mods c ∧ ∀ v, cfg.pyver = some v → env.supports v c = .ok true

/-! ### the state before the version stage -/

/-- The state after the enable, disable and tag stages. -/
def stage2 (order : List K → List K) (cfg : Config V) (mods : M) (path : List PStr) : CState K M :=
  tagStage env order cfg.tags (disableAll env path cfg.disable
    (enableAll env path cfg.enable { all := [], named := [], reasons := [], warned := [], mods := mods }))

theorem resolvedBy_congr {Q E : Type} {p p' : Q → Prop} (h : ∀ q, p q ↔ p' q) (l : List (Q × Except E (List K))) (c : K) :
    ResolvedBy p l c ↔ ResolvedBy p' l c := by
  unfold ResolvedBy; simp only [h]

variable {order : List K → List K} (horder : ∀ l, (order l).Perm l)
include horder

theorem stage2_spec (cfg : Config V) (mods : M) (path : List PStr) :
    let s := stage2 env order cfg mods path
    let en := outcomes (env.find path) mods cfg.enable
    let dis := outcomes (env.find path) (after (env.find path) mods cfg.enable) cfg.disable
    let C1 := fun c => Resolved en c ∧ (Resolved dis c → ResolvedBy ByName en c)
    let Sel := fun c => Selected cfg.tags.incl cfg.tags.excl (env.tags c)
    (∀ c, c ∈ s.all ↔ C1 c ∧ Sel c) ∧
    (∀ c y, (c, y) ∈ s.reasons ↔ (y = .disabled ∧ Resolved dis c ∧ ¬ ResolvedBy ByName en c) ∨ (y = .tags ∧ C1 c ∧ ¬ Sel c)) ∧
    (s.reasons.map (·.1)).Nodup ∧ s.all.Nodup ∧ s.warned = failed en ++ failed dis ∧
    s.mods = after (env.find path) (after (env.find path) mods cfg.enable) cfg.disable := by
  have he := enableAll_spec env path cfg.enable { all := [], named := [], reasons := [], warned := [], mods := mods }
  unfold stage2
  generalize hse : enableAll env path cfg.enable { all := [], named := [], reasons := [], warned := [], mods := mods } = se at he ⊢
  simp only [List.not_mem_nil, false_or, List.nodup_nil, forall_const, List.nil_append] at he
  obtain ⟨e1, e2, e3, e4, e5, e6⟩ := he
  have hd := disableAll_spec env path cfg.disable se (by rw [e4]; simp) (by rw [e4]; simp) (by rw [e4]; simp)
  have hdn := disableAll_named env path cfg.disable se
  generalize hsd : disableAll env path cfg.disable se = sd at hd hdn ⊢
  simp only at hd
  obtain ⟨d1, d2, d3, d4, d5, d6⟩ := hd
  rw [e6] at d1 d2 d5 d6
  have hnamed : ∀ c, c ∈ se.named ↔ ResolvedBy ByName (outcomes (env.find path) mods cfg.enable) c := by
    intro c; rw [e2]; exact resolvedBy_congr named_isSome _ c
  -- the two stages in terms of the outcomes
  have D1 : ∀ c, c ∈ sd.all ↔ (Resolved (outcomes (env.find path) mods cfg.enable) c ∧
      (Resolved (outcomes (env.find path) (after (env.find path) mods cfg.enable) cfg.disable) c →
        ResolvedBy ByName (outcomes (env.find path) mods cfg.enable) c)) := by
    intro c
    rw [d1, e1, hnamed]
    refine and_congr_right (fun _ => ?_)
    constructor
    · intro h hr; exact Classical.byContradiction (fun hn => h ⟨hr, hn⟩)
    · rintro h ⟨hr, hn⟩; exact hn (h hr)
  have D2 : ∀ c y, (c, y) ∈ sd.reasons ↔ y = .disabled ∧
      Resolved (outcomes (env.find path) (after (env.find path) mods cfg.enable) cfg.disable) c ∧
        ¬ ResolvedBy ByName (outcomes (env.find path) mods cfg.enable) c := by
    intro c y
    rw [d2, e4, hnamed]; simp
  have hsel : ∀ c, cfg.tags.contains (env.tags c) = true ↔ Selected cfg.tags.incl cfg.tags.excl (env.tags c) :=
    fun c => C12_contains_iff cfg.tags (env.tags c)
  have hdisj : ∀ c ∈ sd.all, c ∉ sd.reasons.map (·.1) := by
    intro c hc hr
    rw [List.mem_map] at hr
    obtain ⟨⟨c', y⟩, hr, rfl⟩ := hr
    rw [D2] at hr
    rw [D1] at hc
    exact hr.2.2 (hc.2 hr.2.1)
  by_cases ht : cfg.tags.truthy = true
  · have hts : tagStage env order cfg.tags sd = { sd with
        reasons := dictUpdate sd.reasons (((order sd.all).filter (fun r => !cfg.tags.contains (env.tags r))).map (fun r => (r, Reason.tags))),
        all := setMinus sd.all (dictUpdate sd.reasons (((order sd.all).filter (fun r => !cfg.tags.contains (env.tags r))).map (fun r => (r, Reason.tags)))) } := by
      simp [tagStage, ht]
    have hf : ∀ c, c ∈ (order sd.all).filter (fun r => !cfg.tags.contains (env.tags r)) ↔ c ∈ sd.all ∧ ¬ Selected cfg.tags.incl cfg.tags.excl (env.tags c) := by
      intro c
      rw [List.mem_filter, (horder _).mem_iff, ← hsel]; simp
    rw [hts]
    simp only
    refine ⟨?_, ?_, dictUpdate_nodup _ _ d3, setMinus_nodup _ _ (d4 e3), ?_, d6⟩
    · intro c
      rw [mem_setMinus, dictUpdate_keys_mem, List.map_map]
      have : (fun x : K × Reason => x.1) ∘ (fun r : K => (r, Reason.tags)) = id := rfl
      rw [this, List.map_id, hf, D1]
      constructor
      · rintro ⟨a, b⟩
        refine ⟨a, ?_⟩
        apply Classical.byContradiction
        intro hn
        exact b (Or.inl ⟨a, hn⟩)
      · rintro ⟨a, b⟩
        refine ⟨a, ?_⟩
        rintro (⟨-, hn⟩ | hr)
        · exact hn b
        · exact hdisj c ((D1 c).2 a) hr
    · intro c y
      rw [dictUpdate_const_mem _ _ _ d3, hf, D1, D2]
      constructor
      · rintro (⟨⟨a, b⟩, rfl⟩ | ⟨-, h⟩)
        · exact Or.inr ⟨rfl, a, b⟩
        · exact Or.inl h
      · rintro (⟨rfl, a, b⟩ | ⟨rfl, a, b⟩)
        · refine Or.inr ⟨?_, rfl, a, b⟩
          rintro ⟨h, -⟩
          exact b (h.2 a)
        · exact Or.inl ⟨⟨a, b⟩, rfl⟩
    · rw [d5, e5]
  · have hts : tagStage env order cfg.tags sd = sd := by simp [tagStage, ht]
    have hall : ∀ c, Selected cfg.tags.incl cfg.tags.excl (env.tags c) :=
      fun c => (C12_falsy_iff_selects_all cfg.tags).1 (by simpa using ht) _
    rw [hts]
    refine ⟨?_, ?_, d3, d4 e3, by rw [d5, e5], d6⟩
    · intro c; rw [D1]; simp [hall]
    · intro c y; rw [D2]; simp [hall]

theorem versionStage_spec (v : Option V) (s s' : CState K M) (h : versionStage env order v s = .ok s')
    (hdisj : ∀ c ∈ s.all, c ∉ s.reasons.map (·.1)) (hn : (s.reasons.map (·.1)).Nodup) :
    (∀ c, c ∈ s'.all ↔ c ∈ s.all ∧ ∀ x, v = some x → env.supports x c = .ok true) ∧
    (∀ c y, (c, y) ∈ s'.reasons ↔ (c, y) ∈ s.reasons ∨ (y = .pythonVersion ∧ c ∈ s.all ∧ ∃ x, v = some x ∧ env.supports x c = .ok false)) ∧
    (s'.reasons.map (·.1)).Nodup ∧ (s.all.Nodup → s'.all.Nodup) ∧ s'.warned = s.warned ∧ s'.mods = s.mods := by
  cases v with
  | none =>
    simp only [versionStage, Except.ok.injEq] at h
    subst h
    simp [hn]
  | some x =>
    simp only [versionStage, bind_ok, pure_ok] at h
    obtain ⟨bad, hb, rfl⟩ := h
    obtain ⟨u1, u2⟩ := unsupported_ok env x _ _ hb
    have hbad : ∀ c, c ∈ bad ↔ c ∈ s.all ∧ env.supports x c = .ok false := by
      intro c; rw [u2, (horder _).mem_iff]
    simp only [Option.some.injEq, forall_eq', exists_eq_left']
    refine ⟨?_, ?_, dictUpdate_nodup _ _ hn, setMinus_nodup _ _, trivial, trivial⟩
    · intro c
      rw [mem_setMinus, dictUpdate_keys_mem, List.map_map]
      have : (fun x : K × Reason => x.1) ∘ (fun r : K => (r, Reason.pythonVersion)) = id := rfl
      rw [this, List.map_id, hbad]
      refine and_congr_right (fun ha => ?_)
      obtain ⟨b, hb'⟩ := u1 c ((horder _).mem_iff.2 ha)
      cases b with
      | true => simp [hb', hdisj c ha]
      | false => simp [hb', ha]
    · intro c y
      rw [dictUpdate_const_mem _ _ _ hn, hbad]
      constructor
      · rintro (⟨⟨a, b⟩, rfl⟩ | ⟨-, h⟩)
        · exact Or.inr ⟨rfl, a, b⟩
        · exact Or.inl h
      · rintro (h | ⟨rfl, a, b⟩)
        · refine Or.inr ⟨?_, h⟩
          rintro ⟨ha, -⟩
          exact hdisj c ha (List.mem_map_of_mem (f := Prod.fst) h)
        · exact Or.inl ⟨⟨a, b⟩, rfl⟩

omit horder in
theorem collectBody_eq (cfg : Config V) (mods : M) (path : List PStr) :
    collectBody env order cfg mods path = (do
      let s ← versionStage env order cfg.pyver (stage2 env order cfg mods path)
      let rules ← materialize env (order s.all)
      return { rules := rules, reasons := s.reasons, warned := s.warned, mods := s.mods }) := rfl

omit horder in
theorem collectRules_fst (cfg : Config V) (sysPath : List PStr) (mods : M) :
    (collectRules env order cfg sysPath mods).1 = collectBody env order cfg mods (searchPath cfg sysPath) := by
  unfold collectRules searchPath
  rw [importDir_eq]
  cases extraDir cfg with
  | none => rfl
  | some p =>
    simp only [appendSysPath]
    split
    · rfl
    · cases collectBody env order cfg mods (sysPath ++ [asPosix p]) <;> rfl

omit horder in
theorem stage2_disjoint (horder : ∀ l, (order l).Perm l) (cfg : Config V) (mods : M) (path : List PStr) :
    ∀ c ∈ (stage2 env order cfg mods path).all, c ∉ (stage2 env order cfg mods path).reasons.map (·.1) := by
  obtain ⟨h1, h2, -⟩ := stage2_spec env horder cfg mods path
  simp only at h1 h2
  intro c hc hr
  rw [List.mem_map] at hr
  obtain ⟨⟨c', y⟩, hr, rfl⟩ := hr
  rw [h2] at hr
  rw [h1] at hc
  rcases hr with ⟨-, a, b⟩ | ⟨-, a, b⟩
  · exact b (hc.1.2 a)
  · exact b hc.2

/-- Everything about a successful run. -/
theorem collect_ok (cfg : Config V) (sysPath : List PStr) (mods : M) (r : Collected K M)
    (h : (collectRules env order cfg sysPath mods).1 = .ok r) :
    (∀ c, c ∈ r.rules ↔ Candidate₃ env cfg sysPath mods c) ∧ r.rules.Nodup ∧ (∀ c ∈ r.rules, env.make c = .ok ()) ∧
    (∀ c y, (c, y) ∈ r.reasons ↔
      (y = .disabled ∧ Resolved (disabled env cfg sysPath mods) c ∧ ¬ ResolvedBy ByName (enabled env cfg sysPath mods) c) ∨
      (y = .tags ∧ Candidate₁ env cfg sysPath mods c ∧ ¬ Selected cfg.tags.incl cfg.tags.excl (env.tags c)) ∨
      (y = .pythonVersion ∧ Candidate₂ env cfg sysPath mods c ∧ ∃ v, cfg.pyver = some v ∧ env.supports v c = .ok false)) ∧
    (r.reasons.map (·.1)).Nodup ∧
    r.warned = failed (enabled env cfg sysPath mods) ++ failed (disabled env cfg sysPath mods) := by
  rw [collectRules_fst, collectBody_eq] at h
  simp only [bind_ok, pure_ok] at h
  obtain ⟨s, h1, rules, h2, rfl⟩ := h
  obtain ⟨p1, p2, p3, p4, p5, p6⟩ := stage2_spec env horder cfg mods (searchPath cfg sysPath)
  obtain ⟨q1, q2, q3, q4, q5, q6⟩ := versionStage_spec env horder _ _ _ h1 (stage2_disjoint env horder cfg mods _) p3
  obtain ⟨rfl, hm⟩ := materialize_ok env _ _ h2
  simp only at p1 p2 p4 p5 ⊢
  refine ⟨?_, ?_, hm, ?_, q3, by rw [q5, p5]; rfl⟩
  · intro c
    rw [(horder _).mem_iff, q1, p1]; rfl
  · rw [(horder _).nodup_iff]; exact q4 p4
  · intro c y
    rw [q2, p2, p1, or_assoc]; rfl

/-- **C28** Exactly one instance of each class that is enabled, not disabled (unless enabled by name), selected by the tags and
compatible with the Python version. -/
theorem C28_collected_exact (cfg : Config V) (sysPath : List PStr) (mods : M) (r : Collected K M)
    (h : (collectRules env order cfg sysPath mods).1 = .ok r) :
    r.rules.Nodup ∧ ∀ c, c ∈ r.rules ↔
      Resolved (enabled env cfg sysPath mods) c ∧
      (Resolved (disabled env cfg sysPath mods) c → ResolvedBy ByName (enabled env cfg sysPath mods) c) ∧
      Selected cfg.tags.incl cfg.tags.excl (env.tags c) ∧
      ∀ v, cfg.pyver = some v → env.supports v c = .ok true := by
  obtain ⟨h1, h2, -⟩ := collect_ok env horder cfg sysPath mods r h
  refine ⟨h2, ?_⟩
  intro c
  rw [h1]
  unfold Candidate₃ Candidate₂ Candidate₁
  simp only [and_assoc]

/-- **C28** It succeeds exactly when every candidate's version specifier is valid and every rule to be returned can be instantiated;
in particular no import failure makes it fail. -/
theorem C28_succeeds_iff (cfg : Config V) (sysPath : List PStr) (mods : M) :
    (∃ r, (collectRules env order cfg sysPath mods).1 = .ok r) ↔
      (∀ c v, cfg.pyver = some v → Candidate₂ env cfg sysPath mods c → ∃ b, env.supports v c = .ok b) ∧
      ∀ c, Candidate₃ env cfg sysPath mods c → env.make c = .ok () := by
  obtain ⟨p1, p2, p3, p4, p5, p6⟩ := stage2_spec env horder cfg mods (searchPath cfg sysPath)
  simp only at p1
  constructor
  · rintro ⟨r, h⟩
    obtain ⟨h1, -, h3, -⟩ := collect_ok env horder cfg sysPath mods r h
    refine ⟨?_, fun c hc => h3 c ((h1 c).2 hc)⟩
    intro c v hv hc
    rw [collectRules_fst, collectBody_eq] at h
    simp only [bind_ok, pure_ok] at h
    obtain ⟨s, h1, -⟩ := h
    rw [hv] at h1
    simp only [versionStage, bind_ok, pure_ok] at h1
    obtain ⟨bad, hb, -⟩ := h1
    exact (unsupported_ok env v _ _ hb).1 c ((horder _).mem_iff.2 ((p1 c).2 hc))
  · rintro ⟨h1, h2⟩
    have hv : ∃ s, versionStage env order cfg.pyver (stage2 env order cfg mods (searchPath cfg sysPath)) = .ok s := by
      cases hv : cfg.pyver with
      | none => exact ⟨_, rfl⟩
      | some v =>
        obtain ⟨bad, hb⟩ := unsupported_succeeds env v (order (stage2 env order cfg mods (searchPath cfg sysPath)).all)
          (fun c hc => h1 c v hv ((p1 c).1 ((horder _).mem_iff.1 hc)))
        exact ⟨_, by simp [versionStage, hb, bind, Except.bind, pure, Except.pure]; rfl⟩
    obtain ⟨s, hs⟩ := hv
    obtain ⟨q1, -⟩ := versionStage_spec env horder _ _ _ hs (stage2_disjoint env horder cfg mods _) p3
    have hm := materialize_succeeds env (order s.all) (fun c hc => h2 c (by
      rw [(horder _).mem_iff, q1, p1] at hc; exact hc))
    refine ⟨{ rules := order s.all, reasons := s.reasons, warned := s.warned, mods := s.mods }, ?_⟩
    rw [collectRules_fst, collectBody_eq, hs]
    simp [bind, Except.bind, hm, pure, Except.pure]

/-- **C29** One warning per reference that failed to load, in order, and no other. -/
theorem C29_warnings_exact (cfg : Config V) (sysPath : List PStr) (mods : M) (r : Collected K M)
    (h : (collectRules env order cfg sysPath mods).1 = .ok r) :
    r.warned = failed (enabled env cfg sysPath mods) ++ failed (disabled env cfg sysPath mods) :=
  (collect_ok env horder cfg sysPath mods r h).2.2.2.2.2

/-- **C33** Every enabled class is either returned or has a reason, never both; the reason is that of the first stage that drops it. -/
theorem C33_reason_or_returned (cfg : Config V) (sysPath : List PStr) (mods : M) (r : Collected K M)
    (h : (collectRules env order cfg sysPath mods).1 = .ok r) (c : K) (hc : Resolved (enabled env cfg sysPath mods) c) :
    (c ∈ r.rules ∧ ∀ y, (c, y) ∉ r.reasons) ∨ (c ∉ r.rules ∧ ∃ y, (c, y) ∈ r.reasons ∧ ∀ y', (c, y') ∈ r.reasons → y' = y) := by
  have hsucc := (C28_succeeds_iff env horder cfg sysPath mods).1 ⟨r, h⟩
  obtain ⟨h1, h2, h3, h4, h5, -⟩ := collect_ok env horder cfg sysPath mods r h
  by_cases hin : c ∈ r.rules
  · left
    refine ⟨hin, ?_⟩
    intro y hy
    rw [h1] at hin
    rw [h4] at hy
    obtain ⟨⟨⟨-, a⟩, b⟩, d⟩ := hin
    rcases hy with ⟨-, x, y⟩ | ⟨-, -, x⟩ | ⟨-, -, v, x, y⟩
    · exact y (a x)
    · exact x b
    · rw [d v x] at y; simp at y
  · right
    refine ⟨hin, ?_⟩
    have huniq : ∀ y y', (c, y) ∈ r.reasons → (c, y') ∈ r.reasons → y' = y := by
      intro y y' ha hb
      rw [h4] at ha hb
      rcases ha with ⟨rfl, x, z⟩ | ⟨rfl, x, z⟩ | ⟨rfl, x, z⟩ <;> rcases hb with ⟨rfl, x', z'⟩ | ⟨rfl, x', z'⟩ | ⟨rfl, x', z'⟩
      · rfl
      · exact absurd (x'.2 x) z
      · exact absurd (x'.1.2 x) z
      · exact absurd (x.2 x') z'
      · rfl
      · exact absurd x'.2 z
      · exact absurd (x.1.2 x') z'
      · exact absurd x.2 z'
      · rfl
    suffices ∃ y, (c, y) ∈ r.reasons by
      obtain ⟨y, hy⟩ := this
      exact ⟨y, hy, fun y' hy' => huniq y y' hy hy'⟩
    by_cases c1 : Candidate₁ env cfg sysPath mods c
    · by_cases c2 : Selected cfg.tags.incl cfg.tags.excl (env.tags c)
      · refine ⟨.pythonVersion, (h4 c _).2 (Or.inr (Or.inr ⟨rfl, ⟨c1, c2⟩, ?_⟩))⟩
        cases hv : cfg.pyver with
        | none => exact absurd ((h1 c).2 ⟨⟨c1, c2⟩, by simp [hv]⟩) hin
        | some v =>
          obtain ⟨b, hb⟩ := hsucc.1 c v hv ⟨c1, c2⟩
          cases b with
          | false => exact ⟨v, rfl, hb⟩
          | true => exact absurd ((h1 c).2 ⟨⟨c1, c2⟩, by simp [hv, hb]⟩) hin
      · exact ⟨.tags, (h4 c _).2 (Or.inr (Or.inl ⟨rfl, c1, c2⟩))⟩
    · have : Resolved (disabled env cfg sysPath mods) c ∧ ¬ ResolvedBy ByName (enabled env cfg sysPath mods) c := by
        unfold Candidate₁ at c1
        refine ⟨?_, ?_⟩
        · exact Classical.byContradiction (fun hn => c1 ⟨hc, fun hh => absurd hh hn⟩)
        · exact fun hn => c1 ⟨hc, fun _ => hn⟩
      exact ⟨.disabled, (h4 c _).2 (Or.inl ⟨rfl, this⟩)⟩

/-- **C33** What each reason means. -/
theorem C33_reason_is_first_stage (cfg : Config V) (sysPath : List PStr) (mods : M) (r : Collected K M)
    (h : (collectRules env order cfg sysPath mods).1 = .ok r) (c : K) :
    ((c, Reason.disabled) ∈ r.reasons ↔ Resolved (disabled env cfg sysPath mods) c ∧ ¬ ResolvedBy ByName (enabled env cfg sysPath mods) c) ∧
    ((c, Reason.tags) ∈ r.reasons ↔ Candidate₁ env cfg sysPath mods c ∧ ¬ Selected cfg.tags.incl cfg.tags.excl (env.tags c)) ∧
    ((c, Reason.pythonVersion) ∈ r.reasons ↔ Candidate₂ env cfg sysPath mods c ∧ ∃ v, cfg.pyver = some v ∧ env.supports v c = .ok false) := by
  obtain ⟨-, -, -, h4, -⟩ := collect_ok env horder cfg sysPath mods r h
  refine ⟨?_, ?_, ?_⟩ <;> rw [h4] <;> simp

omit horder

/-! ### C29: one failing reference -/

/-- Two states that differ only in the warnings logged. -/
def SameButWarned (s s' : CState K M) : Prop := s.all = s'.all ∧ s.named = s'.named ∧ s.reasons = s'.reasons ∧ s.mods = s'.mods

theorem enableOne_same (path : List PStr) (q : QualifiedRule) (s s' : CState K M) (h : SameButWarned s s') :
    SameButWarned (enableOne env path q s) (enableOne env path q s') := by
  obtain ⟨h1, h2, h3, h4⟩ := h
  unfold enableOne
  rw [h4]
  split
  · exact ⟨h1, h2, h3, rfl⟩
  · exact ⟨by simp [h1], by simp [h2], h3, rfl⟩

theorem enableAll_same (path : List PStr) (qs : List QualifiedRule) : ∀ (s s' : CState K M), SameButWarned s s' →
    SameButWarned (enableAll env path qs s) (enableAll env path qs s') := by
  induction qs with
  | nil => intro s s' h; exact h
  | cons q qs ih => intro s s' h; exact ih _ _ (enableOne_same env path q s s' h)

theorem disableOne_same (path : List PStr) (q : QualifiedRule) (s s' : CState K M) (h : SameButWarned s s') :
    SameButWarned (disableOne env path q s) (disableOne env path q s') := by
  obtain ⟨h1, h2, h3, h4⟩ := h
  unfold disableOne
  rw [h4]
  split
  · exact ⟨h1, h2, h3, rfl⟩
  · exact ⟨by simp [h1, h2, h3], h2, by simp [h2, h3], rfl⟩

theorem disableAll_same (path : List PStr) (qs : List QualifiedRule) : ∀ (s s' : CState K M), SameButWarned s s' →
    SameButWarned (disableAll env path qs s) (disableAll env path qs s') := by
  induction qs with
  | nil => intro s s' h; exact h
  | cons q qs ih => intro s s' h; exact ih _ _ (disableOne_same env path q s s' h)

theorem tagStage_same (t : Tags) (s s' : CState K M) (h : SameButWarned s s') : SameButWarned (tagStage env order t s) (tagStage env order t s') := by
  obtain ⟨h1, h2, h3, h4⟩ := h
  unfold tagStage
  split
  · exact ⟨by simp [h1, h3], h2, by simp [h1, h3], h4⟩
  · exact ⟨h1, h2, h3, h4⟩

/-- What the caller gets apart from the log. -/
def Collected.visible (r : Collected K M) : List K × List (K × Reason) × M := (r.rules, r.reasons, r.mods)

theorem collectFinish_same (v : Option V) (s s' : CState K M) (h : SameButWarned s s') :
    (do let s ← versionStage env order v s
        let rules ← materialize env (order s.all)
        return ({ rules := rules, reasons := s.reasons, warned := s.warned, mods := s.mods } : Collected K M)).map Collected.visible =
    (do let s ← versionStage env order v s'
        let rules ← materialize env (order s.all)
        return ({ rules := rules, reasons := s.reasons, warned := s.warned, mods := s.mods } : Collected K M)).map Collected.visible := by
  obtain ⟨h1, h2, h3, h4⟩ := h
  cases v with
  | none =>
    simp only [versionStage, bind, Except.bind, h1]
    cases materialize env (order s'.all) with
    | error e => rfl
    | ok l => simp [Except.map, Collected.visible, pure, Except.pure, h3, h4]
  | some x =>
    simp only [versionStage, bind, Except.bind, h1]
    cases unsupported env x (order s'.all) with
    | error e => rfl
    | ok bad =>
      simp only [pure, Except.pure, h3]
      cases materialize env (order (setMinus s'.all (dictUpdate s'.reasons (bad.map (fun r => (r, Reason.pythonVersion)))))) with
      | error e => rfl
      | ok l => simp [Except.map, Collected.visible, h4]

theorem enableAll_append (path : List PStr) (a b : List QualifiedRule) : ∀ (s : CState K M),
    enableAll env path (a ++ b) s = enableAll env path b (enableAll env path a s) := by
  induction a with
  | nil => intro s; rfl
  | cons q qs ih => intro s; exact ih _

theorem disableAll_append (path : List PStr) (a b : List QualifiedRule) : ∀ (s : CState K M),
    disableAll env path (a ++ b) s = disableAll env path b (disableAll env path a s) := by
  induction a with
  | nil => intro s; rfl
  | cons q qs ih => intro s; exact ih _

theorem collectRules_visible_of_stage2 (cfg cfg' : Config V) (sysPath : List PStr) (mods : M) (hp : searchPath cfg sysPath = searchPath cfg' sysPath)
    (hv : cfg.pyver = cfg'.pyver)
    (h : SameButWarned (stage2 env order cfg mods (searchPath cfg sysPath)) (stage2 env order cfg' mods (searchPath cfg sysPath))) :
    (collectRules env order cfg sysPath mods).1.map Collected.visible = (collectRules env order cfg' sysPath mods).1.map Collected.visible := by
  rw [collectRules_fst, collectRules_fst, collectBody_eq, collectBody_eq, ← hp, ← hv]
  exact collectFinish_same env _ _ _ h

/-- **C29** An enabled reference that fails to load (leaving the import system as it was) changes nothing but the log:
the outcome is that of the configuration without it. -/
theorem C29_failing_enable_is_inert (cfg : Config V) (pre post : List QualifiedRule) (q : QualifiedRule) (e : Err) (sysPath : List PStr) (mods : M)
    (hcfg : cfg.enable = pre ++ q :: post)
    (hfail : env.find (searchPath cfg sysPath) (after (env.find (searchPath cfg sysPath)) mods pre) q =
      (.error e, after (env.find (searchPath cfg sysPath)) mods pre)) :
    (collectRules env order cfg sysPath mods).1.map Collected.visible =
      (collectRules env order { cfg with enable := pre ++ post } sysPath mods).1.map Collected.visible := by
  refine collectRules_visible_of_stage2 env cfg _ sysPath mods rfl rfl ?_
  unfold stage2
  refine tagStage_same env _ _ _ (disableAll_same env _ _ _ _ ?_)
  rw [hcfg, enableAll_append, enableAll_append, enableAll]
  refine enableAll_same env _ _ _ _ ?_
  have hm := (enableAll_spec env (searchPath cfg sysPath) pre { all := [], named := [], reasons := [], warned := [], mods := mods }).2.2.2.2.2
  simp only at hm
  unfold enableOne
  rw [hm, hfail]
  exact ⟨rfl, rfl, rfl, hm.symm⟩

/-- **C29** The same for a disabled reference. -/
theorem C29_failing_disable_is_inert (cfg : Config V) (pre post : List QualifiedRule) (q : QualifiedRule) (e : Err) (sysPath : List PStr) (mods : M)
    (hcfg : cfg.disable = pre ++ q :: post)
    (hfail : env.find (searchPath cfg sysPath) (after (env.find (searchPath cfg sysPath)) mods (cfg.enable ++ pre)) q =
      (.error e, after (env.find (searchPath cfg sysPath)) mods (cfg.enable ++ pre))) :
    (collectRules env order cfg sysPath mods).1.map Collected.visible =
      (collectRules env order { cfg with disable := pre ++ post } sysPath mods).1.map Collected.visible := by
  refine collectRules_visible_of_stage2 env cfg _ sysPath mods rfl rfl ?_
  unfold stage2
  refine tagStage_same env _ _ _ ?_
  rw [hcfg, disableAll_append, disableAll_append, disableAll]
  refine disableAll_same env _ _ _ _ ?_
  have hm := (enableAll_spec env (searchPath cfg sysPath) cfg.enable { all := [], named := [], reasons := [], warned := [], mods := mods }).2.2.2.2.2
  have he := (enableAll_spec env (searchPath cfg sysPath) cfg.enable { all := [], named := [], reasons := [], warned := [], mods := mods }).2.2.2.1
  simp only at hm he
  have hd := (disableAll_spec env (searchPath cfg sysPath) pre _ (by rw [he]; simp) (by rw [he]; simp) (by rw [he]; simp)).2.2.2.2.2
  rw [hm] at hd
  have happ : ∀ (a b : List QualifiedRule) (m : M), after (env.find (searchPath cfg sysPath)) m (a ++ b) =
      after (env.find (searchPath cfg sysPath)) (after (env.find (searchPath cfg sysPath)) m a) b := by
    intro a
    induction a with
    | nil => intro b m; rfl
    | cons x xs ih => intro b m; exact ih b _
  rw [happ] at hfail
  unfold disableOne
  rw [hd, hfail]
  exact ⟨rfl, rfl, rfl, hd.symm⟩

/-! ### C30: sys.path -/

omit [DecidableEq K] in
theorem removeFirst_append (x : PStr) (l : List PStr) (h : x ∉ l) : removeFirst x (l ++ [x]) = l := by
  induction l with
  | nil => simp [removeFirst]
  | cons y ys ih =>
    rw [List.mem_cons, not_or] at h
    simp only [List.cons_append, removeFirst]
    rw [if_neg (fun e => h.1 e.symm), ih h.2]

/-- **C30** When `collect_rules` returns, `sys.path` is what it was. -/
theorem C30_sys_path_restored (cfg : Config V) (sysPath sysPath' : List PStr) (mods : M) (r : Collected K M)
    (h : collectRules env order cfg sysPath mods = (.ok r, sysPath')) : sysPath' = sysPath := by
  unfold collectRules at h
  rw [importDir_eq] at h
  cases hd : extraDir cfg with
  | none => rw [hd] at h; simp only [Prod.mk.injEq] at h; exact h.2.symm
  | some p =>
    rw [hd] at h
    simp only [appendSysPath] at h
    split at h
    · simp only [Prod.mk.injEq] at h; exact h.2.symm
    · rename_i hn
      cases hb : collectBody env order cfg mods (sysPath ++ [asPosix p]) with
      | error e => rw [hb] at h; simp at h
      | ok a =>
        rw [hb] at h
        simp only [Prod.mk.injEq] at h
        rw [← h.2]
        exact removeFirst_append _ _ hn

/-- **C30** (finding) When it raises, a root import directory that was not on `sys.path` stays there. -/
theorem C30_sys_path_leaks_on_error (cfg : Config V) (sysPath sysPath' : List PStr) (mods : M) (e : Err) (p : Path)
    (hp : extraDir cfg = some p) (hn : asPosix p ∉ sysPath)
    (h : collectRules env order cfg sysPath mods = (.error e, sysPath')) : sysPath' = sysPath ++ [asPosix p] := by
  unfold collectRules at h
  rw [importDir_eq, hp] at h
  simp only [appendSysPath, if_neg hn] at h
  cases hb : collectBody env order cfg mods (sysPath ++ [asPosix p]) with
  | error e => rw [hb] at h; simp only [Prod.mk.injEq] at h; exact h.2.symm
  | ok a => rw [hb] at h; simp at h

end

end Fixit
