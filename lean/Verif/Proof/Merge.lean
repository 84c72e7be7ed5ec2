import Verif.Proof.Config

/-! The merge loop as a fold over the applicable sections. -/

namespace Fixit
open Py Spec

theorem bind_ok {α β : Type} {x : Except Err α} {f : α → Except Err β} {b : β} :
    (x >>= f) = .ok b ↔ ∃ a, x = .ok a ∧ f a = .ok b := by
  cases x with
  | error e => simp [bind, Except.bind]
  | ok a => simp [bind, Except.bind]

theorem pure_ok {α : Type} {a b : α} : (pure a : Except Err α) = .ok b ↔ a = b := by
  simp [pure, Except.pure]

/-- A raw config as a specification file. -/
def RawConfig.file (c : RawConfig) : File := ⟨c.dir, c.data⟩

variable {V : Type} (env : CfgEnv V) (path : Path)

/-- Applying sections one after the other. -/
def applySections : List Section → Merged V → Except Err (Merged V)
  | [], m => .ok m
  | s :: ss, m => do applySections ss (← applySection env path s m)

theorem applySections_append (l₁ l₂ : List Section) (m : Merged V) :
    applySections env path (l₁ ++ l₂) m = (do applySections env path l₂ (← applySections env path l₁ m)) := by
  induction l₁ generalizing m with
  | nil => rfl
  | cons s ss ih => simp only [List.cons_append, applySections, bind_assoc, ih]

theorem applyOverride_ok {dir : Path} {o : Toml} {m m' : Merged V} (h : applyOverride env path dir o m = .ok m') :
    ∃ s, overrideSection dir o = some s ∧ applySection env path s m = .ok m' := by
  cases o with
  | tbl o =>
    simp only [applyOverride] at h
    cases hp : dget (py "path") o with
    | none => rw [hp] at h; simp at h
    | some p =>
      rw [hp] at h; simp only at h
      split at h
      · rw [bind_ok] at h
        obtain ⟨sub, hs, h⟩ := h
        cases p with
        | str s =>
          simp only [overridePath, Except.ok.injEq] at hs
          subst hs
          rw [dget_eq_field] at hp
          exact ⟨_, by simp only [overrideSection, hp], h⟩
        | _ => simp [overridePath] at hs
      · simp at h
  | _ => simp [applyOverride] at h

theorem applyOverrides_ok {dir : Path} {os : List Toml} {m m' : Merged V} (h : applyOverrides env path dir os m = .ok m') :
    applySections env path (os.filterMap (overrideSection dir)) m = .ok m' := by
  induction os generalizing m with
  | nil => exact h
  | cons o os ih =>
    simp only [applyOverrides] at h
    rw [bind_ok] at h
    obtain ⟨m1, h1, h2⟩ := h
    obtain ⟨s, hs, h1⟩ := applyOverride_ok env path h1
    rw [List.filterMap_cons, hs]
    simp only [applySections]
    rw [bind_ok]
    exact ⟨m1, h1, ih h2⟩

/-- What a successful iteration of the merge loop did. -/
structure StepOK (c : RawConfig) (s s' : MState V) : Prop where
  root : s'.root = some (stepRoot c s.root)
  rootImport : rootImportOf (stepRoot c s.root) c.dir s.rootImport (truthyField (py "enable-root-import") c.data) = .ok s'.rootImport
  format : outputFormatOf s.outputFormat (truthyField (py "output-format") c.data) = .ok s'.outputFormat
  template : s'.outputTemplate = (truthyField (py "output-template") c.data).getD s.outputTemplate
  merged : applySections env path (sections c.file) s.merged = .ok s'.merged
  warnings : s'.warnings = s.warnings ++ (unknownPart c.data).map (·.1)

theorem mergeStep_ok {c : RawConfig} {s s' : MState V} (h : mergeStep env path c s = .ok s') : StepOK env path c s s' := by
  rw [mergeStep_eq] at h
  simp only [bind_ok, pure_ok] at h
  obtain ⟨ri, h1, fmt, h2, m, h3, os, h4, m', h5, rfl⟩ := h
  refine ⟨rfl, h1, h2, rfl, ?_, rfl⟩
  show applySections env path (_ :: _) _ = _
  simp only [applySections]
  rw [bind_ok]
  refine ⟨m, h3, ?_⟩
  have := applyOverrides_ok env path h5
  rw [dget_eq_field] at h4
  simp only [RawConfig.file]
  cases hf : field (py "overrides") c.data with
  | none =>
    rw [hf] at h4; simp only [asSequence, Except.ok.injEq] at h4; subst h4
    simpa using this
  | some v =>
    rw [hf] at h4
    cases v with
    | arr l => simp only [asSequence, Except.ok.injEq] at h4; subst h4; exact this
    | _ => simp [asSequence] at h4

/-- Sections that do not contain the target can be dropped. -/
theorem applySection_skip {s : Section} {m m' : Merged V} (hs : ¬ s.scope.isPrefixOf path = true)
    (h : applySection env path s m = .ok m') : m' = m := by
  unfold applySection at h
  rw [bind_ok] at h
  obtain ⟨t, -, h⟩ := h
  unfold processSubpath Path.under at h
  rw [if_neg hs] at h
  cases h; rfl

theorem applySections_filter {l : List Section} {m m' : Merged V} (h : applySections env path l m = .ok m') :
    applySections env path (l.filter (fun s => s.scope.isPrefixOf path)) m = .ok m' := by
  induction l generalizing m with
  | nil => exact h
  | cons s ss ih =>
    simp only [applySections] at h
    rw [bind_ok] at h
    obtain ⟨m1, h1, h2⟩ := h
    rw [List.filter_cons]
    split
    · simp only [applySections]; rw [bind_ok]; exact ⟨m1, h1, ih h2⟩
    · rename_i hs
      rw [applySection_skip env path hs h1] at h2
      exact ih h2

/-- The merge loop's effect on everything `process_subpath` touches. -/
theorem mergeLoop_merged {cs : List RawConfig} {s s' : MState V} (h : mergeLoop env path cs s = .ok s') :
    applySections env path (cs.flatMap (fun c => sections c.file)) s.merged = .ok s'.merged := by
  induction cs generalizing s with
  | nil => simp only [mergeLoop, Except.ok.injEq] at h; subst h; rfl
  | cons c cs ih =>
    simp only [mergeLoop] at h
    rw [bind_ok] at h
    obtain ⟨s1, h1, h2⟩ := h
    rw [List.flatMap_cons, applySections_append, bind_ok]
    exact ⟨s1.merged, (mergeStep_ok env path h1).merged, ih h2⟩

/-- The files of a stack. -/
def files (raw : List RawConfig) : List File := raw.map RawConfig.file

theorem mergeConfigs_ok {order : List QualifiedRule → List QualifiedRule} {raw : List RawConfig} {root : Option Path}
    {cfg : Config V} {w : List PStr} (h : mergeConfigs env order path raw root = .ok (cfg, w)) :
    ∃ s, mergeLoop env path raw.reverse (mergeInit env root) = .ok s ∧ cfg = mergeFinish order path s ∧ w = s.warnings ∧
      applySections env path (applicable path (files raw)) (mergeInit env root).merged = .ok s.merged := by
  unfold mergeConfigs at h
  rw [bind_ok] at h
  obtain ⟨s, hs, h⟩ := h
  rw [pure_ok] at h
  simp only [Prod.mk.injEq] at h
  refine ⟨s, hs, h.1.symm, h.2.symm, ?_⟩
  have := applySections_filter env path (mergeLoop_merged env path hs)
  unfold applicable files
  rw [← List.map_reverse, List.flatMap_map]
  exact this

/-! ## One applicable section -/

/-- A section in whose scope the target lies was applied: what happened. -/
structure SectionOK (sec : Section) (m m' : Merged V) : Prop where
  ex : ∃ (t : Table) (m1 m2 : Merged V), tableOf sec.table = .ok t ∧ enableLoop sec.dir t.enable m = .ok m1 ∧
    disableLoop sec.dir t.disable m1 = .ok m2 ∧ m'.enable = m2.enable ∧ m'.disable = m2.disable ∧
    m'.options = dictUpdate m.options t.options ∧
    (match t.pyver with
      | none => m'.pyver = m.pyver
      | some v => if v.truthy then ∃ x, versionOf env v = .ok x ∧ m'.pyver = some x else m'.pyver = none) ∧
    (match t.formatter with
      | none => m'.formatter = m.formatter
      | some v => if v.truthy then ∃ x, formatterOf env v = .ok x ∧ m'.formatter = some x else m'.formatter = m.formatter)

theorem enableLoop_other {dir : Path} {ts : List Toml} {m m' : Merged V} (h : enableLoop dir ts m = .ok m') :
    m'.options = m.options ∧ m'.pyver = m.pyver ∧ m'.formatter = m.formatter := by
  induction ts generalizing m with
  | nil => cases h; exact ⟨rfl, rfl, rfl⟩
  | cons t ts ih =>
    simp only [enableLoop] at h
    rw [bind_ok] at h
    obtain ⟨q, -, h⟩ := h
    have := ih h
    exact this

theorem disableLoop_other {dir : Path} {ts : List Toml} {m m' : Merged V} (h : disableLoop dir ts m = .ok m') :
    m'.options = m.options ∧ m'.pyver = m.pyver ∧ m'.formatter = m.formatter := by
  induction ts generalizing m with
  | nil => cases h; exact ⟨rfl, rfl, rfl⟩
  | cons t ts ih =>
    simp only [disableLoop] at h
    rw [bind_ok] at h
    obtain ⟨q, -, h⟩ := h
    have := ih h
    exact this

theorem applySection_ok {sec : Section} {m m' : Merged V} (hs : sec.scope.isPrefixOf path = true)
    (h : applySection env path sec m = .ok m') : SectionOK env sec m m' := by
  unfold applySection at h
  rw [bind_ok] at h
  obtain ⟨t, ht, h⟩ := h
  unfold processSubpath Path.under at h
  rw [if_pos hs] at h
  simp only [bind_ok] at h
  obtain ⟨m1, h1, m2, h2, m3, h3, h4⟩ := h
  obtain ⟨o1, p1, f1⟩ := enableLoop_other h1
  obtain ⟨o2, p2, f2⟩ := disableLoop_other h2
  refine ⟨t, m1, m2, ht, h1, h2, ?_⟩
  have hv : m3.enable = m2.enable ∧ m3.disable = m2.disable ∧ m3.formatter = m2.formatter ∧
      m3.options = dictUpdate m2.options t.options ∧
      (match t.pyver with
      | none => m3.pyver = m2.pyver
      | some v => if v.truthy then ∃ x, versionOf env v = .ok x ∧ m3.pyver = some x else m3.pyver = none) := by
    unfold setVersion at h3
    cases hv : t.pyver with
    | none => rw [hv] at h3; cases h3; exact ⟨rfl, rfl, rfl, rfl, rfl⟩
    | some v =>
      rw [hv] at h3
      simp only at h3 ⊢
      split at h3
      · rename_i htv
        rw [bind_ok] at h3
        obtain ⟨x, hx, h3⟩ := h3
        rw [pure_ok] at h3; subst h3
        rw [if_pos htv]
        exact ⟨rfl, rfl, rfl, rfl, x, hx, rfl⟩
      · rename_i htv
        cases h3
        rw [if_neg htv]
        exact ⟨rfl, rfl, rfl, rfl, rfl⟩
  obtain ⟨a, b, c, d, e⟩ := hv
  have hf : m'.enable = m3.enable ∧ m'.disable = m3.disable ∧ m'.pyver = m3.pyver ∧ m'.options = m3.options ∧
      (match t.formatter with
      | none => m'.formatter = m3.formatter
      | some v => if v.truthy then ∃ x, formatterOf env v = .ok x ∧ m'.formatter = some x else m'.formatter = m3.formatter) := by
    unfold setFormatter at h4
    cases hv : t.formatter with
    | none => rw [hv] at h4; cases h4; exact ⟨rfl, rfl, rfl, rfl, rfl⟩
    | some v =>
      rw [hv] at h4
      simp only at h4 ⊢
      split at h4
      · rename_i htv
        rw [bind_ok] at h4
        obtain ⟨x, hx, h4⟩ := h4
        rw [pure_ok] at h4; subst h4
        rw [if_pos htv]
        exact ⟨rfl, rfl, rfl, rfl, x, hx, rfl⟩
      · rename_i htv
        cases h4
        rw [if_neg htv]
        exact ⟨rfl, rfl, rfl, rfl, rfl⟩
  obtain ⟨a', b', c', d', e'⟩ := hf
  refine ⟨a'.trans a, b'.trans b, ?_, ?_, ?_⟩
  · rw [d', d, o2, o1]
  · rw [c']; rw [p2, p1] at e; exact e
  · rw [c, f2, f1] at e'; exact e'

/-! ## nearest -/

theorem nearest_nil {α β : Type} (f : α → Option β) : nearest f [] = none := rfl

theorem nearest_cons {α β : Type} (f : α → Option β) (a : α) (l : List α) :
    nearest f (a :: l) = (nearest f l).or (f a) := by
  unfold nearest
  rw [List.filterMap_cons]
  cases h : f a with
  | none => cases (l.filterMap f).getLast? <;> rfl
  | some b =>
    simp only
    cases hl : l.filterMap f with
    | nil => rfl
    | cons c cs =>
      rw [List.getLast?_cons_cons]
      cases h' : (c :: cs).getLast? with
      | none => simp at h'
      | some x => rfl

theorem nearest_append {α β : Type} (f : α → Option β) (l l' : List α) :
    nearest f (l ++ l') = (nearest f l').or (nearest f l) := by
  induction l with
  | nil => simp [nearest_nil]
  | cons a l ih => rw [List.cons_append, nearest_cons, ih, nearest_cons, Option.or_assoc]

end Fixit
