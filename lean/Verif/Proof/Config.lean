import Verif.Model.Config
import Verif.Spec.Config
import Verif.Props.Refs

/-! Helper lemmas on merging. -/

namespace Fixit
open Py Spec

/-! ## dict -/

theorem dget_eq_field (k : PStr) (d : Dict) : dget k d = field k d := by
  induction d with
  | nil => rfl
  | cons e es ih =>
    obtain ⟨k', v⟩ := e
    unfold dget at *
    by_cases h : k' = k <;> simp_all [field]

theorem dget_ddel_ne {k k' : PStr} (h : k ≠ k') (d : Dict) : dget k (ddel k' d) = dget k d := by
  induction d with
  | nil => rfl
  | cons e es ih =>
    obtain ⟨a, v⟩ := e
    rw [dget_eq_field, dget_eq_field] at *
    by_cases h1 : a = k'
    · have : ddel k' ((a, v) :: es) = ddel k' es := by simp [ddel, h1]
      rw [this, ih]
      have : a ≠ k := by rw [h1]; exact fun e => h e.symm
      simp [field, this]
    · have : ddel k' ((a, v) :: es) = (a, v) :: ddel k' es := by simp [ddel, h1]
      rw [this]
      simp only [field]
      split
      · rfl
      · exact ih

theorem ddel_ne_nil {k k' : PStr} (h : k ≠ k') {d : Dict} {v : Toml} (hd : dget k d = some v) : ddel k' d ≠ [] := by
  intro e
  have := dget_ddel_ne h d
  rw [e, hd] at this
  simp [dget] at this

theorem popFrom_some (key : PStr) (cfg o : Dict) (h : o ≠ []) :
    popFrom key cfg (some o) = (dget key o, cfg, some (ddel key o)) := by
  cases o with
  | nil => exact absurd rfl h
  | cons e es => rfl

/-! ## Tables -/

/-- The settings of a table that `process_subpath` receives. -/
def tableOf (d : Dict) : Except Err Table := do
  let en ← asSequence (py "enable") (dget (py "enable") d)
  let dis ← asSequence (py "disable") (dget (py "disable") d)
  let opts ← asOptions (py "options") (dget (py "options") d)
  return { enable := en, disable := dis, options := opts, pyver := dget (py "python-version") d, formatter := dget (py "formatter") d }

/-- The keys popped before `process_subpath` is called on the main table. -/
def del5 (d : Dict) : Dict :=
  ddel (py "formatter") (ddel (py "python-version") (ddel (py "options") (ddel (py "disable") (ddel (py "enable") d))))

theorem mainTable_eq (d : Dict) : mainTable d = (do let t ← tableOf d; return (t, del5 d)) := by
  simp only [mainTable, tableOf, getSequence, getOptions, popFrom, bind_assoc, pure_bind, del5]
  rw [dget_ddel_ne (k := py "disable") (by decide)]
  rw [dget_ddel_ne (k := py "options") (by decide), dget_ddel_ne (k := py "options") (by decide)]
  rw [dget_ddel_ne (k := py "python-version") (by decide), dget_ddel_ne (k := py "python-version") (by decide),
    dget_ddel_ne (k := py "python-version") (by decide)]
  rw [dget_ddel_ne (k := py "formatter") (by decide), dget_ddel_ne (k := py "formatter") (by decide),
    dget_ddel_ne (k := py "formatter") (by decide), dget_ddel_ne (k := py "formatter") (by decide)]

theorem overrideTable_eq (data o : Dict) (p : Toml) (hp : dget (py "path") o = some p) :
    overrideTable data o = (do let t ← tableOf o; return (t, data)) := by
  have hne : o ≠ [] := by intro e; rw [e] at hp; simp [dget] at hp
  have h1 : ddel (py "enable") o ≠ [] := ddel_ne_nil (by decide) hp
  have hp1 : dget (py "path") (ddel (py "enable") o) = some p := by rw [dget_ddel_ne (by decide)]; exact hp
  have h2 : ddel (py "disable") (ddel (py "enable") o) ≠ [] := ddel_ne_nil (by decide) hp1
  simp only [overrideTable, tableOf, getSequence, getOptions, popFrom_some _ _ _ hne, popFrom_some _ _ _ h1,
    popFrom_some _ _ _ h2, bind_assoc, pure_bind, Option.getD_some]
  rw [dget_ddel_ne (k := py "disable") (by decide)]
  rw [dget_ddel_ne (k := py "options") (by decide), dget_ddel_ne (k := py "options") (by decide)]
  rw [dget_ddel_ne (k := py "python-version") (by decide), dget_ddel_ne (k := py "python-version") (by decide),
    dget_ddel_ne (k := py "python-version") (by decide)]
  rw [dget_ddel_ne (k := py "formatter") (by decide), dget_ddel_ne (k := py "formatter") (by decide),
    dget_ddel_ne (k := py "formatter") (by decide), dget_ddel_ne (k := py "formatter") (by decide)]

variable {V : Type} (env : CfgEnv V) (path : Path)

/-- Reading and applying one section. -/
def applySection (s : Section) (m : Merged V) : Except Err (Merged V) := do
  let t ← tableOf s.table
  processSubpath env path s.dir s.scope t m

/-- Applying one override entry. -/
def applyOverride (dir : Path) (o : Toml) (m : Merged V) : Except Err (Merged V) :=
  match o with
  | .tbl o =>
    match dget (py "path") o with
    | none => .error (.config [.text (py "'overrides' table requires 'path' value")])
    | some p =>
      if p.truthy then do
        let sub ← overridePath dir p
        applySection env path ⟨dir, sub, o⟩ m
      else .error (.config [.text (py "'overrides' table requires 'path' value")])
  | _ => .error (.config [.text (py "'overrides' requires array of tables")])

theorem processOverride_eq (dir : Path) (o : Toml) (m : Merged V) (data : Dict) :
    processOverride env path dir o (m, data) = (do let m ← applyOverride env path dir o m; return (m, data)) := by
  cases o with
  | tbl o =>
    simp only [processOverride, applyOverride]
    cases hp : dget (py "path") o with
    | none => rfl
    | some p =>
      simp only
      split
      · simp only [overrideTable_eq data o p hp, applySection, bind_assoc, pure_bind]
      · rfl
  | _ => rfl

/-- Applying all override entries. -/
def applyOverrides (dir : Path) : List Toml → Merged V → Except Err (Merged V)
  | [], m => .ok m
  | o :: os, m => do applyOverrides dir os (← applyOverride env path dir o m)

theorem overrideLoop_eq (dir : Path) (os : List Toml) : ∀ (m : Merged V) (data : Dict),
    overrideLoop env path dir os (m, data) = (do let m ← applyOverrides env path dir os m; return (m, data)) := by
  induction os with
  | nil => intro m data; rfl
  | cons o os ih =>
    intro m data
    rw [overrideLoop, processOverride_eq]
    simp only [applyOverrides, bind_assoc, pure_bind, ih]

/-- All known keys of the main table removed. -/
def unknownPart (d : Dict) : Dict :=
  ddel (py "overrides") (del5 (ddel (py "output-template") (ddel (py "output-format") (ddel (py "enable-root-import") (ddel (py "root") d)))))

theorem popTruthy_ddel {k k' : PStr} (h : k ≠ k') (d : Dict) : popTruthy k (ddel k' d) = popTruthy k d := by
  unfold popTruthy; rw [dget_ddel_ne h]

theorem popTruthy_eq (k : PStr) (d : Dict) : popTruthy k d = truthyField k d := by
  unfold popTruthy truthyField
  rw [dget_eq_field]
  cases field k d with
  | none => rfl
  | some v => simp [Option.filter]

theorem dget_del5 {k : PStr} (h : k ∉ [py "enable", py "disable", py "options", py "python-version", py "formatter"]) (d : Dict) :
    dget k (del5 d) = dget k d := by
  simp only [List.mem_cons, List.not_mem_nil, or_false, not_or] at h
  obtain ⟨a, b, c, e, f⟩ := h
  unfold del5
  rw [dget_ddel_ne f, dget_ddel_ne e, dget_ddel_ne c, dget_ddel_ne b, dget_ddel_ne a]

/-- Deletions commute with lookups of other keys, for `tableOf`. -/
theorem tableOf_ddel {k : PStr} (h : k ∉ [py "enable", py "disable", py "options", py "python-version", py "formatter"]) (d : Dict) :
    tableOf (ddel k d) = tableOf d := by
  simp only [List.mem_cons, List.not_mem_nil, or_false, not_or] at h
  obtain ⟨a, b, c, e, f⟩ := h
  unfold tableOf
  rw [dget_ddel_ne (Ne.symm a), dget_ddel_ne (Ne.symm b), dget_ddel_ne (Ne.symm c), dget_ddel_ne (Ne.symm e), dget_ddel_ne (Ne.symm f)]

/-- The root in force while a config is processed. -/
def stepRoot (c : RawConfig) (root : Option Path) : Path :=
  if (truthyField (py "root") c.data).isSome then c.dir else root.getD c.dir

/-- `mergeStep` in terms of the user's table. -/
theorem mergeStep_eq (c : RawConfig) (s : MState V) :
    mergeStep env path c s = (do
      let ri ← rootImportOf (stepRoot c s.root) c.dir s.rootImport (truthyField (py "enable-root-import") c.data)
      let fmt ← outputFormatOf s.outputFormat (truthyField (py "output-format") c.data)
      let m ← applySection env path ⟨c.dir, c.dir, c.data⟩ s.merged
      let os ← asSequence (py "overrides") (dget (py "overrides") c.data)
      let m ← applyOverrides env path c.dir os m
      return { root := some (stepRoot c s.root), rootImport := ri, outputFormat := fmt,
               outputTemplate := (truthyField (py "output-template") c.data).getD s.outputTemplate,
               merged := m, warnings := s.warnings ++ (unknownPart c.data).map (·.1) }) := by
  have e1 : popTruthy (py "enable-root-import") (ddel (py "root") c.data) = truthyField (py "enable-root-import") c.data := by
    rw [popTruthy_ddel (by decide), popTruthy_eq]
  have e2 : popTruthy (py "output-format") (ddel (py "enable-root-import") (ddel (py "root") c.data)) = truthyField (py "output-format") c.data := by
    rw [popTruthy_ddel (by decide), popTruthy_ddel (by decide), popTruthy_eq]
  have e3 : popTruthy (py "output-template") (ddel (py "output-format") (ddel (py "enable-root-import") (ddel (py "root") c.data))) = truthyField (py "output-template") c.data := by
    rw [popTruthy_ddel (by decide), popTruthy_ddel (by decide), popTruthy_ddel (by decide), popTruthy_eq]
  have e4 : tableOf (ddel (py "output-template") (ddel (py "output-format") (ddel (py "enable-root-import") (ddel (py "root") c.data)))) = tableOf c.data := by
    rw [tableOf_ddel (by decide), tableOf_ddel (by decide), tableOf_ddel (by decide), tableOf_ddel (by decide)]
  have e5 : dget (py "overrides") (del5 (ddel (py "output-template") (ddel (py "output-format") (ddel (py "enable-root-import") (ddel (py "root") c.data))))) = dget (py "overrides") c.data := by
    rw [dget_del5 (by decide), dget_ddel_ne (by decide), dget_ddel_ne (by decide), dget_ddel_ne (by decide), dget_ddel_ne (by decide)]
  simp only [mergeStep, e1, e2, e3, mainTable_eq, e4, getSequence, popFrom, bind_assoc, pure_bind, e5, overrideLoop_eq, applySection,
    popTruthy_eq, stepRoot, unknownPart]

end Fixit
