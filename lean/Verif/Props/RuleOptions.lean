import Verif.Props.ConfigErrors
import Verif.Props.Walk
import Verif.Props.CommandsCases

/-!
# C133: the options of rules do not reach the rules
-/

namespace Spec
open Py
open Fixit (Toml Path Config Outside)

/-- A section with an empty table in place of its options. -/
def emptied (d : List (PStr × Toml)) : List (PStr × Toml) := d.map (fun e => if e.1 = py "options" then (e.1, Toml.tbl []) else e)

/-- The same in an override. -/
def emptiedOverride : Toml → Toml
  | .tbl o => .tbl (emptied o)
  | t => t

/-- The same in every override. -/
def emptiedOverrides : Toml → Toml
  | .arr l => .arr (l.map emptiedOverride)
  | t => t

/-- The fixit table of a file with all options of rules taken out, those of the overrides too. -/
def emptiedTable (d : List (PStr × Toml)) : List (PStr × Toml) :=
  (emptied d).map (fun e => if e.1 = py "overrides" then (e.1, emptiedOverrides e.2) else e)

/-- The value of `tool.fixit` with all options of rules taken out. -/
def emptiedFixit : Toml → Toml
  | .tbl d => .tbl (emptiedTable d)
  | v => v

/-- The value of `tool` with all options of rules taken out. -/
def emptiedTool : Toml → Toml
  | .tbl t => .tbl (t.map (fun e => if e.1 = py "fixit" then (e.1, emptiedFixit e.2) else e))
  | v => v

/-- A whole file with all options of rules taken out. -/
def emptiedFile (data : List (PStr × Toml)) : List (PStr × Toml) := data.map (fun e => if e.1 = py "tool" then (e.1, emptiedTool e.2) else e)

/-- The options of a section are a table of tables of strings and numbers, or there are none. -/
def GoodOptions (d : List (PStr × Toml)) : Prop :=
  ∀ v, field (py "options") d = some v → ∃ t, v = .tbl t ∧ ∀ e ∈ t, ∃ o, e.2 = .tbl o ∧ ∀ x ∈ o, (∃ s, x.2 = .str s) ∨ (∃ n, x.2 = .int n) ∨ (∃ n, x.2 = .float n) ∨ ∃ b, x.2 = .bool b

/-- So are those of a fixit table and of its overrides. -/
def GoodTable (d : List (PStr × Toml)) : Prop := GoodOptions d ∧ ∀ o, Toml.tbl o ∈ elems (field (py "overrides") d) → GoodOptions o

/-- So are those in a file. -/
def GoodFile (data : List (PStr × Toml)) : Prop := ∀ t d, field (py "tool") data = some (.tbl t) → field (py "fixit") t = some (.tbl d) → GoodTable d

end Spec

namespace Fixit
open Py Spec

variable {V : Type} (env : CfgEnv V) (path : Path) (order : List QualifiedRule → List QualifiedRule)

/-! ## Merging -/

/-- What is merged, with no options. -/
def Merged.cleared (m : Merged V) : Merged V := { m with options := [] }

theorem enableLoop_cleared (dir : Path) (ts : List Toml) : ∀ m : Merged V, enableLoop dir ts m.cleared = (enableLoop dir ts m).map Merged.cleared := by
  induction ts with
  | nil => intro m; rfl
  | cons t ts ih =>
    intro m
    simp only [enableLoop]
    cases parseRuleToml dir t with
    | error e => rfl
    | ok q => exact ih { m with enable := setAdd QualifiedRule.key q m.enable, disable := setDiscard QualifiedRule.key q m.disable }

theorem disableLoop_cleared (dir : Path) (ts : List Toml) : ∀ m : Merged V, disableLoop dir ts m.cleared = (disableLoop dir ts m).map Merged.cleared := by
  induction ts with
  | nil => intro m; rfl
  | cons t ts ih =>
    intro m
    simp only [disableLoop]
    cases parseRuleToml dir t with
    | error e => rfl
    | ok q => exact ih { m with enable := setDiscard QualifiedRule.key q m.enable, disable := setAdd QualifiedRule.key q m.disable }

theorem setVersion_cleared (v : Option Toml) (m : Merged V) : setVersion env v m.cleared = (setVersion env v m).map Merged.cleared := by
  cases v with
  | none => rfl
  | some t =>
    simp only [setVersion]
    split
    · cases versionOf env t <;> rfl
    · rfl

theorem setFormatter_cleared (v : Option Toml) (m : Merged V) : setFormatter env v m.cleared = (setFormatter env v m).map Merged.cleared := by
  cases v with
  | none => rfl
  | some t =>
    simp only [setFormatter]
    split
    · cases formatterOf env t <;> rfl
    · rfl

theorem processSubpath_cleared (dir sub : Path) (t : Table) (m : Merged V) :
    processSubpath env path dir sub { t with options := [] } m.cleared = (processSubpath env path dir sub t m).map Merged.cleared := by
  simp only [processSubpath]
  split
  · rw [enableLoop_cleared]
    cases enableLoop dir t.enable m with
    | error e => rfl
    | ok m1 =>
      simp only [Except.map, bind, Except.bind]
      rw [disableLoop_cleared]
      cases disableLoop dir t.disable m1 with
      | error e => rfl
      | ok m2 =>
        simp only [Except.map]
        have h := setVersion_cleared env t.pyver { m2 with options := dictUpdate m2.options t.options }
        have h0 : ({ m2.cleared with options := dictUpdate m2.cleared.options [] } : Merged V) = Merged.cleared { m2 with options := dictUpdate m2.options t.options } := rfl
        rw [h0, h]
        cases setVersion env t.pyver { m2 with options := dictUpdate m2.options t.options } with
        | error e => rfl
        | ok m3 => exact setFormatter_cleared env t.formatter m3
  · rfl

theorem dget_map_other {k : PStr} {f : PStr × Toml → PStr × Toml} (hk : ∀ e, (f e).1 = e.1) (hf : ∀ e, e.1 = k → f e = e) (d : Dict) : dget k (d.map f) = dget k d := by
  rw [dget_eq_field, dget_eq_field]
  induction d with
  | nil => rfl
  | cons e es ih =>
    obtain ⟨a, v⟩ := e
    by_cases h : a = k
    · rw [List.map_cons, hf (a, v) h]
      simp [field, h]
    · have h1 : (f (a, v)).1 = a := hk (a, v)
      rw [List.map_cons]
      simp only [field, h1, h, if_false]
      exact ih

theorem dget_map_same {k : PStr} {f : PStr × Toml → PStr × Toml} {g : Toml → Toml} (hk : ∀ e, (f e).1 = e.1) (hf : ∀ v, f (k, v) = (k, g v)) (d : Dict) : dget k (d.map f) = (dget k d).map g := by
  rw [dget_eq_field, dget_eq_field]
  induction d with
  | nil => rfl
  | cons e es ih =>
    obtain ⟨a, v⟩ := e
    by_cases h : a = k
    · subst h
      rw [List.map_cons, hf]
      simp [field]
    · have h1 : (f (a, v)).1 = a := hk (a, v)
      rw [List.map_cons]
      simp only [field, h1, h, if_false]
      exact ih

theorem dget_emptied {k : PStr} (hk : k ≠ py "options") (d : Dict) : dget k (emptied d) = dget k d := by
  refine dget_map_other (fun e => ?_) (fun e he => ?_) d
  · split <;> rfl
  · rw [if_neg (by rw [he]; exact hk)]

theorem dget_emptied_options (d : Dict) : dget (py "options") (emptied d) = (dget (py "options") d).map (fun _ => Toml.tbl []) := by
  refine dget_map_same (fun e => ?_) (fun v => ?_) d
  · split <;> rfl
  · rw [if_pos rfl]

theorem scalarOptions_good {o : Dict} (h : ∀ x ∈ o, (∃ s, x.2 = Toml.str s) ∨ (∃ n, x.2 = .int n) ∨ (∃ n, x.2 = .float n) ∨ ∃ b, x.2 = .bool b) : ∃ l, scalarOptions o = .ok l := by
  induction o with
  | nil => exact ⟨[], rfl⟩
  | cons x xs ih =>
    obtain ⟨l, hl⟩ := ih (fun y hy => h y (by simp [hy]))
    obtain ⟨k, v⟩ := x
    have := h (k, v) (by simp)
    simp only at this
    obtain ⟨s, rfl⟩ | ⟨s, rfl⟩ | ⟨s, rfl⟩ | ⟨s, rfl⟩ := this <;> simp only [scalarOptions, Toml.toOptVal, hl] <;> exact ⟨_, rfl⟩

theorem optionTables_good {t : Dict} (h : ∀ e ∈ t, ∃ o, e.2 = Toml.tbl o ∧ ∀ x ∈ o, (∃ s, x.2 = Toml.str s) ∨ (∃ n, x.2 = .int n) ∨ (∃ n, x.2 = .float n) ∨ ∃ b, x.2 = .bool b) :
    ∃ l, optionTables t = .ok l := by
  induction t with
  | nil => exact ⟨[], rfl⟩
  | cons e es ih =>
    obtain ⟨l, hl⟩ := ih (fun y hy => h y (by simp [hy]))
    obtain ⟨k, v⟩ := e
    obtain ⟨o, ho, hx⟩ := h (k, v) (by simp)
    simp only at ho
    subst ho
    obtain ⟨l', hl'⟩ := scalarOptions_good hx
    simp only [optionTables, hl, hl']
    exact ⟨_, rfl⟩

theorem asOptions_good {d : Dict} (h : GoodOptions d) : ∃ l, asOptions (py "options") (dget (py "options") d) = .ok l := by
  rw [dget_eq_field]
  cases hv : field (py "options") d with
  | none => exact ⟨[], rfl⟩
  | some v =>
    obtain ⟨t, rfl, ht⟩ := h v hv
    exact optionTables_good ht

theorem tableOf_emptied {d : Dict} (h : GoodOptions d) : tableOf (emptied d) = (tableOf d).map (fun t => { t with options := [] }) := by
  unfold tableOf
  rw [dget_emptied_options, dget_emptied (by decide), dget_emptied (by decide), dget_emptied (by decide), dget_emptied (by decide)]
  cases asSequence (py "enable") (dget (py "enable") d) with
  | error e => rfl
  | ok en =>
    cases asSequence (py "disable") (dget (py "disable") d) with
    | error e => rfl
    | ok dis =>
      obtain ⟨l, hl⟩ := asOptions_good h
      simp only [hl]
      cases dget (py "options") d <;> rfl

theorem applySection_emptied {d : Dict} (h : GoodOptions d) (dir sub : Path) (m : Merged V) :
    applySection env path ⟨dir, sub, emptied d⟩ m.cleared = (applySection env path ⟨dir, sub, d⟩ m).map Merged.cleared := by
  simp only [applySection, tableOf_emptied h]
  cases tableOf d with
  | error e => rfl
  | ok t => exact processSubpath_cleared env path dir sub t m

theorem applyOverrides_emptied (dir : Path) {os : List Toml} (h : ∀ o, Toml.tbl o ∈ os → GoodOptions o) : ∀ m : Merged V,
    applyOverrides env path dir (os.map emptiedOverride) m.cleared = (applyOverrides env path dir os m).map Merged.cleared := by
  induction os with
  | nil => intro m; rfl
  | cons o os ih =>
    intro m
    have ih := ih (fun o ho => h o (by simp [ho]))
    simp only [List.map_cons, applyOverrides]
    have h1 : applyOverride env path dir (emptiedOverride o) m.cleared = (applyOverride env path dir o m).map Merged.cleared := by
      cases o with
      | tbl d =>
        simp only [emptiedOverride, applyOverride]
        rw [dget_emptied (by decide)]
        cases dget (py "path") d with
        | none => rfl
        | some p =>
          simp only
          split
          · cases overridePath dir p with
            | error e => rfl
            | ok sub => exact applySection_emptied env path (h d (by simp)) dir sub m
          · rfl
      | _ => rfl
    rw [h1]
    cases applyOverride env path dir o m with
    | error e => rfl
    | ok m' => exact ih m'

theorem emptiedTable_other {k : PStr} (hk : k ≠ py "options") (hk' : k ≠ py "overrides") (d : Dict) : dget k (emptiedTable d) = dget k d := by
  unfold emptiedTable
  rw [dget_map_other (fun e => ?_) (fun e he => ?_), dget_emptied hk]
  · split <;> rfl
  · rw [if_neg (by rw [he]; exact hk')]

theorem emptiedTable_overrides (d : Dict) : dget (py "overrides") (emptiedTable d) = (dget (py "overrides") d).map emptiedOverrides := by
  unfold emptiedTable
  rw [dget_map_same (fun e => ?_) (fun v => ?_), dget_emptied (by decide)]
  · split <;> rfl
  · rw [if_pos rfl]

theorem emptiedTable_options (d : Dict) : dget (py "options") (emptiedTable d) = (dget (py "options") d).map (fun _ => Toml.tbl []) := by
  unfold emptiedTable
  rw [dget_map_other (fun e => ?_) (fun e he => ?_), dget_emptied_options]
  · split <;> rfl
  · rw [if_neg (by rw [he]; decide)]

theorem emptiedTable_keys (d : Dict) : (emptiedTable d).map Prod.fst = d.map Prod.fst := by
  unfold emptiedTable emptied
  rw [List.map_map, List.map_map]
  refine List.map_congr_left (fun e _ => ?_)
  simp only [Function.comp_apply]
  repeat' split
  all_goals rfl

/-- A file of the stack with all options of rules taken out. -/
def RawConfig.emptied (c : RawConfig) : RawConfig := ⟨c.path, emptiedTable c.data⟩

/-- The state with no options. -/
def MState.cleared (s : MState V) : MState V := { s with merged := s.merged.cleared }

theorem truthyField_emptied {k : PStr} (hk : k ≠ py "options") (hk' : k ≠ py "overrides") (d : Dict) : truthyField k (emptiedTable d) = truthyField k d := by
  unfold truthyField
  rw [← dget_eq_field, ← dget_eq_field, emptiedTable_other hk hk']

theorem tableOf_emptiedTable {d : Dict} : tableOf (emptiedTable d) = tableOf (emptied d) := by
  unfold tableOf
  rw [emptiedTable_options, dget_emptied_options, emptiedTable_other (by decide) (by decide), emptiedTable_other (by decide) (by decide), emptiedTable_other (by decide) (by decide),
    emptiedTable_other (by decide) (by decide), dget_emptied (by decide), dget_emptied (by decide), dget_emptied (by decide), dget_emptied (by decide)]

theorem ddel_keys (k : PStr) (d : Dict) : (ddel k d).map Prod.fst = (d.map Prod.fst).filter (fun x => x ≠ k) := by
  unfold ddel
  rw [List.filter_map]
  rfl

theorem unknownPart_keys {d d' : Dict} (h : d.map Prod.fst = d'.map Prod.fst) : (unknownPart d).map (·.1) = (unknownPart d').map (·.1) := by
  simp only [unknownPart, del5]
  simp only [ddel_keys, h]

theorem mergeStep_emptied (c : RawConfig) (h : GoodTable c.data) (s : MState V) : mergeStep env path c.emptied s.cleared = (mergeStep env path c s).map MState.cleared := by
  rw [mergeStep_eq, mergeStep_eq]
  have e1 : stepRoot c.emptied s.cleared.root = stepRoot c s.root := by
    unfold stepRoot
    rw [show c.emptied.data = emptiedTable c.data from rfl, truthyField_emptied (by decide) (by decide)]
    rfl
  have e2 : truthyField (py "enable-root-import") c.emptied.data = truthyField (py "enable-root-import") c.data := truthyField_emptied (by decide) (by decide) _
  have e3 : truthyField (py "output-format") c.emptied.data = truthyField (py "output-format") c.data := truthyField_emptied (by decide) (by decide) _
  have e4 : truthyField (py "output-template") c.emptied.data = truthyField (py "output-template") c.data := truthyField_emptied (by decide) (by decide) _
  have e5 : (unknownPart c.emptied.data).map (·.1) = (unknownPart c.data).map (·.1) := unknownPart_keys (emptiedTable_keys c.data)
  have e6 : applySection env path ⟨c.dir, c.dir, c.emptied.data⟩ s.merged.cleared = (applySection env path ⟨c.dir, c.dir, c.data⟩ s.merged).map Merged.cleared := by
    rw [← applySection_emptied env path h.1]
    unfold applySection
    rw [show c.emptied.data = emptiedTable c.data from rfl, tableOf_emptiedTable]
  have e7 : dget (py "overrides") c.emptied.data = (dget (py "overrides") c.data).map emptiedOverrides := emptiedTable_overrides c.data
  rw [e1, e2, e3, e4, e5, e7, show c.emptied.dir = c.dir from rfl, show s.cleared.merged = s.merged.cleared from rfl, e6, show s.cleared.rootImport = s.rootImport from rfl,
    show s.cleared.outputFormat = s.outputFormat from rfl, show s.cleared.outputTemplate = s.outputTemplate from rfl, show s.cleared.warnings = s.warnings from rfl]
  cases rootImportOf (stepRoot c s.root) c.dir s.rootImport (truthyField (py "enable-root-import") c.data) with
  | error e => rfl
  | ok ri =>
    cases outputFormatOf s.outputFormat (truthyField (py "output-format") c.data) with
    | error e => rfl
    | ok fmt =>
      cases applySection env path ⟨c.dir, c.dir, c.data⟩ s.merged with
      | error e => rfl
      | ok m =>
        have hov := h.2
        rw [← dget_eq_field] at hov
        cases hv : dget (py "overrides") c.data with
        | none => rfl
        | some v =>
          rw [hv] at hov
          cases v with
          | arr os =>
            have h2 := applyOverrides_emptied env path c.dir (os := os) hov m
            simp only [Option.map, emptiedOverrides, asSequence, bind, Except.bind, Except.map] at h2 ⊢
            rw [h2]
            cases applyOverrides env path c.dir os m <;> rfl
          | _ => rfl

theorem mergeLoop_emptied (cs : List RawConfig) (h : ∀ c ∈ cs, GoodTable c.data) : ∀ s : MState V,
    mergeLoop env path (cs.map RawConfig.emptied) s.cleared = (mergeLoop env path cs s).map MState.cleared := by
  induction cs with
  | nil => intro s; rfl
  | cons c cs ih =>
    intro s
    simp only [List.map_cons, mergeLoop]
    rw [mergeStep_emptied env path c (h c (by simp))]
    cases mergeStep env path c s with
    | error e => rfl
    | ok s' => exact ih (fun c hc => h c (by simp [hc])) s'

/-- The configuration with no options of rules. -/
def Config.cleared (c : Config V) : Config V := { c with options := [] }

/-- **C133** Taking the options of rules out of the files of a stack takes them out of the merged configuration, and changes nothing else in it. -/
theorem C133_merge (raw : List RawConfig) (h : ∀ c ∈ raw, GoodTable c.data) (root : Option Path) :
    mergeConfigs env order path (raw.map RawConfig.emptied) root = (mergeConfigs env order path raw root).map (fun r => ({ r.1 with options := [] }, r.2)) := by
  unfold mergeConfigs
  rw [← List.map_reverse]
  have := mergeLoop_emptied env path raw.reverse (fun c hc => h c (by simpa using hc)) (mergeInit env root)
  rw [show (mergeInit env root : MState V).cleared = mergeInit env root from rfl] at this
  rw [this]
  cases mergeLoop env path raw.reverse (mergeInit env root) <;> rfl

/-! ## Reading -/

theorem emptiedFile_fixit (data : Dict) : fixitTable (emptiedFile data) = (fixitTable data).map (fun v => v.map emptiedFixit) := by
  unfold fixitTable emptiedFile
  have h1 : dget (py "tool") (data.map (fun e => if e.1 = py "tool" then (e.1, emptiedTool e.2) else e)) = (dget (py "tool") data).map emptiedTool :=
    dget_map_same (f := fun e => if e.1 = py "tool" then (e.1, emptiedTool e.2) else e) (fun e => by split <;> rfl) (fun v => if_pos rfl) data
  rw [h1]
  cases dget (py "tool") data with
  | none => rfl
  | some v =>
    cases v with
    | tbl t =>
      have h2 : dget (py "fixit") (t.map (fun e => if e.1 = py "fixit" then (e.1, emptiedFixit e.2) else e)) = (dget (py "fixit") t).map emptiedFixit :=
        dget_map_same (f := fun e => if e.1 = py "fixit" then (e.1, emptiedFixit e.2) else e) (fun e => by split <;> rfl) (fun v => if_pos rfl) t
      show Except.ok (dget (py "fixit") (t.map (fun e => if e.1 = py "fixit" then (e.1, emptiedFixit e.2) else e))) = _
      rw [h2]
      rfl
    | _ => rfl

theorem emptied_nonempty (d : Dict) : (Toml.tbl (emptiedTable d)).truthy = (Toml.tbl d).truthy := by
  have := emptiedTable_keys d
  cases d with
  | nil => rfl
  | cons e es => rfl

theorem readOne_emptied (load : Path → Except Err Dict) (p : Path) :
    readOne (fun p => (load p).map emptiedFile) p = (readOne load p).map (Option.map (fun r => (emptiedTable r.1, r.2))) := by
  unfold readOne
  simp only
  cases load p with
  | error e => rfl
  | ok data =>
    simp only [bind, Except.bind]
    rw [show (Except.ok data : Except Err Dict).map emptiedFile = .ok (emptiedFile data) from rfl]
    simp only
    rw [emptiedFile_fixit]
    cases fixitTable data with
    | error e => rfl
    | ok v =>
      cases v with
      | none => rfl
      | some v =>
        cases v with
        | tbl d =>
          simp only [Except.map, Option.map, emptiedFixit, emptied_nonempty]
          split
          · simp only [pure, Except.pure, Except.map, Option.map]
            have : rootFlag (emptiedTable d) = rootFlag d := by unfold rootFlag; rw [emptiedTable_other (by decide) (by decide)]
            rw [this]
          · rfl
        | _ =>
          simp only [Except.map, Option.map, emptiedFixit]
          split <;> rfl

theorem readConfigs_emptied (load : Path → Except Err Dict) (ps : List Path) :
    (readConfigs (fun p => (load p).map emptiedFile) ps).1 = (readConfigs load ps).1.map (List.map RawConfig.emptied) := by
  induction ps with
  | nil => rfl
  | cons p ps ih =>
    simp only [readConfigs]
    rw [readOne_emptied]
    cases readOne load p with
    | error e => rfl
    | ok v =>
      cases v with
      | none => exact ih
      | some r =>
        obtain ⟨d, b⟩ := r
        cases b with
        | true => rfl
        | false =>
          show (readConfigs (fun p => (load p).map emptiedFile) ps).1.map _ = _
          rw [ih]
          show _ = ((readConfigs load ps).1.map _).map _
          cases (readConfigs load ps).1 <;> rfl

theorem readConfigs_good {load : Path → Except Err Dict} (h : ∀ p d, load p = .ok d → GoodFile d) {ps : List Path} {raws : List RawConfig} (hr : (readConfigs load ps).1 = .ok raws) :
    ∀ c ∈ raws, GoodTable c.data := by
  induction ps generalizing raws with
  | nil => simp only [readConfigs, Except.ok.injEq] at hr; subst hr; simp
  | cons p ps ih =>
    simp only [readConfigs] at hr
    have hone : ∀ d b, readOne load p = .ok (some (d, b)) → GoodTable d := by
      intro d b hd
      unfold readOne at hd
      cases hl : load p with
      | error e => rw [hl] at hd; cases hd
      | ok data =>
        rw [hl] at hd
        simp only [bind, Except.bind] at hd
        unfold fixitTable at hd
        cases ht : dget (py "tool") data with
        | none => rw [ht] at hd; cases hd
        | some v =>
          rw [ht] at hd
          cases v with
          | tbl t =>
            simp only at hd
            cases hf : dget (py "fixit") t with
            | none => rw [hf] at hd; cases hd
            | some v =>
              rw [hf] at hd
              simp only at hd
              split at hd
              · cases v with
                | tbl d' =>
                  simp only [pure, Except.pure, Except.ok.injEq, Option.some.injEq, Prod.mk.injEq] at hd
                  obtain ⟨rfl, -⟩ := hd
                  exact h p data hl t d' (by rw [← dget_eq_field]; exact ht) (by rw [← dget_eq_field]; exact hf)
                | _ => cases hd
              · cases hd
          | _ => cases hd
    cases ho : readOne load p with
    | error e => rw [ho] at hr; cases hr
    | ok v =>
      rw [ho] at hr
      cases v with
      | none => exact ih hr
      | some r =>
        obtain ⟨d, b⟩ := r
        have hd := hone d b ho
        cases b with
        | true =>
          simp only [Except.ok.injEq] at hr
          subst hr
          simpa using hd
        | false =>
          simp only at hr
          cases hrest : (readConfigs load ps).1 with
          | error e => rw [hrest] at hr; cases hr
          | ok cs =>
            rw [hrest] at hr
            simp only [Except.map, Except.ok.injEq] at hr
            subst hr
            intro c hc
            simp only [List.mem_cons] at hc
            obtain rfl | hc := hc
            · exact hd
            · exact ih hrest c hc

theorem applyOptions_cleared (opts : Options) (c : Config V) : applyOptions opts c.cleared = (applyOptions opts c).cleared := by
  simp only [applyOptions, Options.setTags, Options.setRules, Options.setFormat, Options.setTemplate, Config.cleared]
  repeat' split
  all_goals first | rfl | simp_all

/-- **C133** The same for the configuration of a path, from the files. -/
theorem C133_config (fs : FS) (load : Path → Except Err Dict) (h : ∀ p d, load p = .ok d → GoodFile d) (root : Option Path) (options : Option Options) :
    generateConfig env order fs (fun p => (load p).map emptiedFile) path root options = (generateConfig env order fs load path root options).map (fun c => { c with options := [] }) := by
  have main : ∀ ps : List Path,
      (do let raws ← (readConfigs (fun p => (load p).map emptiedFile) ps).1
          let r ← mergeConfigs env order path raws root
          return (match options with | some o => applyOptions o r.1 | none => r.1) : Except Err (Config V)) =
      (do let raws ← (readConfigs load ps).1
          let r ← mergeConfigs env order path raws root
          return (match options with | some o => applyOptions o r.1 | none => r.1) : Except Err (Config V)).map (fun c => { c with options := [] }) := by
    intro ps
    rw [readConfigs_emptied]
    cases hr : (readConfigs load ps).1 with
    | error e => rfl
    | ok raws =>
      rw [show (Except.ok raws : Except Err (List RawConfig)).map (List.map RawConfig.emptied) = .ok (raws.map RawConfig.emptied) from rfl]
      simp only [bind, Except.bind]
      rw [C133_merge env path order raws (readConfigs_good h hr)]
      cases mergeConfigs env order path raws root with
      | error e => rfl
      | ok r =>
        cases options with
        | none => rfl
        | some opts => exact congrArg Except.ok (applyOptions_cleared opts r.1)
  unfold generateConfig
  cases options.bind (·.configFile) with
  | some f => exact main [fs.real f]
  | none =>
    cases locateConfigs fs path root with
    | error e => rfl
    | ok ps => exact main (ps.map fs.real)

/-! ## The program -/

section
variable {C : Type} (e : Env C) (f : C → C)

/-- The environment with every configuration changed by `f`. -/
def Env.reconfigured : Env C := { e with config := fun files p => (e.config files p).map f }

theorem violationLoop_reconfigured (path : Path) (m : Node) (name : PStr) (vs : List (Violation Nat Repl)) : ∀ st, violationLoop (e.reconfigured f) path m name vs st = violationLoop e path m name vs st := by
  induction vs with
  | nil => intro st; rfl
  | cons v vs ih =>
    intro st
    obtain ⟨n, μ⟩ := st
    simp only [violationLoop, ih]
    rfl

theorem ruleLoop_reconfigured (path : Path) (m : Node) (recorded : RuleInst → List (Violation Nat Repl)) (rs : List RuleInst) : ∀ st,
    ruleLoop (e.reconfigured f) path m recorded rs st = ruleLoop e path m recorded rs st := by
  induction rs with
  | nil => intro st; rfl
  | cons r rs ih =>
    intro st
    obtain ⟨n, μ⟩ := st
    simp only [ruleLoop, ih, violationLoop_reconfigured]

variable (hc : ∀ files c, e.collect files (f c) = e.collect files c) (hv : ∀ files c, e.visit files (f c) = e.visit files c) (hf : ∀ c, e.formatter (f c) = e.formatter c)
include hc hv hf

theorem fixitBytes_reconfigured (path : Path) (content : Bytes) (c : C) (autofix hook : Bool) : fixitBytes (e.reconfigured f) path content (f c) autofix hook = fixitBytes e path content c autofix hook := by
  have h1 : ∀ m, finishBytes (e.reconfigured f) path (f c) m = finishBytes e path c m := by
    intro m
    funext st
    unfold finishBytes formatModule
    rw [show (e.reconfigured f).formatter (f c) = e.formatter c from hf c]
    rfl
  have h2 : ∀ m rules, collectViolations (e.reconfigured f) path m rules (f c) hook = collectViolations e path m rules c hook := by
    intro m rules
    unfold collectViolations
    simp only [show ∀ files, (e.reconfigured f).visit files (f c) = e.visit files c from fun files => hv files c, ruleLoop_reconfigured]
    rfl
  unfold fixitBytes bytesBody
  simp only [h2, show ∀ files, (e.reconfigured f).collect files (f c) = e.collect files c from fun files => hc files c, h1]
  rfl

theorem lintFile_reconfigured (path : Path) (autofix hook : Bool) : lintFile (e.reconfigured f) path autofix hook = lintFile e path autofix hook := by
  unfold lintFile
  congr 2
  funext content
  congr 1
  funext w
  show (Gen.ofExcept ((e.config w.files path).map f)).bind _ = _
  cases e.config w.files path with
  | error x => rfl
  | ok c =>
    simp only [Except.map, Gen.ofExcept, Gen.bind]
    rw [fixitBytes_reconfigured e f hc hv hf]
    rfl

theorem lintStdin_reconfigured (path : Path) (autofix hook : Bool) : lintStdin (e.reconfigured f) path autofix hook = lintStdin e path autofix hook := by
  unfold lintStdin
  congr 2
  funext content
  congr 1
  funext w
  show (Gen.ofExcept ((e.config w.files path).map f)).bind _ = _
  cases e.config w.files path with
  | error x => rfl
  | ok c =>
    simp only [Except.map, Gen.ofExcept, Gen.bind]
    rw [fixitBytes_reconfigured e f hc hv hf]
    rfl

theorem fixitFile_reconfigured : fixitFile (e.reconfigured f) = fixitFile e := by
  funext path autofix hook
  exact lintFile_reconfigured e f hc hv hf (e.resolve path) autofix hook

theorem fixitStdin_reconfigured : fixitStdin (e.reconfigured f) = fixitStdin e := by
  funext path autofix hook
  exact lintStdin_reconfigured e f hc hv hf (e.resolve path) autofix hook

theorem eachFile_reconfigured (autofix hook : Bool) (ps : List Path) : eachFile (e.reconfigured f) autofix hook ps = eachFile e autofix hook ps := by
  induction ps with
  | nil => rfl
  | cons p ps ih => simp only [eachFile, ih, fixitFile_reconfigured e f hc hv hf]

theorem fixitPaths_reconfigured (walk : (Path → Option Bytes) → Path → Except Err (List Path)) (autofix hook : Bool) (ps : List Path) :
    fixitPaths (e.reconfigured f) walk autofix hook ps = fixitPaths e walk autofix hook ps := by
  simp only [fixitPaths, fixitStdin_reconfigured e f hc hv hf, eachFile_reconfigured e f hc hv hf]

theorem startWorkers_reconfigured (autofix hook : Bool) (ps : List Path) : startWorkers (e.reconfigured f) autofix hook ps = startWorkers e autofix hook ps := by
  simp only [startWorkers, fixitFile_reconfigured e f hc hv hf]

theorem pathsRun_reconfigured (walk : (Path → Option Bytes) → Path → Except Err (List Path)) (autofix hook parallel : Bool) (ps : List Path) (ss : List Answer) (w : World) (x) :
    PathsRun (e.reconfigured f) walk autofix hook parallel ps ss w x ↔ PathsRun e walk autofix hook parallel ps ss w x := by
  have h1 := fixitPaths_reconfigured e f hc hv hf walk autofix hook ps
  have h2 := startWorkers_reconfigured e f hc hv hf autofix hook
  constructor
  · intro h
    cases h with
    | plain hu => rw [h1]; exact .plain hu
    | pool => simp only [h2] at *; constructor <;> assumption
  · intro h
    cases h with
    | plain hu => rw [← h1]; exact .plain hu
    | pool => simp only [← h2] at *; constructor <;> assumption

theorem lintRun_reconfigured (con : Console) (walk : (Path → Option Bytes) → Path → Except Err (List Path)) (diff hook : Bool) (cfg : Except Err (OutputFormat × Toml)) (ps : List Path) (w : World) (x) :
    LintRun (e.reconfigured f) con walk diff hook cfg ps w x ↔ LintRun e con walk diff hook cfg ps w x := by
  constructor
  · intro h
    cases h with
    | badConfig x hx => exact .badConfig x hx
    | ran fmt template n rs st w' h1 h2 h3 => exact .ran fmt template n rs st w' h1 ((pathsRun_reconfigured e f hc hv hf walk _ _ _ _ _ _ _).mp h2) h3
  · intro h
    cases h with
    | badConfig x hx => exact .badConfig x hx
    | ran fmt template n rs st w' h1 h2 h3 => exact .ran fmt template n rs st w' h1 ((pathsRun_reconfigured e f hc hv hf walk _ _ _ _ _ _ _).mpr h2) h3

end

/-- The program reading files in which all options of rules are taken out. -/
def _root_.Spec.withoutOptions {V M : Type} (o : Outside V M) : Outside V M := { o with toml := fun b => (o.toml b).map emptiedFile }

section
variable {M : Type} (o : Outside V M) (v : Visits) (h : ∀ b d, o.toml b = .ok d → GoodFile d)
include h

theorem withoutOptions_config (options : Option Options) (files : Path → Option Bytes) (p : Path) :
    ((withoutOptions o).walking v).config options files p = ((o.walking v).config options files p).map Config.cleared := by
  have hload : ((withoutOptions o).walking v).load files = fun p => ((o.walking v).load files p).map emptiedFile := by
    funext p
    unfold Outside.load
    show (match files p with | none => _ | some b => _) = _
    cases files p <;> rfl
  unfold Outside.config
  rw [hload]
  refine C133_config o.cfg p o.configOrder (o.fs files) ((o.walking v).load files) (fun p d hd => ?_) none options
  unfold Outside.load at hd
  cases hp : files p with
  | none => rw [hp] at hd; cases hd
  | some b => rw [hp] at hd; exact h b d hd

omit h in
theorem withoutOptions_runCalls (m : Node) (cs : List (RuleInst × ReportCall)) : ∀ st, ((withoutOptions o).walking v).runCalls m cs st = (o.walking v).runCalls m cs st := by
  induction cs with
  | nil => intro st; rfl
  | cons c cs ih =>
    intro st
    simp only [Outside.runCalls, ih]
    rfl

omit h in
theorem withoutOptions_visit : ((withoutOptions o).walking v).visit = (o.walking v).visit := by
  funext files cfg m rules
  unfold Outside.visit
  rw [withoutOptions_runCalls]
  rfl

theorem withoutOptions_env (options : Option Options) : ((withoutOptions o).walking v).env options = ((o.walking v).env options).reconfigured Config.cleared := by
  have hc : ((withoutOptions o).walking v).config options = fun files p => ((o.walking v).config options files p).map Config.cleared := by
    funext files p
    exact withoutOptions_config o v h options files p
  unfold Outside.env Env.reconfigured
  rw [hc, withoutOptions_visit]
  rfl

theorem withoutOptions_output (con : Console) (options : Options) (files : Path → Option Bytes) : ((withoutOptions o).walking v).output con options files = (o.walking v).output con options files := by
  unfold Outside.output
  rw [withoutOptions_config o v h]
  cases (o.walking v).config (some options) files con.cwd <;> rfl

/-- **C133** The options of rules have no effect. Take all of them out of all configuration files: `lint`, `fix` and `upgrade` do exactly what they did before. Here `o` with the visits `v` is any program,
with any rules, and the options in the files it reads are tables of strings and numbers. -/
theorem C133_no_effect (con : Console) (walk : (Path → Option Bytes) → Path → Except Err (List Path)) (options : Options) (paths : List Path) (w : World) :
    (∀ diff hook x, ((withoutOptions o).walking v).Lint con walk options diff hook paths w x ↔ (o.walking v).Lint con walk options diff hook paths w x) ∧
    (∀ interactive diff hook, ((withoutOptions o).walking v).fix con walk options interactive diff hook paths w = (o.walking v).fix con walk options interactive diff hook paths w) ∧
    (∀ hook, ((withoutOptions o).walking v).upgrade con walk options hook paths w = (o.walking v).upgrade con walk options hook paths w) := by
  have hfix : ∀ options interactive diff hook, ((withoutOptions o).walking v).fix con walk options interactive diff hook paths w = (o.walking v).fix con walk options interactive diff hook paths w := by
    intro options interactive diff hook
    unfold Outside.fix
    rw [withoutOptions_env o v h, withoutOptions_output o v h]
    unfold fixCommand
    simp only [fixitPaths_reconfigured ((o.walking v).env (some options)) Config.cleared (fun _ _ => rfl) (fun _ _ => rfl) (fun _ => rfl)]
  refine ⟨fun diff hook x => ?_, hfix options, fun hook => hfix (upgradeOptions options) false false hook⟩
  unfold Outside.Lint
  rw [withoutOptions_env o v h, withoutOptions_output o v h]
  exact lintRun_reconfigured ((o.walking v).env (some options)) Config.cleared (fun _ _ => rfl) (fun _ _ => rfl) (fun _ => rfl) con walk diff hook _ paths w x

end

end Fixit
