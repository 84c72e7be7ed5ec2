import Verif.Props.Config

/-!
# C23: which exceptions escape for malformed configurations, and why
-/

namespace Spec
open Py
open Fixit (Toml Path)

/-- In this section there is a rule that is not a string, a version that is neither empty nor a string, or a formatter that is an array or a table and not empty. -/
inductive WrongType (d : List (PStr × Toml)) : Prop where
  | rule (key : PStr) (hk : key = py "enable" ∨ key = py "disable") (t : Toml) (h : t ∈ elems (field key d)) (hne : ∀ s, t ≠ .str s)
  | version (t : Toml) (h : field (py "python-version") d = some t) (ht : t.truthy = true) (hne : ∀ s, t ≠ .str s)
  | array (l : List Toml) (h : field (py "formatter") d = some (.arr l)) (hne : l ≠ [])
  | table (l : List (PStr × Toml)) (h : field (py "formatter") d = some (.tbl l)) (hne : l ≠ [])

/-- In this section the options of a rule are not a table. -/
def WrongOptions (d : List (PStr × Toml)) : Prop := ∃ t, field (py "options") d = some (.tbl t) ∧ ∃ e ∈ t, ∀ o, e.2 ≠ .tbl o

end Spec

namespace Fixit
open Py Spec

variable {V : Type} (env : CfgEnv V) (path : Path) (order : List QualifiedRule → List QualifiedRule)

/-- The computation fails, if at all, with ConfigError, or for the reason `T` with TypeError, or for the reason `A` with AttributeError. -/
def FailsOnly (T A : Prop) {α : Type} (x : Except Err α) : Prop := ∀ e, x = .error e → (∃ m, e = .config m) ∨ (e = .type ∧ T) ∨ (e = .attribute ∧ A)

variable {T A : Prop} {α β : Type}

theorem FailsOnly.bind {x : Except Err α} {f : α → Except Err β} (hx : FailsOnly T A x) (hf : ∀ a, x = .ok a → FailsOnly T A (f a)) : FailsOnly T A (x >>= f) := by
  intro e he
  cases x with
  | error e' => simp only [Bind.bind, Except.bind, Except.error.injEq] at he; subst he; exact hx e' rfl
  | ok a => exact hf a rfl e he

theorem FailsOnly.ok (a : α) : FailsOnly T A (.ok a : Except Err α) := by intro e h; simp at h
theorem FailsOnly.pure (a : α) : FailsOnly T A (pure a : Except Err α) := FailsOnly.ok a
theorem FailsOnly.config (m : List Piece) : FailsOnly T A (.error (.config m) : Except Err α) := by
  intro e h; cases h; exact .inl ⟨m, rfl⟩
theorem FailsOnly.type (h : T) : FailsOnly T A (.error .type : Except Err α) := by
  intro e he; cases he; exact .inr (.inl ⟨rfl, h⟩)
theorem FailsOnly.attribute (h : A) : FailsOnly T A (.error .attribute : Except Err α) := by
  intro e he; cases he; exact .inr (.inr ⟨rfl, h⟩)
theorem FailsOnly.of {x : Except Err α} (h : OnlyConfigError x) : FailsOnly T A x := fun e he => .inl (h e he)
theorem FailsOnly.mono {T' A' : Prop} {x : Except Err α} (h : FailsOnly T A x) (hT : T → T') (hA : A → A') : FailsOnly T' A' x := by
  intro e he
  rcases h e he with h | ⟨h1, h2⟩ | ⟨h1, h2⟩
  · exact .inl h
  · exact .inr (.inl ⟨h1, hT h2⟩)
  · exact .inr (.inr ⟨h1, hA h2⟩)

theorem parseRuleToml_fails (dir : Path) (t : Toml) (h : (∀ s, t ≠ .str s) → T) : FailsOnly T A (parseRuleToml dir t) := by
  cases t with
  | str s => exact .of (parseRule_oce s dir)
  | _ => exact .type (h (fun s hs => by cases hs))

theorem enableLoop_fails {dir : Path} {ts : List Toml} (h : ∀ t ∈ ts, (∀ s, t ≠ .str s) → T) : ∀ m : Merged V, FailsOnly T A (enableLoop dir ts m) := by
  induction ts with
  | nil => intro m; exact .ok _
  | cons t ts ih =>
    intro m
    exact .bind (parseRuleToml_fails dir t (h t (by simp))) (fun q _ => ih (fun t ht => h t (by simp [ht])) _)

theorem disableLoop_fails {dir : Path} {ts : List Toml} (h : ∀ t ∈ ts, (∀ s, t ≠ .str s) → T) : ∀ m : Merged V, FailsOnly T A (disableLoop dir ts m) := by
  induction ts with
  | nil => intro m; exact .ok _
  | cons t ts ih =>
    intro m
    exact .bind (parseRuleToml_fails dir t (h t (by simp))) (fun q _ => ih (fun t ht => h t (by simp [ht])) _)

theorem optionTables_fails {d : Dict} (h : ∀ e ∈ d, (∀ o, e.2 ≠ Toml.tbl o) → A) : FailsOnly T A (optionTables d) := by
  induction d with
  | nil => exact .ok _
  | cons e es ih =>
    obtain ⟨k, v⟩ := e
    have hh := h (k, v) (by simp)
    cases v with
    | tbl o =>
      simp only [optionTables]
      exact .bind (.of (scalarOptions_oce o)) (fun _ _ => .bind (ih (fun e he => h e (by simp [he]))) (fun _ _ => .pure _))
    | _ => exact .attribute (hh (fun o ho => by cases ho))

theorem applySection_fails (sec : Section) (m : Merged V) : FailsOnly (WrongType sec.table) (WrongOptions sec.table) (applySection env path sec m) := by
  unfold applySection
  refine .bind ?_ ?_
  · unfold tableOf
    simp only [dget_eq_field]
    refine .bind (.of (asSequence_oce _)) (fun _ _ => .bind (.of (asSequence_oce _)) (fun _ _ => .bind ?_ (fun _ _ => .pure _)))
    cases hv : field (py "options") sec.table with
    | none => exact .ok _
    | some t =>
      cases t with
      | tbl d => exact optionTables_fails (fun e he hne => ⟨d, hv, e, he, hne⟩)
      | _ => exact .config _
  · intro t ht
    obtain ⟨h1, h2, -, h4, h5⟩ := tableOf_ok ht
    have h1 := asSequence_elems h1
    have h2 := asSequence_elems h2
    unfold processSubpath
    split
    · refine .bind (enableLoop_fails (fun x hx hne => .rule _ (.inl rfl) x (h1 ▸ hx) hne) m) (fun m1 _ => ?_)
      refine .bind (disableLoop_fails (fun x hx hne => .rule _ (.inr rfl) x (h2 ▸ hx) hne) m1) (fun m2 _ => ?_)
      refine .bind ?_ (fun m3 _ => ?_)
      · unfold setVersion
        cases hv : t.pyver with
        | none => exact .ok _
        | some v =>
          rw [hv] at h4
          simp only
          split
          · rename_i htr
            refine .bind ?_ (fun _ _ => .pure _)
            cases v with
            | str s =>
              simp only [versionOf]
              cases env.parseVersion s with
              | none => exact .config _
              | some x => exact .ok _
            | _ => exact .type (.version _ h4.symm htr (fun s hs => by cases hs))
          · exact .ok _
      · unfold setFormatter
        cases hv : t.formatter with
        | none => exact .ok _
        | some v =>
          rw [hv] at h5
          simp only
          split
          · rename_i htr
            refine .bind ?_ (fun _ _ => .pure _)
            cases v with
            | str s =>
              simp only [formatterOf]
              split
              · exact .ok _
              · exact .config _
            | arr l => exact .type (.array l h5.symm (fun hl => by subst hl; cases htr))
            | tbl l => exact .type (.table l h5.symm (fun hl => by subst hl; cases htr))
            | _ => exact .config _
          · exact .ok _
    · exact .ok _

/-- The sections of a file: its own table and those of its overrides. -/
def _root_.Spec.sectionOf (f : File) (d : List (PStr × Toml)) : Prop := d = f.table ∨ Toml.tbl d ∈ elems (field (py "overrides") f.table)

/-- Why TypeError escapes: a section with a value of the wrong type, or an override whose path is not a string. -/
def _root_.Spec.TypeTrouble (f : File) : Prop :=
  (∃ d, sectionOf f d ∧ WrongType d) ∨ ∃ d p, Toml.tbl d ∈ elems (field (py "overrides") f.table) ∧ field (py "path") d = some p ∧ p.truthy = true ∧ ∀ s, p ≠ .str s

/-- Why AttributeError escapes: a section in which the options of a rule are not a table. -/
def _root_.Spec.OptionTrouble (f : File) : Prop := ∃ d, sectionOf f d ∧ WrongOptions d

theorem applyOverrides_fails {dir : Path} {os : List Toml}
    (hT : ∀ d, Toml.tbl d ∈ os → (WrongType d → T) ∧ (WrongOptions d → A) ∧ ∀ p, field (py "path") d = some p → p.truthy = true → (∀ s, p ≠ .str s) → T) :
    ∀ m : Merged V, FailsOnly T A (applyOverrides env path dir os m) := by
  induction os with
  | nil => intro m; exact .ok _
  | cons o os ih =>
    intro m
    simp only [applyOverrides]
    refine .bind ?_ (fun m1 _ => ih (fun d hd => hT d (by simp [hd])) m1)
    cases o with
    | tbl d =>
      obtain ⟨hw, ho, hp⟩ := hT d (by simp)
      simp only [applyOverride, dget_eq_field]
      cases hf : field (py "path") d with
      | none => exact .config _
      | some p =>
        simp only
        split
        · rename_i htr
          cases p with
          | str s => exact .bind (.ok _) (fun sub _ => (applySection_fails env path ⟨dir, sub, d⟩ m).mono hw ho)
          | _ => exact .bind (.type (hp _ hf htr (fun s hs => by cases hs))) (fun sub _ => (applySection_fails env path ⟨dir, sub, d⟩ m).mono hw ho)
        · exact .config _
    | _ => exact .config _

theorem mergeStep_fails (c : RawConfig) (s : MState V) : FailsOnly (TypeTrouble c.file) (OptionTrouble c.file) (mergeStep env path c s) := by
  rw [mergeStep_eq]
  refine .bind ?_ (fun _ _ => .bind ?_ (fun _ _ => .bind ((applySection_fails env path _ _).mono (fun h => .inl ⟨_, .inl rfl, h⟩) (fun h => ⟨_, .inl rfl, h⟩))
    (fun m _ => .bind (.of (asSequence_oce _)) (fun os hos => .bind ?_ (fun _ _ => .pure _)))))
  · cases truthyField (py "enable-root-import") c.data with
    | none => exact .ok _
    | some v =>
      simp only [rootImportOf]
      split
      · exact .config _
      · cases v with
        | str x =>
          simp only
          split
          · exact .config _
          · split
            · exact .config _
            · exact .ok _
        | _ => exact .ok _
  · cases truthyField (py "output-format") c.data with
    | none => exact .ok _
    | some v =>
      simp only [outputFormatOf]
      cases OutputFormat.ofToml v with
      | none => exact .config _
      | some f => exact .ok _
  · rw [dget_eq_field] at hos
    refine applyOverrides_fails env path ?_ m
    rw [asSequence_elems hos]
    exact fun d hd => ⟨fun h => .inl ⟨d, .inr hd, h⟩, fun h => ⟨d, .inr hd, h⟩, fun p h1 h2 h3 => .inr ⟨d, p, hd, h1, h2, h3⟩⟩

/-- **C23** Merging fails, if at all, with ConfigError, or with TypeError because of a value of the wrong type in some file of the stack (a rule, a version or a path of an
override that is not a string, a formatter that is an array or a table), or with AttributeError because the options of a rule are not a table. -/
theorem C23_escapes (raw : List RawConfig) (root : Option Path) (e : Err) (h : mergeConfigs env order path raw root = .error e) :
    (∃ m, e = .config m) ∨ (e = .type ∧ ∃ f ∈ files raw, TypeTrouble f) ∨ (e = .attribute ∧ ∃ f ∈ files raw, OptionTrouble f) := by
  have : FailsOnly (∃ f ∈ files raw, TypeTrouble f) (∃ f ∈ files raw, OptionTrouble f) (mergeConfigs env order path raw root) := by
    unfold mergeConfigs
    refine .bind ?_ (fun _ _ => .pure _)
    have : ∀ (cs : List RawConfig), (∀ c ∈ cs, c.file ∈ files raw) → ∀ s : MState V,
        FailsOnly (∃ f ∈ files raw, TypeTrouble f) (∃ f ∈ files raw, OptionTrouble f) (mergeLoop env path cs s) := by
      intro cs
      induction cs with
      | nil => intro _ s; exact .ok _
      | cons c cs ih =>
        intro hc s
        exact .bind ((mergeStep_fails env path c s).mono (fun h => ⟨_, hc c (by simp), h⟩) (fun h => ⟨_, hc c (by simp), h⟩)) (fun s1 _ => ih (fun x hx => hc x (by simp [hx])) s1)
    refine this _ (fun c hc => ?_) _
    simp only [files]
    exact List.mem_map_of_mem (by simpa using hc)
  exact this e h

/-- A formatter that is a table or an array, and the path of an override that is a number: TypeError; an empty array is no formatter at all. -/
example :
    mergeConfigs exEnv id [py "a"] [⟨[py "fixit.toml"], [(py "formatter", .tbl [(py "name", .str (py "black"))])]⟩] none matches .error .type ∧
    mergeConfigs exEnv id [py "a"] [⟨[py "fixit.toml"], [(py "formatter", .arr [.str (py "black")])]⟩] none matches .error .type ∧
    mergeConfigs exEnv id [py "a"] [⟨[py "fixit.toml"], [(py "overrides", .arr [.tbl [(py "path", .int 1)]])]⟩] none matches .error .type ∧
    mergeConfigs exEnv id [py "a"] [⟨[py "fixit.toml"], [(py "formatter", .arr [])]⟩] none matches .ok _ :=
  ⟨rfl, rfl, rfl, rfl⟩

end Fixit
