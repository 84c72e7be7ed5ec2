import Verif.Props.Loader
import Verif.Props.Discovery

/-!
# C32, C76: validate-config
-/

set_option linter.unusedSectionVars false

namespace Fixit
open Py Spec

section
variable {K M : Type} (find : M → QualifiedRule → Except Err (List K) × M)

/-- The references under a key, each with where it was found. -/
def refsUnder (key ctx : PStr) (d : Dict) : List (Toml × PStr) := (elems (field key d)).map (fun t => (t, ctx))

/-- The path of an override as shown in messages (the config file's own path if it has none). -/
def shownPath (path : Path) (o : Dict) : PStr :=
  match field (py "path") o with
  | some (.str s) => pathText s
  | _ => asPosix path

/-- All references of a config table in order: main enable, main disable, then for each override its enable and its disable. -/
def references (path : Path) (d : Dict) : List (Toml × PStr) :=
  refsUnder (py "enable") (py "global enable") d ++ refsUnder (py "disable") (py "global disable") d ++
  ((elems (field (py "overrides") d)).filterMap (fun o => asTable (some o))).flatMap (fun o =>
    refsUnder (py "enable") (py "override enable: `" ++ shownPath path o ++ py "`") o ++
    refsUnder (py "disable") (py "override disable: `" ++ shownPath path o ++ py "`") o)

/-- What is wrong with one reference, if anything. `verdict` says with what exception a reference fails to load. -/
def problem (verdict : QualifiedRule → Option Err) (root : Path) (e : Toml × PStr) : Option Report :=
  match e.1 with
  | .str s =>
    match parseRule s root with
    | .error err => some (.parse e.1 e.2 err)
    | .ok q => (verdict q).map (fun err => .imp e.1 e.2 err)
  | _ => some (.parse e.1 e.2 .type)

/-- `enable`, `disable` are arrays; `overrides` is an array of tables whose `path`, if any, is a string. -/
def ShapedForValidation (d : Dict) : Prop :=
  AbsentOrArray (field (py "enable") d) ∧ AbsentOrArray (field (py "disable") d) ∧ AbsentOrArray (field (py "overrides") d) ∧
  ∀ o ∈ elems (field (py "overrides") d), ∃ t, o = .tbl t ∧ AbsentOrArray (field (py "enable") t) ∧ AbsentOrArray (field (py "disable") t) ∧
    ∀ p, field (py "path") t = some p → ∃ s, p = .str s

/-- Loading a reference fails or not independently of what was loaded before. -/
def LoadsLike (verdict : QualifiedRule → Option Err) : Prop :=
  ∀ m q, (∀ e, (find m q).1 = .error e ↔ verdict q = some e)

variable {find} {verdict : QualifiedRule → Option Err} (hv : LoadsLike find verdict)
include hv

theorem validateOne_spec (root : Path) (ctx : PStr) (t : Toml) (m : M) :
    (validateOne find root ctx t m).1 = (problem verdict root (t, ctx)).toList := by
  unfold validateOne
  cases t with
  | str s =>
    simp only [parseRuleToml, problem]
    cases parseRule s root with
    | error e => rfl
    | ok q =>
      simp only
      have := hv m q
      cases hf : find m q with
      | mk o m' =>
        rw [hf] at this
        cases o with
        | error e => rw [(this e).1 rfl]; rfl
        | ok cs =>
          cases hq : verdict q with
          | none => rfl
          | some e => exact absurd ((this e).2 hq) (by simp)
  | _ => rfl

theorem filterMap_cons_toList {α β : Type} (f : α → Option β) (a : α) (l : List α) : (a :: l).filterMap f = (f a).toList ++ l.filterMap f := by
  rw [List.filterMap_cons]
  cases f a <;> rfl

theorem validateRules_spec (root : Path) (ctx : PStr) (l : List Toml) : ∀ m : M,
    (validateRules find root ctx l m).1 = (l.map (fun t => (t, ctx))).filterMap (problem verdict root) := by
  induction l with
  | nil => intro m; rfl
  | cons t ts ih =>
    intro m
    rw [validateRules, List.map_cons, filterMap_cons_toList hv, ← validateOne_spec hv root ctx t m]
    simp only
    rw [ih]

theorem iterField_spec (key : PStr) (d : Dict) (h : AbsentOrArray (field key d)) : iterField key d = .ok (elems (field key d)) := by
  unfold iterField
  rw [dget_eq_field]
  cases hf : field key d with
  | none => rfl
  | some v =>
    rw [hf] at h
    rcases h with h | ⟨l, h⟩
    · simp at h
    · simp only [Option.some.injEq] at h; subst h; rfl

theorem validateField_spec (root : Path) (key ctx : PStr) (d : Dict) (s : List Report × M) (h : AbsentOrArray (field key d)) :
    ∃ m, validateField find root key ctx d s = (s.1 ++ (refsUnder key ctx d).filterMap (problem verdict root), m, none) := by
  unfold validateField
  rw [iterField_spec hv key d h]
  have := validateRules_spec hv root ctx (elems (field key d)) s.2
  refine ⟨(validateRules find root ctx (elems (field key d)) s.2).2, ?_⟩
  simp only [refsUnder]
  rw [← this]

theorem overrideCtx_spec (path : Path) (o : Dict) (h : ∀ p, field (py "path") o = some p → ∃ s, p = .str s) :
    overrideCtx path o = .ok (shownPath path o) := by
  unfold overrideCtx shownPath
  rw [dget_eq_field]
  cases hf : field (py "path") o with
  | none => rfl
  | some p => obtain ⟨s, rfl⟩ := h p hf; rfl

theorem validateOverride_spec (path : Path) (o : Dict) (s : List Report × M) (h1 : AbsentOrArray (field (py "enable") o))
    (h2 : AbsentOrArray (field (py "disable") o)) (h3 : ∀ p, field (py "path") o = some p → ∃ s, p = .str s) :
    ∃ m, validateOverride find path (.tbl o) s = (s.1 ++ (refsUnder (py "enable") (py "override enable: `" ++ shownPath path o ++ py "`") o ++
      refsUnder (py "disable") (py "override disable: `" ++ shownPath path o ++ py "`") o).filterMap (problem verdict path.parent), m, none) := by
  unfold validateOverride
  simp only [overrideCtx_spec hv path o h3]
  rw [show overrideContext (py "override enable") (shownPath path o) = py "override enable: `" ++ shownPath path o ++ py "`" from rfl,
    show overrideContext (py "override disable") (shownPath path o) = py "override disable: `" ++ shownPath path o ++ py "`" from rfl]
  obtain ⟨m1, e1⟩ := validateField_spec hv path.parent (py "enable") (py "override enable: `" ++ shownPath path o ++ py "`") o s h1
  rw [e1]
  obtain ⟨m2, e2⟩ := validateField_spec hv path.parent (py "disable") (py "override disable: `" ++ shownPath path o ++ py "`") o
    (s.1 ++ (refsUnder (py "enable") (py "override enable: `" ++ shownPath path o ++ py "`") o).filterMap (problem verdict path.parent), m1) h2
  refine ⟨m2, ?_⟩
  simp only
  rw [e2]
  simp

theorem validateOverrides_spec (path : Path) (os : List Toml) : ∀ (s : List Report × M),
    (∀ o ∈ os, ∃ t, o = .tbl t ∧ AbsentOrArray (field (py "enable") t) ∧ AbsentOrArray (field (py "disable") t) ∧
      ∀ p, field (py "path") t = some p → ∃ s, p = .str s) →
    ∃ m, validateOverrides find path os s = (s.1 ++ ((os.filterMap (fun o => asTable (some o))).flatMap (fun o =>
      refsUnder (py "enable") (py "override enable: `" ++ shownPath path o ++ py "`") o ++
      refsUnder (py "disable") (py "override disable: `" ++ shownPath path o ++ py "`") o)).filterMap (problem verdict path.parent), m, none) := by
  induction os with
  | nil => intro s _; exact ⟨s.2, by simp [validateOverrides]⟩
  | cons o os ih =>
    intro s h
    obtain ⟨t, rfl, h1, h2, h3⟩ := h o (by simp)
    obtain ⟨m1, e1⟩ := validateOverride_spec hv path t s h1 h2 h3
    rw [validateOverrides, e1]
    simp only
    obtain ⟨m2, e2⟩ := ih (s.1 ++ (refsUnder (py "enable") (py "override enable: `" ++ shownPath path t ++ py "`") t ++
      refsUnder (py "disable") (py "override disable: `" ++ shownPath path t ++ py "`") t).filterMap (problem verdict path.parent), m1) (fun o ho => h o (by simp [ho]))
    refine ⟨m2, ?_⟩
    rw [e2]
    simp [asTable]

/-- **C32** For a table of the right shape the messages are exactly the problems of its references, in order. -/
theorem C32_reports_exact (load : Path → Except Err Dict) (path : Path) (data d : Dict) (m : M)
    (hl : load path = .ok data) (ht : ToolTables data) (hd : contribution data = some d) (hs : ShapedForValidation d) :
    validateConfig find load path m = (references path d).filterMap (problem verdict path.parent) := by
  have hread : (readConfigs load [path]).1 = .ok [⟨path, d⟩] := by
    rw [readConfigs, readOne_spec hl ht, hd]
    simp only [Option.map_some, readConfigs]
    cases decide (MarksRoot d) <;> rfl
  unfold validateConfig
  rw [hread]
  obtain ⟨s1, s2, s3, s4⟩ := hs
  simp only [validateData]
  obtain ⟨m1, e1⟩ := validateField_spec hv path.parent (py "enable") (py "global enable") d ([], m) s1
  rw [e1]
  simp only [List.nil_append]
  obtain ⟨m2, e2⟩ := validateField_spec hv path.parent (py "disable") (py "global disable") d
    ((refsUnder (py "enable") (py "global enable") d).filterMap (problem verdict path.parent), m1) s2
  rw [e2]
  simp only [validateOverridesField, iterField_spec hv _ d s3]
  obtain ⟨m3, e3⟩ := validateOverrides_spec hv path (elems (field (py "overrides") d))
    ((refsUnder (py "enable") (py "global enable") d).filterMap (problem verdict path.parent) ++
      (refsUnder (py "disable") (py "global disable") d).filterMap (problem verdict path.parent), m2) s4
  rw [e3]
  simp [references]

/-- **C32** No message exactly when every reference parses and loads. -/
theorem C32_clean_iff_all_load (load : Path → Except Err Dict) (path : Path) (data d : Dict) (m : M)
    (hl : load path = .ok data) (ht : ToolTables data) (hd : contribution data = some d) (hs : ShapedForValidation d) :
    validateConfig find load path m = [] ↔
      ∀ t ctx, (t, ctx) ∈ references path d → ∃ s q, t = .str s ∧ parseRule s path.parent = .ok q ∧ ∀ m, ∃ cs, (find m q).1 = .ok cs := by
  rw [C32_reports_exact hv load path data d m hl ht hd hs, List.filterMap_eq_nil_iff]
  constructor
  · intro h t ctx ht
    have := h (t, ctx) ht
    unfold problem at this
    cases t with
    | str s =>
      simp only at this
      cases hp : parseRule s path.parent with
      | error e => rw [hp] at this; simp at this
      | ok q =>
        rw [hp] at this
        simp only [Option.map_eq_none_iff] at this
        refine ⟨s, q, rfl, hp, ?_⟩
        intro m'
        cases hf : (find m' q).1 with
        | ok cs => exact ⟨cs, rfl⟩
        | error e => rw [(hv m' q e).1 hf] at this; simp at this
    | _ => simp at this
  · rintro h ⟨t, ctx⟩ ht
    obtain ⟨s, q, rfl, hp, hq⟩ := h t ctx ht
    simp only [problem, hp, Option.map_eq_none_iff]
    cases hvq : verdict q with
    | none => rfl
    | some e =>
      obtain ⟨cs, hcs⟩ := hq m
      rw [(hv m q e).2 hvq] at hcs; simp at hcs

omit hv in
/-- **C32** A file that cannot be read or parsed gives exactly one message. -/
theorem C32_unreadable (load : Path → Except Err Dict) (path : Path) (m : M) (e : Err) (hl : load path = .error e) :
    validateConfig find load path m = [.invalid e] := by
  have hread : (readConfigs load [path]).1 = .error e := by
    rw [readConfigs, readOne, hl]; rfl
  unfold validateConfig
  rw [hread]

omit hv in
/-- **C32** So does a file without settings for fixit. -/
theorem C32_nothing_to_validate (load : Path → Except Err Dict) (path : Path) (data : Dict) (m : M) (hl : load path = .ok data) (ht : ToolTables data)
    (hd : contribution data = none) : validateConfig find load path m = [.invalid .index] := by
  have hread : (readConfigs load [path]).1 = .ok [] := by
    rw [readConfigs, readOne_spec hl ht, hd]; rfl
  unfold validateConfig
  rw [hread]

/-- A value Python can iterate over: an array, a string (its characters) or a table (its keys). -/
def Iterable : Toml → Prop
  | .arr _ | .str _ | .tbl _ => True
  | _ => False

/-- The setting is absent or can be iterated over. -/
def AbsentOrIterable (key : PStr) (d : Dict) : Prop := ∀ v, field key d = some v → Iterable v

/-- The elements iteration gives. -/
def iterated (key : PStr) (d : Dict) : List Toml :=
  match field key d with
  | some (.arr l) => l
  | some (.str s) => s.map (fun c => .str [c])
  | some (.tbl t) => t.map (fun e => .str e.1)
  | _ => []

/-- Validation gets to the end of the table. -/
def Validatable (d : Dict) : Prop :=
  AbsentOrIterable (py "enable") d ∧ AbsentOrIterable (py "disable") d ∧ AbsentOrIterable (py "overrides") d ∧
  ∀ o ∈ iterated (py "overrides") d, ∃ t, o = .tbl t ∧ (∀ p, field (py "path") t = some p → ∃ s, p = .str s) ∧
    AbsentOrIterable (py "enable") t ∧ AbsentOrIterable (py "disable") t

/-- A message about the config as a whole. -/
def Report.isInvalid : Report → Prop
  | .invalid _ => True
  | _ => False

omit hv in
theorem iterField_iff (key : PStr) (d : Dict) :
    (AbsentOrIterable key d ∧ iterField key d = .ok (iterated key d)) ∨ (¬ AbsentOrIterable key d ∧ iterField key d = .error .type) := by
  unfold AbsentOrIterable iterField iterated
  rw [dget_eq_field]
  cases field key d with
  | none => left; exact ⟨by simp, rfl⟩
  | some v => cases v <;> simp [Iterable, iterToml]

omit hv in
theorem validateRules_no_invalid (root : Path) (ctx : PStr) (l : List Toml) : ∀ (m : M), ∀ r ∈ (validateRules find root ctx l m).1, ¬ r.isInvalid := by
  induction l with
  | nil => intro m r h; simp [validateRules] at h
  | cons t ts ih =>
    intro m r h
    simp only [validateRules, List.mem_append] at h
    rcases h with h | h
    · unfold validateOne at h
      split at h
      · simp only [List.mem_singleton] at h; subst h; exact id
      · split at h
        · simp at h
        · simp only [List.mem_singleton] at h; subst h; exact id
    · exact ih _ r h

omit hv in
/-- What one step of validation does: it goes on exactly under `ok`, and never by itself reports the config as invalid. -/
def StepSpec (ok : Prop) (before : List Report) (after : List Report × M × Option Err) : Prop :=
  (after.2.2 = none ↔ ok) ∧ ((∀ r ∈ before, ¬ r.isInvalid) → ∀ r ∈ after.1, ¬ r.isInvalid)

omit hv in
theorem validateField_step (root : Path) (key ctx : PStr) (d : Dict) (s : List Report × M) :
    StepSpec (AbsentOrIterable key d) s.1 (validateField find root key ctx d s) := by
  unfold StepSpec validateField
  rcases iterField_iff key d with ⟨h1, h2⟩ | ⟨h1, h2⟩
  · rw [h2]
    refine ⟨by simp [h1], fun hb r hr => ?_⟩
    simp only [List.mem_append] at hr
    rcases hr with hr | hr
    · exact hb r hr
    · exact validateRules_no_invalid root ctx _ _ r hr
  · rw [h2]
    exact ⟨by simp [h1], fun hb r hr => hb r hr⟩

/-- An override validation gets through. -/
def OverrideOK (o : Toml) : Prop := ∃ t, o = .tbl t ∧ (∀ p, field (py "path") t = some p → ∃ s, p = .str s) ∧
    AbsentOrIterable (py "enable") t ∧ AbsentOrIterable (py "disable") t

omit hv in
theorem validateOverride_step (path : Path) (o : Toml) (s : List Report × M) : StepSpec (OverrideOK o) s.1 (validateOverride find path o s) := by
  unfold validateOverride
  cases o with
  | tbl t =>
    have hctx : (∃ c, overrideCtx path t = .ok c) ↔ (∀ p, field (py "path") t = some p → ∃ s, p = .str s) := by
      unfold overrideCtx
      rw [dget_eq_field]
      cases field (py "path") t with
      | none => simp
      | some v => cases v <;> simp
    have hok : OverrideOK (.tbl t) ↔ (∃ c, overrideCtx path t = .ok c) ∧ AbsentOrIterable (py "enable") t ∧ AbsentOrIterable (py "disable") t := by
      unfold OverrideOK
      rw [hctx]
      simp
    simp only
    cases hc : overrideCtx path t with
    | error e =>
      refine ⟨?_, fun hb r hr => hb r hr⟩
      rw [hok, hc]
      simp
    | ok c =>
      simp only
      have h1 := validateField_step (find := find) path.parent (py "enable") (overrideContext (py "override enable") c) t s
      rcases hf : validateField find path.parent (py "enable") (overrideContext (py "override enable") c) t s with ⟨r1, m1, e1⟩
      rw [hf] at h1
      cases e1 with
      | some e =>
        refine ⟨?_, h1.2⟩
        rw [hok, ← h1.1]
        simp
      | none =>
        simp only
        have h2 := validateField_step (find := find) path.parent (py "disable") (overrideContext (py "override disable") c) t (r1, m1)
        refine ⟨?_, fun hb => h2.2 (h1.2 hb)⟩
        rw [hok, hc, ← h1.1, h2.1]
        simp
  | _ => exact ⟨by simp [OverrideOK], fun hb r hr => hb r hr⟩

omit hv in
theorem validateOverrides_step (path : Path) (os : List Toml) : ∀ (s : List Report × M),
    StepSpec (∀ o ∈ os, OverrideOK o) s.1 (validateOverrides find path os s) := by
  induction os with
  | nil => intro s; exact ⟨by simp [validateOverrides], fun hb r hr => hb r hr⟩
  | cons o os ih =>
    intro s
    have h1 := validateOverride_step (find := find) path o s
    rw [validateOverrides]
    rcases hf : validateOverride find path o s with ⟨r1, m1, e1⟩
    rw [hf] at h1
    cases e1 with
    | some e =>
      refine ⟨?_, h1.2⟩
      rw [List.forall_mem_cons, ← h1.1]
      simp
    | none =>
      have h2 := ih (r1, m1)
      refine ⟨?_, fun hb => h2.2 (h1.2 hb)⟩
      rw [List.forall_mem_cons, ← h1.1]
      simpa using h2.1

omit hv in
theorem validateData_step (path : Path) (d : Dict) (m : M) : StepSpec (Validatable d) [] (validateData find path d m) := by
  unfold validateData
  have h1 := validateField_step (find := find) path.parent (py "enable") (py "global enable") d ([], m)
  rcases hf : validateField find path.parent (py "enable") (py "global enable") d ([], m) with ⟨r1, m1, e1⟩
  rw [hf] at h1
  cases e1 with
  | some e =>
    refine ⟨?_, h1.2⟩
    rw [Validatable, ← h1.1]
    simp
  | none =>
    have h2 := validateField_step (find := find) path.parent (py "disable") (py "global disable") d (r1, m1)
    simp only
    rcases hf2 : validateField find path.parent (py "disable") (py "global disable") d (r1, m1) with ⟨r2, m2, e2⟩
    rw [hf2] at h2
    cases e2 with
    | some e =>
      refine ⟨?_, fun hb => h2.2 (h1.2 hb)⟩
      rw [Validatable, ← h2.1]
      simp
    | none =>
      simp only [validateOverridesField]
      rcases iterField_iff (py "overrides") d with ⟨h3, h4⟩ | ⟨h3, h4⟩
      · rw [h4]
        have h5 := validateOverrides_step (find := find) path (iterated (py "overrides") d) (r2, m2)
        refine ⟨?_, fun hb => h5.2 (h2.2 (h1.2 hb))⟩
        rw [h5.1, Validatable, ← h1.1, ← h2.1]
        simp [h3, OverrideOK]
      · rw [h4]
        refine ⟨?_, fun hb => h2.2 (h1.2 hb)⟩
        rw [Validatable]
        simp [h3]

omit hv in
/-- **C32** A settings table is reported as invalid exactly when one of its lists cannot be iterated over, or an override is not a table or has a `path`
that is not a string; then exactly one such message is given, after the messages about the references looked at before. -/
theorem C32_invalid_iff (load : Path → Except Err Dict) (path : Path) (data d : Dict) (m : M)
    (hl : load path = .ok data) (ht : ToolTables data) (hd : contribution data = some d) :
    (Validatable d → ∀ r ∈ validateConfig find load path m, ¬ r.isInvalid) ∧
    (¬ Validatable d → ∃ rs e, validateConfig find load path m = rs ++ [.invalid e] ∧ ∀ r ∈ rs, ¬ r.isInvalid) := by
  have hread : (readConfigs load [path]).1 = .ok [⟨path, d⟩] := by
    rw [readConfigs, readOne_spec hl ht, hd]
    simp only [Option.map_some, readConfigs]
    cases decide (MarksRoot d) <;> rfl
  unfold validateConfig
  rw [hread]
  have h := validateData_step (find := find) path d m
  simp only
  rcases hf : validateData find path d m with ⟨r, m', e⟩
  rw [hf] at h
  have hr := h.2 (by simp)
  cases e with
  | none =>
    have hV := h.1.1 rfl
    exact ⟨fun _ => hr, fun hn => absurd hV hn⟩
  | some e =>
    have hV : ¬ Validatable d := fun hV => by have := h.1.2 hV; simp at this
    exact ⟨fun hv => absurd hv hV, fun _ => ⟨r, e, rfl, hr⟩⟩

/-! ## C76 -/

omit hv in
/-- **C76** Only the rule references are validated: tables that agree on `enable`, `disable` and `overrides` get the same messages. -/
theorem C76_only_references_matter (load load' : Path → Except Err Dict) (path : Path) (data data' d d' : Dict) (m : M)
    (hl : load path = .ok data) (ht : ToolTables data) (hd : contribution data = some d)
    (hl' : load' path = .ok data') (ht' : ToolTables data') (hd' : contribution data' = some d')
    (h1 : field (py "enable") d = field (py "enable") d') (h2 : field (py "disable") d = field (py "disable") d')
    (h3 : field (py "overrides") d = field (py "overrides") d') :
    validateConfig find load path m = validateConfig find load' path m := by
  have hread : ∀ (load : Path → Except Err Dict) (data d : Dict), load path = .ok data → ToolTables data → contribution data = some d →
      (readConfigs load [path]).1 = .ok [⟨path, d⟩] := by
    intro load data d hl ht hd
    rw [readConfigs, readOne_spec hl ht, hd]
    simp only [Option.map_some, readConfigs]
    cases decide (MarksRoot d) <;> rfl
  unfold validateConfig
  rw [hread load data d hl ht hd, hread load' data' d' hl' ht' hd']
  simp only
  have hi : ∀ k, field k d = field k d' → iterField k d = iterField k d' := by
    intro k h; unfold iterField; rw [dget_eq_field, dget_eq_field, h]
  have : validateData find path d m = validateData find path d' m := by
    unfold validateData validateField validateOverridesField
    rw [hi _ h1, hi _ h2, hi _ h3]
  rw [this]

end

/-- A config whose formatter does not exist. -/
def exBadFormatter : Dict := [(py "tool", .tbl [(py "fixit", .tbl [(py "formatter", .str (py "nope"))])])]

/-- **C76** (finding) validate-config has no complaint about a config that merging rejects. -/
theorem C76_accepts_a_broken_config :
    validateConfig (findRules exModules []) (fun _ => .ok exBadFormatter) [py "p", py "fixit.toml"] 0 = [] ∧
    ∃ msg, mergeConfigs exEnv id [py "p", py "f.py"] [⟨[py "p", py "fixit.toml"], [(py "formatter", .str (py "nope"))]⟩] none = .error (.config msg) :=
  ⟨rfl, _, rfl⟩

/-- Modules importable only from the root import directory. -/
def exRootModules : Modules where
  absolute sysPath m := if py "/p" ∈ sysPath ∧ m = py "orange" then .ok (.mk [(py "R", .rule ⟨py "orange", py "R"⟩)] .plain) else .fail .importError
  locals _ _ := .fail .importError

/-- A config enabling a rule through root import. -/
def exRootImport : Dict := [(py "root", .bool true), (py "enable-root-import", .bool true), (py "enable", .arr [.str (py "orange")])]

/-- **C76** (finding) validate-config does not apply `enable-root-import`: it rejects a reference that collecting rules loads. -/
theorem C76_rejects_a_working_config :
    (∃ msgs : List Report, validateConfig (findRules exRootModules []) (fun _ => .ok [(py "tool", .tbl [(py "fixit", .tbl exRootImport)])])
        [py "p", py "fixit.toml"] 0 = msgs ∧ msgs.length = 1) ∧
    ∃ c w, mergeConfigs exEnv id [py "p", py "f.py"] [⟨[py "p", py "fixit.toml"], exRootImport⟩] none = .ok (c, w) ∧
      ∃ r, collectRules (loaderEnv exRootModules (fun _ => []) (fun _ _ => .ok true) (fun _ => .ok ()) : CollectEnv Cls Nat Nat) id c [] 0 = (.ok r, []) ∧
        r.rules.map (·.cdef) = [⟨py "orange", py "R"⟩] :=
  ⟨⟨_, rfl, by rfl⟩, _, _, rfl, _, rfl, by rfl⟩

/-- The loader satisfies the hypothesis of the C32 theorems. -/
theorem loader_loadsLike (mods : Modules) (path : List PStr) :
    LoadsLike (findRules mods path) (fun q => match findDefs mods path q with | .error e => some e | .ok _ => none) := by
  intro m q e
  unfold findRules
  simp only
  cases findDefs mods path q with
  | error e' => simp [Except.map]
  | ok l => simp [Except.map]

example : ShapedForValidation exRootImport := by
  refine ⟨Or.inr ⟨_, rfl⟩, ?_, ?_, ?_⟩ <;> simp [field, exRootImport, AbsentOrArray, elems]

/-- C32_invalid_iff: both sides occur. A number of rules is no list; a string is one (of its characters). -/
example : ¬ Validatable [(py "enable", .int 1)] ∧ Validatable [(py "enable", .str [])] := by
  refine ⟨fun h => ?_, ?_⟩
  · exact h.1 (.int 1) (by simp [field])
  · refine ⟨?_, ?_, ?_, ?_⟩ <;> simp [AbsentOrIterable, field, iterated, Iterable]

/-- (finding) An empty string passes validation as a list of rules; merging the same table fails. -/
theorem C76_accepts_a_string_for_a_list :
    validateConfig (findRules exModules []) (fun _ => .ok [(py "tool", .tbl [(py "fixit", .tbl [(py "enable", .str [])])])]) [py "p", py "fixit.toml"] 0 = [] ∧
    ∃ msg, mergeConfigs exEnv id [py "p", py "f.py"] [⟨[py "p", py "fixit.toml"], [(py "enable", .str [])]⟩] none = .error (.config msg) :=
  ⟨rfl, _, rfl⟩

end Fixit
