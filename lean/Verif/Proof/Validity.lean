import Verif.Props.Merge

/-! When the steps of merging succeed. -/

namespace Fixit
open Py Spec

variable {V : Type} (env : CfgEnv V) (path : Path)

/-- A string that `parse_rule` accepts. -/
def IsRef (s : PStr) : Prop := ∃ r : RuleRef, r.WF ∧ (s = r.render ∨ s = r.render ++ ['\n'])

/-- The values of an applicable section are usable. -/
structure UsableIn (env : CfgEnv V) (d : Dict) : Prop where
  rules : ∀ t ∈ elems (field (py "enable") d) ++ elems (field (py "disable") d), ∃ s, t = .str s ∧ IsRef s
  version : ∀ t, truthyField (py "python-version") d = some t → ∃ s, t = .str s ∧ env.parseVersion s ≠ none
  formatter : ∀ t, truthyField (py "formatter") d = some t → ∃ s, t = .str s ∧ s ∈ env.formatters

theorem asSequence_iff {key : PStr} (v : Option Toml) : (∃ l, asSequence key v = .ok l) ↔ AbsentOrArray v := by
  cases v with
  | none => simp [asSequence, AbsentOrArray]
  | some t => cases t <;> simp [asSequence, AbsentOrArray]

theorem asSequence_elems {key : PStr} {v : Option Toml} {l : List Toml} (h : asSequence key v = .ok l) : l = elems v := by
  cases v with
  | none => simp only [asSequence, Except.ok.injEq] at h; subst h; rfl
  | some t =>
    cases t with
    | arr a => simp only [asSequence, Except.ok.injEq] at h; subst h; rfl
    | _ => simp [asSequence] at h

theorem toOptVal_iff (t : Toml) : (∃ o, t.toOptVal = some o) ↔ Scalar t := by
  cases t <;> simp [Toml.toOptVal, Scalar]

theorem scalarOptions_iff (d : Dict) : (∃ o, scalarOptions d = .ok o) ↔ ∀ x ∈ d, Scalar x.2 := by
  induction d with
  | nil => simp [scalarOptions]
  | cons e es ih =>
    obtain ⟨k, v⟩ := e
    rw [List.forall_mem_cons, ← ih, ← toOptVal_iff]
    simp only [scalarOptions]
    cases hv : v.toOptVal with
    | none => simp
    | some x =>
      simp only [bind_ok, pure_ok]
      constructor
      · rintro ⟨o, a, ha, -⟩; exact ⟨⟨x, rfl⟩, a, ha⟩
      · rintro ⟨-, a, ha⟩; exact ⟨_, a, ha, rfl⟩

theorem optionTables_iff (d : Dict) : (∃ o, optionTables d = .ok o) ↔ ∀ e ∈ d, ∃ o, e.2 = .tbl o ∧ ∀ x ∈ o, Scalar x.2 := by
  induction d with
  | nil => simp [optionTables]
  | cons e es ih =>
    obtain ⟨k, v⟩ := e
    simp only [List.mem_cons, forall_eq_or_imp, ← ih]
    cases v with
    | tbl t =>
      simp only [optionTables, bind_ok, pure_ok, Toml.tbl.injEq]
      constructor
      · rintro ⟨o, a, ha, b, hb, -⟩
        exact ⟨⟨t, rfl, (scalarOptions_iff t).1 ⟨a, ha⟩⟩, b, hb⟩
      · rintro ⟨⟨t', rfl, ht⟩, b, hb⟩
        obtain ⟨a, ha⟩ := (scalarOptions_iff t).2 ht
        exact ⟨_, a, ha, b, hb, rfl⟩
    | _ => simp [optionTables]

theorem asOptions_iff {key : PStr} (v : Option Toml) : (∃ o, asOptions key v = .ok o) ↔ ValidOptions v := by
  cases v with
  | none => simp [asOptions, ValidOptions]
  | some t => cases t <;> simp [asOptions, ValidOptions, optionTables_iff]

theorem tableOf_iff (d : Dict) : (∃ t, tableOf d = .ok t) ↔ WellShaped d := by
  unfold tableOf
  simp only [bind_ok, pure_ok, dget_eq_field]
  constructor
  · rintro ⟨t, a, ha, b, hb, c, hc, -⟩
    exact ⟨(asSequence_iff _).1 ⟨a, ha⟩, (asSequence_iff _).1 ⟨b, hb⟩, (asOptions_iff _).1 ⟨c, hc⟩⟩
  · rintro ⟨h1, h2, h3⟩
    obtain ⟨a, ha⟩ := (asSequence_iff _).2 h1
    obtain ⟨b, hb⟩ := (asSequence_iff _).2 h2
    obtain ⟨c, hc⟩ := (asOptions_iff _).2 h3
    exact ⟨_, a, ha, b, hb, c, hc, rfl⟩

theorem parseRuleToml_iff (dir : Path) (t : Toml) : (∃ q, parseRuleToml dir t = .ok q) ↔ ∃ s, t = .str s ∧ IsRef s := by
  cases t with
  | str s => simp only [parseRuleToml, Toml.str.injEq]; rw [C08_accepts_iff_grammar]; simp [IsRef]
  | _ => simp [parseRuleToml]

theorem enableLoop_iff (dir : Path) (ts : List Toml) : ∀ (m : Merged V), (∃ m', enableLoop dir ts m = .ok m') ↔ ∀ t ∈ ts, ∃ s, t = .str s ∧ IsRef s := by
  induction ts with
  | nil => intro m; simp [enableLoop]
  | cons t ts ih =>
    intro m
    simp only [enableLoop, bind_ok, List.mem_cons, forall_eq_or_imp, ← parseRuleToml_iff dir]
    constructor
    · rintro ⟨m', q, hq, h⟩; exact ⟨⟨q, hq⟩, fun t ht => (parseRuleToml_iff dir t).2 ((ih _).1 ⟨m', h⟩ t ht)⟩
    · rintro ⟨⟨q, hq⟩, h⟩
      obtain ⟨m', hm'⟩ := (ih { m with enable := setAdd QualifiedRule.key q m.enable, disable := setDiscard QualifiedRule.key q m.disable }).2
        (fun t ht => (parseRuleToml_iff dir t).1 (h t ht))
      exact ⟨m', q, hq, hm'⟩

theorem disableLoop_iff (dir : Path) (ts : List Toml) : ∀ (m : Merged V), (∃ m', disableLoop dir ts m = .ok m') ↔ ∀ t ∈ ts, ∃ s, t = .str s ∧ IsRef s := by
  induction ts with
  | nil => intro m; simp [disableLoop]
  | cons t ts ih =>
    intro m
    simp only [disableLoop, bind_ok, List.mem_cons, forall_eq_or_imp, ← parseRuleToml_iff dir]
    constructor
    · rintro ⟨m', q, hq, h⟩; exact ⟨⟨q, hq⟩, fun t ht => (parseRuleToml_iff dir t).2 ((ih _).1 ⟨m', h⟩ t ht)⟩
    · rintro ⟨⟨q, hq⟩, h⟩
      obtain ⟨m', hm'⟩ := (ih { m with enable := setDiscard QualifiedRule.key q m.enable, disable := setAdd QualifiedRule.key q m.disable }).2
        (fun t ht => (parseRuleToml_iff dir t).1 (h t ht))
      exact ⟨m', q, hq, hm'⟩

theorem setVersion_iff (v : Option Toml) (m : Merged V) :
    (∃ m', setVersion env v m = .ok m') ↔ ∀ t, v.filter Toml.truthy = some t → ∃ s, t = .str s ∧ env.parseVersion s ≠ none := by
  cases v with
  | none => simp [setVersion]
  | some t =>
    simp only [setVersion, Option.filter]
    by_cases ht : t.truthy = true
    · simp only [ht, if_true, bind_ok, pure_ok, Option.some.injEq]
      cases t with
      | str s =>
        simp only [versionOf]
        cases hp : env.parseVersion s with
        | none => simp [hp]
        | some x => simp [hp]
      | _ => simp [versionOf]
    · simp [ht]

theorem setFormatter_iff (v : Option Toml) (m : Merged V) :
    (∃ m', setFormatter env v m = .ok m') ↔ ∀ t, v.filter Toml.truthy = some t → ∃ s, t = .str s ∧ s ∈ env.formatters := by
  cases v with
  | none => simp [setFormatter]
  | some t =>
    simp only [setFormatter, Option.filter]
    by_cases ht : t.truthy = true
    · simp only [ht, if_true, bind_ok, pure_ok, Option.some.injEq]
      cases t with
      | str s =>
        simp only [formatterOf]
        by_cases hp : s ∈ env.formatters
        · simp [hp]
        · simp [hp, badFormatter]
      | _ => simp [formatterOf, badFormatter]
    · simp [ht]

theorem applySection_iff (sec : Section) (m : Merged V) :
    (∃ m', applySection env path sec m = .ok m') ↔
      WellShaped sec.table ∧ (sec.scope.isPrefixOf path = true → UsableIn env sec.table) := by
  unfold applySection
  simp only [bind_ok]
  constructor
  · rintro ⟨m', t, ht, h⟩
    refine ⟨(tableOf_iff _).1 ⟨t, ht⟩, ?_⟩
    intro hs
    obtain ⟨h1, h2, -, h4, h5⟩ := tableOf_ok ht
    unfold processSubpath Path.under at h
    rw [if_pos hs] at h
    simp only [bind_ok] at h
    obtain ⟨m1, a, m2, b, m3, c, d⟩ := h
    refine ⟨?_, ?_, ?_⟩
    · rw [← asSequence_elems h1, ← asSequence_elems h2]
      intro x hx
      rw [List.mem_append] at hx
      rcases hx with hx | hx
      · exact (enableLoop_iff _ _ _).1 ⟨_, a⟩ x hx
      · exact (disableLoop_iff _ _ _).1 ⟨_, b⟩ x hx
    · rw [h4] at c; exact (setVersion_iff env _ _).1 ⟨_, c⟩
    · rw [h5] at d; exact (setFormatter_iff env _ _).1 ⟨_, d⟩
  · rintro ⟨hw, hu⟩
    obtain ⟨t, ht⟩ := (tableOf_iff _).2 hw
    obtain ⟨h1, h2, -, h4, h5⟩ := tableOf_ok ht
    unfold processSubpath Path.under
    by_cases hs : sec.scope.isPrefixOf path = true
    · simp only [if_pos hs, bind_ok]
      have hu := hu hs
      have hr := hu.rules
      rw [← asSequence_elems h1, ← asSequence_elems h2] at hr
      obtain ⟨m1, a⟩ := (enableLoop_iff sec.dir t.enable m).2 (fun x hx => hr x (by simp [hx]))
      obtain ⟨m2, b⟩ := (disableLoop_iff sec.dir t.disable m1).2 (fun x hx => hr x (by simp [hx]))
      obtain ⟨m3, c⟩ := (setVersion_iff env t.pyver { m2 with options := dictUpdate m2.options t.options }).2 (by rw [h4]; exact hu.version)
      obtain ⟨m4, d⟩ := (setFormatter_iff env t.formatter m3).2 (by rw [h5]; exact hu.formatter)
      exact ⟨m4, t, ht, m1, a, m2, b, m3, c, d⟩
    · simp only [if_neg hs]
      exact ⟨m, t, ht, rfl⟩

/-- An `overrides` entry is a table with a non-empty string `path`, and its section can be applied. -/
def ValidOverride (env : CfgEnv V) (path dir : Path) (o : Toml) : Prop :=
  ∃ d s, o = .tbl d ∧ field (py "path") d = some (.str s) ∧ s ≠ [] ∧ WellShaped d ∧
    ((resolveFrom dir s).isPrefixOf path = true → UsableIn env d)

theorem applyOverride_iff (dir : Path) (o : Toml) (m : Merged V) :
    (∃ m', applyOverride env path dir o m = .ok m') ↔ ValidOverride env path dir o := by
  cases o with
  | tbl d =>
    simp only [applyOverride, ValidOverride, Toml.tbl.injEq, dget_eq_field]
    cases hp : field (py "path") d with
    | none =>
      constructor
      · simp
      · rintro ⟨d', s, rfl, h, -⟩; rw [hp] at h; simp at h
    | some p =>
      simp only
      constructor
      · rintro ⟨m', h⟩
        split at h
        · rename_i ht
          rw [bind_ok] at h
          obtain ⟨sub, hs, h⟩ := h
          cases p with
          | str s =>
            simp only [overridePath, Except.ok.injEq] at hs
            subst hs
            obtain ⟨a, b⟩ := (applySection_iff env path _ m).1 ⟨m', h⟩
            refine ⟨d, s, rfl, hp, ?_, a, b⟩
            intro e; subst e; simp [Toml.truthy] at ht
          | _ => simp [overridePath] at hs
        · simp at h
      · rintro ⟨d', s, rfl, h, hne, a, b⟩
        rw [hp] at h
        cases h
        have ht : (Toml.str s).truthy = true := by
          cases s with
          | nil => exact absurd rfl hne
          | cons c cs => rfl
        obtain ⟨m', hm'⟩ := (applySection_iff env path ⟨dir, resolveFrom dir s, d⟩ m).2 ⟨a, b⟩
        exact ⟨m', by rw [if_pos ht, bind_ok]; exact ⟨_, rfl, hm'⟩⟩
  | _ => simp [applyOverride, ValidOverride]

theorem applyOverrides_iff (dir : Path) (os : List Toml) : ∀ (m : Merged V),
    (∃ m', applyOverrides env path dir os m = .ok m') ↔ ∀ o ∈ os, ValidOverride env path dir o := by
  induction os with
  | nil => intro m; simp [applyOverrides]
  | cons o os ih =>
    intro m
    simp only [applyOverrides, bind_ok, List.mem_cons, forall_eq_or_imp]
    constructor
    · rintro ⟨m', m1, h1, h2⟩
      exact ⟨(applyOverride_iff env path dir o m).1 ⟨m1, h1⟩, (ih m1).1 ⟨m', h2⟩⟩
    · rintro ⟨h1, h2⟩
      obtain ⟨m1, h1⟩ := (applyOverride_iff env path dir o m).2 h1
      obtain ⟨m', h2⟩ := (ih m1).2 h2
      exact ⟨m', m1, h1, h2⟩

end Fixit
