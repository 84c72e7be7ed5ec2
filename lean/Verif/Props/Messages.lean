import Verif.Model.Messages
import Verif.Spec.Messages
import Verif.Proof.Repr
import Verif.Props.Config
import Verif.Props.Cli

/-!
# C122: what a configuration error says
-/

namespace Fixit
open Py Spec

variable {V : Type} (env : CfgEnv V) (path : Path) (R : Reprs)

/-- What the interpreter writes, as the specification sees it. -/
def Reprs.asNotation (R : Reprs) : Notation := ⟨R.float, R.date, R.dateType⟩

/-- The versions and formatters that exist. -/
def CfgEnv.choices (env : CfgEnv V) : Choices := ⟨fun s => env.parseVersion s ≠ none, fun s => s ∈ env.formatters⟩

/-- The computation, when it fails with ConfigError, has a message of this kind. -/
def Says {α : Type} (P : PStr → Prop) (x : Except Err α) : Prop := ∀ m, x = .error (.config m) → P (messageText R m)

theorem Says.bind {α β : Type} {P : PStr → Prop} {x : Except Err α} {f : α → Except Err β} (hx : Says R P x)
    (hf : ∀ a, x = .ok a → Says R P (f a)) : Says R P (x >>= f) := by
  intro m hm
  cases x with
  | error e' => simp only [Bind.bind, Except.bind, Except.error.injEq] at hm; subst hm; exact hx m rfl
  | ok a => exact hf a rfl m hm

theorem Says.ok {α : Type} {P : PStr → Prop} (a : α) : Says R P (.ok a : Except Err α) := by intro m h; simp at h
theorem Says.pure {α : Type} {P : PStr → Prop} (a : α) : Says R P (pure a : Except Err α) := Says.ok R a
theorem Says.config {α : Type} {P : PStr → Prop} (m : List Piece) (h : P (messageText R m)) : Says R P (.error (.config m) : Except Err α) := by
  intro m' h'; cases h'; exact h
theorem Says.other {α : Type} {P : PStr → Prop} (e : Err) (h : ∀ m, e ≠ .config m) : Says R P (.error e : Except Err α) := by
  intro m h'; cases h'; exact absurd rfl (h m)

theorem Says.imp {α : Type} {P Q : PStr → Prop} {x : Except Err α} (h : Says R P x) (hi : ∀ t, P t → Q t) : Says R Q x := fun m hm => hi _ (h m hm)

theorem shows_str (s : PStr) : Shows R.asNotation (.str s) (reprStr R.printable s) := fun names => reprStr_literal names R.printable s

theorem parseRule_says (s : PStr) (r : Path) : Says R (fun t => ¬ NamesRule s ∧ t = py "invalid rule name " ++ reprStr R.printable s) (parseRule s r) := by
  intro m hm
  refine ⟨fun hs => ?_, ?_⟩
  · obtain ⟨q, hq⟩ := (C08_accepts_iff_grammar s r).2 hs
    rw [hq] at hm; simp at hm
  · unfold parseRule at hm
    split at hm
    · cases hm
      simp [messageText, Piece.render]
    · simp only at hm
      split at hm <;> cases hm

section
variable (sec : Section)

theorem enableLoop_says {dir : Path} (hs : sec.scope <+: path) : ∀ (ts : List Toml), (∀ t ∈ ts, t ∈ elems (field (py "enable") sec.table) ++ elems (field (py "disable") sec.table)) →
    ∀ m : Merged V, Says R (SectionComplaint R.asNotation env.choices path sec) (enableLoop dir ts m) := by
  intro ts
  induction ts with
  | nil => intro _ m; exact Says.ok R _
  | cons t ts ih =>
    intro h m
    refine Says.bind R ?_ (fun q _ => ih (fun t ht => h t (by simp [ht])) _)
    cases t with
    | str s =>
      refine Says.imp R (parseRule_says R s dir) ?_
      rintro _ ⟨h1, rfl⟩
      exact .rule s _ (h _ (by simp)) hs h1 (shows_str R s)
    | _ => exact Says.other R _ (by simp)

theorem disableLoop_says {dir : Path} (hs : sec.scope <+: path) : ∀ (ts : List Toml), (∀ t ∈ ts, t ∈ elems (field (py "enable") sec.table) ++ elems (field (py "disable") sec.table)) →
    ∀ m : Merged V, Says R (SectionComplaint R.asNotation env.choices path sec) (disableLoop dir ts m) := by
  intro ts
  induction ts with
  | nil => intro _ m; exact Says.ok R _
  | cons t ts ih =>
    intro h m
    refine Says.bind R ?_ (fun q _ => ih (fun t ht => h t (by simp [ht])) _)
    cases t with
    | str s =>
      refine Says.imp R (parseRule_says R s dir) ?_
      rintro _ ⟨h1, rfl⟩
      exact .rule s _ (h _ (by simp)) hs h1 (shows_str R s)
    | _ => exact Says.other R _ (by simp)

/-- The name of an option in quotes. -/
theorem wrongShape_text (key kind : PStr) (h : ∀ c ∈ key, 32 ≤ c.toNat ∧ c.toNat < 127 ∧ c ≠ '\'' ∧ c ≠ '\\') :
    messageText R (wrongShape key kind) = py "'" ++ key ++ py "' must be " ++ kind ++ py " of values, got <class 'str'>" := by
  simp only [messageText, wrongShape, List.flatMap_cons, List.flatMap_nil, Piece.render, reprStr_plain R.printable key h]
  simp

theorem asSequence_says {key : PStr} (hkey : key ∈ [py "enable", py "disable"]) :
    Says R (SectionComplaint R.asNotation env.choices path sec) (asSequence key (field key sec.table)) := by
  cases hf : field key sec.table with
  | none => exact Says.ok R _
  | some v =>
    have hk : ∀ c ∈ key, 32 ≤ c.toNat ∧ c.toNat < 127 ∧ c ≠ '\'' ∧ c ≠ '\\' := by
      simp only [List.mem_cons, List.not_mem_nil, or_false] at hkey
      rcases hkey with rfl | rfl <;> decide
    have bad : (∀ l, v ≠ .arr l) → Says R (SectionComplaint R.asNotation env.choices path sec) (.error (.config (wrongShape key (py "array"))) : Except Err (List Toml)) := by
      intro hv
      refine Says.config R _ ?_
      rw [wrongShape_text R key _ hk]
      have := SectionComplaint.array (N := R.asNotation) (C := env.choices) (target := path) key v hkey hf hv
      simpa using this
    cases v with
    | arr l => exact Says.ok R _
    | _ => exact bad (by simp)

theorem typePiece_render (v : Toml) (h : ¬ Scalar v) : v.typePiece.render R = typeText R.asNotation v := by
  cases v <;> first | exact absurd trivial h | rfl

theorem toOptVal_none {v : Toml} (h : v.toOptVal = none) : ¬ Scalar v := by
  cases v <;> simp_all [Toml.toOptVal, Scalar]

theorem scalarOptions_says {opts : Dict} {rule : PStr} {t : Dict} (hopts : field (py "options") sec.table = some (.tbl opts)) (ht : (rule, Toml.tbl t) ∈ opts) :
    ∀ t', (∀ e ∈ t', e ∈ t) → Says R (SectionComplaint R.asNotation env.choices path sec) (scalarOptions t') := by
  intro t'
  induction t' with
  | nil => intro _; exact Says.ok R _
  | cons e es ih =>
    intro h
    obtain ⟨k, v⟩ := e
    simp only [scalarOptions]
    cases hv : v.toOptVal with
    | none =>
      refine Says.config R _ ?_
      have := SectionComplaint.option (N := R.asNotation) (C := env.choices) (target := path) (sec := sec) opts rule t k v _ hopts ht (h (k, v) (by simp)) (toOptVal_none hv) (shows_str R k)
      rw [List.append_assoc] at this
      simp only [messageText, wrongOption, List.flatMap_cons, List.flatMap_nil, List.append_nil, typePiece_render R v (toOptVal_none hv)]
      exact this
    | some o => exact Says.bind R (ih (fun x hx => h x (by simp [hx]))) (fun _ _ => Says.pure R _)

theorem optionTables_says {opts : Dict} (hopts : field (py "options") sec.table = some (.tbl opts)) :
    ∀ d, (∀ e ∈ d, e ∈ opts) → Says R (SectionComplaint R.asNotation env.choices path sec) (optionTables d) := by
  intro d
  induction d with
  | nil => intro _; exact Says.ok R _
  | cons e es ih =>
    intro h
    obtain ⟨k, v⟩ := e
    cases v with
    | tbl t =>
      simp only [optionTables]
      exact Says.bind R (scalarOptions_says env path R sec hopts (h (k, .tbl t) (by simp)) t (fun _ h => h))
        (fun _ _ => Says.bind R (ih (fun x hx => h x (by simp [hx]))) (fun _ _ => Says.pure R _))
    | _ => exact Says.other R _ (by simp)

theorem asOptions_says : Says R (SectionComplaint R.asNotation env.choices path sec) (asOptions (py "options") (field (py "options") sec.table)) := by
  cases hf : field (py "options") sec.table with
  | none => exact Says.ok R _
  | some v =>
    have bad : (∀ d, v ≠ .tbl d) → Says R (SectionComplaint R.asNotation env.choices path sec) (.error (.config (wrongShape (py "options") (py "mapping"))) : Except Err OptTable) := by
      intro hv
      refine Says.config R _ ?_
      rw [wrongShape_text R (py "options") _ (by decide)]
      exact SectionComplaint.mapping v hf hv
    cases v with
    | tbl d => exact optionTables_says env path R sec hf d (fun _ h => h)
    | _ => exact bad (by simp)

theorem setVersion_says (hs : sec.scope <+: path) (m : Merged V) :
    Says R (SectionComplaint R.asNotation env.choices path sec) (setVersion env (field (py "python-version") sec.table) m) := by
  cases hf : field (py "python-version") sec.table with
  | none => exact Says.ok R _
  | some v =>
    simp only [setVersion]
    split
    · rename_i hv
      refine Says.bind R ?_ (fun _ _ => Says.pure R _)
      cases v with
      | str s =>
        simp only [versionOf]
        cases hp : env.parseVersion s with
        | some x => exact Says.ok R _
        | none =>
          refine Says.config R _ ?_
          have := SectionComplaint.version (N := R.asNotation) (C := env.choices) (target := path) (sec := sec) s _ (by simp only [truthyField, hf, Option.filter, hv, if_true]) hs
            (by simp [CfgEnv.choices, hp]) (shows_str R s)
          simpa [messageText, Piece.render] using this
      | _ => exact Says.other R _ (by simp)
    · exact Says.ok R _

theorem setFormatter_says (hs : sec.scope <+: path) (m : Merged V) :
    Says R (SectionComplaint R.asNotation env.choices path sec) (setFormatter env (field (py "formatter") sec.table) m) := by
  cases hf : field (py "formatter") sec.table with
  | none => exact Says.ok R _
  | some v =>
    simp only [setFormatter]
    split
    · rename_i hv
      refine Says.bind R ?_ (fun _ _ => Says.pure R _)
      have bad : ∀ p : Piece, (∀ s, v = .str s → s ∉ env.formatters) → Shows R.asNotation v (p.render R) →
          Says R (SectionComplaint R.asNotation env.choices path sec) (badFormatter p) := by
        intro p h1 h2
        refine Says.config R _ ?_
        have := SectionComplaint.formatter (N := R.asNotation) (C := env.choices) (target := path) (sec := sec) v _ (by simp only [truthyField, hf, Option.filter, hv, if_true]) hs h1 h2
        simpa [messageText, Piece.render] using this
      cases v with
      | str s =>
        simp only [formatterOf]
        split
        · exact Says.ok R _
        · rename_i hin
          exact bad _ (by rintro _ ⟨⟩; exact hin) (shows_str R s)
      | int n => exact bad _ (by simp) rfl
      | float n => exact bad _ (by simp) rfl
      | bool b => exact bad _ (by simp) (by cases b <;> rfl)
      | date n => exact bad _ (by simp) rfl
      | arr l => exact Says.other R _ (by simp)
      | tbl l => exact Says.other R _ (by simp)
    · exact Says.ok R _

theorem applySection_says (m : Merged V) : Says R (SectionComplaint R.asNotation env.choices path sec) (applySection env path sec m) := by
  unfold applySection
  refine Says.bind R ?_ ?_
  · unfold tableOf
    simp only [dget_eq_field]
    exact Says.bind R (asSequence_says env path R sec (by simp)) (fun _ _ => Says.bind R (asSequence_says env path R sec (by simp))
      (fun _ _ => Says.bind R (asOptions_says env path R sec) (fun _ _ => Says.pure R _)))
  · intro t ht
    obtain ⟨h1, h2, -, h4, h5⟩ := tableOf_ok ht
    unfold processSubpath
    split
    · rename_i hs
      have hs : sec.scope <+: path := by unfold Path.under at hs; rwa [List.isPrefixOf_iff_prefix] at hs
      refine Says.bind R (enableLoop_says env path R sec hs _ (fun x hx => ?_) m) (fun m1 _ => ?_)
      · rw [asSequence_elems h1] at hx; simp [hx]
      refine Says.bind R (disableLoop_says env path R sec hs _ (fun x hx => ?_) m1) (fun m2 _ => ?_)
      · rw [asSequence_elems h2] at hx; simp [hx]
      refine Says.bind R ?_ (fun m3 _ => ?_)
      · rw [h4]; exact setVersion_says env path R sec hs _
      · rw [h5]; exact setFormatter_says env path R sec hs _
    · exact Says.ok R _
end

theorem applyOverrides_says (f : File) (root : Path) : ∀ (os : List Toml), (∀ o ∈ os, o ∈ elems (field (py "overrides") f.table)) →
    ∀ m : Merged V, Says R (Complaint R.asNotation env.choices path root f) (applyOverrides env path f.dir os m) := by
  intro os
  induction os with
  | nil => intro _ m; exact Says.ok R _
  | cons o os ih =>
    intro h m
    simp only [applyOverrides]
    refine Says.bind R ?_ (fun m1 _ => ih (fun d hd => h d (by simp [hd])) m1)
    have ho := h o (by simp)
    have bad : (∀ d, o ≠ .tbl d) → Says R (Complaint R.asNotation env.choices path root f)
        (.error (.config [.text (py "'overrides' requires array of tables")]) : Except Err (Merged V)) :=
      fun hd => Says.config R _ (Complaint.noTable o ho hd)
    cases o with
    | tbl d =>
      simp only [applyOverride, dget_eq_field]
      cases hf : field (py "path") d with
      | none => exact Says.config R _ (Complaint.noPath d ho (by simp [truthyField, hf]))
      | some p =>
        simp only
        split
        · rename_i hp
          cases p with
          | str s =>
            refine Says.bind R (Says.ok R _) (fun sub hsub => ?_)
            simp only [overridePath, Except.ok.injEq] at hsub
            subst hsub
            refine Says.imp R (applySection_says env path R _ m) (fun t ht => Complaint.inSection _ t ?_ ht)
            simp only [sections, List.mem_cons]
            right
            cases ha : field (py "overrides") f.table with
            | none => rw [ha] at ho; simp [elems] at ho
            | some a =>
              cases a with
              | arr l =>
                rw [ha] at ho
                exact List.mem_filterMap.2 ⟨.tbl d, ho, by simp [overrideSection, hf]⟩
              | _ => rw [ha] at ho; simp [elems] at ho
          | _ => exact Says.bind R (Says.other R _ (by simp)) (fun _ h => by simp [overridePath] at h)
        · rename_i hp
          exact Says.config R _ (Complaint.noPath d ho (by simp [truthyField, hf, Option.filter, hp]))
    | _ => exact bad (by simp)

theorem mem_relParts {s : PStr} (h : py ".." ∈ relParts s) : py ".." ∈ splitOn '/' s := by
  unfold relParts at h
  exact (List.mem_filter.1 h).1

theorem mergeStep_says (c : RawConfig) (s : MState V) :
    Says R (Complaint R.asNotation env.choices path (stepRoot c s.root) c.file) (mergeStep env path c s) := by
  rw [mergeStep_eq]
  refine Says.bind R ?_ (fun _ _ => Says.bind R ?_ (fun _ _ => Says.bind R ?_
    (fun m _ => Says.bind R ?_ (fun os hos => Says.bind R ?_ (fun _ _ => Says.pure R _)))))
  · cases hf : truthyField (py "enable-root-import") c.data with
    | none => exact Says.ok R _
    | some v =>
      simp only [rootImportOf]
      split
      · rename_i hne
        exact Says.config R _ (Complaint.notRoot v hf (fun e => hne e.symm))
      · cases v with
        | str x =>
          simp only
          split
          · rename_i hx
            refine Says.config R _ (Complaint.absolute x hf ?_)
            cases x with
            | nil => simp [startsWith, List.isPrefixOf] at hx
            | cons a as => simp only [startsWith, List.isPrefixOf, Bool.and_true, beq_iff_eq] at hx; subst hx; rfl
          · split
            · rename_i hx
              exact Says.config R _ (Complaint.parentDir x hf (mem_relParts hx))
            · exact Says.ok R _
        | _ => exact Says.ok R _
  · cases hf : truthyField (py "output-format") c.data with
    | none => exact Says.ok R _
    | some v =>
      simp only [outputFormatOf]
      cases ho : OutputFormat.ofToml v with
      | none =>
        refine Says.config R _ (Complaint.outputFormat v hf ?_)
        rintro x hx rfl
        simp only [List.mem_cons, List.not_mem_nil, or_false] at hx
        rcases hx with rfl | rfl | rfl <;> simp [OutputFormat.ofToml] at ho
      | some f => exact Says.ok R _
  · exact Says.imp R (applySection_says env path R _ _) (fun t ht => Complaint.inSection _ t (by simp [sections, RawConfig.file]) ht)
  · rw [dget_eq_field]
    cases hf : field (py "overrides") c.data with
    | none => exact Says.ok R _
    | some v =>
      have bad : (∀ l, v ≠ .arr l) → Says R (Complaint R.asNotation env.choices path (stepRoot c s.root) c.file)
          (.error (.config (wrongShape (py "overrides") (py "array"))) : Except Err (List Toml)) := by
        intro hv
        refine Says.config R _ ?_
        rw [wrongShape_text R (py "overrides") _ (by decide)]
        exact Complaint.overrides v hf hv
      cases v with
      | arr l => exact Says.ok R _
      | _ => exact bad (by simp)
  · rw [dget_eq_field] at hos
    refine applyOverrides_says env path R c.file _ os (fun o ho => ?_) m
    rw [asSequence_elems hos] at ho
    exact ho

variable (order : List QualifiedRule → List QualifiedRule)

/-- **C122** When merging fails with a configuration error, its text is a complaint about one of the files, and everything is in order in
the files of lower priority. -/
theorem C122_says_what_is_wrong (raw : List RawConfig) (root : Option Path) (m : List Piece) (h : mergeConfigs env order path raw root = .error (.config m)) :
    ∃ pre f post, files raw = pre ++ f :: post ∧ Complaint R.asNotation env.choices path (rootDir root (f :: post)) f (messageText R m) ∧
      (∀ f' ∈ post, ValidFile env path f') ∧ ValidRootImport root post := by
  have key : ∀ (raw : List RawConfig), mergeLoop env path raw.reverse (mergeInit env root) = .error (.config m) →
      ∃ pre f post, files raw = pre ++ f :: post ∧ Complaint R.asNotation env.choices path (rootDir root (f :: post)) f (messageText R m) ∧
      (∀ f' ∈ post, ValidFile env path f') ∧ ValidRootImport root post := by
    intro raw
    induction raw with
    | nil => intro h; simp [mergeLoop] at h
    | cons c cs ih =>
      intro h
      rw [List.reverse_cons, mergeLoop_append] at h
      cases hc : mergeLoop env path cs.reverse (mergeInit env root) with
      | error e =>
        rw [hc] at h
        simp only [Bind.bind, Except.bind, Except.error.injEq] at h
        subst h
        obtain ⟨pre, f, post, h1, h2⟩ := ih hc
        exact ⟨c.file :: pre, f, post, by simp only [files, List.map_cons, List.cons_append] at h1 ⊢; rw [h1], h2⟩
      | ok s1 =>
        rw [hc] at h
        have hstep : mergeStep env path c s1 = .error (.config m) := by
          simp only [Bind.bind, Except.bind, mergeLoop] at h
          cases hs : mergeStep env path c s1 with
          | error e => rw [hs] at h; simpa using h
          | ok s2 => rw [hs] at h; simp at h
        have := mergeStep_says env path R c s1 m hstep
        rw [stepRoot_rootDir env path hc] at this
        have hv := (C23_accepts_iff_valid env path order cs root).1 ⟨(mergeFinish order path s1, s1.warnings), by unfold mergeConfigs; rw [hc]; rfl⟩
        exact ⟨[], c.file, files cs, rfl, this, hv.1, hv.2⟩
  refine key raw ?_
  unfold mergeConfigs at h
  cases hl : mergeLoop env path raw.reverse (mergeInit env root) with
  | error e => rw [hl] at h; simpa [Bind.bind, Except.bind] using h
  | ok s => rw [hl] at h; simp [Bind.bind, Except.bind, pure, Except.pure] at h

/-- A complaint about a section: it cannot be applied. -/
theorem SectionComplaint.unusable {sec : Section} {t : PStr} (h : SectionComplaint R.asNotation env.choices path sec t) :
    ¬ (WellShaped sec.table ∧ (sec.scope.isPrefixOf path = true → UsableIn env sec.table)) := by
  rintro ⟨hw, hu⟩
  cases h with
  | array key v hk hf hv =>
    have : AbsentOrArray (field key sec.table) := by
      simp only [List.mem_cons, List.not_mem_nil, or_false] at hk
      rcases hk with rfl | rfl
      · exact hw.enable
      · exact hw.disable
    rcases this with h | ⟨l, h⟩ <;> rw [hf] at h <;> cases h
    exact hv l rfl
  | mapping v hf hv =>
    rcases hw.options with h | ⟨t, h, -⟩ <;> rw [hf] at h <;> cases h
    exact hv _ rfl
  | option opts rule t key v text hf ht hk hv hs =>
    rcases hw.options with h | ⟨t', h, h'⟩ <;> rw [hf] at h <;> cases h
    obtain ⟨o, ho, hx⟩ := h' _ ht
    simp only [Toml.tbl.injEq] at ho
    subst ho
    exact hv (hx _ hk)
  | rule s text hm hs hn _ =>
    obtain ⟨s', e, hr⟩ := (hu (List.isPrefixOf_iff_prefix.2 hs)).rules _ hm
    cases e
    exact hn hr
  | version s text hf hs hn _ =>
    obtain ⟨s', e, hr⟩ := (hu (List.isPrefixOf_iff_prefix.2 hs)).version _ hf
    cases e
    exact hn hr
  | formatter v text hf hs hn _ =>
    obtain ⟨s', e, hr⟩ := (hu (List.isPrefixOf_iff_prefix.2 hs)).formatter _ hf
    exact hn s' e hr

/-- **C122** Conversely, with something to complain about, merging fails. -/
theorem C122_complaint_fails (raw : List RawConfig) (root : Option Path) (pre : List File) (f : File) (post : List File) (t : PStr)
    (hraw : files raw = pre ++ f :: post) (h : Complaint R.asNotation env.choices path (rootDir root (f :: post)) f t) :
    ∃ e, mergeConfigs env order path raw root = .error e := by
  cases hm : mergeConfigs env order path raw root with
  | error e => exact ⟨e, rfl⟩
  | ok r =>
    exfalso
    obtain ⟨hv, hr⟩ := (C23_accepts_iff_valid env path order raw root).1 ⟨r, hm⟩
    have hv := hv f (by rw [hraw]; simp)
    cases h with
    | notRoot v hf hne => exact hne (hr pre f post v hraw hf).1
    | absolute s hf hs => exact ((hr pre f post _ hraw hf).2 s rfl).1 hs
    | parentDir s hf hs =>
      refine ((hr pre f post _ hraw hf).2 s rfl).2 ?_
      unfold relParts
      exact List.mem_filter.2 ⟨hs, by decide⟩
    | outputFormat v hf hs =>
      obtain ⟨o, rfl⟩ := hv.outputFormat v hf
      exact hs o.name (by cases o <;> simp [OutputFormat.name]) rfl
    | overrides v hf hn =>
      rcases hv.overrides with h | ⟨l, h⟩ <;> rw [hf] at h <;> cases h
      exact hn l rfl
    | noTable o ho hn =>
      obtain ⟨d, s, rfl, -⟩ := hv.entries o ho
      exact hn d rfl
    | noPath d hd hn =>
      obtain ⟨d', s, e, hs, hne, -⟩ := hv.entries _ hd
      cases e
      simp only [truthyField, hs, Option.filter, Toml.truthy] at hn
      cases s with
      | nil => exact hne rfl
      | cons a as => simp at hn
    | inSection sec text hs hc =>
      refine SectionComplaint.unusable env path R hc ?_
      simp only [sections, List.mem_cons] at hs
      rcases hs with rfl | hs
      · exact ⟨hv.shaped, fun hp => hv.usable (List.isPrefixOf_iff_prefix.1 hp)⟩
      · cases ha : field (py "overrides") f.table with
        | none => rw [ha] at hs; simp at hs
        | some a =>
          cases a with
          | arr l =>
            rw [ha] at hs
            simp only [List.mem_filterMap] at hs
            obtain ⟨o, ho, hsec⟩ := hs
            obtain ⟨d, s, rfl, hp, -, h1, h2⟩ := hv.entries o (by rw [ha]; exact ho)
            simp only [overrideSection, hp, Option.some.injEq] at hsec
            subst hsec
            exact ⟨h1, h2⟩
          | _ => rw [ha] at hs; simp at hs

/-- **C122** The value in a message is a Python string literal for it; without quotes, backslashes and characters beyond printable ASCII, the
string in single quotes. -/
theorem C122_quoted (s : PStr) : (∀ names, StringLiteral names ((Piece.str s).render R) (s.map Char.toNat)) ∧
    ((∀ c ∈ s, 32 ≤ c.toNat ∧ c.toNat < 127 ∧ c ≠ '\'' ∧ c ≠ '\\') → (Piece.str s).render R = py "'" ++ s ++ py "'") :=
  ⟨shows_str R s, reprStr_plain R.printable s⟩

/-- **C122** With well-typed files of which only one thing can be said, that is said. -/
theorem C122_only_fault (raw : List RawConfig) (root : Option Path) (hw : ∀ f ∈ files raw, WellTypedFile f) (t : PStr)
    (hsome : ∃ pre f post, files raw = pre ++ f :: post ∧ Complaint R.asNotation env.choices path (rootDir root (f :: post)) f t)
    (honly : ∀ pre f post t', files raw = pre ++ f :: post → Complaint R.asNotation env.choices path (rootDir root (f :: post)) f t' → t' = t) :
    ∃ m, mergeConfigs env order path raw root = .error (.config m) ∧ messageText R m = t := by
  obtain ⟨pre, f, post, hraw, hc⟩ := hsome
  obtain ⟨e, he⟩ := C122_complaint_fails env path R order raw root pre f post t hraw hc
  obtain ⟨m, rfl⟩ := C23_well_typed_only_config_error env path order raw root hw e he
  obtain ⟨pre', f', post', h1, h2, -⟩ := C122_says_what_is_wrong env path R order raw root m he
  exact ⟨m, he, honly pre' f' post' _ h1 h2⟩

/-- **C122** The command line prints the text, after the path of the file that was to be linted; the config file is not named. -/
theorem C122_printed (con : Console) (htext : ∀ m, con.errorText (.config m) = messageText R m) (showDiff stderr : Bool) (fmt : OutputFormat) (template : Toml) (r : Result)
    (m : List Piece) (hv : r.violation = none) (he : r.error = some (.config m)) :
    printResult con showDiff stderr fmt template r = .ok ([⟨stderr, displayPath con.cwd r.path ++ py ": EXCEPTION: " ++ messageText R m ++ py "\n"⟩,
      ⟨stderr, strip (con.traceback (.config m)) ++ py "\n"⟩], true) := by
  rw [C79_error con showDiff stderr fmt template r _ hv he, htext]

/-- **C122** A configuration error about `--rules` (and the other options with rule names) names the first invalid entry. -/
theorem C122_rules_option (cwd : Path) (rules : PStr) (items : List PStr) (hi : ruleEntries rules items) (m : List Piece)
    (h : parseRulesOption order cwd rules = .error (.config m)) :
    ∃ pre bad post text, items = pre ++ bad :: post ∧ (∀ i ∈ pre, NamesRule i) ∧ ¬ NamesRule bad ∧ Shows R.asNotation (.str bad) text ∧
      messageText R m = py "invalid rule name " ++ text := by
  obtain ⟨fields, hf, hcomma, rfl, rfl⟩ := hi
  have hall : ∀ (l : List PStr), parseAll cwd l = .error (.config m) → ∃ pre bad post text, l = pre ++ bad :: post ∧ (∀ i ∈ pre, NamesRule i) ∧ ¬ NamesRule bad ∧
      Shows R.asNotation (.str bad) text ∧ messageText R m = py "invalid rule name " ++ text := by
    intro l
    induction l with
    | nil => intro h; simp [parseAll] at h
    | cons s ss ih =>
      intro h
      cases hs : parseRule s cwd with
      | error e =>
        simp only [parseAll, hs, Bind.bind, Except.bind, Except.error.injEq] at h
        subst h
        obtain ⟨h1, h2⟩ := parseRule_says R s cwd m hs
        exact ⟨[], s, ss, _, rfl, by simp, h1, shows_str R s, h2⟩
      | ok q =>
        have hn : NamesRule s := (C08_accepts_iff_grammar s cwd).1 ⟨q, hs⟩
        simp only [parseAll, hs, Bind.bind, Except.bind] at h
        cases ha : parseAll cwd ss with
        | error e =>
          rw [ha] at h
          simp only [Except.error.injEq] at h
          subst h
          obtain ⟨pre, bad, post, text, h1, h2, h3⟩ := ih ha
          exact ⟨s :: pre, bad, post, text, by rw [h1]; rfl, by
            intro i hi
            rcases List.mem_cons.1 hi with rfl | hi
            · exact hn
            · exact h2 i hi, h3⟩
        | ok rs => rw [ha] at h; simp [pure, Except.pure] at h
  unfold parseRulesOption at h
  rw [splitOn_join ',' fields hf hcomma] at h
  refine hall _ ?_
  cases ha : parseAll cwd ((fields.map strip).filter (fun r => !r.isEmpty)) with
  | error e => rw [ha] at h; simpa [Bind.bind, Except.bind] using h
  | ok rs => rw [ha] at h; simp [Bind.bind, Except.bind, pure, Except.pure] at h

/-- **C122** Finding: an unknown `output-format` is answered with the same text, `{value!r}` and all, whatever it is; a value that should be an
array is said to be a string, whatever it is. -/
theorem C122_unhelpful (dir : Path) (v : Toml) (hv : v.truthy = true) :
    ((∀ s ∈ [py "custom", py "fixit", py "vscode"], v ≠ .str s) → ∃ m,
      mergeConfigs env order path [⟨dir ++ [py "fixit.toml"], [(py "output-format", v)]⟩] none = .error (.config m) ∧
      messageText R m = py "output-format: unknown value {value!r}") ∧
    ((∀ l, v ≠ .arr l) → ∃ m,
      mergeConfigs env order path [⟨dir ++ [py "fixit.toml"], [(py "enable", v)]⟩] none = .error (.config m) ∧
      messageText R m = py "'enable' must be array of values, got <class 'str'>") := by
  refine ⟨fun h => ?_, fun h => ?_⟩
  · refine C122_only_fault env path R order _ none ?_ _ ?_ ?_
    · intro f hf
      simp only [files, List.map_cons, List.map_nil, List.mem_singleton] at hf
      subst hf
      exact ⟨⟨by simp [RawConfig.file, field, elems], by simp [RawConfig.file, field], by simp [RawConfig.file, field], by simp [RawConfig.file, field]⟩,
        by simp [RawConfig.file, field, elems]⟩
    · exact ⟨[], _, [], rfl, Complaint.outputFormat v (by simp [RawConfig.file, truthyField, field, Option.filter, hv]) h⟩
    · intro pre f post t' hf hc
      have hpre : pre = [] := by cases pre with
        | nil => rfl
        | cons a as => simp [files] at hf
      subst hpre
      simp only [files, List.map_cons, List.map_nil, List.nil_append, List.cons.injEq] at hf
      obtain ⟨rfl, rfl⟩ := hf
      cases hc with
      | outputFormat => rfl
      | inSection sec text hs hc =>
        simp only [sections, RawConfig.file, field, List.mem_singleton] at hs
        simp only [List.mem_cons] at hs
        rcases hs with rfl | hs
        · cases hc with
          | array key v hk hf hv =>
            simp only [List.mem_cons, List.not_mem_nil, or_false] at hk
            rcases hk with rfl | rfl <;> simp [field] at hf
          | _ => simp_all [field, elems, truthyField]
        · simp at hs
      | _ => simp_all [RawConfig.file, field, elems, truthyField]
  · refine C122_only_fault env path R order _ none ?_ _ ?_ ?_
    · intro f hf
      simp only [files, List.map_cons, List.map_nil, List.mem_singleton] at hf
      subst hf
      have he : elems (some v) = [] := by cases v <;> first | rfl | exact absurd rfl (h _)
      exact ⟨⟨by simp [RawConfig.file, field, he, show elems none = [] from rfl], by simp [RawConfig.file, field], by simp [RawConfig.file, field], by simp [RawConfig.file, field]⟩,
        by simp [RawConfig.file, field, elems]⟩
    · exact ⟨[], _, [], rfl, Complaint.inSection _ _ (by simp only [sections, List.mem_cons]; left; rfl) (SectionComplaint.array (py "enable") v (by simp) (by simp [RawConfig.file, field]) h)⟩
    · intro pre f post t' hf hc
      have he : elems (some v) = [] := by cases v <;> first | rfl | exact absurd rfl (h _)
      have hpre : pre = [] := by cases pre with
        | nil => rfl
        | cons a as => simp [files] at hf
      subst hpre
      simp only [files, List.map_cons, List.map_nil, List.nil_append, List.cons.injEq] at hf
      obtain ⟨rfl, rfl⟩ := hf
      cases hc with
      | inSection sec text hs hc =>
        simp only [sections, RawConfig.file, field, List.mem_cons] at hs
        rcases hs with rfl | hs
        · cases hc with
          | array key v hk hf hv =>
            simp only [List.mem_cons, List.not_mem_nil, or_false] at hk
            rcases hk with rfl | rfl
            · rfl
            · simp [field] at hf
          | rule s text hm => simp [field, he, show elems none = [] from rfl] at hm
          | _ => simp_all [field, elems, truthyField]
        · simp at hs
      | _ => simp_all [RawConfig.file, field, elems, truthyField]

/-- Concrete messages. -/
def exReprs : Reprs := ⟨fun _ => true, fun _ => py "1.5", fun _ => py "datetime.date(2020, 1, 1)", fun _ => py "<class 'datetime.date'>"⟩

/-- The text of the error, if there is one. -/
def textOf {α : Type} : Except Err α → Option PStr
  | .error (.config m) => some (messageText exReprs m)
  | _ => none

example : textOf (mergeConfigs exEnv id [py "p", py "f.py"] [⟨[py "p", py "fixit.toml"], [(py "formatter", .str (py "it's"))]⟩] none) =
    some (py "'formatter' \"it's\" not supported") := by decide +kernel
example : textOf (mergeConfigs exEnv id [py "p", py "f.py"] [⟨[py "p", py "fixit.toml"], [(py "python-version", .str ['3', Char.ofNat 10, '"', Char.ofNat 39, Char.ofNat 27])]⟩] none) =
    some (py "'python-version' '3\\n\"\\'\\x1b' is not valid") := by decide +kernel
example : textOf (mergeConfigs exEnv id [py "p", py "f.py"] [⟨[py "p", py "fixit.toml"], [(py "options", .tbl [(py "R", .tbl [(py "k", .arr [])])])]⟩] none) =
    some (py "'k' must be one of (<class 'str'>, <class 'int'>, <class 'float'>), got <class 'list'>") := by decide +kernel
example : textOf (mergeConfigs exEnv id [py "p", py "f.py"] [⟨[py "p", py "fixit.toml"], [(py "enable", .arr [.str (py "a..b")])]⟩] none) =
    some (py "invalid rule name 'a..b'") := by decide +kernel

end Fixit
