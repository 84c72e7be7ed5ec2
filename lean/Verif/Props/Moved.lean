import Verif.Props.Locality
import Verif.Props.Merge
import Verif.Props.SystemFails

/-!
# C138: a project can be moved

The configuration of a project that is copied to another place is the same, with the places of the files changed; and so are the rules that are run. Override paths must be relative and must
not lead out of the project.
-/

namespace Spec
open Py
open Fixit (Toml Path Bytes Outside Dict dget QualifiedRule Config Options CollectEnv asPosix)

/-- A place in the directory `P`, in the copy `Q`. -/
def moved (P Q p : Path) : Path := if P <+: p then Q ++ p.drop P.length else p

/-- A rule reference that is bound to a directory, in the copy. -/
def movedRule (P Q : Path) (q : QualifiedRule) : QualifiedRule := { q with root := q.root.map (moved P Q) }

/-- A configuration, in the copy. -/
def movedConfig {V : Type} (P Q : Path) (c : Config V) : Config V :=
  { c with path := moved P Q c.path, root := moved P Q c.root, enable := c.enable.map (movedRule P Q), disable := c.disable.map (movedRule P Q) }

/-- The options of the command line, for the copy: references given with `--rules` are bound to the working directory. -/
def movedOptions (P Q : Path) (oo : Options) : Options := { oo with rules := oo.rules.map (movedRule P Q) }

/-- Following the components of a path from a directory `n` levels below the project leads never above it. -/
def StaysInside : Nat → List PStr → Prop
  | _, [] => True
  | n, c :: cs => if c = [] ∨ c = py "." then StaysInside n cs else if c = py ".." then 0 < n ∧ StaysInside (n - 1) cs else StaysInside (n + 1) cs

section
variable {V M : Type} (o : Outside V M)

/-- The override paths of the configuration file with this content, `n` levels below the project, are relative and stay in the project. -/
def OverridesStay (n : Nat) (b : Bytes) : Prop :=
  ∀ (data tool table : Dict) (os : List Toml) (entry : Dict) (s : PStr), o.toml b = .ok data → dget (py "tool") data = some (.tbl tool) → dget (py "fixit") tool = some (.tbl table) →
    dget (py "overrides") table = some (.arr os) → Toml.tbl entry ∈ os → dget (py "path") entry = some (.str s) → startsWith s ['/'] = false ∧ StaysInside n (splitOn '/' s)

/-- `Q` in the one file system has the configuration files of `P` in the other, in the directories down to `rel`. Links lead to the same place in the project. -/
def Copied (files files' : Path → Option Bytes) (P Q rel : Path) : Prop :=
  ∀ d, d <+: rel → ∀ n ∈ [py "fixit.toml", py ".fixit.toml", py "pyproject.toml"],
    (files (P ++ (d ++ [n]))).isSome = (files' (Q ++ (d ++ [n]))).isSome ∧
    ∃ t m, o.real (P ++ (d ++ [n])) = P ++ (t ++ [m]) ∧ o.real (Q ++ (d ++ [n])) = Q ++ (t ++ [m]) ∧ files (P ++ (t ++ [m])) = files' (Q ++ (t ++ [m])) ∧
      ∀ b, files (P ++ (t ++ [m])) = some b → OverridesStay o t.length b

/-- The import system finds at the new place what it finds at the old: for every reference, without and with a directory of the project on `sys.path`; and the classes are alike. -/
structure SameImports (env env' : CollectEnv Nat V M) (sysPath : List PStr) (P Q : Path) : Prop where
  plain : ∀ m q, env'.find sysPath m (movedRule P Q q) = env.find sysPath m q
  root : ∀ u m q, env'.find (sysPath ++ [asPosix (Q ++ u)]) m (movedRule P Q q) = env.find (sysPath ++ [asPosix (P ++ u)]) m q
  apart : ∀ u, asPosix (Q ++ u) ∉ sysPath ∧ asPosix (P ++ u) ∉ sysPath
  tags : env'.tags = env.tags
  supports : env'.supports = env.supports
  make : env'.make = env.make

/-- A file can be read and written at the new place as at the old; diffs and formatters do not look at its directory. -/
structure TreatedAlike (p q : Path) : Prop where
  read : o.base.readRaises q = o.base.readRaises p
  opened : o.base.openRaises q = o.base.openRaises p
  written : o.base.writeRaises q = o.base.writeRaises p
  diff : ∀ a b, o.base.unifiedDiff a b q = o.base.unifiedDiff a b p
  styles : ∀ s ∈ o.base.styles, ∀ m, s.2 m q = s.2 m p

end
end Spec

namespace Fixit
open Py Spec Gen

theorem moved_in (P Q t : Path) : moved P Q (P ++ t) = Q ++ t := by
  unfold moved
  rw [if_pos (List.prefix_append P t), List.drop_left]

theorem prefix_moved (P Q t u : Path) : (Q ++ u).isPrefixOf (Q ++ t) = (P ++ u).isPrefixOf (P ++ t) := by
  rw [Bool.eq_iff_iff, List.isPrefixOf_iff_prefix, List.isPrefixOf_iff_prefix, List.prefix_append_right_inj, List.prefix_append_right_inj]

theorem resolve_inside (P : Path) : ∀ (cs : List PStr) (d : Path), StaysInside d.length cs → cs.foldl resolveStep (P ++ d) = P ++ cs.foldl resolveStep d
  | [], _, _ => rfl
  | c :: cs, d, h => by
    rw [List.foldl_cons, List.foldl_cons]
    unfold StaysInside at h
    unfold resolveStep
    by_cases h1 : c = [] ∨ c = py "."
    · rw [if_pos h1] at h
      rw [if_pos h1, if_pos h1]
      exact resolve_inside P cs d h
    · rw [if_neg h1] at h
      rw [if_neg h1, if_neg h1]
      by_cases h2 : c = py ".."
      · rw [if_pos h2] at h
        rw [if_pos h2, if_pos h2]
        have hne : d ≠ [] := by rintro rfl; exact absurd h.1 (by simp)
        rw [List.dropLast_append_of_ne_nil hne]
        exact resolve_inside P cs d.dropLast (by simpa using h.2)
      · rw [if_neg h2] at h
        rw [if_neg h2, if_neg h2, List.append_assoc]
        exact resolve_inside P cs (d ++ [c]) (by simpa using h)

section
variable (P Q : Path)

theorem movedRule_key (q : QualifiedRule) : (movedRule P Q q).key = q.key := rfl
theorem movedRule_str (q : QualifiedRule) : (movedRule P Q q).str = q.str := rfl

theorem setAdd_moved (q : QualifiedRule) (l : List QualifiedRule) :
    setAdd QualifiedRule.key (movedRule P Q q) (l.map (movedRule P Q)) = (setAdd QualifiedRule.key q l).map (movedRule P Q) := by
  unfold setAdd
  rw [List.any_map]
  have : (fun y => decide (QualifiedRule.key y = QualifiedRule.key (movedRule P Q q))) ∘ movedRule P Q = fun y => decide (QualifiedRule.key y = QualifiedRule.key q) := rfl
  rw [this]
  split
  · rfl
  · simp

theorem setDiscard_moved (q : QualifiedRule) (l : List QualifiedRule) :
    setDiscard QualifiedRule.key (movedRule P Q q) (l.map (movedRule P Q)) = (setDiscard QualifiedRule.key q l).map (movedRule P Q) := by
  unfold setDiscard
  rw [List.filter_map]
  rfl

theorem sortRules_moved (l : List QualifiedRule) : sortRules (l.map (movedRule P Q)) = (sortRules l).map (movedRule P Q) := by
  have hi : ∀ (x : QualifiedRule) (l : List QualifiedRule),
      insertBy (keyLt QualifiedRule.str) (movedRule P Q x) (l.map (movedRule P Q)) = (insertBy (keyLt QualifiedRule.str) x l).map (movedRule P Q) := by
    intro x l
    induction l with
    | nil => rfl
    | cons y ys ih =>
      have e : keyLt QualifiedRule.str (movedRule P Q y) (movedRule P Q x) = keyLt QualifiedRule.str y x := rfl
      simp only [List.map_cons, insertBy, e]
      split
      · rw [List.map_cons, ih]
      · rfl
  unfold sortRules sortBy
  induction l with
  | nil => rfl
  | cons x xs ih => rw [List.map_cons, List.foldr_cons, List.foldr_cons, ih, hi]

theorem parseRule_moved (s : PStr) (d : Path) : parseRule s (Q ++ d) = (parseRule s (P ++ d)).map (movedRule P Q) := by
  unfold parseRule
  cases qualifiedRuleRegex.match_ s with
  | none => rfl
  | some m =>
    simp only
    split <;> rename_i h <;> simp [Except.map, movedRule, moved_in]

theorem parseRuleToml_moved (d : Path) (t : Toml) : parseRuleToml (Q ++ d) t = (parseRuleToml (P ++ d) t).map (movedRule P Q) := by
  cases t with
  | str s => exact parseRule_moved P Q s d
  | _ => rfl

variable {V : Type}

/-- The variables of `process_subpath`, in the copy. -/
def movedMerged (m : Merged V) : Merged V := { m with enable := m.enable.map (movedRule P Q), disable := m.disable.map (movedRule P Q) }

theorem enableLoop_moved (d : Path) : ∀ (ts : List Toml) (m : Merged V), enableLoop (Q ++ d) ts (movedMerged P Q m) = (enableLoop (P ++ d) ts m).map (movedMerged P Q)
  | [], m => rfl
  | t :: ts, m => by
    rw [enableLoop, enableLoop, parseRuleToml_moved P Q]
    cases parseRuleToml (P ++ d) t with
    | error e => rfl
    | ok q =>
      have := enableLoop_moved d ts { m with enable := setAdd QualifiedRule.key q m.enable, disable := setDiscard QualifiedRule.key q m.disable }
      simp only [Bind.bind, Except.bind, Except.map]
      simp only [Except.map] at this
      rw [← this]
      congr 1
      simp only [movedMerged, setAdd_moved, setDiscard_moved]

theorem disableLoop_moved (d : Path) : ∀ (ts : List Toml) (m : Merged V), disableLoop (Q ++ d) ts (movedMerged P Q m) = (disableLoop (P ++ d) ts m).map (movedMerged P Q)
  | [], m => rfl
  | t :: ts, m => by
    rw [disableLoop, disableLoop, parseRuleToml_moved P Q]
    cases parseRuleToml (P ++ d) t with
    | error e => rfl
    | ok q =>
      have := disableLoop_moved d ts { m with enable := setDiscard QualifiedRule.key q m.enable, disable := setAdd QualifiedRule.key q m.disable }
      simp only [Bind.bind, Except.bind, Except.map]
      simp only [Except.map] at this
      rw [← this]
      congr 1
      simp only [movedMerged, setAdd_moved, setDiscard_moved]

variable (env : CfgEnv V)

theorem setVersion_moved (v : Option Toml) (m : Merged V) : setVersion env v (movedMerged P Q m) = (setVersion env v m).map (movedMerged P Q) := by
  cases v with
  | none => rfl
  | some t =>
    simp only [setVersion]
    split
    · cases versionOf env t <;> rfl
    · rfl

theorem setFormatter_moved (v : Option Toml) (m : Merged V) : setFormatter env v (movedMerged P Q m) = (setFormatter env v m).map (movedMerged P Q) := by
  cases v with
  | none => rfl
  | some t =>
    simp only [setFormatter]
    split
    · cases formatterOf env t <;> rfl
    · rfl

theorem processSubpath_moved (t d u : Path) (tb : Table) (m : Merged V) :
    processSubpath env (Q ++ t) (Q ++ d) (Q ++ u) tb (movedMerged P Q m) = (processSubpath env (P ++ t) (P ++ d) (P ++ u) tb m).map (movedMerged P Q) := by
  unfold processSubpath Path.under
  rw [prefix_moved P Q]
  split
  · rw [enableLoop_moved P Q]
    cases enableLoop (P ++ d) tb.enable m with
    | error e => rfl
    | ok m1 =>
      simp only [Bind.bind, Except.bind, Except.map]
      rw [disableLoop_moved P Q]
      cases disableLoop (P ++ d) tb.disable m1 with
      | error e => rfl
      | ok m2 =>
        simp only [Except.map]
        have e : ({ movedMerged P Q m2 with options := dictUpdate (movedMerged P Q m2).options tb.options } : Merged V) =
          movedMerged P Q { m2 with options := dictUpdate m2.options tb.options } := rfl
        rw [e, setVersion_moved]
        cases setVersion env tb.pyver { m2 with options := dictUpdate m2.options tb.options } with
        | error e => rfl
        | ok m3 => exact setFormatter_moved P Q env tb.formatter m3
  · rfl

theorem applySection_moved (t d u : Path) (table : Dict) (m : Merged V) :
    applySection env (Q ++ t) ⟨Q ++ d, Q ++ u, table⟩ (movedMerged P Q m) = (applySection env (P ++ t) ⟨P ++ d, P ++ u, table⟩ m).map (movedMerged P Q) := by
  unfold applySection
  cases tableOf table with
  | error e => rfl
  | ok tb => exact processSubpath_moved P Q env t d u tb m

theorem resolveFrom_moved (d : Path) (s : PStr) (h1 : startsWith s ['/'] = false) (h2 : StaysInside d.length (splitOn '/' s)) (R : Path) :
    resolveFrom (R ++ d) s = R ++ resolveFrom d s := by
  unfold resolveFrom
  rw [if_neg (by simp [h1]), if_neg (by simp [h1])]
  exact resolve_inside R _ d h2

theorem applyOverrides_moved (t d : Path) : ∀ (os : List Toml)
    (_ : ∀ (entry : Dict) (s : PStr), Toml.tbl entry ∈ os → dget (py "path") entry = some (.str s) → startsWith s ['/'] = false ∧ StaysInside d.length (splitOn '/' s)) (m : Merged V),
    applyOverrides env (Q ++ t) (Q ++ d) os (movedMerged P Q m) = (applyOverrides env (P ++ t) (P ++ d) os m).map (movedMerged P Q)
  | [], _, m => rfl
  | x :: os, h, m => by
    have hx : applyOverride env (Q ++ t) (Q ++ d) x (movedMerged P Q m) = (applyOverride env (P ++ t) (P ++ d) x m).map (movedMerged P Q) := by
      cases x with
      | tbl entry =>
        cases hp : dget (py "path") entry with
        | none => simp [applyOverride, hp, Except.map]
        | some p =>
          by_cases ht : p.truthy = true
          · simp only [applyOverride, hp, if_pos ht]
            cases p with
            | str s =>
              obtain ⟨h1, h2⟩ := h entry s (List.mem_cons_self ..) hp
              simp only [overridePath, Bind.bind, Except.bind]
              rw [resolveFrom_moved d s h1 h2, resolveFrom_moved d s h1 h2]
              exact applySection_moved P Q env t d _ entry m
            | _ => rfl
          · simp only [applyOverride, hp, if_neg ht, Except.map]
      | _ => rfl
    rw [applyOverrides, applyOverrides, hx]
    cases applyOverride env (P ++ t) (P ++ d) x m with
    | error e => rfl
    | ok m1 => exact applyOverrides_moved t d os (fun entry s he => h entry s (List.mem_cons_of_mem _ he)) m1

/-- The variables of `merge_configs`, in the copy. -/
def movedState (s : MState V) : MState V := { s with root := s.root.map (moved P Q), merged := movedMerged P Q s.merged }

theorem mergeStep_moved (t d : Path) (n : PStr) (data : Dict) (s : MState V) (hs : ∀ r, s.root = some r → P <+: r)
    (h : ∀ (os : List Toml) (entry : Dict) (s : PStr), dget (py "overrides") data = some (.arr os) → Toml.tbl entry ∈ os → dget (py "path") entry = some (.str s) →
      startsWith s ['/'] = false ∧ StaysInside d.length (splitOn '/' s)) :
    mergeStep env (Q ++ t) ⟨Q ++ (d ++ [n]), data⟩ (movedState P Q s) = (mergeStep env (P ++ t) ⟨P ++ (d ++ [n]), data⟩ s).map (movedState P Q) ∧
    ∀ s', mergeStep env (P ++ t) ⟨P ++ (d ++ [n]), data⟩ s = .ok s' → ∃ r, s'.root = some r ∧ P <+: r := by
  have hdir : ∀ R : Path, RawConfig.dir ⟨R ++ (d ++ [n]), data⟩ = R ++ d := by
    intro R
    show (R ++ (d ++ [n])).dropLast = R ++ d
    rw [← List.append_assoc, List.dropLast_concat]
  obtain ⟨u, hu, huq⟩ : ∃ u, stepRoot ⟨P ++ (d ++ [n]), data⟩ s.root = P ++ u ∧ stepRoot ⟨Q ++ (d ++ [n]), data⟩ (movedState P Q s).root = Q ++ u := by
    unfold stepRoot
    rw [hdir, hdir]
    simp only
    split
    · exact ⟨d, rfl, rfl⟩
    · cases hr : s.root with
      | none => exact ⟨d, rfl, by simp [movedState, hr]⟩
      | some r =>
        obtain ⟨u, rfl⟩ := hs r hr
        exact ⟨u, rfl, by simp [movedState, hr, moved_in]⟩
  have hne : (Q ++ u ≠ Q ++ d) = (P ++ u ≠ P ++ d) := by simp
  rw [mergeStep_eq, mergeStep_eq, hu, huq, hdir, hdir]
  have hri : rootImportOf (Q ++ u) (Q ++ d) s.rootImport (truthyField (py "enable-root-import") data) =
      rootImportOf (P ++ u) (P ++ d) s.rootImport (truthyField (py "enable-root-import") data) := by
    unfold rootImportOf
    simp [hne]
  constructor
  · simp only [movedState]
    rw [hri]
    cases rootImportOf (P ++ u) (P ++ d) s.rootImport (truthyField (py "enable-root-import") data) with
    | error e => rfl
    | ok ri =>
      simp only [Bind.bind, Except.bind]
      cases outputFormatOf s.outputFormat (truthyField (py "output-format") data) with
      | error e => rfl
      | ok fmt =>
        simp only
        rw [applySection_moved P Q]
        cases applySection env (P ++ t) ⟨P ++ d, P ++ d, data⟩ s.merged with
        | error e => rfl
        | ok m1 =>
          simp only [Except.map]
          cases hos : dget (py "overrides") data with
          | none =>
            simp only [asSequence, applyOverrides, pure, Except.pure]
            simp [movedState, moved_in]
          | some v =>
            cases v with
            | arr os =>
              simp only [asSequence]
              rw [applyOverrides_moved P Q env t d os (fun entry s' => h os entry s' hos)]
              cases applyOverrides env (P ++ t) (P ++ d) os m1 with
              | error e => rfl
              | ok m2 => simp [Except.map, pure, Except.pure, movedState, moved_in]
            | _ => rfl
  · intro s' he
    revert he
    simp only [Bind.bind, Except.bind, pure, Except.pure]
    repeat' split
    all_goals first | (intro he; cases he; exact ⟨_, rfl, List.prefix_append P u⟩) | (intro he; cases he)

theorem mergeLoop_moved (t : Path) : ∀ (cs : List (Path × PStr × Dict)) (_ : ∀ c ∈ cs, ∀ (os : List Toml) (entry : Dict) (s : PStr), dget (py "overrides") c.2.2 = some (.arr os) →
      Toml.tbl entry ∈ os → dget (py "path") entry = some (.str s) → startsWith s ['/'] = false ∧ StaysInside c.1.length (splitOn '/' s)) (s : MState V) (_ : ∀ r, s.root = some r → P <+: r),
    mergeLoop env (Q ++ t) (cs.map (fun c => ⟨Q ++ (c.1 ++ [c.2.1]), c.2.2⟩)) (movedState P Q s) =
      (mergeLoop env (P ++ t) (cs.map (fun c => ⟨P ++ (c.1 ++ [c.2.1]), c.2.2⟩)) s).map (movedState P Q) ∧
    ∀ s', mergeLoop env (P ++ t) (cs.map (fun c => ⟨P ++ (c.1 ++ [c.2.1]), c.2.2⟩)) s = .ok s' → (cs = [] ∧ s' = s) ∨ ∃ r, s'.root = some r ∧ P <+: r
  | [], _, s, _ => ⟨rfl, fun s' h => by cases h; exact .inl ⟨rfl, rfl⟩⟩
  | c :: cs, h, s, hs => by
    obtain ⟨h1, h2⟩ := mergeStep_moved P Q env t c.1 c.2.1 c.2.2 s hs (h c (List.mem_cons_self ..))
    rw [List.map_cons, List.map_cons, mergeLoop, mergeLoop, h1]
    cases hm : mergeStep env (P ++ t) ⟨P ++ (c.1 ++ [c.2.1]), c.2.2⟩ s with
    | error e => exact ⟨rfl, fun s' h => by cases h⟩
    | ok s1 =>
      obtain ⟨r, hr, hp⟩ := h2 s1 hm
      obtain ⟨g1, g2⟩ := mergeLoop_moved t cs (fun c hc => h c (List.mem_cons_of_mem _ hc)) s1 (fun r' hr' => by rw [hr] at hr'; cases hr'; exact hp)
      refine ⟨g1, fun s' h => ?_⟩
      rcases g2 s' h with ⟨-, rfl⟩ | h
      · exact .inr ⟨r, hr, hp⟩
      · exact .inr h

end

section
variable {V M : Type} (o : Outside V M)

theorem locateLoop_moved (fs fs' : FS) (P Q : Path) : ∀ (k : Nat) (rel : Path), rel.length = k →
    (∀ d, d <+: rel → ∀ n ∈ configFilenames, fs.isFile (P ++ (d ++ [n])) = fs'.isFile (Q ++ (d ++ [n]))) →
    ∃ l : List (Path × PStr), (∀ e ∈ l, e.1 <+: rel ∧ e.2 ∈ configFilenames) ∧ locateLoop fs P (P ++ rel) = l.map (fun e => P ++ (e.1 ++ [e.2])) ∧
      locateLoop fs' Q (Q ++ rel) = l.map (fun e => Q ++ (e.1 ++ [e.2]))
  | k, rel, hk, h => by
    let here := (configFilenames.filter (fun n => fs.isFile (P ++ (rel ++ [n])))).map (fun n => (rel, n))
    have hhere : ∀ e ∈ here, e.1 <+: rel ∧ e.2 ∈ configFilenames := by
      intro e he
      obtain ⟨n, hn, rfl⟩ := List.mem_map.mp he
      exact ⟨List.prefix_refl _, (List.mem_filter.mp hn).1⟩
    have e1 : (configFilenames.map (fun n => P ++ rel ++ [n])).filter fs.isFile = here.map (fun e => P ++ (e.1 ++ [e.2])) := by
      rw [List.filter_map, List.map_map]
      simp only [Function.comp_def, List.append_assoc]
    have e2 : (configFilenames.map (fun n => Q ++ rel ++ [n])).filter fs'.isFile = here.map (fun e => Q ++ (e.1 ++ [e.2])) := by
      rw [List.filter_map, List.map_map]
      simp only [Function.comp_def, List.append_assoc]
      congr 1
      exact List.filter_congr (fun n hn => (h rel (List.prefix_refl _) n hn).symm)
    rw [locateLoop.eq_def fs, locateLoop.eq_def fs', e1, e2]
    by_cases hr : rel = []
    · subst hr
      rw [if_pos (by simp), if_pos (by simp)]
      exact ⟨here, hhere, by simp, by simp⟩
    · have hn : ∀ R : Path, ¬ (R ++ rel = R ∨ R ++ rel = Path.parent (R ++ rel)) := by
        intro R
        rintro (e | e)
        · simp at e; exact hr e
        · have := congrArg List.length e
          have h0 : rel.length ≠ 0 := fun e => hr (List.length_eq_zero_iff.mp e)
          simp only [Path.parent, List.length_dropLast, List.length_append] at this
          omega
      rw [if_neg (hn P), if_neg (hn Q)]
      have hp : ∀ R : Path, Path.parent (R ++ rel) = R ++ rel.dropLast := fun R => List.dropLast_append_of_ne_nil hr
      rw [hp, hp]
      have h0 : rel.length ≠ 0 := fun e => hr (List.length_eq_zero_iff.mp e)
      have hlt : rel.dropLast.length < k := by rw [List.length_dropLast]; omega
      obtain ⟨l, h1, h2, h3⟩ := locateLoop_moved fs fs' P Q rel.dropLast.length rel.dropLast rfl (fun d hd => h d (hd.trans (List.dropLast_prefix rel)))
      refine ⟨here ++ l, ?_, ?_, ?_⟩
      · intro e he
        rcases List.mem_append.mp he with he | he
        · exact hhere e he
        · exact ⟨(h1 e he).1.trans (List.dropLast_prefix rel), (h1 e he).2⟩
      · rw [List.map_append, h2]
      · rw [List.map_append, h3]
termination_by k => k

theorem readConfigs_moved (load load' : Path → Except Err Dict) (good : Path → Dict → Prop) (P Q : Path) : ∀ (l : List (Path × PStr)),
    (∀ e ∈ l, readOne load (P ++ (e.1 ++ [e.2])) = readOne load' (Q ++ (e.1 ++ [e.2]))) → (∀ e ∈ l, ∀ d b, readOne load (P ++ (e.1 ++ [e.2])) = .ok (some (d, b)) → good e.1 d) →
    ((∃ e, (readConfigs load (l.map (fun e => P ++ (e.1 ++ [e.2])))).1 = .error e ∧ (readConfigs load' (l.map (fun e => Q ++ (e.1 ++ [e.2])))).1 = .error e) ∨
      ∃ cs : List (Path × PStr × Dict), (∀ c ∈ cs, good c.1 c.2.2) ∧
        (readConfigs load (l.map (fun e => P ++ (e.1 ++ [e.2])))).1 = .ok (cs.map (fun c => ⟨P ++ (c.1 ++ [c.2.1]), c.2.2⟩)) ∧
        (readConfigs load' (l.map (fun e => Q ++ (e.1 ++ [e.2])))).1 = .ok (cs.map (fun c => ⟨Q ++ (c.1 ++ [c.2.1]), c.2.2⟩)) ∧
        ((∃ e ∈ l, ∃ d, readOne load (P ++ (e.1 ++ [e.2])) = .ok (some (d, true))) → cs ≠ []))
  | [], _, _ => .inr ⟨[], (fun _ h => by (cases h)), rfl, rfl, by rintro ⟨_, h, _⟩; cases h⟩
  | x :: l, h, hg => by
    have ih := readConfigs_moved load load' good P Q l (fun e he => h e (List.mem_cons_of_mem _ he)) (fun e he => hg e (List.mem_cons_of_mem _ he))
    have hx := h x (List.mem_cons_self ..)
    have hgx := hg x (List.mem_cons_self ..)
    rw [List.map_cons, List.map_cons, readConfigs, readConfigs, ← hx]
    cases hq : readOne load (P ++ (x.1 ++ [x.2])) with
    | error e => exact .inl ⟨e, rfl, rfl⟩
    | ok y =>
      cases y with
      | none =>
        simp only
        rcases ih with ih | ⟨cs, h1, h2, h3, h4⟩
        · exact .inl ih
        · refine .inr ⟨cs, h1, h2, h3, ?_⟩
          rintro ⟨e, he, d, hd⟩
          rcases List.mem_cons.mp he with rfl | he
          · rw [hq] at hd; cases hd
          · exact h4 ⟨e, he, d, hd⟩
      | some db =>
        obtain ⟨d, b⟩ := db
        cases b with
        | true => exact .inr ⟨[(x.1, x.2, d)], by rintro c hc; rw [List.mem_singleton] at hc; subst hc; exact hgx d true hq, rfl, rfl, fun _ => by simp⟩
        | false =>
          simp only
          rcases ih with ⟨e, h1, h2⟩ | ⟨cs, h1, h2, h3, h4⟩
          · exact .inl ⟨e, by rw [h1]; rfl, by rw [h2]; rfl⟩
          · refine .inr ⟨(x.1, x.2, d) :: cs, ?_, by rw [h2]; rfl, by rw [h3]; rfl, fun _ => by simp⟩
            intro c hc
            rcases List.mem_cons.mp hc with rfl | hc
            · exact hgx d false hq
            · exact h1 c hc

theorem readOne_inv (load : Path → Except Err Dict) (p : Path) (d : Dict) (b : Bool) (h : readOne load p = .ok (some (d, b))) :
    ∃ data tool, load p = .ok data ∧ dget (py "tool") data = some (.tbl tool) ∧ dget (py "fixit") tool = some (.tbl d) := by
  unfold readOne at h
  cases hl : load p with
  | error e => rw [hl] at h; cases h
  | ok data =>
    rw [hl] at h
    simp only [Bind.bind, Except.bind, fixitTable] at h
    cases ht : dget (py "tool") data with
    | none => rw [ht] at h; cases h
    | some v =>
      rw [ht] at h
      cases v with
      | tbl tool =>
        simp only at h
        cases hx : dget (py "fixit") tool with
        | none => rw [hx] at h; cases h
        | some x =>
          rw [hx] at h
          simp only at h
          split at h
          · cases x with
            | tbl d' => cases h; exact ⟨data, tool, rfl, ht, hx⟩
            | _ => cases h
          · cases h
      | _ => cases h

theorem linked_moved (files files' : Path → Option Bytes) (P Q rel : Path) (h : Copied o files files' P Q rel) : ∀ (l : List (Path × PStr)),
    (∀ e ∈ l, e.1 <+: rel ∧ e.2 ∈ configFilenames) → ∃ l' : List (Path × PStr), (l.map (fun e => P ++ (e.1 ++ [e.2]))).map o.real = l'.map (fun e => P ++ (e.1 ++ [e.2])) ∧
      (l.map (fun e => Q ++ (e.1 ++ [e.2]))).map o.real = l'.map (fun e => Q ++ (e.1 ++ [e.2])) ∧
      ∀ e ∈ l', files (P ++ (e.1 ++ [e.2])) = files' (Q ++ (e.1 ++ [e.2])) ∧ ∀ b, files (P ++ (e.1 ++ [e.2])) = some b → OverridesStay o e.1.length b
  | [], _ => ⟨[], rfl, rfl, fun _ h => by cases h⟩
  | x :: l, hl => by
    obtain ⟨l', h1, h2, h3⟩ := linked_moved files files' P Q rel h l (fun e he => hl e (List.mem_cons_of_mem _ he))
    obtain ⟨hx1, hx2⟩ := hl x (List.mem_cons_self ..)
    obtain ⟨-, t, m, g1, g2, g3, g4⟩ := h x.1 hx1 x.2 hx2
    refine ⟨(t, m) :: l', ?_, ?_, ?_⟩
    · simp only [List.map_cons, g1, h1]
    · simp only [List.map_cons, g2, h2]
    · intro e he
      rcases List.mem_cons.mp he with rfl | he
      · exact ⟨g3, g4⟩
      · exact h3 e he

theorem applyOptions_moved (P Q : Path) (oo : Options) (c : Config V) : applyOptions (movedOptions P Q oo) (movedConfig P Q c) = movedConfig P Q (applyOptions oo c) := by
  have h1 : (movedOptions P Q oo).setTags (movedConfig P Q c) = movedConfig P Q (oo.setTags c) := by
    unfold Options.setTags
    show (match oo.tags with | some t => _ | none => _) = _
    cases oo.tags with
    | none => rfl
    | some t => simp only; split <;> rfl
  have h2 : ∀ c : Config V, (movedOptions P Q oo).setRules (movedConfig P Q c) = movedConfig P Q (oo.setRules c) := by
    intro c
    unfold Options.setRules
    have e : (movedOptions P Q oo).rules.isEmpty = oo.rules.isEmpty := by
      show (oo.rules.map _).isEmpty = _
      cases oo.rules <;> rfl
    rw [e]
    split <;> rfl
  have h3 : ∀ c : Config V, (movedOptions P Q oo).setFormat (movedConfig P Q c) = movedConfig P Q (oo.setFormat c) := by
    intro c
    unfold Options.setFormat
    show (match oo.outputFormat with | some t => _ | none => _) = _
    cases oo.outputFormat <;> rfl
  have h4 : ∀ c : Config V, (movedOptions P Q oo).setTemplate (movedConfig P Q c) = movedConfig P Q (oo.setTemplate c) := by
    intro c
    unfold Options.setTemplate
    show (if oo.outputTemplate.isEmpty then _ else _) = _
    split <;> rfl
  unfold applyOptions
  rw [h1, h2, h3, h4]

theorem applyOptions_root (oo : Options) (c : Config V) : (applyOptions oo c).root = c.root := by
  have h1 : (oo.setTags c).root = c.root := by
    unfold Options.setTags
    cases oo.tags with
    | none => rfl
    | some t => simp only; split <;> rfl
  have h2 : ∀ c : Config V, (oo.setRules c).root = c.root := by intro c; unfold Options.setRules; split <;> rfl
  have h3 : ∀ c : Config V, (oo.setFormat c).root = c.root := by intro c; unfold Options.setFormat; cases oo.outputFormat <;> rfl
  have h4 : ∀ c : Config V, (oo.setTemplate c).root = c.root := by intro c; unfold Options.setTemplate; split <;> rfl
  unfold applyOptions
  rw [h4, h3, h2, h1]

theorem config_moved (horder : ∀ l, (o.configOrder l).Perm l) (options : Option Options) (hopt : ∀ oo, options = some oo → oo.configFile = none)
    (files files' : Path → Option Bytes) (P Q t : Path) (ht : t ≠ []) (hdir : o.isDir (Q ++ t) = o.isDir (P ++ t)) (hroot : RootDir o files P) (hcopy : Copied o files files' P Q t) :
    o.config (options.map (movedOptions P Q)) files' (Q ++ t) = (o.config options files (P ++ t)).map (movedConfig P Q) ∧
    ∀ cfg, o.config options files (P ++ t) = .ok cfg → P <+: cfg.root := by
  have hc : options.bind (·.configFile) = none := by
    cases options with
    | none => rfl
    | some oo => exact hopt oo rfl
  have hc' : (options.map (movedOptions P Q)).bind (·.configFile) = none := by
    cases options with
    | none => rfl
    | some oo => exact hopt oo rfl
  obtain ⟨rel, hrel, hsP, hsQ⟩ : ∃ rel, rel <+: t ∧ startDir o (P ++ t) = P ++ rel ∧ startDir o (Q ++ t) = Q ++ rel := by
    unfold startDir
    rw [hdir]
    split
    · exact ⟨t, List.prefix_refl _, rfl, rfl⟩
    · exact ⟨t.dropLast, List.dropLast_prefix t, List.dropLast_append_of_ne_nil ht, List.dropLast_append_of_ne_nil ht⟩
  have hloc : ∀ (f : Path → Option Bytes) (p : Path), locateConfigs (o.fs f) p none = .ok (locateLoop (o.fs f) [] (startDir o p)) := fun f p => rfl
  obtain ⟨l, hl, hlP, hlQ⟩ := locateLoop_moved (o.fs files) (o.fs files') P Q _ rel rfl (fun d hd n hn => (hcopy d (hd.trans hrel) n hn).1)
  obtain ⟨l', gP, gQ, hg⟩ := linked_moved o files files' P Q t hcopy l (fun e he => ⟨(hl e he).1.trans hrel, (hl e he).2⟩)
  have hsame : ∀ e ∈ l', readOne (o.load files) (P ++ (e.1 ++ [e.2])) = readOne (o.load files') (Q ++ (e.1 ++ [e.2])) := by
    intro e he
    have : o.load files (P ++ (e.1 ++ [e.2])) = o.load files' (Q ++ (e.1 ++ [e.2])) := by unfold Outside.load; rw [(hg e he).1]
    unfold readOne
    rw [this]
  obtain ⟨n, hn, hf, b, data, tool, table, flag, t1, t2, t3, t4, t5, t6⟩ := hroot
  have hflag : readOne (o.load files) (o.real (P ++ [n])) = .ok (some (table, true)) := rootDir_reads o files n P b data tool table flag t1 t2 t3 t4 t5 t6
  have hmem : P ++ [n] ∈ locateLoop (o.fs files) P (P ++ rel) := locateLoop_root (o.fs files) P _ (List.prefix_append P rel) n hn hf
  have hmem' : o.real (P ++ [n]) ∈ l'.map (fun e => P ++ (e.1 ++ [e.2])) := by
    rw [← gP, ← hlP]
    exact List.mem_map.mpr ⟨_, hmem, rfl⟩
  obtain ⟨e0, he0, hee⟩ := List.mem_map.mp hmem'
  have hflag1 : readOne (o.load files) (P ++ (e0.1 ++ [e0.2])) = .ok (some (table, true)) := by rw [hee]; exact hflag
  have hflag2 : readOne (o.load files') (Q ++ (e0.1 ++ [e0.2])) = .ok (some (table, true)) := by rw [← hsame e0 he0]; exact hflag1
  have hreadP : (readConfigs (o.load files) ((locateLoop (o.fs files) [] (P ++ rel)).map o.real)).1 = (readConfigs (o.load files) (l'.map (fun e => P ++ (e.1 ++ [e.2])))).1 := by
    obtain ⟨B, hB⟩ := locateLoop_split (o.fs files) P (P ++ rel) (List.prefix_append P rel)
    rw [hB, List.map_append, hlP, gP]
    exact readConfigs_stops _ _ _ ⟨_, List.mem_map.mpr ⟨e0, he0, rfl⟩, table, hflag1⟩
  have hreadQ : (readConfigs (o.load files') ((locateLoop (o.fs files') [] (Q ++ rel)).map o.real)).1 = (readConfigs (o.load files') (l'.map (fun e => Q ++ (e.1 ++ [e.2])))).1 := by
    obtain ⟨B, hB⟩ := locateLoop_split (o.fs files') Q (Q ++ rel) (List.prefix_append Q rel)
    rw [hB, List.map_append, hlQ, gQ]
    exact readConfigs_stops _ _ _ ⟨_, List.mem_map.mpr ⟨e0, he0, rfl⟩, table, hflag2⟩
  have hgood : ∀ e ∈ l', ∀ d bb, readOne (o.load files) (P ++ (e.1 ++ [e.2])) = .ok (some (d, bb)) →
      ∀ (os : List Toml) (entry : Dict) (s : PStr), dget (py "overrides") d = some (.arr os) → Toml.tbl entry ∈ os → dget (py "path") entry = some (.str s) →
        startsWith s ['/'] = false ∧ StaysInside e.1.length (splitOn '/' s) := by
    intro e he d bb hr os entry s h1 h2 h3
    obtain ⟨data', tool', k1, k2, k3⟩ := readOne_inv _ _ _ _ hr
    unfold Outside.load at k1
    cases hfe : files (P ++ (e.1 ++ [e.2])) with
    | none => rw [hfe] at k1; cases k1
    | some b' =>
      rw [hfe] at k1
      exact (hg e he).2 b' hfe data' tool' d os entry s k1 k2 k3 h1 h2 h3
  have hall := readConfigs_moved (o.load files) (o.load files') (fun p d => ∀ (os : List Toml) (entry : Dict) (s : PStr), dget (py "overrides") d = some (.arr os) → Toml.tbl entry ∈ os →
    dget (py "path") entry = some (.str s) → startsWith s ['/'] = false ∧ StaysInside p.length (splitOn '/' s)) P Q l' hsame hgood
  have e : ∀ (f : Path → Option Bytes) (l : List Path), l.map (o.fs f).real = l.map o.real := fun _ _ => rfl
  unfold Outside.config generateConfig
  rw [hc, hc']
  simp only [hloc, Bind.bind, Except.bind]
  rw [e, e, hsP, hsQ, hreadP, hreadQ]
  rcases hall with ⟨er, h1, h2⟩ | ⟨cs, h1, h2, h3, h4⟩
  · rw [h1, h2]; exact ⟨rfl, fun cfg h => by cases h⟩
  · rw [h2, h3]
    simp only
    rw [C26_order_independent o.cfg (P ++ t) o.configOrder id horder (fun l => List.Perm.refl l), C26_order_independent o.cfg (Q ++ t) o.configOrder id horder (fun l => List.Perm.refl l)]
    obtain ⟨m1, m2⟩ := mergeLoop_moved P Q o.cfg t cs.reverse (fun c hc => h1 c (List.mem_reverse.mp hc)) (mergeInit o.cfg none) (fun r hr => by cases hr)
    have hi : movedState P Q (mergeInit o.cfg none) = mergeInit o.cfg none := rfl
    rw [hi] at m1
    unfold mergeConfigs
    rw [← List.map_reverse, ← List.map_reverse, m1]
    cases hm : mergeLoop o.cfg (P ++ t) (cs.reverse.map (fun c => ⟨P ++ (c.1 ++ [c.2.1]), c.2.2⟩)) (mergeInit o.cfg none) with
    | error er => exact ⟨rfl, fun cfg h => by cases h⟩
    | ok s =>
      obtain ⟨r, hr, hPr⟩ : ∃ r, s.root = some r ∧ P <+: r := by
        rcases m2 s hm with ⟨h, -⟩ | h
        · exact absurd (List.reverse_eq_nil_iff.mp h) (h4 ⟨e0, he0, table, hflag1⟩)
        · exact h
      have hfin : mergeFinish id (Q ++ t) (movedState P Q s) = movedConfig P Q (mergeFinish id (P ++ t) s) := by
        unfold mergeFinish movedConfig movedState
        simp only [hr, Option.map_some, Option.getD_some, id, moved_in, movedMerged, sortRules_moved]
      simp only [Except.map, Bind.bind, Except.bind, pure, Except.pure, hfin]
      have hroots : (mergeFinish id (P ++ t) s).root = r := by simp [mergeFinish, hr]
      cases options with
      | none => exact ⟨rfl, fun cfg h => by cases h; rw [hroots]; exact hPr⟩
      | some oo =>
        refine ⟨by simp only [Option.map_some, applyOptions_moved], fun cfg h => ?_⟩
        cases h
        rw [applyOptions_root, hroots]
        exact hPr

/-- C138: the configuration of a file in a copy of the project is the one of the original, with the places changed; and configuration fails for the one as for the other. -/
theorem C138_config (horder : ∀ l, (o.configOrder l).Perm l) (options : Option Options) (hopt : ∀ oo, options = some oo → oo.configFile = none)
    (files files' : Path → Option Bytes) (P Q t : Path) (ht : t ≠ []) (hdir : o.isDir (Q ++ t) = o.isDir (P ++ t)) (hroot : RootDir o files P) (hcopy : Copied o files files' P Q t) :
    o.config (options.map (movedOptions P Q)) files' (Q ++ t) = (o.config options files (P ++ t)).map (movedConfig P Q) :=
  (config_moved o horder options hopt files files' P Q t ht hdir hroot hcopy).1


/-! ## The rules and the results -/

section
variable {env env' : CollectEnv Nat V M} {sysPath : List PStr} {P Q : Path}

theorem collectBody_moved (h : SameImports env env' sysPath P Q) (order : List Nat → List Nat) (cfg : Config V) (mods : M) (path path' : List PStr)
    (hf : ∀ m q, env'.find path' m (movedRule P Q q) = env.find path m q) :
    (collectBody env' order (movedConfig P Q cfg) mods path').map (·.rules) = (collectBody env order cfg mods path).map (·.rules) := by
  have en : ∀ (qs : List QualifiedRule) (s s' : CState Nat M), s'.all = s.all → s'.named = s.named → s'.reasons = s.reasons → s'.mods = s.mods →
      (enableAll env' path' (qs.map (movedRule P Q)) s').all = (enableAll env path qs s).all ∧ (enableAll env' path' (qs.map (movedRule P Q)) s').named = (enableAll env path qs s).named ∧
      (enableAll env' path' (qs.map (movedRule P Q)) s').reasons = (enableAll env path qs s).reasons ∧ (enableAll env' path' (qs.map (movedRule P Q)) s').mods = (enableAll env path qs s).mods := by
    intro qs
    induction qs with
    | nil => intro s s' h1 h2 h3 h4; exact ⟨h1, h2, h3, h4⟩
    | cons q qs ih =>
      intro s s' h1 h2 h3 h4
      rw [List.map_cons, enableAll, enableAll]
      have hn : (movedRule P Q q).named = q.named := rfl
      apply ih <;> (unfold enableOne; rw [h4, hf, hn]; split <;> simp only [h1, h2, h3])
  have dis : ∀ (qs : List QualifiedRule) (s s' : CState Nat M), s'.all = s.all → s'.named = s.named → s'.reasons = s.reasons → s'.mods = s.mods →
      (disableAll env' path' (qs.map (movedRule P Q)) s').all = (disableAll env path qs s).all ∧ (disableAll env' path' (qs.map (movedRule P Q)) s').named = (disableAll env path qs s).named ∧
      (disableAll env' path' (qs.map (movedRule P Q)) s').reasons = (disableAll env path qs s).reasons ∧ (disableAll env' path' (qs.map (movedRule P Q)) s').mods = (disableAll env path qs s).mods := by
    intro qs
    induction qs with
    | nil => intro s s' h1 h2 h3 h4; exact ⟨h1, h2, h3, h4⟩
    | cons q qs ih =>
      intro s s' h1 h2 h3 h4
      rw [List.map_cons, disableAll, disableAll]
      apply ih <;> (unfold disableOne; rw [h4, hf]; split <;> simp only [h1, h2, h3])
  have un : ∀ v l, unsupported env' v l = unsupported env v l := by
    intro v l
    induction l with
    | nil => rfl
    | cons x l ih => rw [unsupported, unsupported, ih, h.supports]
  have mk : ∀ l, materialize env' l = materialize env l := by
    intro l
    induction l with
    | nil => rfl
    | cons x l ih => rw [materialize, materialize, ih, h.make]
  unfold collectBody
  have e1 : (movedConfig P Q cfg).enable = cfg.enable.map (movedRule P Q) := rfl
  have e2 : (movedConfig P Q cfg).disable = cfg.disable.map (movedRule P Q) := rfl
  have e3 : (movedConfig P Q cfg).tags = cfg.tags := rfl
  have e4 : (movedConfig P Q cfg).pyver = cfg.pyver := rfl
  rw [e1, e2, e3, e4]
  obtain ⟨a1, a2, a3, a4⟩ := en cfg.enable ⟨[], [], [], [], mods⟩ ⟨[], [], [], [], mods⟩ rfl rfl rfl rfl
  generalize enableAll env' path' (cfg.enable.map (movedRule P Q)) ⟨[], [], [], [], mods⟩ = s1' at a1 a2 a3 a4 ⊢
  generalize enableAll env path cfg.enable ⟨[], [], [], [], mods⟩ = s1 at a1 a2 a3 a4 ⊢
  obtain ⟨b1, b2, b3, b4⟩ := dis cfg.disable s1 s1' a1 a2 a3 a4
  simp only
  generalize disableAll env' path' (cfg.disable.map (movedRule P Q)) s1' = s2' at b1 b2 b3 b4 ⊢
  generalize disableAll env path cfg.disable s1 = s2 at b1 b2 b3 b4 ⊢
  obtain ⟨c1, c3⟩ : (tagStage env' order cfg.tags s2').all = (tagStage env order cfg.tags s2).all ∧ (tagStage env' order cfg.tags s2').reasons = (tagStage env order cfg.tags s2).reasons := by
    unfold tagStage
    rw [b1, b3, h.tags]
    split
    · exact ⟨rfl, rfl⟩
    · exact ⟨b1, b3⟩
  generalize tagStage env' order cfg.tags s2' = s3' at c1 c3 ⊢
  generalize tagStage env order cfg.tags s2 = s3 at c1 c3 ⊢
  unfold versionStage
  cases cfg.pyver with
  | none =>
    simp only [Bind.bind, Except.bind, c1, mk]
    cases materialize env (order s3.all) <;> rfl
  | some v =>
    simp only [c1, un, c3]
    cases unsupported env v (order s3.all) with
    | error e => rfl
    | ok bad =>
      simp only [Bind.bind, Except.bind, pure, Except.pure, mk]
      cases materialize env (order (setMinus s3.all (dictUpdate s3.reasons (bad.map (fun r => (r, Reason.pythonVersion)))))) <;> rfl

theorem collect_moved (h : SameImports env env' sysPath P Q) (order : List Nat → List Nat) (cfg : Config V) (mods : M) (hroot : P <+: cfg.root) :
    (collectRules env' order (movedConfig P Q cfg) sysPath mods).1.map (·.rules) = (collectRules env order cfg sysPath mods).1.map (·.rules) := by
  obtain ⟨u, hu⟩ := hroot
  have key : ∀ u' : Path, (appendSysPath (Q ++ u') sysPath (collectBody env' order (movedConfig P Q cfg) mods)).1.map (·.rules) =
      (appendSysPath (P ++ u') sysPath (collectBody env order cfg mods)).1.map (·.rules) := by
    intro u'
    obtain ⟨n1, n2⟩ := h.apart u'
    unfold appendSysPath
    rw [if_neg n1, if_neg n2]
    have := collectBody_moved h order cfg mods (sysPath ++ [asPosix (P ++ u')]) (sysPath ++ [asPosix (Q ++ u')]) (h.root u')
    revert this
    cases collectBody env' order (movedConfig P Q cfg) mods (sysPath ++ [asPosix (Q ++ u')]) <;> cases collectBody env order cfg mods (sysPath ++ [asPosix (P ++ u')]) <;> exact id
  have hid : importDir (movedConfig P Q cfg) = (importDir cfg).map (moved P Q) ∧ ∀ p, importDir cfg = some p → P <+: p := by
    have hr : (movedConfig P Q cfg).root = Q ++ u := by show moved P Q cfg.root = _; rw [← hu, moved_in]
    have hi : (movedConfig P Q cfg).rootImport = cfg.rootImport := rfl
    unfold importDir
    rw [hr, hi, ← hu]
    cases cfg.rootImport with
    | off => exact ⟨rfl, fun p h => by cases h⟩
    | on => exact ⟨by simp [moved_in], fun p h => by cases h; exact List.prefix_append P u⟩
    | sub parts => exact ⟨by simp [moved_in], fun p h => by cases h; rw [List.append_assoc]; exact List.prefix_append P _⟩
  unfold collectRules
  rw [hid.1]
  cases hd : importDir cfg with
  | none => exact collectBody_moved h order cfg mods sysPath sysPath h.plain
  | some p =>
    obtain ⟨u', rfl⟩ := hid.2 p hd
    simp only [Option.map_some, moved_in]
    exact key u'

end

/-- C138: the rules run on the copy are those run on the original. -/
theorem C138_rules (horder : ∀ l, (o.configOrder l).Perm l) (options : Option Options) (hopt : ∀ oo, options = some oo → oo.configFile = none)
    (files files' : Path → Option Bytes) (P Q t : Path) (ht : t ≠ []) (hdir : o.isDir (Q ++ t) = o.isDir (P ++ t)) (hroot : RootDir o files P) (hcopy : Copied o files files' P Q t)
    (himp : SameImports (o.rules files) (o.rules files') o.sysPath P Q) :
    (o.config (options.map (movedOptions P Q)) files' (Q ++ t)).bind (o.collect files') = (o.config options files (P ++ t)).bind (o.collect files) := by
  obtain ⟨hcfg, hr⟩ := config_moved o horder options hopt files files' P Q t ht hdir hroot hcopy
  rw [hcfg]
  cases hc : o.config options files (P ++ t) with
  | error e => rfl
  | ok cfg =>
    have := collect_moved himp o.ruleOrder cfg o.mods (hr cfg hc)
    simp only [Except.map, Except.bind, Outside.collect]
    revert this
    cases (collectRules (o.rules files') o.ruleOrder (movedConfig P Q cfg) o.sysPath o.mods).1 <;> cases (collectRules (o.rules files) o.ruleOrder cfg o.sysPath o.mods).1 <;>
      simp [Except.map] <;> intro h <;> rw [h]

theorem displayed_moved {C : Type} (env env' : Env C) (p q : Path) (hd : ∀ a b, env'.unifiedDiff a b q = env.unifiedDiff a b p) (m : Node) :
    ∀ vs, displayed env' q m vs = displayed env p m vs
  | [] => rfl
  | v :: vs => by
    have : display env' q m v = display env p m v := by unfold display; simp only [hd]
    rw [displayed, displayed, this, displayed_moved env env' p q hd m vs]

theorem style_moved (p q : Path) (h : TreatedAlike o p q) (options options' : Option Options) (m : Node) (cfg cfg' : Config V) (hc : cfg'.formatter = cfg.formatter) :
    formatModule (o.env options') m q cfg' = formatModule (o.env options) m p cfg := by
  unfold formatModule
  have e1 : (o.env options').formatter cfg' = cfg'.formatter := rfl
  have e2 : (o.env options).formatter cfg = cfg.formatter := rfl
  have e3 : (o.env options').styles = o.base.styles := rfl
  have e4 : (o.env options).styles = o.base.styles := rfl
  rw [e1, e2, e3, e4, hc]
  cases cfg.formatter with
  | none => rfl
  | some s =>
    simp only
    cases hs : styleOf s o.base.styles with
    | none => rfl
    | some g =>
      obtain ⟨a, b, hab, -⟩ := styleOf_some s g _ hs
      exact h.styles (s, g) (by rw [hab]; simp) m

/-- What happens at the end, for the copy. -/
structure MovedFinish {R : Type} (q : Path) (f f' : Finish R) : Prop where
  last : f'.last = f.last.map (fun r => { r with path := q })
  ret : f'.ret = f.ret

theorem bytesFinish_moved (p q : Path) (h : TreatedAlike o p q) (options options' : Option Options) (files files' : Path → Option Bytes) (content : Bytes) (cfg cfg' : Config V)
    (hc : cfg'.formatter = cfg.formatter) (hcol : o.collect files' cfg' = o.collect files cfg) (hvis : ∀ m rs, o.visit files' cfg' m rs = o.visit files cfg m rs)
    (autofix hook : Bool) (ss : List Answer) :
    MovedFinish q (bytesFinish (o.env options) files p content cfg autofix hook ss) (bytesFinish (o.env options') files' q content cfg' autofix hook ss) ∧
    found (o.env options') files' q content cfg' = found (o.env options) files p content cfg := by
  have c1 : (o.env options').collect files' cfg' = o.collect files cfg := hcol
  have c2 : (o.env options).collect files cfg = o.collect files cfg := rfl
  have v1 : ∀ m rs, (o.env options').visit files' cfg' m rs = o.visit files cfg m rs := hvis
  have v2 : ∀ m rs, (o.env options).visit files cfg m rs = o.visit files cfg m rs := fun _ _ => rfl
  have p1 : (o.env options').parse = o.base.parse := rfl
  have p2 : (o.env options).parse = o.base.parse := rfl
  have d : ∀ m vs, displayed (o.env options') q m vs = displayed (o.env options) p m vs := fun m vs => displayed_moved (o.env options) (o.env options') p q h.diff m vs
  have k1 : (o.env options').hookRaises = o.base.hookRaises := rfl
  have k2 : (o.env options).hookRaises = o.base.hookRaises := rfl
  have hfix : ∀ fs, fixedContent (o.env options') q content cfg' fs = fixedContent (o.env options) p content cfg fs := by
    intro fs
    unfold fixedContent
    rw [p1, p2]
    simp only [style_moved o p q h options options' _ cfg cfg' hc]
  constructor
  · unfold bytesFinish
    rw [c1, c2, p1, p2, k1, k2]
    simp only [v1, v2, d, hfix]
    repeat' split
    all_goals exact ⟨rfl, rfl⟩
  · unfold found
    rw [c1, c2, p1, p2]
    simp only [v1, v2, d]

theorem writeFinish_moved (p q : Path) (h : TreatedAlike o p q) (options options' : Option Options) (content : Bytes) (updated : Option Bytes) :
    MovedFinish q (writeFinish (o.env options) p content updated) (writeFinish (o.env options') q content updated) ∧
    ∀ w w' : World, w.files p = w'.files q → ((writeFinish (o.env options) p content updated).upd w).files p = ((writeFinish (o.env options') q content updated).upd w').files q := by
  have e1 : (o.env options').openRaises q = (o.env options).openRaises p := h.opened
  have e2 : ∀ b, (o.env options').writeRaises q b = (o.env options).writeRaises p b := fun b => by
    show o.base.writeRaises q b = o.base.writeRaises p b
    rw [h.written]
  unfold writeFinish
  simp only [e1, e2]
  repeat' split
  all_goals refine ⟨⟨rfl, rfl⟩, fun w w' hw => ?_⟩
  all_goals simp [World.put, World.note, hw]

/-- C138: linting or fixing a file in a copy of the project, whatever the answers: the same results, naming the new place, and the same content of the file afterwards. -/
theorem C138_results (horder : ∀ l, (o.configOrder l).Perm l) (options : Option Options) (hopt : ∀ oo, options = some oo → oo.configFile = none) (w w' : World)
    (P Q t p p' : Path) (ht : t ≠ []) (hp : o.base.resolve p = P ++ t) (hp' : o.base.resolve p' = Q ++ t) (hdir : o.isDir (Q ++ t) = o.isDir (P ++ t))
    (hroot : RootDir o w.files P) (hcopy : Copied o w.files w'.files P Q t) (hfile : w.files (P ++ t) = w'.files (Q ++ t))
    (himp : SameImports (o.rules w.files) (o.rules w'.files) o.sysPath P Q) (hvis : ∀ cfg m rs, o.visitors w'.files (movedConfig P Q cfg) m rs = o.visitors w.files cfg m rs)
    (halike : TreatedAlike o (P ++ t) (Q ++ t)) (autofix hook : Bool) (ss : List Answer) :
    ((fixitFile (o.env (options.map (movedOptions P Q))) p' autofix hook).run ss w').1 =
      ((fixitFile (o.env options) p autofix hook).run ss w).1.map (fun r => { r with path := Q ++ t }) ∧
    ((fixitFile (o.env (options.map (movedOptions P Q))) p' autofix hook).run ss w').2.1 = ((fixitFile (o.env options) p autofix hook).run ss w).2.1 ∧
    ((fixitFile (o.env (options.map (movedOptions P Q))) p' autofix hook).run ss w').2.2.files (Q ++ t) = ((fixitFile (o.env options) p autofix hook).run ss w).2.2.files (P ++ t) := by
  obtain ⟨hcfg, hr⟩ := config_moved o horder options hopt w.files w'.files P Q t ht hdir hroot hcopy
  have hru : (fixitFile (o.env options) p autofix hook).run ss w = script (P ++ t) (foundIn (o.env options) w.files (P ++ t))
      (fileFinish (o.env options) w.files (P ++ t) autofix hook ss) ss w := by rw [← hp]; exact run_lintFile (o.env options) (o.base.resolve p) autofix hook ss w
  have hru' : (fixitFile (o.env (options.map (movedOptions P Q))) p' autofix hook).run ss w' = script (Q ++ t) (foundIn (o.env (options.map (movedOptions P Q))) w'.files (Q ++ t))
      (fileFinish (o.env (options.map (movedOptions P Q))) w'.files (Q ++ t) autofix hook ss) ss w' := by
    rw [← hp']; exact run_lintFile (o.env (options.map (movedOptions P Q))) (o.base.resolve p') autofix hook ss w'
  have hvisit : ∀ cfg m rs, o.visit w'.files (movedConfig P Q cfg) m rs = o.visit w.files cfg m rs := by
    intro cfg m rs
    unfold Outside.visit
    rw [hvis]
  have hload : loaded (o.env (options.map (movedOptions P Q))) w'.files (Q ++ t) = (loaded (o.env options) w.files (P ++ t)).map (fun cc => (cc.1, movedConfig P Q cc.2)) ∧
      ∀ content cfg, loaded (o.env options) w.files (P ++ t) = .ok (content, cfg) → P <+: cfg.root := by
    have e1 : (o.env (options.map (movedOptions P Q))).readRaises (Q ++ t) = o.base.readRaises (P ++ t) := halike.read
    have e2 : (o.env options).readRaises (P ++ t) = o.base.readRaises (P ++ t) := rfl
    have e3 : (o.env (options.map (movedOptions P Q))).config w'.files (Q ++ t) = (o.config options w.files (P ++ t)).map (movedConfig P Q) := hcfg
    have e4 : (o.env options).config w.files (P ++ t) = o.config options w.files (P ++ t) := rfl
    unfold loaded
    rw [e1, e2, e3, e4, hfile]
    cases w'.files (Q ++ t) with
    | none => exact ⟨rfl, fun _ _ h => by cases h⟩
    | some content =>
      simp only
      cases o.base.readRaises (P ++ t) with
      | some e => exact ⟨rfl, fun _ _ h => by cases h⟩
      | none =>
        simp only
        cases hcc : o.config options w.files (P ++ t) with
        | error e => exact ⟨rfl, fun _ _ h => by cases h⟩
        | ok cfg => exact ⟨rfl, fun _ _ h => by cases h; exact hr _ hcc⟩
  have hcol : ∀ cfg : Config V, P <+: cfg.root → o.collect w'.files (movedConfig P Q cfg) = o.collect w.files cfg := by
    intro cfg h
    have := collect_moved himp o.ruleOrder cfg o.mods h
    unfold Outside.collect
    revert this
    cases (collectRules (o.rules w'.files) o.ruleOrder (movedConfig P Q cfg) o.sysPath o.mods).1 <;> cases (collectRules (o.rules w.files) o.ruleOrder cfg o.sysPath o.mods).1 <;>
      simp [Except.map] <;> intro h <;> rw [h]
  have hmain : foundIn (o.env (options.map (movedOptions P Q))) w'.files (Q ++ t) = foundIn (o.env options) w.files (P ++ t) ∧
      MovedFinish (Q ++ t) (fileFinish (o.env options) w.files (P ++ t) autofix hook ss) (fileFinish (o.env (options.map (movedOptions P Q))) w'.files (Q ++ t) autofix hook ss) ∧
      ((fileFinish (o.env options) w.files (P ++ t) autofix hook ss).upd w).files (P ++ t) =
        ((fileFinish (o.env (options.map (movedOptions P Q))) w'.files (Q ++ t) autofix hook ss).upd w').files (Q ++ t) := by
    obtain ⟨hl, hrt⟩ := hload
    unfold foundIn fileFinish
    rw [hl]
    cases hlo : loaded (o.env options) w.files (P ++ t) with
    | error e => exact ⟨rfl, ⟨rfl, rfl⟩, hfile⟩
    | ok cc =>
      obtain ⟨content, cfg⟩ := cc
      simp only [Except.map]
      obtain ⟨hB, hF⟩ := bytesFinish_moved o (P ++ t) (Q ++ t) halike options (options.map (movedOptions P Q)) w.files w'.files content cfg (movedConfig P Q cfg) rfl
        (hcol cfg (hrt content cfg hlo)) (hvisit cfg) autofix hook ss
      obtain ⟨evs, hu, -⟩ := bytesFinish_hooks (o.env options) w.files (P ++ t) content cfg autofix hook ss
      obtain ⟨evs', hu', -⟩ := bytesFinish_hooks (o.env (options.map (movedOptions P Q))) w'.files (Q ++ t) content (movedConfig P Q cfg) autofix hook ss
      rw [hB.ret]
      obtain ⟨hW, hWu⟩ := writeFinish_moved o (P ++ t) (Q ++ t) halike options (options.map (movedOptions P Q)) content (bytesFinish (o.env options) w.files (P ++ t) content cfg autofix hook ss).ret
      refine ⟨hF, ⟨?_, rfl⟩, ?_⟩
      · simp only [hB.last, hW.last]
        cases (bytesFinish (o.env options) w.files (P ++ t) content cfg autofix hook ss).last <;> rfl
      · simp only [Function.comp, hu, hu']
        exact hWu _ _ hfile
  obtain ⟨h1, h2, h3⟩ := hmain
  rw [hru, hru', h1]
  have hrep : ∀ vs : List LintViolation, vs.map (reporting (Q ++ t)) = (vs.map (reporting (P ++ t))).map (fun r => { r with path := Q ++ t }) := by
    intro vs; rw [List.map_map]; rfl
  unfold script
  rw [h2.last]
  by_cases hlt : ss.length < (foundIn (o.env options) w.files (P ++ t)).length
  · rw [if_pos hlt, if_pos hlt]
    exact ⟨hrep _, rfl, hfile.symm⟩
  · rw [if_neg hlt, if_neg hlt]
    cases (fileFinish (o.env options) w.files (P ++ t) autofix hook ss).last with
    | none => exact ⟨hrep _, rfl, h3.symm⟩
    | some r =>
      refine ⟨?_, rfl, h3.symm⟩
      simp only [Option.map_some, List.map_append, List.map_cons, List.map_nil]
      rw [hrep]

end
end Fixit
