import Verif.Props.Config

/-!
# C15, C16, C24, C25: finding, reading and overriding configuration
-/

namespace Fixit
open Py Spec

/-! ## C15: locate_configs -/

/-- The names a config file may have, best first. -/
def specNames : List PStr := [py "fixit.toml", py ".fixit.toml", py "pyproject.toml"]

/-- `f` is a config file name in a directory from `start` up to `root`. -/
def Candidate (start root f : Path) : Prop := ∃ d n, f = d ++ [n] ∧ n ∈ specNames ∧ root <+: d ∧ d <+: start

/-- `f` takes priority over `g`: deeper directory, or same directory and better name. -/
def Better (f g : Path) : Prop :=
  g.length < f.length ∨ (g.dropLast = f.dropLast ∧ ∃ n m, f.getLast? = some n ∧ g.getLast? = some m ∧ specNames.idxOf n < specNames.idxOf m)

theorem prefix_dropLast {α : Type} {d p : List α} (h : d <+: p.dropLast) : d <+: p := h.trans (List.dropLast_prefix p)

theorem prefix_dropLast_or {α : Type} {d p : List α} (h : d <+: p) : d = p ∨ d <+: p.dropLast := by
  by_cases hl : d.length = p.length
  · exact Or.inl (h.eq_of_length hl)
  · right
    obtain ⟨t, rfl⟩ := h
    cases t with
    | nil => simp at hl
    | cons a as =>
      rw [List.dropLast_append_of_ne_nil (by simp)]
      exact List.prefix_append _ _

theorem locateLoop_spec (fs : FS) (root : Path) : ∀ (n : Nat) (p : Path), p.length = n → root <+: p →
    (∀ f, f ∈ locateLoop fs root p ↔ fs.isFile f = true ∧ Candidate p root f) ∧ (locateLoop fs root p).Pairwise Better := by
  intro n
  induction n with
  | zero =>
    intro p hp hr
    have : p = [] := List.length_eq_zero_iff.1 hp
    subst this
    have hr' : root = [] := List.prefix_nil.1 hr
    subst hr'
    rw [locateLoop]
    simp only [true_or, if_true, List.append_nil]
    constructor
    · intro f
      simp only [List.mem_filter, List.mem_map, Candidate]
      constructor
      · rintro ⟨⟨m, hm, rfl⟩, hf⟩
        exact ⟨hf, [], m, rfl, hm, by simp, by simp⟩
      · rintro ⟨hf, d, m, rfl, hm, -, hd⟩
        have : d = [] := List.prefix_nil.1 hd
        subst this
        exact ⟨⟨m, hm, rfl⟩, hf⟩
    · refine List.Pairwise.filter _ ?_
      rw [List.pairwise_map]
      have : configFilenames.Pairwise (fun a b => specNames.idxOf a < specNames.idxOf b) := by decide
      refine this.imp ?_
      intro a b hab
      exact Or.inr ⟨by simp, a, b, by simp, by simp, hab⟩
  | succ n ih =>
    intro p hp hr
    have hne : p ≠ [] := by intro e; subst e; simp at hp
    have hhere : ((configFilenames.map (fun n => p ++ [n])).filter fs.isFile).Pairwise Better := by
      refine List.Pairwise.filter _ ?_
      rw [List.pairwise_map]
      have : configFilenames.Pairwise (fun a b => specNames.idxOf a < specNames.idxOf b) := by decide
      refine this.imp ?_
      intro a b hab
      exact Or.inr ⟨by simp, a, b, by simp, by simp, hab⟩
    have hmem : ∀ f, f ∈ (configFilenames.map (fun n => p ++ [n])).filter fs.isFile ↔ fs.isFile f = true ∧ ∃ m ∈ specNames, f = p ++ [m] := by
      intro f
      simp only [List.mem_filter, List.mem_map]
      constructor
      · rintro ⟨⟨m, hm, rfl⟩, hf⟩; exact ⟨hf, m, hm, rfl⟩
      · rintro ⟨hf, m, hm, rfl⟩; exact ⟨⟨m, hm, rfl⟩, hf⟩
    have hpar : p ≠ Path.parent p := by
      intro e
      have := congrArg List.length e
      simp [Path.parent] at this
      omega
    rw [locateLoop]
    by_cases hroot : p = root
    · rw [if_pos (Or.inl hroot), List.append_nil]
      refine ⟨?_, hhere⟩
      intro f
      rw [hmem]
      constructor
      · rintro ⟨hf, m, hm, rfl⟩
        exact ⟨hf, p, m, rfl, hm, by rw [hroot]; exact List.prefix_refl _, List.prefix_refl _⟩
      · rintro ⟨hf, d, m, rfl, hm, h1, h2⟩
        have : d = p := by
          rw [hroot] at h2 ⊢
          exact h2.eq_of_length (Nat.le_antisymm h2.length_le h1.length_le)
        subst this
        exact ⟨hf, m, hm, rfl⟩
    · rw [if_neg (by simp only [not_or]; exact ⟨hroot, hpar⟩)]
      have hr' : root <+: p.dropLast := by
        rcases prefix_dropLast_or hr with h | h
        · exact absurd h.symm hroot
        · exact h
      obtain ⟨ih1, ih2⟩ := ih (Path.parent p) (by simp [Path.parent, hp]) hr'
      constructor
      · intro f
        rw [List.mem_append, hmem, ih1]
        constructor
        · rintro (⟨hf, m, hm, rfl⟩ | ⟨hf, d, m, rfl, hm, h1, h2⟩)
          · exact ⟨hf, p, m, rfl, hm, hr, List.prefix_refl _⟩
          · exact ⟨hf, d, m, rfl, hm, h1, prefix_dropLast h2⟩
        · rintro ⟨hf, d, m, rfl, hm, h1, h2⟩
          rcases prefix_dropLast_or h2 with rfl | h2
          · exact Or.inl ⟨hf, m, hm, rfl⟩
          · exact Or.inr ⟨hf, d, m, rfl, hm, h1, h2⟩
      · rw [List.pairwise_append]
        refine ⟨hhere, ih2, ?_⟩
        intro a ha b hb
        rw [hmem] at ha
        obtain ⟨-, m, -, rfl⟩ := ha
        rw [ih1] at hb
        obtain ⟨-, d, k, rfl, -, -, h2⟩ := hb
        left
        have := h2.length_le
        simp [Path.parent] at this
        simp
        omega

/-- Exactly the existing candidate files between the target's directory and root, best first. -/
theorem C15_locate_exact (fs : FS) (path : Path) (root : Option Path)
    (hroot : root.getD [] <+: (if fs.isDir path then path else path.dropLast)) :
    ∃ l, locateConfigs fs path root = .ok l ∧
      (∀ f, f ∈ l ↔ fs.isFile f = true ∧ Candidate (if fs.isDir path then path else path.dropLast) (root.getD []) f) ∧
      l.Pairwise Better := by
  have h := locateLoop_spec fs (root.getD []) _ _ rfl hroot
  refine ⟨locateLoop fs (root.getD []) (if fs.isDir path then path else path.dropLast), ?_, h⟩
  unfold locateConfigs Path.under Path.parent
  simp only
  rw [if_pos]
  rw [List.isPrefixOf_iff_prefix]; exact hroot

/-- A root that does not contain the target's directory is refused (ValueError). -/
theorem C15_locate_outside_root (fs : FS) (path : Path) (root : Option Path)
    (hroot : ¬ root.getD [] <+: (if fs.isDir path then path else path.dropLast)) : locateConfigs fs path root = .error .value := by
  unfold locateConfigs Path.under Path.parent
  simp only
  rw [if_neg]
  rw [List.isPrefixOf_iff_prefix]; exact hroot

/-- `Better` orders strictly, so the order of the result is fully determined. -/
theorem C15_order_strict (f g : Path) (h : Better f g) : ¬ Better g f := by
  rintro (h' | ⟨h1, n, m, h2, h3, h4⟩) <;> rcases h with h | ⟨k1, a, b, k2, k3, k4⟩
  · omega
  · have := congrArg List.length k1
    simp at this
    cases f with
    | nil => simp at k2
    | cons x xs => cases g with
      | nil => simp at k3
      | cons y ys => simp at this h'; omega
  · have := congrArg List.length h1
    simp at this
    cases f with
    | nil => simp at h3
    | cons x xs => cases g with
      | nil => simp at h2
      | cons y ys => simp at this h; omega
  · rw [h3] at k2; cases k2
    rw [h2] at k3; cases k3
    omega

/-- A file system for the examples: `/a` and `/a/b` are directories. -/
def exFS : FS where
  isDir p := p = [] ∨ p = [py "a"] ∨ p = [py "a", py "b"]
  isFile p := p = [py "a", py "pyproject.toml"] ∨ p = [py "a", py "fixit.toml"] ∨ p = [py "a", py "b", py ".fixit.toml"] ∨ p = [py "fixit.toml"]

example : locateConfigs exFS [py "a", py "b", py "x.py"] none =
    .ok [[py "a", py "b", py ".fixit.toml"], [py "a", py "fixit.toml"], [py "a", py "pyproject.toml"], [py "fixit.toml"]] := by
  simp [locateConfigs, exFS, Path.parent, Path.under, locateLoop, configFilenames]
example : locateConfigs exFS [py "a", py "b", py "x.py"] (some [py "c"]) = .error .value := by
  apply C15_locate_outside_root; decide

/-! ## C16: read_configs -/

/-- What a file contributes: its non-empty `tool.fixit` table, and nothing when there is none. -/
def contribution (data : Dict) : Option Dict :=
  match asTable (field (py "tool") data) with
  | none => none
  | some t => match asTable (field (py "fixit") t) with
    | some (e :: es) => some (e :: es)
    | _ => none

/-- `tool` and `tool.fixit`, if present, are tables. -/
def ToolTables (data : Dict) : Prop :=
  (∀ v, field (py "tool") data = some v → ∃ t, v = .tbl t ∧ ∀ w, field (py "fixit") t = some w → ∃ d, w = .tbl d)

/-- The file marks itself as the root. -/
def MarksRoot (d : Dict) : Prop := (truthyField (py "root") d).isSome = true

instance (d : Dict) : Decidable (MarksRoot d) := by unfold MarksRoot; infer_instance

theorem rootFlag_eq (d : Dict) : rootFlag d = decide (MarksRoot d) := by
  rw [Bool.eq_iff_iff, decide_eq_true_iff]
  unfold rootFlag MarksRoot truthyField
  rw [dget_eq_field]
  cases field (py "root") d with
  | none => simp
  | some r => cases hr : r.truthy <;> simp [Option.filter, hr]

theorem readOne_spec {load : Path → Except Err Dict} {p : Path} {data : Dict} (hl : load p = .ok data) (ht : ToolTables data) :
    readOne load p = .ok ((contribution data).map (fun d => (d, decide (MarksRoot d)))) := by
  unfold readOne
  rw [hl]
  simp only [bind, Except.bind, fixitTable, dget_eq_field]
  unfold contribution
  cases htool : field (py "tool") data with
  | none => rfl
  | some v =>
    obtain ⟨t, rfl, hf⟩ := ht v htool
    simp only [asTable]
    cases hfx : field (py "fixit") t with
    | none => rfl
    | some w =>
      obtain ⟨d, rfl⟩ := hf w hfx
      simp only
      cases d with
      | nil => rfl
      | cons e es =>
        have htr : (Toml.tbl (e :: es)).truthy = true := rfl
        rw [if_pos htr, rootFlag_eq]
        rfl

/-- The configs of files that all load, none of them a root: the non-empty tables in order, every file read once. -/
theorem C16_no_root (load : Path → Except Err Dict) (content : Path → Dict) (ps : List Path)
    (hl : ∀ p ∈ ps, load p = .ok (content p)) (ht : ∀ p ∈ ps, ToolTables (content p))
    (hr : ∀ p ∈ ps, ∀ d, contribution (content p) = some d → ¬ MarksRoot d) :
    readConfigs load ps = (.ok (ps.filterMap (fun p => (contribution (content p)).map (fun d => ⟨p, d⟩))), ps) := by
  induction ps with
  | nil => rfl
  | cons p ps ih =>
    have ih' := ih (fun q hq => hl q (by simp [hq])) (fun q hq => ht q (by simp [hq])) (fun q hq => hr q (by simp [hq]))
    rw [readConfigs, readOne_spec (hl p (by simp)) (ht p (by simp)), List.filterMap_cons]
    cases hc : contribution (content p) with
    | none => simp only [Option.map_none, ih']
    | some d =>
      have hnr : decide (MarksRoot d) = false := by
        have := hr p (by simp) d hc
        simp [this]
      simp only [Option.map_some, hnr, ih']
      rfl

/-- Reading stops at the first root: it is the last config returned and no later file is read (they may even be unreadable). -/
theorem C16_stops_at_root (load : Path → Except Err Dict) (content : Path → Dict) (pre : List Path) (p : Path) (post : List Path) (d : Dict)
    (hl : ∀ q ∈ pre ++ [p], load q = .ok (content q)) (ht : ∀ q ∈ pre ++ [p], ToolTables (content q))
    (hr : ∀ q ∈ pre, ∀ d, contribution (content q) = some d → ¬ MarksRoot d)
    (hp : contribution (content p) = some d) (hd : MarksRoot d) :
    readConfigs load (pre ++ p :: post) =
      (.ok (pre.filterMap (fun q => (contribution (content q)).map (fun d => ⟨q, d⟩)) ++ [⟨p, d⟩]), pre ++ [p]) := by
  induction pre with
  | nil =>
    simp only [List.nil_append]
    rw [readConfigs, readOne_spec (hl p (by simp)) (ht p (by simp)), hp]
    simp [hd]
  | cons q qs ih =>
    have ih' := ih (fun x hx => hl x (by simp only [List.cons_append, List.mem_cons]; exact Or.inr hx))
      (fun x hx => ht x (by simp only [List.cons_append, List.mem_cons]; exact Or.inr hx)) (fun x hx => hr x (by simp [hx]))
    rw [List.cons_append, readConfigs, readOne_spec (hl q (by simp)) (ht q (by simp)), List.filterMap_cons]
    cases hc : contribution (content q) with
    | none => simp only [Option.map_none, ih']; rfl
    | some d' =>
      have hnr : decide (MarksRoot d') = false := by
        have := hr q (by simp) d' hc
        simp [this]
      simp only [Option.map_some, hnr, ih']
      rfl

/-- A file that cannot be read or parsed makes reading fail with that error, unless a root came before it. -/
theorem C16_first_error (load : Path → Except Err Dict) (content : Path → Dict) (pre : List Path) (p : Path) (post : List Path) (e : Err)
    (hl : ∀ q ∈ pre, load q = .ok (content q)) (ht : ∀ q ∈ pre, ToolTables (content q))
    (hr : ∀ q ∈ pre, ∀ d, contribution (content q) = some d → ¬ MarksRoot d) (hp : load p = .error e) :
    readConfigs load (pre ++ p :: post) = (.error e, pre ++ [p]) := by
  induction pre with
  | nil =>
    simp only [List.nil_append]
    rw [readConfigs, readOne, hp]
    rfl
  | cons q qs ih =>
    have ih' := ih (fun x hx => hl x (by simp [hx])) (fun x hx => ht x (by simp [hx])) (fun x hx => hr x (by simp [hx]))
    rw [List.cons_append, readConfigs, readOne_spec (hl q (by simp)) (ht q (by simp))]
    cases hc : contribution (content q) with
    | none => simp only [Option.map_none, ih']; rfl
    | some d' =>
      have hnr : decide (MarksRoot d') = false := by
        have := hr q (by simp) d' hc
        simp [this]
      simp only [Option.map_some, hnr, ih']
      rfl

/-- At most the last config returned marks the root. -/
theorem C16_root_only_last (load : Path → Except Err Dict) : ∀ (ps : List Path) (cs : List RawConfig) (t : List Path),
    readConfigs load ps = (.ok cs, t) → ∀ c ∈ cs.dropLast, ¬ MarksRoot c.data := by
  intro ps
  induction ps with
  | nil => intro cs t h; simp only [readConfigs, Prod.mk.injEq, Except.ok.injEq] at h; rw [← h.1]; simp
  | cons p ps ih =>
    intro cs t h
    rw [readConfigs] at h
    cases ho : readOne load p with
    | error e => rw [ho] at h; simp at h
    | ok o =>
      rw [ho] at h
      cases o with
      | none =>
        simp only [Prod.mk.injEq] at h
        exact ih cs _ (by rw [← h.1])
      | some db =>
        obtain ⟨d, b⟩ := db
        cases b with
        | true => simp only [Prod.mk.injEq, Except.ok.injEq] at h; rw [← h.1]; simp
        | false =>
          simp only [Prod.mk.injEq] at h
          cases hrest : (readConfigs load ps).1 with
          | error e => rw [hrest] at h; simp [Except.map] at h
          | ok cs' =>
            rw [hrest] at h
            simp only [Except.map, Except.ok.injEq] at h
            have hd : ¬ MarksRoot d := by
              intro hm
              unfold readOne at ho
              simp only [bind_ok] at ho
              obtain ⟨data, -, v, -, h3⟩ := ho
              cases v with
              | none => simp [pure, Except.pure] at h3
              | some v =>
                simp only at h3
                split at h3
                · cases v with
                  | tbl d' =>
                    simp only [pure, Except.pure, Except.ok.injEq, Option.some.injEq, Prod.mk.injEq] at h3
                    obtain ⟨rfl, h3⟩ := h3
                    rw [rootFlag_eq] at h3
                    simp [hm] at h3
                  | _ => simp [throw, throwThe, MonadExceptOf.throw] at h3
                · simp [pure, Except.pure] at h3
            intro c hc
            rw [← h.1] at hc
            cases cs' with
            | nil => simp at hc
            | cons x xs =>
              rw [List.dropLast_cons_cons] at hc
              rw [List.mem_cons] at hc
              rcases hc with rfl | hc
              · exact hd
              · exact ih (x :: xs) (readConfigs load ps).2 (by rw [← hrest]) c hc

/-- Files for the examples. -/
def exLoad (p : Path) : Except Err Dict :=
  if p = [py "a", py "fixit.toml"] then .ok [(py "tool", .tbl [(py "fixit", .tbl [(py "enable", .arr [])])])]
  else if p = [py "fixit.toml"] then .ok [(py "tool", .tbl [(py "fixit", .tbl [(py "root", .bool true)])])]
  else if p = [py "a", py "pyproject.toml"] then .ok [(py "tool", .tbl [])]
  else .error (.other 1)

example : (readConfigs exLoad [[py "a", py "fixit.toml"], [py "a", py "pyproject.toml"], [py "fixit.toml"], [py "missing"]]).2 =
    [[py "a", py "fixit.toml"], [py "a", py "pyproject.toml"], [py "fixit.toml"]] := by decide

/-! ## C24: command-line options -/

variable {V : Type} (env : CfgEnv V) (order : List QualifiedRule → List QualifiedRule)

/-- Options replace exactly the fields they set. -/
theorem C24_options_override (fs : FS) (load : Path → Except Err Dict) (path : Path) (root : Option Path) (o : Options)
    (ho : o.configFile = none) (c : Config V) (h : generateConfig env order fs load path root none = .ok c) :
    ∃ c', generateConfig env order fs load path root (some o) = .ok c' ∧
      (∀ t, o.tags = some t → (t.incl ≠ [] ∨ t.excl ≠ []) → c'.tags = t) ∧
      ((∀ t, o.tags = some t → t.incl = [] ∧ t.excl = []) → c'.tags = c.tags) ∧
      (o.rules ≠ [] → c'.enable = o.rules ∧ c'.disable = []) ∧
      (o.rules = [] → c'.enable = c.enable ∧ c'.disable = c.disable) ∧
      c'.outputFormat = o.outputFormat.getD c.outputFormat ∧
      (o.outputTemplate ≠ [] → c'.outputTemplate = .str o.outputTemplate) ∧
      (o.outputTemplate = [] → c'.outputTemplate = c.outputTemplate) ∧
      c'.path = c.path ∧ c'.root = c.root ∧ c'.rootImport = c.rootImport ∧ c'.options = c.options ∧ c'.pyver = c.pyver ∧
      c'.formatter = c.formatter := by
  refine ⟨applyOptions o c, ?_, ?_⟩
  · unfold generateConfig at h ⊢
    simp only [Option.bind_none, Option.bind_some, ho, bind_ok, pure_ok] at h ⊢
    obtain ⟨p, h1, r, h2, ⟨c1, w⟩, h3, h4⟩ := h
    subst h4
    exact ⟨p, h1, r, h2, ⟨c1, w⟩, h3, rfl⟩
  · have hr : ∀ b : Config V, o.setRules b =
        { b with enable := if o.rules.isEmpty then b.enable else o.rules, disable := if o.rules.isEmpty then b.disable else [] } := by
      intro b; unfold Options.setRules; cases o.rules <;> rfl
    have hm : ∀ b : Config V, o.setTemplate b =
        { b with outputTemplate := if o.outputTemplate.isEmpty then b.outputTemplate else .str o.outputTemplate } := by
      intro b; unfold Options.setTemplate; cases o.outputTemplate <;> rfl
    have hf : ∀ b : Config V, o.setFormat b = { b with outputFormat := o.outputFormat.getD b.outputFormat } := by
      intro b; unfold Options.setFormat; cases o.outputFormat <;> rfl
    have ht : ∀ b : Config V, o.setTags b = { b with tags := (o.setTags b).tags } := by
      intro b; unfold Options.setTags; cases o.tags with
      | none => rfl
      | some t => simp only; split <;> rfl
    unfold applyOptions
    rw [ht]
    simp only [hr, hm, hf]
    refine ⟨?_, ?_, ?_, ?_, by simp, ?_, ?_, by simp⟩
    · intro t e hne
      have : t.truthy = true := by
        unfold Tags.truthy
        rcases hne with hne | hne
        · cases hi : t.incl with
          | nil => exact absurd hi hne
          | cons a as => rfl
        · cases hi : t.excl with
          | nil => exact absurd hi hne
          | cons a as => simp
      simp [Options.setTags, e, this]
    · intro hall
      unfold Options.setTags
      cases e : o.tags with
      | none => rfl
      | some t =>
        obtain ⟨a, b⟩ := hall t e
        have : t.truthy = false := by simp [Tags.truthy, a, b]
        simp [this]
    · intro hne
      cases e : o.rules with
      | nil => exact absurd e hne
      | cons a as => exact ⟨rfl, rfl⟩
    · intro e
      simp [e]
    · intro hne
      cases e : o.outputTemplate with
      | nil => exact absurd e hne
      | cons a as => rfl
    · intro e
      simp [e]

/-- Options cannot make a failing configuration succeed. -/
theorem C24_options_preserve_failure (fs : FS) (load : Path → Except Err Dict) (path : Path) (root : Option Path) (o : Options)
    (ho : o.configFile = none) (e : Err) (h : generateConfig env order fs load path root none = .error e) :
    generateConfig env order fs load path root (some o) = .error e := by
  unfold generateConfig at h ⊢
  simp only [Option.bind_none, Option.bind_some, ho] at h ⊢
  cases h1 : locateConfigs fs path root with
  | error e' => rw [h1] at h; simpa [bind, Except.bind] using h
  | ok p =>
    rw [h1] at h
    simp only [bind, Except.bind] at h ⊢
    cases h2 : (readConfigs load (p.map fs.real)).1 with
    | error e' => rw [h2] at h; exact h
    | ok r =>
      rw [h2] at h
      simp only at h ⊢
      cases h3 : mergeConfigs env order path r root with
      | error e' => rw [h3] at h; exact h
      | ok c => rw [h3] at h; simp [pure, Except.pure] at h

/-! ## C25: --config-file -/

/-- With an explicit config file, no other file and nothing about the file system matters. -/
theorem C25_only_the_given_file (fs fs' : FS) (load load' : Path → Except Err Dict) (path : Path) (root : Option Path) (o : Options) (f : Path)
    (ho : o.configFile = some f) (hreal : fs.real f = fs'.real f) (hsame : load (fs.real f) = load' (fs.real f)) :
    generateConfig env order fs load path root (some o) = generateConfig env order fs' load' path root (some o) := by
  unfold generateConfig
  simp only [Option.bind_some, ho]
  have : readConfigs load [fs.real f] = readConfigs load' [fs.real f] := by
    have h1 : readOne load (fs.real f) = readOne load' (fs.real f) := by unfold readOne; rw [hsame]
    simp only [readConfigs, h1]
  simp only [pure_bind, List.map_cons, List.map_nil, ← hreal, this]

/-- And the result is that of merging the file's own table, then the other options. -/
theorem C25_is_the_file_merged (fs : FS) (load : Path → Except Err Dict) (path : Path) (root : Option Path) (o : Options) (f : Path) (data d : Dict)
    (ho : o.configFile = some f) (hl : load (fs.real f) = .ok data) (ht : ToolTables data) (hd : contribution data = some d) :
    generateConfig env order fs load path root (some o) = (mergeConfigs env order path [⟨fs.real f, d⟩] root).map (fun r => applyOptions o r.1) := by
  unfold generateConfig
  simp only [Option.bind_some, ho, pure_bind, List.map_cons, List.map_nil]
  have : (readConfigs load [fs.real f]).1 = .ok [⟨fs.real f, d⟩] := by
    rw [readConfigs, readOne_spec hl ht, hd]
    simp only [Option.map_some, readConfigs]
    cases decide (MarksRoot d) <;> rfl
  rw [this]
  simp only [bind, Except.bind]
  cases mergeConfigs env order path [⟨fs.real f, d⟩] root <;> rfl

/-- A file without settings for fixit counts for nothing: the result is the default configuration with the other options, not that of the files around the target. -/
theorem C25_no_settings (fs : FS) (load : Path → Except Err Dict) (path : Path) (root : Option Path) (o : Options) (f : Path) (data : Dict)
    (ho : o.configFile = some f) (hl : load (fs.real f) = .ok data) (ht : ToolTables data) (hd : contribution data = none) :
    generateConfig env order fs load path root (some o) = (mergeConfigs env order path [] root).map (fun r => applyOptions o r.1) := by
  unfold generateConfig
  simp only [Option.bind_some, ho, pure_bind, List.map_cons, List.map_nil]
  have : (readConfigs load [fs.real f]).1 = .ok [] := by
    rw [readConfigs, readOne_spec hl ht, hd]
    rfl
  rw [this]
  simp only [bind, Except.bind]
  cases mergeConfigs env order path [] root <;> rfl

/-- A file that cannot be read or parsed makes the configuration fail with that error: there is no falling back to other files. -/
theorem C25_unreadable (fs : FS) (load : Path → Except Err Dict) (path : Path) (root : Option Path) (o : Options) (f : Path) (e : Err)
    (ho : o.configFile = some f) (hl : load (fs.real f) = .error e) : generateConfig env order fs load path root (some o) = .error e := by
  unfold generateConfig
  simp only [Option.bind_some, ho, pure_bind, List.map_cons, List.map_nil]
  have : (readConfigs load [fs.real f]).1 = .error e := by
    have := (C16_first_error load (fun _ => []) [] (fs.real f) [] e (by simp) (by simp) (by simp) hl)
    rw [List.nil_append] at this
    rw [this]
  rw [this]
  rfl

/-- But its main table only applies to targets below its directory: elsewhere rule selection, options, version and formatter stay
at their defaults. -/
theorem C25_outside_directory_ignored (path : Path) (f : Path) (d : Dict) (root : Option Path)
    (hout : ¬ Path.parent f <+: path) (hno : field (py "overrides") d = none) (cfg : Config V) (w : List PStr)
    (horder : ∀ l, (order l).Perm l)
    (h : mergeConfigs env order path [⟨f, d⟩] root = .ok (cfg, w)) :
    cfg.enable = [{ module := py "fixit.rules" }] ∧ cfg.disable = [] ∧ cfg.options = [] ∧ cfg.pyver = some env.current ∧ cfg.formatter = none := by
  obtain ⟨s, -, rfl, -, hm⟩ := mergeConfigs_ok env path h
  have happ : applicable path (files [⟨f, d⟩]) = [] := by
    have hp : List.isPrefixOf (Path.parent f) path = false := by
      rw [Bool.eq_false_iff]; intro hh; rw [List.isPrefixOf_iff_prefix] at hh; exact hout hh
    simp [applicable, files, RawConfig.file, sections, hno, RawConfig.dir, hp]
  rw [happ] at hm
  simp only [applySections, Except.ok.injEq] at hm
  have h1 : (order [({ module := py "fixit.rules" } : QualifiedRule)]) = [{ module := py "fixit.rules" }] := List.perm_singleton.1 (horder _)
  have h2 : (order ([] : List QualifiedRule)) = [] := List.perm_nil.1 (horder _)
  simp only [mergeFinish, ← hm, mergeInit, h1, h2]
  exact ⟨rfl, rfl, trivial, trivial, trivial⟩

example : ¬ Path.parent [py "cfg", py "fixit.toml"] <+: [py "src", py "x.py"] := by decide
example : ∃ c : Config Nat, generateConfig exEnv id exFS exLoad [py "a", py "b", py "x.py"] none (some { configFile := some [py "a", py "fixit.toml"], rules := [{ module := py "m" }] }) = .ok c ∧
    c.enable = [{ module := py "m" }] := ⟨_, rfl, rfl⟩

end Fixit
