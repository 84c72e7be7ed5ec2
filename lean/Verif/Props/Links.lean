import Verif.Props.CommandsCases

/-!
# C134: configuration files that are symbolic links

`read_configs` resolves the path of a configuration file before it reads it, so a table belongs to the directory where the link leads, not to the one the link was found in.
-/

namespace Spec
open Py
open Fixit (Toml Path)

/-- Neither the main table of the file nor one of its `overrides` is for a directory above `path`. -/
def Elsewhere (path : Path) (f : File) : Prop := ∀ s ∈ sections f, ¬ s.scope <+: path

end Spec

namespace Fixit
open Py Spec Gen

theorem readConfigs_mem (load : Path → Except Err Dict) : ∀ (ps : List Path) (raws : List RawConfig), (readConfigs load ps).1 = .ok raws →
    ∀ c ∈ raws, c.path ∈ ps ∧ ∃ b, readOne load c.path = .ok (some (c.data, b)) := by
  intro ps
  induction ps with
  | nil => intro raws h; simp only [readConfigs, Except.ok.injEq] at h; subst h; simp
  | cons p ps ih =>
    intro raws h
    simp only [readConfigs] at h
    cases hr : readOne load p with
    | error e => rw [hr] at h; cases h
    | ok x =>
      rw [hr] at h
      cases x with
      | none =>
        simp only at h
        intro c hc
        obtain ⟨h1, h2⟩ := ih raws h c hc
        exact ⟨List.mem_cons_of_mem _ h1, h2⟩
      | some db =>
        obtain ⟨d, b⟩ := db
        cases b with
        | true =>
          simp only [Except.ok.injEq] at h
          subst h
          intro c hc
          rw [List.mem_singleton] at hc
          subst hc
          exact ⟨List.mem_cons_self, true, hr⟩
        | false =>
          simp only at h
          cases hrest : (readConfigs load ps).1 with
          | error e => rw [hrest] at h; cases h
          | ok cs =>
            rw [hrest] at h
            cases h
            intro c hc
            rcases List.mem_cons.mp hc with rfl | hc
            · exact ⟨List.mem_cons_self, false, hr⟩
            · obtain ⟨h1, h2⟩ := ih cs hrest c hc
              exact ⟨List.mem_cons_of_mem _ h1, h2⟩

section
variable {V : Type} (env : CfgEnv V) (path : Path) (order : List QualifiedRule → List QualifiedRule)

theorem generate_located (fs : FS) (load : Path → Except Err Dict) (root : Option Path) (ps : List Path) (hp : locateConfigs fs path root = .ok ps) (cfg : Config V)
    (h : generateConfig env order fs load path root none = .ok cfg) :
    ∃ raws w, (readConfigs load (ps.map fs.real)).1 = .ok raws ∧ mergeConfigs env order path raws root = .ok (cfg, w) := by
  unfold generateConfig at h
  simp only [Option.bind_none, hp, Bind.bind, pure, Except.pure, Except.bind] at h
  cases hr : (readConfigs load (ps.map fs.real)).1 with
  | error e => rw [hr] at h; cases h
  | ok raws =>
    rw [hr] at h
    simp only at h
    cases hm : mergeConfigs env order path raws root with
    | error e => rw [hm] at h; cases h
    | ok r =>
      rw [hm] at h
      simp only [Except.ok.injEq] at h
      exact ⟨raws, r.2, rfl, by rw [hm, ← h]⟩

/-- **C134** The configuration of a path is that of the tables of the files that the configuration files on the way up lead to, each as if it had been found where it really is. -/
theorem C134_tables (fs : FS) (load : Path → Except Err Dict) (root : Option Path) (ps : List Path) (hp : locateConfigs fs path root = .ok ps)
    (content : Path → Dict) (hl : ∀ p ∈ ps, load (fs.real p) = .ok (content (fs.real p))) (ht : ∀ p ∈ ps, ToolTables (content (fs.real p)))
    (hr : ∀ p ∈ ps, ∀ d, contribution (content (fs.real p)) = some d → ¬ MarksRoot d) :
    generateConfig env order fs load path root none =
      (mergeConfigs env order path (ps.filterMap (fun p => (contribution (content (fs.real p))).map (fun d => ⟨fs.real p, d⟩))) root).map (·.1) := by
  unfold generateConfig
  simp only [Option.bind_none, hp, Bind.bind, pure, Except.pure, Except.bind]
  rw [C16_no_root load content (ps.map fs.real) (by simpa using hl) (by simpa using ht) (by simpa using hr)]
  simp only [List.filterMap_map, Function.comp_def]
  cases mergeConfigs env order path _ root <;> rfl

/-- **C134** A file all of whose tables are for directories that are not above the path might as well not be there, for the selection of rules, their options, the
Python version and the formatter. -/
theorem C134_elsewhere {pre post : List RawConfig} {c : RawConfig} {root root' : Option Path} {cfg cfg' : Config V} {w w' : List PStr}
    (h : mergeConfigs env order path (pre ++ c :: post) root = .ok (cfg, w)) (h' : mergeConfigs env order path (pre ++ post) root' = .ok (cfg', w'))
    (hc : Elsewhere path ⟨c.path.parent, c.data⟩) :
    cfg.enable = cfg'.enable ∧ cfg.disable = cfg'.disable ∧ cfg.options = cfg'.options ∧ cfg.pyver = cfg'.pyver ∧ cfg.formatter = cfg'.formatter := by
  refine C21_only_applicable_sections_matter env path order h h' ?_
  have hnil : (sections c.file).filter (fun s => s.scope.isPrefixOf path) = [] := by
    rw [List.filter_eq_nil_iff]
    intro s hs
    rw [List.isPrefixOf_iff_prefix]
    exact hc s hs
  unfold applicable files
  simp only [List.map_append, List.map_cons, List.reverse_append, List.reverse_cons, List.flatMap_append, List.filter_append, List.flatMap_cons, List.flatMap_nil,
    List.append_nil, hnil]

/-- **C134** So a configuration file that is linked into the tree from elsewhere does not select rules there: when every configuration file found leads to a file all of
whose tables are for directories not above the path, the configuration is the default one (as if there were none), but for what applies to a whole run. -/
theorem C134_linked_from_elsewhere (horder : ∀ l, (order l).Perm l) (fs : FS) (load : Path → Except Err Dict) (root : Option Path) (ps : List Path)
    (hp : locateConfigs fs path root = .ok ps)
    (he : ∀ p ∈ ps, ∀ data, load (fs.real p) = .ok data → ToolTables data ∧ ∀ d, contribution data = some d → Elsewhere path ⟨(fs.real p).parent, d⟩)
    (cfg : Config V) (h : generateConfig env order fs load path root none = .ok cfg) :
    cfg.enable = [{ module := py "fixit.rules" }] ∧ cfg.disable = [] ∧ cfg.options = [] ∧ cfg.pyver = some env.current ∧ cfg.formatter = none := by
  obtain ⟨raws, w, hr, hm⟩ := generate_located env path order fs load root ps hp cfg h
  have happ : applicable path (files raws) = [] := by
    unfold applicable
    rw [List.filter_eq_nil_iff]
    intro s hs
    rw [List.mem_flatMap] at hs
    obtain ⟨f, hf, hsf⟩ := hs
    rw [List.mem_reverse] at hf
    obtain ⟨c, hc, rfl⟩ := List.mem_map.mp hf
    obtain ⟨hcp, b, hone⟩ := readConfigs_mem load _ raws hr c hc
    obtain ⟨p, hpp, hreal⟩ := List.mem_map.mp hcp
    rw [List.isPrefixOf_iff_prefix]
    cases hld : load c.path with
    | error e => simp [readOne, hld, Bind.bind, Except.bind] at hone
    | ok data =>
      obtain ⟨t1, t2⟩ := he p hpp data (by rw [hreal]; exact hld)
      rw [readOne_spec hld t1] at hone
      cases hcd : contribution data with
      | none => rw [hcd] at hone; cases hone
      | some d =>
        rw [hcd] at hone
        simp only [Option.map_some, Except.ok.injEq, Option.some.injEq, Prod.mk.injEq] at hone
        have := t2 d hcd
        rw [hreal, hone.1] at this
        exact this s hsf
  obtain ⟨s, -, rfl, -, hmm⟩ := mergeConfigs_ok env path hm
  rw [happ] at hmm
  simp only [applySections, Except.ok.injEq] at hmm
  have h1 : (order [({ module := py "fixit.rules" } : QualifiedRule)]) = [{ module := py "fixit.rules" }] := List.perm_singleton.1 (horder _)
  have h2 : (order ([] : List QualifiedRule)) = [] := List.perm_nil.1 (horder _)
  simp only [mergeFinish, ← hmm, mergeInit, h1, h2]
  exact ⟨rfl, rfl, trivial, trivial, trivial⟩

/-- **C134** A link that is marked as the root still ends the search, and the root of the project is the directory it leads to, wherever that is. -/
theorem C134_root (fs : FS) (load : Path → Except Err Dict) (root : Option Path) (pre post : List Path) (p : Path) (hp : locateConfigs fs path root = .ok (pre ++ p :: post))
    (content : Path → Dict) (hl : ∀ q ∈ pre ++ [p], load (fs.real q) = .ok (content (fs.real q))) (ht : ∀ q ∈ pre ++ [p], ToolTables (content (fs.real q)))
    (hr : ∀ q ∈ pre, ∀ d, contribution (content (fs.real q)) = some d → ¬ MarksRoot d) (d : Dict) (hd : contribution (content (fs.real p)) = some d) (hroot : MarksRoot d)
    (cfg : Config V) (h : generateConfig env order fs load path root none = .ok cfg) : cfg.root = (fs.real p).parent := by
  obtain ⟨raws, w, hread, hm⟩ := generate_located env path order fs load root _ hp cfg h
  have e : (pre ++ p :: post).map fs.real = pre.map fs.real ++ fs.real p :: post.map fs.real := by simp
  have hmem : ∀ q ∈ pre.map fs.real ++ [fs.real p], ∃ q' ∈ pre ++ [p], q = fs.real q' := by
    intro q hq
    rw [List.mem_append, List.mem_map, List.mem_singleton] at hq
    rcases hq with ⟨q', hq', rfl⟩ | rfl
    · exact ⟨q', List.mem_append_left _ hq', rfl⟩
    · exact ⟨p, by simp, rfl⟩
  rw [e, C16_stops_at_root load content (pre.map fs.real) (fs.real p) (post.map fs.real) d
    (fun q hq => by obtain ⟨q', h1, rfl⟩ := hmem q hq; exact hl q' h1) (fun q hq => by obtain ⟨q', h1, rfl⟩ := hmem q hq; exact ht q' h1)
    (by simpa using hr) hd hroot] at hread
  simp only [Except.ok.injEq] at hread
  rw [C22_root_is_specified env path order hm, ← hread]
  unfold rootDir files
  simp only [List.map_append, List.map_cons, List.map_nil, List.filterMap_append]
  have hnone : (List.map RawConfig.file ((pre.map fs.real).filterMap (fun q => (contribution (content q)).map (fun d => (⟨q, d⟩ : RawConfig))))).filterMap
      (fun f => (truthyField (py "root") f.table).map (fun _ => f.dir)) = [] := by
    rw [List.filterMap_eq_nil_iff]
    intro f hf
    obtain ⟨c, hc, rfl⟩ := List.mem_map.mp hf
    obtain ⟨q, hq, hqc⟩ := List.mem_filterMap.mp hc
    obtain ⟨q', hq', rfl⟩ := List.mem_map.mp hq
    cases hcq : contribution (content (fs.real q')) with
    | none => rw [hcq] at hqc; cases hqc
    | some d' =>
      rw [hcq] at hqc
      cases hqc
      have := hr q' hq' d' hcq
      unfold MarksRoot at this
      cases ht' : truthyField (py "root") d' with
      | none => simp [RawConfig.file, ht']
      | some v => simp [ht'] at this
  rw [hnone]
  unfold MarksRoot at hroot
  cases hv : truthyField (py "root") d with
  | none => simp [hv] at hroot
  | some v => simp [RawConfig.file, hv, RawConfig.dir]

end

/-! ## Concrete cases -/

/-- The program with `/root/fixit.toml` a link to `/shared/fixit.toml`. -/
def linkedOutside : Outside Nat Nat := { toyOutside with real := fun p => if p = [py "root", py "fixit.toml"] then [py "shared", py "fixit.toml"] else p }

/-- `/root/f`, and the shared configuration with a link to it. -/
def linkedFiles : Path → Option Bytes := fun p =>
  if p = [py "root", py "f"] then some abcu else if p = [py "root", py "fixit.toml"] ∨ p = [py "shared", py "fixit.toml"] then some [] else none

/-- **C134** The shared configuration disables `OtherRule`, but the rule runs on the file beside the link; with a copy instead of a link it does not. -/
theorem C134_shared_rules_run :
    (foundIn (linkedOutside.env (some {})) linkedFiles [py "root", py "f"]).map (fun v => v.base.ruleName) = [py "Toy", py "Other"] ∧
    (foundIn (toyOutside.env (some {})) linkedFiles [py "root", py "f"]).map (fun v => v.base.ruleName) = [py "Toy"] :=
  ⟨by decide +kernel, by decide +kernel⟩

/-- The hypotheses of `C134_linked_from_elsewhere` are met there. -/
example : locateConfigs (linkedOutside.fs linkedFiles) [py "root", py "f"] none = .ok [[py "root", py "fixit.toml"]] ∧
    (∀ p ∈ [[py "root", py "fixit.toml"]], ∀ data, linkedOutside.load linkedFiles ((linkedOutside.fs linkedFiles).real p) = .ok data →
      ToolTables data ∧ ∀ d, contribution data = some d → Elsewhere [py "root", py "f"] ⟨((linkedOutside.fs linkedFiles).real p).parent, d⟩) ∧
    ∃ cfg, generateConfig linkedOutside.cfg linkedOutside.configOrder (linkedOutside.fs linkedFiles) (linkedOutside.load linkedFiles) [py "root", py "f"] none none = .ok cfg := by
  have hl : locateConfigs (linkedOutside.fs linkedFiles) [py "root", py "f"] none = .ok [[py "root", py "fixit.toml"]] := by decide +kernel
  refine ⟨hl, ?_, ?_⟩
  · intro p hp data hd
    rw [List.mem_singleton] at hp
    subst hp
    have hd : (Except.ok toyConfig : Except Err Dict) = .ok data := hd
    cases hd
    refine ⟨?_, ?_⟩
    · intro v hv
      cases hv
      refine ⟨_, rfl, ?_⟩
      intro w hw
      cases hw
      exact ⟨_, rfl⟩
    · intro d hd
      cases hd
      intro s hs
      have hs : s ∈ [(⟨[py "shared"], [py "shared"], [(py "disable", .arr [.str (py "fixit.rules:OtherRule")])]⟩ : Section)] := hs
      rw [List.mem_singleton] at hs
      subst hs
      decide
  · unfold generateConfig
    show ∃ cfg, (locateConfigs (linkedOutside.fs linkedFiles) [py "root", py "f"] none >>= _) = _
    rw [hl]
    exact ⟨_, rfl⟩

/-- A configuration that is linked from `/root/shared.toml` to `/root/sub/fixit.toml` and enables the local rule `.local`, which is beside the link only. -/
def localOutside : Outside Nat Nat :=
  { toyOutside with
    isDir := fun p => p == [] || p == [py "root"] || p == [py "root", py "sub"]
    real := fun p => if p = [py "root", py "sub", py "fixit.toml"] then [py "root", py "shared.toml"] else p
    toml := fun _ => .ok [(py "tool", .tbl [(py "fixit", .tbl [(py "enable", .arr [.str (py ".local")])])])]
    rules := fun _ =>
      { find := fun _ n q => (if q.module = py "fixit.rules" then .ok [0] else if q.root = some [py "root", py "sub"] then .ok [1] else .error .value, n)
        tags := fun _ => []
        supports := fun _ _ => .ok true
        make := fun _ => .ok () } }

def localFiles : Path → Option Bytes := fun p =>
  if p = [py "root", py "sub", py "f"] then some abcu else if p = [py "root", py "sub", py "fixit.toml"] ∨ p = [py "root", py "shared.toml"] then some [] else none

/-- **C134** `fixit validate-config` looks for local rules beside the link and `fixit lint` where the link leads: here the first has nothing to say and the second leaves
the rule out, with a warning. -/
theorem C134_validate_misled :
    localOutside.validate localFiles [py "root", py "sub", py "fixit.toml"] = ([], .ok) ∧
    ∃ cfg c, localOutside.config (some {}) localFiles [py "root", py "sub", py "f"] = .ok cfg ∧
      (collectRules (localOutside.rules localFiles) localOutside.ruleOrder cfg localOutside.sysPath localOutside.mods).1 = .ok c ∧
      c.rules = [0] ∧ c.warned = [{ module := py ".local", loc := some (py "."), root := some [py "root"] }] := by
  refine ⟨rfl, ?_⟩
  have hl : locateConfigs (localOutside.fs localFiles) [py "root", py "sub", py "f"] none = .ok [[py "root", py "sub", py "fixit.toml"]] := by decide +kernel
  unfold Outside.config generateConfig
  show ∃ cfg c, (locateConfigs (localOutside.fs localFiles) [py "root", py "sub", py "f"] none >>= _) = _ ∧ _
  rw [hl]
  exact ⟨_, _, rfl, rfl, by decide +kernel, by decide +kernel⟩

end Fixit
