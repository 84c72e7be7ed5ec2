import Verif.Props.Commands
import Verif.Props.StdinAsFile

/-!
# C137: nothing outside the project counts

Configuration is read from the directories between a file and the nearest one with `root = true`. Other files have no influence.
-/

namespace Spec
open Py
open Fixit (Toml Path Bytes Outside Dict dget)

section
variable {V M : Type} (o : Outside V M)

/-- The directory has a configuration file whose `[tool.fixit]` table says `root = true` (or something else that counts as true). -/
def RootDir (files : Path → Option Bytes) (r : Path) : Prop :=
  ∃ n ∈ [py "fixit.toml", py ".fixit.toml", py "pyproject.toml"], (files (r ++ [n])).isSome ∧
    ∃ (b : Bytes) (data tool table : Dict) (flag : Toml), files (o.real (r ++ [n])) = some b ∧ o.toml b = .ok data ∧ dget (py "tool") data = some (.tbl tool) ∧
      dget (py "fixit") tool = some (.tbl table) ∧ dget (py "root") table = some flag ∧ flag.truthy = true

/-- Two file systems have the same configuration files in the directories from `dir` up to `r`. -/
def SameConfigFiles (files files' : Path → Option Bytes) (r dir : Path) : Prop :=
  ∀ d, r <+: d → d <+: dir → ∀ n ∈ [py "fixit.toml", py ".fixit.toml", py "pyproject.toml"],
    files (d ++ [n]) = files' (d ++ [n]) ∧ files (o.real (d ++ [n])) = files' (o.real (d ++ [n]))

/-- The directory whose configuration files are the first to be looked at, for a path: the path itself if it is a directory. -/
def startDir (path : Path) : Path := if o.isDir path then path else path.dropLast

end
end Spec

namespace Fixit
open Py Spec Gen

theorem parent_prefix (path : Path) : Path.parent path <+: path := List.dropLast_prefix path

/-- Below `r`, the search up to the top starts with the search up to `r`. -/
theorem locateLoop_split (fs : FS) (r : Path) (path : Path) (h : r <+: path) : ∃ B, locateLoop fs [] path = locateLoop fs r path ++ B := by
  fun_induction locateLoop fs [] path with
  | case1 path ih =>
    rw [locateLoop.eq_def fs r path]
    by_cases hr : path = r
    · subst hr
      rw [if_pos (Or.inl rfl)]
      simp only [List.append_nil]
      exact ⟨_, rfl⟩
    · have hne : path ≠ [] := by
        rintro rfl
        exact hr (List.prefix_nil.mp h).symm
      have hpp : ¬ path = Path.parent path := by
        intro e
        have := congrArg List.length e
        have h0 : path.length ≠ 0 := fun e => hne (List.length_eq_zero_iff.mp e)
        simp only [Path.parent, List.length_dropLast] at this
        omega
      have hpre : r <+: Path.parent path := by
        obtain ⟨t, rfl⟩ := h
        have ht : t ≠ [] := by rintro rfl; simp at hr
        unfold Path.parent
        rw [List.dropLast_append_of_ne_nil ht]
        exact List.prefix_append _ _
      have h1 : ¬ (path = [] ∨ path = Path.parent path) := by rintro (e | e); exact hne e; exact hpp e
      obtain ⟨B, hB⟩ := ih h1 hpre
      refine ⟨B, ?_⟩
      have h2 : ¬ (path = r ∨ path = Path.parent path) := by rintro (e | e); exact hr e; exact hpp e
      rw [if_neg h1, if_neg h2, List.append_assoc, ← hB]

theorem locateLoop_same (fs fs' : FS) (r : Path) (path : Path) (h : r <+: path)
    (hs : ∀ d, r <+: d → d <+: path → ∀ n ∈ configFilenames, fs.isFile (d ++ [n]) = fs'.isFile (d ++ [n])) : locateLoop fs r path = locateLoop fs' r path := by
  fun_induction locateLoop fs r path with
  | case1 path ih =>
    rw [locateLoop.eq_def fs' r path]
    congr 1
    · apply List.filter_congr
      intro f hf
      obtain ⟨n, hn, rfl⟩ := List.mem_map.mp hf
      exact hs path h (List.prefix_refl _) n hn
    · split
      · rfl
      · rename_i hp
        have hpre : r <+: Path.parent path := by
          obtain ⟨t, rfl⟩ := h
          have ht : t ≠ [] := by rintro rfl; exact hp (.inl (by simp))
          unfold Path.parent
          rw [List.dropLast_append_of_ne_nil ht]
          exact List.prefix_append _ _
        exact ih hp hpre (fun d h1 h2 => hs d h1 (h2.trans (parent_prefix path)))

theorem locateLoop_between (fs : FS) (r : Path) (path : Path) (h : r <+: path) (f : Path) (hf : f ∈ locateLoop fs r path) :
    ∃ d, r <+: d ∧ d <+: path ∧ ∃ n ∈ configFilenames, f = d ++ [n] := by
  fun_induction locateLoop fs r path with
  | case1 path ih =>
    rcases List.mem_append.mp hf with hf | hf
    · rw [List.mem_filter, List.mem_map] at hf
      obtain ⟨⟨n, hn, rfl⟩, -⟩ := hf
      exact ⟨path, h, List.prefix_refl _, n, hn, rfl⟩
    · split at hf
      · cases hf
      · rename_i hp
        have hpre : r <+: Path.parent path := by
          obtain ⟨t, rfl⟩ := h
          have ht : t ≠ [] := by rintro rfl; exact hp (.inl (by simp))
          unfold Path.parent
          rw [List.dropLast_append_of_ne_nil ht]
          exact List.prefix_append _ _
        obtain ⟨d, h1, h2, h3⟩ := ih hp hpre hf
        exact ⟨d, h1, h2.trans (parent_prefix path), h3⟩

theorem locateLoop_root (fs : FS) (r : Path) (path : Path) (h : r <+: path) (n : PStr) (hn : n ∈ configFilenames) (hf : fs.isFile (r ++ [n]) = true) :
    r ++ [n] ∈ locateLoop fs r path := by
  fun_induction locateLoop fs r path with
  | case1 path ih =>
    by_cases hr : path = r
    · subst hr
      exact List.mem_append_left _ (List.mem_filter.mpr ⟨List.mem_map.mpr ⟨n, hn, rfl⟩, hf⟩)
    · have hpp : ¬ path = Path.parent path := by
        intro e
        have hne : path ≠ [] := by
          rintro rfl
          exact hr (List.prefix_nil.mp h).symm
        have := congrArg List.length e
        have h0 : path.length ≠ 0 := fun e => hne (List.length_eq_zero_iff.mp e)
        simp only [Path.parent, List.length_dropLast] at this
        omega
      have hp : ¬ (path = r ∨ path = Path.parent path) := by rintro (e | e); exact hr e; exact hpp e
      rw [if_neg hp]
      apply List.mem_append_right
      apply ih hp
      obtain ⟨t, rfl⟩ := h
      have ht : t ≠ [] := by rintro rfl; exact hp (.inl (by simp))
      unfold Path.parent
      rw [List.dropLast_append_of_ne_nil ht]
      exact List.prefix_append _ _

/-- Reading stops at a file that says `root`. -/
theorem readConfigs_stops (load : Path → Except Err Dict) (b : List Path) : ∀ (a : List Path), (∃ p ∈ a, ∃ d, readOne load p = .ok (some (d, true))) →
    (readConfigs load (a ++ b)).1 = (readConfigs load a).1
  | [], h => by obtain ⟨_, h, _⟩ := h; cases h
  | q :: a, h => by
    rw [List.cons_append, readConfigs, readConfigs]
    cases hq : readOne load q with
    | error e => rfl
    | ok x =>
      cases x with
      | none =>
        simp only
        obtain ⟨p, hp, d, hd⟩ := h
        rcases List.mem_cons.mp hp with rfl | hp
        · rw [hq] at hd; cases hd
        · exact readConfigs_stops load b a ⟨p, hp, d, hd⟩
      | some y =>
        obtain ⟨d', b'⟩ := y
        cases b' with
        | true => rfl
        | false =>
          simp only
          obtain ⟨p, hp, d, hd⟩ := h
          rcases List.mem_cons.mp hp with rfl | hp
          · rw [hq] at hd; cases hd
          · rw [readConfigs_stops load b a ⟨p, hp, d, hd⟩]

section
variable {V M : Type} (o : Outside V M)

theorem rootDir_reads (files : Path → Option Bytes) (n : PStr) (r : Path) (b : Bytes) (data tool table : Dict) (flag : Toml) (h1 : files (o.real (r ++ [n])) = some b)
    (h2 : o.toml b = .ok data) (h3 : dget (py "tool") data = some (.tbl tool)) (h4 : dget (py "fixit") tool = some (.tbl table)) (h5 : dget (py "root") table = some flag)
    (h6 : flag.truthy = true) : readOne (o.load files) (o.real (r ++ [n])) = .ok (some (table, true)) := by
  have hl : o.load files (o.real (r ++ [n])) = .ok data := by unfold Outside.load; rw [h1]; exact h2
  have hne : (Toml.tbl table).truthy = true := by
    cases table with
    | nil => cases h5
    | cons a l => rfl
  unfold readOne
  rw [hl]
  simp only [Bind.bind, Except.bind, fixitTable, h3, h4, hne, if_true, rootFlag, h5, h6, pure, Except.pure]

/-- C137: only the configuration files in the directories between a file and the nearest with `root = true` count. -/
theorem C137_config (options : Option Options) (hopt : ∀ oo, options = some oo → oo.configFile = none) (files files' : Path → Option Bytes) (path r : Path)
    (hr : r <+: startDir o path) (hroot : r = [] ∨ RootDir o files r) (hsame : SameConfigFiles o files files' r (startDir o path)) :
    o.config options files path = o.config options files' path := by
  have hc : options.bind (·.configFile) = none := by
    cases options with
    | none => rfl
    | some oo => exact hopt oo rfl
  have hloc : ∀ f : Path → Option Bytes, locateConfigs (o.fs f) path none = .ok (locateLoop (o.fs f) [] (startDir o path)) := fun f => rfl
  have hA : locateLoop (o.fs files) r (startDir o path) = locateLoop (o.fs files') r (startDir o path) := by
    apply locateLoop_same _ _ _ _ hr
    intro d h1 h2 n hn
    show (files (d ++ [n])).isSome = (files' (d ++ [n])).isSome
    rw [(hsame d h1 h2 n hn).1]
  have hreadA : readConfigs (o.load files) ((locateLoop (o.fs files) r (startDir o path)).map o.real) =
      readConfigs (o.load files') ((locateLoop (o.fs files') r (startDir o path)).map o.real) := by
    rw [← hA]
    apply readConfigs_congr
    intro p hp
    obtain ⟨q, hq, rfl⟩ := List.mem_map.mp hp
    obtain ⟨d, h1, h2, n, hn, rfl⟩ := locateLoop_between _ _ _ hr q hq
    unfold Outside.load
    rw [(hsame d h1 h2 n hn).2]
  have hread : (readConfigs (o.load files) ((locateLoop (o.fs files) [] (startDir o path)).map o.real)).1 =
      (readConfigs (o.load files') ((locateLoop (o.fs files') [] (startDir o path)).map o.real)).1 := by
    rcases hroot with rfl | ⟨n, hn, hf, b, data, tool, table, flag, t1, t2, t3, t4, t5, t6⟩
    · rw [hreadA]
    · obtain ⟨B, hB⟩ := locateLoop_split (o.fs files) r _ hr
      obtain ⟨B', hB'⟩ := locateLoop_split (o.fs files') r _ hr
      have hmem : r ++ [n] ∈ locateLoop (o.fs files) r (startDir o path) := locateLoop_root (o.fs files) r _ hr n hn hf
      have hmem' : r ++ [n] ∈ locateLoop (o.fs files') r (startDir o path) := hA ▸ hmem
      have e1 := hsame r (List.prefix_refl _) hr n hn
      rw [hB, hB', List.map_append, List.map_append,
        readConfigs_stops _ _ _ ⟨_, List.mem_map.mpr ⟨_, hmem, rfl⟩, table, rootDir_reads o files n r b data tool table flag t1 t2 t3 t4 t5 t6⟩,
        readConfigs_stops _ _ _ ⟨_, List.mem_map.mpr ⟨_, hmem', rfl⟩, table, rootDir_reads o files' n r b data tool table flag (e1.2 ▸ t1) t2 t3 t4 t5 t6⟩, hreadA]
  unfold Outside.config generateConfig
  rw [hc]
  simp only [hloc, Bind.bind, Except.bind]
  have e : ∀ (f : Path → Option Bytes) (l : List Path), l.map (o.fs f).real = l.map o.real := fun _ _ => rfl
  rw [e, e, hread]

theorem upd_at {C : Type} (env : Env C) (files : Path → Option Bytes) (path : Path) (autofix hook : Bool) (ss : List Answer) (w w' : World) (h : w.files path = w'.files path) :
    ((fileFinish env files path autofix hook ss).upd w).files path = ((fileFinish env files path autofix hook ss).upd w').files path := by
  unfold fileFinish
  cases hl : loaded env files path with
  | error e => exact h
  | ok cc =>
    obtain ⟨content, cfg⟩ := cc
    obtain ⟨evs, hu, -⟩ := bytesFinish_hooks env files path content cfg autofix hook ss
    simp only [Function.comp, hu]
    unfold writeFinish
    repeat' split
    all_goals simp [World.put, World.note, logged, h]

/-- C137: what linting or fixing a file says and does to it, whatever the answers, depends on nothing but its content, those configuration files, and what the import system and
the visitors look at. -/
theorem C137_results (options : Option Options) (hopt : ∀ oo, options = some oo → oo.configFile = none) (w w' : World) (p r : Path)
    (hfile : w.files (o.base.resolve p) = w'.files (o.base.resolve p)) (hr : r <+: startDir o (o.base.resolve p)) (hroot : r = [] ∨ RootDir o w.files r)
    (hsame : SameConfigFiles o w.files w'.files r (startDir o (o.base.resolve p))) (hrules : o.rules w.files = o.rules w'.files) (hvis : o.visitors w.files = o.visitors w'.files)
    (autofix hook : Bool) (ss : List Answer) :
    ((fixitFile (o.env options) p autofix hook).run ss w).1 = ((fixitFile (o.env options) p autofix hook).run ss w').1 ∧
    ((fixitFile (o.env options) p autofix hook).run ss w).2.1 = ((fixitFile (o.env options) p autofix hook).run ss w').2.1 ∧
    ((fixitFile (o.env options) p autofix hook).run ss w).2.2.files (o.base.resolve p) = ((fixitFile (o.env options) p autofix hook).run ss w').2.2.files (o.base.resolve p) := by
  have hcfg := C137_config o options hopt w.files w'.files (o.base.resolve p) r hr hroot hsame
  have hload : loaded (o.env options) w.files (o.base.resolve p) = loaded (o.env options) w'.files (o.base.resolve p) := by
    have : (o.env options).config w.files (o.base.resolve p) = (o.env options).config w'.files (o.base.resolve p) := hcfg
    unfold loaded
    rw [hfile, this]
  have hcol : (o.env options).collect w.files = (o.env options).collect w'.files := by
    show o.collect w.files = o.collect w'.files
    funext cfg
    unfold Outside.collect
    rw [hrules]
  have hvisit : (o.env options).visit w.files = (o.env options).visit w'.files := by
    show o.visit w.files = o.visit w'.files
    funext cfg m rules
    unfold Outside.visit
    rw [hvis]
  have hfound : foundIn (o.env options) w.files (o.base.resolve p) = foundIn (o.env options) w'.files (o.base.resolve p) := by
    unfold foundIn
    rw [hload]
    cases loaded (o.env options) w'.files (o.base.resolve p) with
    | error e => rfl
    | ok cc => exact (bytesFinish_congr (o.env options) w.files w'.files _ cc.1 cc.2 false false [] hcol hvisit).2
  have hfin : fileFinish (o.env options) w.files (o.base.resolve p) autofix hook ss = fileFinish (o.env options) w'.files (o.base.resolve p) autofix hook ss := by
    unfold fileFinish
    rw [hload]
    cases loaded (o.env options) w'.files (o.base.resolve p) with
    | error e => rfl
    | ok cc => simp only [(bytesFinish_congr (o.env options) w.files w'.files _ cc.1 cc.2 autofix hook ss hcol hvisit).1]
  have hru : ∀ w, (fixitFile (o.env options) p autofix hook).run ss w = script (o.base.resolve p) (foundIn (o.env options) w.files (o.base.resolve p))
      (fileFinish (o.env options) w.files (o.base.resolve p) autofix hook ss) ss w := fun w => run_lintFile (o.env options) (o.base.resolve p) autofix hook ss w
  have hupd := upd_at (o.env options) w'.files (o.base.resolve p) autofix hook ss w w' hfile
  rw [hru, hru, hfound, hfin]
  unfold script
  split
  · exact ⟨rfl, rfl, hfile⟩
  · split
    · exact ⟨rfl, rfl, hupd⟩
    · exact ⟨rfl, rfl, hupd⟩

end
end Fixit
