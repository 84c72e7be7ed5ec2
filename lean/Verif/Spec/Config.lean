import Verif.Model.Toml

/-!
# Specification of configuration merging

Everything here is stated on TOML tables as written by the user. A *section* is a table of settings with the directory it is
scoped to: the main `tool.fixit` table of a config file, or one entry of its `overrides`.
-/

namespace Spec
open Py
open Fixit (Toml Path)

/-- The value of a key in a table. -/
def field (k : PStr) : List (PStr × Toml) → Option Toml
  | [] => none
  | (k', v) :: rest => if k' = k then some v else field k rest

/-- The strings of an array. -/
def strings : Option Toml → List PStr
  | some (.arr l) => l.filterMap (fun t => match t with | .str s => some s | _ => none)
  | _ => []

/-- A config file: where it is and its table. -/
structure File where
  dir : Path
  table : List (PStr × Toml)

/-- A table of settings, the directory of its file and the directory it is scoped to. -/
structure Section where
  dir : Path
  scope : Path
  table : List (PStr × Toml)

/-- An entry of `overrides` as a section; its `path` is relative to the file's directory. -/
def overrideSection (dir : Path) : Toml → Option Section
  | .tbl o => match field (py "path") o with
    | some (.str s) => some ⟨dir, Fixit.resolveFrom dir s, o⟩
    | _ => none
  | _ => none

/-- The sections of a file in the order they take effect. -/
def sections (f : File) : List Section :=
  ⟨f.dir, f.dir, f.table⟩ ::
    (match field (py "overrides") f.table with
     | some (.arr l) => l.filterMap (overrideSection f.dir)
     | _ => [])

/-- The sections that apply to `target`, lowest priority first, for files given highest priority first. -/
def applicable (target : Path) (files : List File) : List Section :=
  (files.reverse.flatMap sections).filter (fun s => s.scope.isPrefixOf target)

/-- The value from the last element that has one. -/
def nearest {α β : Type} (f : α → Option β) (l : List α) : Option β := (l.filterMap f).getLast?

/-- A mention of a rule: enabling or not, the text, the directory of the file. -/
structure Mention where
  enable : Bool
  text : PStr
  dir : Path

/-- A rule reference may be followed by one newline. -/
def ruleText (s : PStr) : PStr := if s.getLast? = some '\n' then s.dropLast else s

/-- The mentions of a section in order: enables, then disables. -/
def mentions (s : Section) : List Mention :=
  (strings (field (py "enable") s.table)).map (fun t => ⟨true, ruleText t, s.dir⟩) ++
  (strings (field (py "disable") s.table)).map (fun t => ⟨false, ruleText t, s.dir⟩)

/-- All mentions that apply to `target`, lowest priority first. -/
def allMentions (target : Path) (files : List File) : List Mention := (applicable target files).flatMap mentions

/-- The last mention of a rule. -/
def lastMention (ms : List Mention) (text : PStr) : Option Bool :=
  nearest (fun m => if m.text = text then some m.enable else none) ms

/-- A truthy value of a key. -/
def truthyField (k : PStr) (d : List (PStr × Toml)) : Option Toml := (field k d).filter Toml.truthy

/-- A value that is a table. -/
def asTable : Option Toml → Option (List (PStr × Toml))
  | some (.tbl t) => some t
  | _ => none

/-- The option table of a rule in a section. -/
def ruleOptions (rule : PStr) (s : Section) : Option (List (PStr × Toml)) :=
  (asTable (field (py "options") s.table)).bind (fun t => asTable (field rule t))

end Spec

namespace Spec
open Py
open Fixit (Toml Path)

/-- The directory of the first enabling mention of a rule after its last disabling mention. -/
def bindingDir (ms : List Mention) (text : PStr) : Option Path :=
  (((ms.filter (fun m => m.text = text)).reverse.takeWhile (fun m => m.enable)).getLast?).map (·.dir)

/-- The directory of the last enabling mention: what one would expect a local rule to be relative to. -/
def nearestEnableDir (ms : List Mention) (text : PStr) : Option Path :=
  nearest (fun m => if m.text = text ∧ m.enable = true then some m.dir else none) ms

end Spec

namespace Spec
open Py
open Fixit (Toml Path)

/-- The options a main table may contain. -/
def knownKeys : List PStr :=
  [py "root", py "enable-root-import", py "output-format", py "output-template", py "enable", py "disable", py "options",
   py "python-version", py "formatter", py "overrides"]

/-- The project root for files given highest priority first: the nearest one marked `root`, else the one asked for, else the
directory of the lowest-priority file, else the file system root. -/
def rootDir (asked : Option Path) (files : List File) : Path :=
  match files.filterMap (fun f => (truthyField (py "root") f.table).map (fun _ => f.dir)) with
  | d :: _ => d
  | [] => match asked, files.getLast? with
    | some r, _ => r
    | none, some f => f.dir
    | none, none => []

/-- Absent, or an array. -/
def AbsentOrArray (v : Option Toml) : Prop := v = none ∨ ∃ l, v = some (.arr l)

/-- A value a rule option may have. -/
def Scalar : Toml → Prop
  | .str _ | .int _ | .float _ | .bool _ => True
  | _ => False

/-- Absent, or a table of tables of scalars. -/
def ValidOptions (v : Option Toml) : Prop :=
  v = none ∨ ∃ t, v = some (.tbl t) ∧ ∀ e ∈ t, ∃ o, e.2 = .tbl o ∧ ∀ x ∈ o, Scalar x.2

/-- A section of the right shape. -/
structure WellShaped (d : List (PStr × Toml)) : Prop where
  enable : AbsentOrArray (field (py "enable") d)
  disable : AbsentOrArray (field (py "disable") d)
  options : ValidOptions (field (py "options") d)

/-- The elements of an array. -/
def elems : Option Toml → List Toml
  | some (.arr l) => l
  | _ => []

/-- A file in which `tool`, or `tool.fixit` without being empty, is not a table. -/
inductive Misshapen (d : List (PStr × Toml)) : Prop where
  | tool (t : Toml) (h : field (py "tool") d = some t) (hne : ∀ x, t ≠ .tbl x)
  | fixit (tool : List (PStr × Toml)) (f : Toml) (h : field (py "tool") d = some (.tbl tool)) (hf : field (py "fixit") tool = some f) (ht : f.truthy = true) (hne : ∀ x, f ≠ .tbl x)

end Spec
