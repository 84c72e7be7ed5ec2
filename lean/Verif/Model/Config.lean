import Verif.Model.Toml

/-!
# Model of `src/fixit/config.py`: discovery, reading and merging of configuration files
-/

namespace Fixit
open Py

/-- `OutputFormat`, ftypes.py:56-60. -/
inductive OutputFormat where
  | custom | fixit | vscode
  deriving DecidableEq, Repr

/-- The value of a member (ftypes.py:56-60). -/
def OutputFormat.name : OutputFormat → PStr
  | .custom => py "custom"
  | .fixit => py "fixit"
  | .vscode => py "vscode"

/-- `OutputFormat(value)`: only the strings `custom`, `fixit`, `vscode` are members; `none` is ValueError (config.py:503). -/
def OutputFormat.ofToml : Toml → Option OutputFormat
  | .str s => if s = py "custom" then some .custom else if s = py "fixit" then some .fixit
      else if s = py "vscode" then some .vscode else none
  | _ => none

/-- `enable_root_import: Union[bool, Path]`, ftypes.py:218. -/
inductive RootImport where
  | off
  | on
  /-- a relative path, as parts -/
  | sub (parts : List PStr)
  deriving DecidableEq, Repr

/-- `RuleOptionsTable`, ftypes.py:45. -/
abbrev OptTable := List (PStr × List (PStr × OptVal))

/-- `RawConfig`, ftypes.py:246-252. -/
structure RawConfig where
  path : Path
  data : Dict

/-- `config.path.parent` (config.py:439, 476, 480). -/
def RawConfig.dir (c : RawConfig) : Path := c.path.parent

/-- What merging depends on outside the tables: `packaging.version.Version` (`parseVersion`, `none` = InvalidVersion),
the running interpreter's version (config.py:416), and the names registered in `FORMAT_STYLES` (format.py). -/
structure CfgEnv (V : Type) where
  parseVersion : PStr → Option V
  current : V
  formatters : List PStr

/-- `Config`, ftypes.py:209-243. -/
structure Config (V : Type) where
  path : Path
  root : Path
  rootImport : RootImport
  enable : List QualifiedRule
  disable : List QualifiedRule
  options : OptTable
  pyver : Option V
  tags : Tags := {}
  formatter : Option PStr
  outputFormat : OutputFormat
  /-- any truthy TOML value is stored; the type annotation says `str` -/
  outputTemplate : Toml

/-! ## locate_configs -/

/-- `FIXIT_CONFIG_FILENAMES`, config.py:57. -/
def configFilenames : List PStr := [py "fixit.toml", py ".fixit.toml", py "pyproject.toml"]

/-- The questions asked of the file system (config.py:290, 299, 322). `real` is `path.resolve()` of the path of a configuration file: where the symbolic links on the way lead. -/
structure FS where
  isDir : Path → Bool
  isFile : Path → Bool
  real : Path → Path := id

/-- The loop of `locate_configs`, config.py:296-305. -/
def locateLoop (fs : FS) (root path : Path) : List Path :=
  (configFilenames.map (fun n => path ++ [n])).filter fs.isFile ++
    if path = root ∨ path = Path.parent path then [] else locateLoop fs root (Path.parent path)
termination_by path.length
decreasing_by
  rename_i h
  cases path with
  | nil => simp [Path.parent] at h
  | cons a as => simp [Path.parent]

/-- `locate_configs`, config.py:275-307. `path` and `root` are already resolved. -/
def locateConfigs (fs : FS) (path : Path) (root : Option Path) : Except Err (List Path) :=
  let path := if fs.isDir path then path else Path.parent path
  let root := root.getD []
  if Path.under path root then .ok (locateLoop fs root path) else .error .value

/-! ## read_configs -/

/-- `data.get("tool", {}).get("fixit", {})`, config.py:325: a non-table `tool` has no `get`. -/
def fixitTable (data : Dict) : Except Err (Option Toml) :=
  match dget (py "tool") data with
  | none => .ok none
  | some (.tbl t) => .ok (dget (py "fixit") t)
  | some _ => .error .attribute

/-- `data.get("root", False)` is truthy, config.py:331. -/
def rootFlag (d : Dict) : Bool :=
  match dget (py "root") d with
  | some r => r.truthy
  | none => false

/-- What one file contributes, config.py:321-332: nothing, or a table and whether it says `root`.
`load` is `tomllib.loads(path.read_text())`. A truthy non-table `fixit` value has no `get`. -/
def readOne (load : Path → Except Err Dict) (p : Path) : Except Err (Option (Dict × Bool)) := do
  let data ← load p
  match (← fixitTable data) with
  | none => return none
  | some v =>
    if v.truthy then
      match v with
      | .tbl d => return some (d, rootFlag d)
      | _ => throw .attribute
    else return none

/-- `read_configs`, config.py:310-334, of resolved paths (config.py:322). The second component is the list of files actually read. -/
def readConfigs (load : Path → Except Err Dict) : List Path → Except Err (List RawConfig) × List Path
  | [] => (.ok [], [])
  | p :: ps =>
    match readOne load p with
    | .error e => (.error e, [p])
    | .ok none => let (r, t) := readConfigs load ps; (r, p :: t)
    | .ok (some (d, true)) => (.ok [⟨p, d⟩], [p])
    | .ok (some (d, false)) =>
      let (r, t) := readConfigs load ps
      (r.map (fun cs => ⟨p, d⟩ :: cs), p :: t)

/-! ## get_sequence, get_options -/

/-- `(data or config.data).pop(key, …)`, config.py:341-344, 357-360: an empty (or absent) `data` falls back to the config. -/
def popFrom (key : PStr) (cfg : Dict) : Option Dict → Option Toml × Dict × Option Dict
  | some (e :: es) => (dget key (e :: es), cfg, some (ddel key (e :: es)))
  | d => (dget key cfg, ddel key cfg, d)

/-- `{key!r} must be … of values, got {type(key)}`, config.py:346-349, 362-365: the type is the one of the key, not of the value. -/
def wrongShape (key kind : PStr) : List Piece :=
  [.str key, .text (py " must be " ++ kind ++ py " of values, got <class 'str'>")]

/-- The type check of `get_sequence`, config.py:346-351, ftypes.py:112-113. -/
def asSequence (key : PStr) : Option Toml → Except Err (List Toml)
  | none => .ok []
  | some (.arr l) => .ok l
  | some _ => .error (.config (wrongShape key (py "array")))

/-- `{type(value)}`, config.py:373. -/
def Toml.typePiece : Toml → Piece
  | .str _ => .text (py "<class 'str'>")
  | .int _ => .text (py "<class 'int'>")
  | .float _ => .text (py "<class 'float'>")
  | .bool _ => .text (py "<class 'bool'>")
  | .date n => .dateType n
  | .arr _ => .text (py "<class 'list'>")
  | .tbl _ => .text (py "<class 'dict'>")

/-- `{key!r} must be one of {RuleOptionTypes}, got {type(value)}`, config.py:372-375; ftypes.py:43. -/
def wrongOption (key : PStr) (v : Toml) : List Piece :=
  [.str key, .text (py " must be one of (<class 'str'>, <class 'int'>, <class 'float'>), got "), v.typePiece]

/-- One rule's table in `get_options`, config.py:370-377. -/
def scalarOptions : Dict → Except Err (List (PStr × OptVal))
  | [] => .ok []
  | (k, v) :: rest =>
    match v.toOptVal with
    | none => .error (.config (wrongOption k v))
    | some o => do return (k, o) :: (← scalarOptions rest)

/-- The outer loop of `get_options`, config.py:368-377: `rule_config.items()` on a non-table raises AttributeError. -/
def optionTables : Dict → Except Err OptTable
  | [] => .ok []
  | (name, .tbl t) :: rest => do
    let o ← scalarOptions t
    return (name, o) :: (← optionTables rest)
  | (_, _) :: _ => .error .attribute

/-- The rest of `get_options` after the pop, config.py:362-379. -/
def asOptions (key : PStr) : Option Toml → Except Err OptTable
  | none => .ok []
  | some (.tbl t) => optionTables t
  | some _ => .error (.config (wrongShape key (py "mapping")))

/-- `get_sequence`, config.py:337-351. -/
def getSequence (key : PStr) (cfg : Dict) (data : Option Dict) : Except Err (List Toml × Dict × Option Dict) := do
  let (v, cfg, data) := popFrom key cfg data
  return (← asSequence key v, cfg, data)

/-- `get_options`, config.py:354-379. -/
def getOptions (key : PStr) (cfg : Dict) (data : Option Dict) : Except Err (OptTable × Dict × Option Dict) := do
  let (v, cfg, data) := popFrom key cfg data
  return (← asOptions key v, cfg, data)

/-! ## merge_configs -/

/-- The variables of `merge_configs` that `process_subpath` updates, config.py:411-419. -/
structure Merged (V : Type) where
  enable : List QualifiedRule
  disable : List QualifiedRule
  options : OptTable
  pyver : Option V
  formatter : Option PStr

/-- The arguments of `process_subpath`, config.py:421-428. -/
structure Table where
  enable : List Toml
  disable : List Toml
  options : OptTable
  pyver : Option Toml
  formatter : Option Toml

/-- `parse_rule(rule, …)` on a TOML value: matching a regex against a non-string raises TypeError (config.py:382-399, 441, 446). -/
def parseRuleToml (dir : Path) : Toml → Except Err QualifiedRule
  | .str s => parseRule s dir
  | _ => .error .type

/-- config.py:440-443: for each enable, add to enables and discard from disables. -/
def enableLoop {V : Type} (dir : Path) : List Toml → Merged V → Except Err (Merged V)
  | [], m => .ok m
  | t :: ts, m => do
    let q ← parseRuleToml dir t
    enableLoop dir ts { m with enable := setAdd QualifiedRule.key q m.enable, disable := setDiscard QualifiedRule.key q m.disable }

/-- config.py:445-448. -/
def disableLoop {V : Type} (dir : Path) : List Toml → Merged V → Except Err (Merged V)
  | [], m => .ok m
  | t :: ts, m => do
    let q ← parseRuleToml dir t
    disableLoop dir ts { m with enable := setDiscard QualifiedRule.key q m.enable, disable := setAdd QualifiedRule.key q m.disable }

/-- `d.update(other)` for one pair: replaced in place, or appended (config.py:451). -/
def dictSet {κ α : Type} [DecidableEq κ] (k : κ) (v : α) : List (κ × α) → List (κ × α)
  | [] => [(k, v)]
  | (k', v') :: rest => if k' = k then (k, v) :: rest else (k', v') :: dictSet k v rest

/-- `d.update(other)` (config.py:451). -/
def dictUpdate {κ α : Type} [DecidableEq κ] (d other : List (κ × α)) : List (κ × α) := other.foldl (fun d e => dictSet e.1 e.2 d) d

/-- `Version(python_version)`, config.py:456: a non-string raises TypeError (it is matched against a regex). -/
def versionOf {V : Type} (env : CfgEnv V) : Toml → Except Err V
  | .str s => match env.parseVersion s with
    | some v => .ok v
    | none => .error (.config [.text (py "'python-version' "), .str s, .text (py " is not valid")])
  | _ => .error .type

/-- config.py:453-464. -/
def setVersion {V : Type} (env : CfgEnv V) (v : Option Toml) (m : Merged V) : Except Err (Merged V) :=
  match v with
  | none => .ok m
  | some t => if t.truthy then do return { m with pyver := some (← versionOf env t) } else .ok { m with pyver := none }

/-- `raise ConfigError(f"'formatter' {formatter!r} not supported", …)`, config.py:468-470. -/
def badFormatter (formatter : Piece) : Except Err PStr := .error (.config [.text (py "'formatter' "), formatter, .text (py " not supported")])

/-- `formatter in FORMAT_STYLES`, config.py:467: arrays and tables are unhashable. -/
def formatterOf {V : Type} (env : CfgEnv V) : Toml → Except Err PStr
  | .str s => if s ∈ env.formatters then .ok s else badFormatter (.str s)
  | .int n => badFormatter (.int n)
  | .float n => badFormatter (.float n)
  | .bool b => badFormatter (.bool b)
  | .date n => badFormatter (.date n)
  | .arr _ => .error .type
  | .tbl _ => .error .type

/-- config.py:466-472. -/
def setFormatter {V : Type} (env : CfgEnv V) (f : Option Toml) (m : Merged V) : Except Err (Merged V) :=
  match f with
  | none => .ok m
  | some t => if t.truthy then do return { m with formatter := some (← formatterOf env t) } else .ok m

/-- `process_subpath`, config.py:421-472. `subpath` is already resolved. -/
def processSubpath {V : Type} (env : CfgEnv V) (path dir subpath : Path) (t : Table) (m : Merged V) : Except Err (Merged V) :=
  if Path.under path subpath then do
    let m ← enableLoop dir t.enable m
    let m ← disableLoop dir t.disable m
    let m := { m with options := dictUpdate m.options t.options }
    let m ← setVersion env t.pyver m
    setFormatter env t.formatter m
  else .ok m

/-- The keyword arguments evaluated before the call for the main table, config.py:512-519. -/
def mainTable (data : Dict) : Except Err (Table × Dict) := do
  let (en, data, _) ← getSequence (py "enable") data none
  let (dis, data, _) ← getSequence (py "disable") data none
  let (opts, data, _) ← getOptions (py "options") data none
  let pv := dget (py "python-version") data
  let data := ddel (py "python-version") data
  let fm := dget (py "formatter") data
  let data := ddel (py "formatter") data
  return ({ enable := en, disable := dis, options := opts, pyver := pv, formatter := fm }, data)

/-- The same for one override, config.py:532-539. -/
def overrideTable (data : Dict) (o : Dict) : Except Err (Table × Dict) := do
  let (en, data, o) ← getSequence (py "enable") data (some o)
  let (dis, data, o) ← getSequence (py "disable") data o
  let (opts, data, o) ← getOptions (py "options") data o
  let o := o.getD []
  let pv := dget (py "python-version") o
  let o := ddel (py "python-version") o
  let fm := dget (py "formatter") o
  return ({ enable := en, disable := dis, options := opts, pyver := pv, formatter := fm }, data)

/-- `config.path.parent / subpath`, config.py:531, resolved as in 433: a non-string operand raises TypeError. -/
def overridePath (dir : Path) : Toml → Except Err Path
  | .str s => .ok (resolveFrom dir s)
  | _ => .error .type

/-- One override, config.py:522-539. -/
def processOverride {V : Type} (env : CfgEnv V) (path dir : Path) (o : Toml) (s : Merged V × Dict) : Except Err (Merged V × Dict) :=
  match o with
  | .tbl o =>
    match dget (py "path") o with
    | none => .error (.config [.text (py "'overrides' table requires 'path' value")])
    | some p =>
      if p.truthy then do
        let sub ← overridePath dir p
        let (t, data) ← overrideTable s.2 o
        let m ← processSubpath env path dir sub t s.1
        return (m, data)
      else .error (.config [.text (py "'overrides' table requires 'path' value")])
  | _ => .error (.config [.text (py "'overrides' requires array of tables")])

/-- config.py:521-539. -/
def overrideLoop {V : Type} (env : CfgEnv V) (path dir : Path) : List Toml → Merged V × Dict → Except Err (Merged V × Dict)
  | [], s => .ok s
  | o :: os, s => do overrideLoop env path dir os (← processOverride env path dir o s)

/-- All variables of `merge_configs` (config.py:411-419). -/
structure MState (V : Type) where
  root : Option Path
  rootImport : RootImport
  outputFormat : OutputFormat
  outputTemplate : Toml
  merged : Merged V
  /-- keys logged as unknown, config.py:541-542 -/
  warnings : List PStr

/-- `data.pop(key, default)` is truthy (config.py:479, 482, 501, 509). -/
def popTruthy (key : PStr) (data : Dict) : Option Toml :=
  match dget key data with
  | some v => if v.truthy then some v else none
  | none => none

/-- config.py:482-499. -/
def rootImportOf (root : Path) (dir : Path) (cur : RootImport) : Option Toml → Except Err RootImport
  | none => .ok cur
  | some v =>
    if root ≠ dir then .error (.config [.text (py "enable-root-import not allowed in non-root configs")])
    else match v with
      | .str s =>
        if startsWith s ['/'] then .error (.config [.text (py "enable-root-import: absolute paths not allowed")])
        else if py ".." ∈ relParts s then .error (.config [.text (py "enable-root-import: '..' components not allowed")])
        else .ok (.sub (relParts s))
      | _ => .ok .on

/-- config.py:501-507. The message is not an f-string: it is the same for all values. -/
def outputFormatOf (cur : OutputFormat) : Option Toml → Except Err OutputFormat
  | none => .ok cur
  | some v => match OutputFormat.ofToml v with
    | some f => .ok f
    | none => .error (.config [.text (py "output-format: unknown value {value!r}")])

/-- One iteration of the loop over configs, config.py:474-542. -/
def mergeStep {V : Type} (env : CfgEnv V) (path : Path) (c : RawConfig) (s : MState V) : Except Err (MState V) := do
  let dir := c.dir
  let root := s.root.getD dir
  let data := c.data
  let root := if (popTruthy (py "root") data).isSome then dir else root
  let data := ddel (py "root") data
  let ri ← rootImportOf root dir s.rootImport (popTruthy (py "enable-root-import") data)
  let data := ddel (py "enable-root-import") data
  let fmt ← outputFormatOf s.outputFormat (popTruthy (py "output-format") data)
  let data := ddel (py "output-format") data
  let tmpl := (popTruthy (py "output-template") data).getD s.outputTemplate
  let data := ddel (py "output-template") data
  let (t, data) ← mainTable data
  let m ← processSubpath env path dir dir t s.merged
  let (os, data, _) ← getSequence (py "overrides") data none
  let (m, data) ← overrideLoop env path dir os (m, data)
  return { root := some root, rootImport := ri, outputFormat := fmt, outputTemplate := tmpl, merged := m,
           warnings := s.warnings ++ data.map (·.1) }

/-- The loop, over `reversed(raw_configs)` (config.py:474-542). -/
def mergeLoop {V : Type} (env : CfgEnv V) (path : Path) : List RawConfig → MState V → Except Err (MState V)
  | [], s => .ok s
  | c :: cs, s => do mergeLoop env path cs (← mergeStep env path c s)

/-- The initial values, config.py:411-419. -/
def mergeInit {V : Type} (env : CfgEnv V) (root : Option Path) : MState V where
  root := root
  rootImport := .off
  outputFormat := .fixit
  outputTemplate := .str []
  merged := { enable := [{ module := py "fixit.rules" }], disable := [], options := [], pyver := some env.current, formatter := none }
  warnings := []

/-- The constructor call, config.py:544-555. `order` is the iteration order of the two sets. -/
def mergeFinish {V : Type} (order : List QualifiedRule → List QualifiedRule) (path : Path) (s : MState V) : Config V where
  path := path
  root := s.root.getD []
  rootImport := s.rootImport
  enable := sortRules (order s.merged.enable)
  disable := sortRules (order s.merged.disable)
  options := s.merged.options
  pyver := s.merged.pyver
  formatter := s.merged.formatter
  outputFormat := s.outputFormat
  outputTemplate := s.outputTemplate

/-- `merge_configs`, config.py:402-555, with the unknown keys logged. -/
def mergeConfigs {V : Type} (env : CfgEnv V) (order : List QualifiedRule → List QualifiedRule) (path : Path)
    (raw : List RawConfig) (root : Option Path) : Except Err (Config V × List PStr) := do
  let s ← mergeLoop env path raw.reverse (mergeInit env root)
  return (mergeFinish order path s, s.warnings)

/-! ## generate_config -/

/-- `Options`, ftypes.py:182-194 (the fields `generate_config` reads). -/
structure Options where
  configFile : Option Path := none
  tags : Option Tags := none
  rules : List QualifiedRule := []
  outputFormat : Option OutputFormat := none
  outputTemplate : PStr := []

/-- `if options.tags: config.tags = options.tags`, config.py:581-582. -/
def Options.setTags {V : Type} (o : Options) (c : Config V) : Config V :=
  match o.tags with
  | some t => if t.truthy then { c with tags := t } else c
  | none => c

/-- `if options.rules: config.enable = …; config.disable = []`, config.py:584-586. -/
def Options.setRules {V : Type} (o : Options) (c : Config V) : Config V :=
  if o.rules.isEmpty then c else { c with enable := o.rules, disable := [] }

/-- `if options.output_format: …`, config.py:588-589 (every member of the enum is truthy). -/
def Options.setFormat {V : Type} (o : Options) (c : Config V) : Config V :=
  match o.outputFormat with
  | some f => { c with outputFormat := f }
  | none => c

/-- `if options.output_template: …`, config.py:591-592. -/
def Options.setTemplate {V : Type} (o : Options) (c : Config V) : Config V :=
  if o.outputTemplate.isEmpty then c else { c with outputTemplate := .str o.outputTemplate }

/-- The tail of `generate_config`, config.py:580-592. -/
def applyOptions {V : Type} (o : Options) (c : Config V) : Config V :=
  o.setTemplate (o.setFormat (o.setRules (o.setTags c)))

/-- `generate_config`, config.py:558-594. `path`, `root` are resolved (`path or cwd`); the paths of the configuration files are resolved in `read_configs` (config.py:322). -/
def generateConfig {V : Type} (env : CfgEnv V) (order : List QualifiedRule → List QualifiedRule) (fs : FS)
    (load : Path → Except Err Dict) (path : Path) (root : Option Path) (options : Option Options) :
    Except Err (Config V) := do
  let paths ← match options.bind (·.configFile) with
    | some f => pure [f]
    | none => locateConfigs fs path root
  let raws ← (readConfigs load (paths.map fs.real)).1
  let (c, _) ← mergeConfigs env order path raws root
  return (match options with | some o => applyOptions o c | none => c)

end Fixit
