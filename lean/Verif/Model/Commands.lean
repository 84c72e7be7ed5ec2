import Verif.Model.System
import Verif.Model.Cli

/-!
# The commands of `cli.py`, from the arguments to the exit status
-/

namespace Fixit
open Py

/-- The options before the command, cli.py:50-89; absent strings are empty. `--debug` only sets the log level. -/
structure Flags where
  configFile : Option Path := none
  tags : PStr := []
  rules : PStr := []
  outputFormat : Option OutputFormat := none
  outputTemplate : PStr := []

/-- `main`, cli.py:90-119. `tagOrder`, `ruleOrder` are the iteration orders of the sets. -/
def mainOptions (u : Unicode) (tagOrder : List PStr → List PStr) (ruleOrder : List QualifiedRule → List QualifiedRule) (cwd : Path) (f : Flags) : Except Err Options := do
  let tags ← Tags.parse u tagOrder (some f.tags)
  let rules ← parseRulesOption ruleOrder cwd f.rules
  return { configFile := f.configFile, tags := some tags, rules := rules, outputFormat := f.outputFormat, outputTemplate := f.outputTemplate }

/-- `options.rules = (QualifiedRule("fixit.upgrade"),)`, cli.py:315. -/
def upgradeOptions (options : Options) : Options := { options with rules := [{ module := py "fixit.upgrade" }] }

/-- What `debug` prints for a path, cli.py:343-351. -/
inductive DebugLine (V : Type) where
  | path (p : Path)
  | config (c : Config V)
  | enabled (rules : List PStr)
  | disabled (rules : List PStr)

/-- How `validate-config` ends, cli.py:368-371. -/
inductive ValidateEnding where
  /-- the command returns: status 0 -/
  | ok
  /-- `exit(-1)`: status 255 -/
  | failed
  deriving DecidableEq

section
variable {V M : Type} (o : Outside V M) (con : Console) (walk : (Path → Option Bytes) → Path → Except Err (List Path))

/-- `config = generate_config(options=options)`, cli.py:145 and 216: what is used of it. -/
def Outside.output (options : Options) (files : Path → Option Bytes) : Except Err (OutputFormat × Toml) :=
  (o.config (some options) files con.cwd).map (fun c => (c.outputFormat, c.outputTemplate))

/-- The runs of `fixit … lint …`, cli.py:126-165. -/
def Outside.Lint (options : Options) (diff hook : Bool) (paths : List Path) (w : World) (end_ : List Out × Ending × World) : Prop :=
  LintRun (o.env (some options)) con walk diff hook (o.output con options w.files) paths w end_

/-- `fixit … fix …` in the world `w`, cli.py:179-244. -/
def Outside.fix (options : Options) (interactive diff hook : Bool) (paths : List Path) (w : World) : Command Nat :=
  fixCommand (o.env (some options)) con walk interactive diff hook (o.output con options w.files) paths

/-- `fixit … upgrade …` in the world `w`, cli.py:308-317. -/
def Outside.upgrade (options : Options) (hook : Bool) (paths : List Path) (w : World) : Command Nat :=
  o.fix con walk (upgradeOptions options) false false hook paths w

/-- The reasons that `collect_rules` notes, config.py:239-268. -/
def Reason.text : Reason → PStr
  | .disabled => py "disabled"
  | .tags => py "tags"
  | .pythonVersion => py "python-version"

/-- The text of a disabled rule, cli.py:350. -/
def disabledText (name : PStr) (y : Reason) : PStr := name ++ py " (" ++ y.text ++ py ")"

/-- `f"{rule()} ({reason})" for rule, reason in disabled.items()`, cli.py:350: `rule()` may raise. -/
def describeDisabled (make : Nat → Except Err Unit) (str : Nat → PStr) : List (Nat × Reason) → Except Err (List PStr)
  | [] => .ok []
  | (k, y) :: rest => do
    make k
    let rs ← describeDisabled make str rest
    return disabledText (str k) y :: rs

/-- `pprint(">>> ", path)`, cli.py:332-335 and 344: `rich.print` shows all its arguments. The second argument of `pprint.pprint` is the stream to write to, and a
path has no `write`. `rich` is optional (pyproject.toml:57-59). -/
def pprintPair (rich : Bool) : Option Err := if rich then none else some .attribute

/-- One path of `debug`, cli.py:339-351: what is printed, and the exception that escapes. `str` is `str(rule)`, rule.py:114-115; `rich` says whether `rich` can be imported. -/
def Outside.debugPath (rich : Bool) (str : Nat → PStr) (options : Options) (files : Path → Option Bytes) (path : Path) : List (DebugLine V) × Option Err :=
  match o.config (some options) files (o.base.resolve path) with
  | .error e => ([], some e)
  | .ok cfg => match (collectRules (o.rules files) o.ruleOrder cfg o.sysPath o.mods).1 with
    | .error e => ([], some e)
    | .ok c => match pprintPair rich with
    | some e => ([], some e)
    | none =>
      let shown := [.path (o.base.resolve path), .config cfg, .enabled (sortStrs (c.rules.map str))]
      match describeDisabled (o.rules files).make str c.reasons with
      | .error e => (shown, some e)
      | .ok ds => (shown ++ [.disabled (sortStrs ds)], none)

/-- The loop of `debug`, cli.py:339-351; the first exception ends it. -/
def Outside.debugPaths (rich : Bool) (str : Nat → PStr) (options : Options) (files : Path → Option Bytes) : List Path → List (DebugLine V) × Option Err
  | [] => ([], none)
  | p :: ps => match o.debugPath rich str options files p with
    | (ls, some e) => (ls, some e)
    | (ls, none) => (ls ++ (Outside.debugPaths rich str options files ps).1, (Outside.debugPaths rich str options files ps).2)

/-- `debug`, cli.py:323-351, without the options printed first. -/
def Outside.debug (rich : Bool) (str : Nat → PStr) (options : Options) (files : Path → Option Bytes) (paths : List Path) : List (DebugLine V) × Option Err :=
  o.debugPaths rich str options files (defaultPaths con paths)

/-- `validate-config`, cli.py:357-371: the messages printed, and how it ends. The file is read where its path leads to (config.py:322), but local rules are looked for beside the path given (config.py:605). -/
def Outside.validate (files : Path → Option Bytes) (path : Path) : List Report × ValidateEnding :=
  let messages := validateConfig ((o.rules files).find o.sysPath) (fun p => o.load files (o.real p)) path o.mods
  (messages, if messages.isEmpty then .ok else .failed)

end
end Fixit
