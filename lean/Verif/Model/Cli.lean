import Verif.Model.Paths
import Verif.Model.Capture

/-!
# `api.py`: `print_result`; `cli.py`: `splash`, `lint`, `fix`, `upgrade`
-/

namespace Fixit
open Py

/-- A piece of text printed, on standard error or standard output. Colours are left out: `click` drops them when the output is not a terminal (api.py:79, 88-89). -/
structure Out where
  err : Bool
  text : PStr
  deriving DecidableEq

/-- `click.secho(line, err=err)` and `click.echo`: the text and a newline (assumed not to raise) (api.py:79, 88-89). -/
def echoLine (err : Bool) (line : PStr) : Out := ⟨err, line ++ py "\n"⟩

/-- What a custom output template is given, api.py:69-76. -/
structure FormatArgs where
  message : PStr
  path : PStr
  result : Result
  ruleName : PStr
  startCol : Nat
  startLine : Nat

/-- What the command line depends on outside the modelled code (api.py:52, 69-76, cli.py:147, 234). -/
structure Console where
  /-- `Path.cwd()` -/
  cwd : Path
  /-- `str(error)` -/
  errorText : Err → PStr
  /-- the traceback of an error -/
  traceback : Err → PStr
  /-- `output_template.format(...)` (the template may be any TOML value) -/
  format : Toml → FormatArgs → Except Err PStr

/-- `str(n)` (api.py:65-67, cli.py:24-47). -/
def natStr (n : Nat) : PStr := (toString n).toList

/-- `str(path)` of an absolute path (api.py:65, 88). -/
def absStr (p : Path) : PStr := py "/" ++ join (py "/") p

/-- `str(path)` of a relative path (api.py:52, 65, 88). -/
def relStr (p : Path) : PStr := if p.isEmpty then py "." else join (py "/") p

/-- The path as printed, api.py:50-54: relative to the current directory if it is below. -/
def displayPath (cwd path : Path) : PStr := if path.under cwd then relStr (path.drop cwd.length) else absStr path

/-- api.py:60-62: the message, with a note when there is a fix. -/
def displayMessage (v : LintViolation) : PStr := if v.autofixable then v.base.message ++ py " (has autofix)" else v.base.message

/-- The line printed for a violation, api.py:64-79. -/
def violationLine (con : Console) (fmt : OutputFormat) (template : Toml) (r : Result) (v : LintViolation) : Except Err PStr :=
  let path := displayPath con.cwd r.path
  let line := natStr v.base.range.start.line
  let col := natStr v.base.range.start.column
  match fmt with
  | .fixit => .ok (path ++ py "@" ++ line ++ py ":" ++ col ++ py " " ++ v.base.ruleName ++ py ": " ++ displayMessage v)
  | .vscode => .ok (path ++ py ":" ++ line ++ py ":" ++ col ++ py " " ++ v.base.ruleName ++ py ": " ++ displayMessage v)
  | .custom => con.format template ⟨displayMessage v, path, r, v.base.ruleName, v.base.range.start.column, v.base.range.start.line⟩

/-- `if show_diff and result.violation.diff: echo_color_precomputed_diff(...)`, api.py:81-82, on standard output in any case. -/
def printDiff (showDiff : Bool) (diff : PStr) : List Out := if showDiff && !diff.isEmpty then [⟨false, diff⟩] else []

/-- `print_result`, api.py:34-94: what is printed, and whether the result is dirty. The debug log is left out. -/
def printResult (con : Console) (showDiff stderr : Bool) (fmt : OutputFormat) (template : Toml) (r : Result) : Except Err (List Out × Bool) :=
  match r.violation with
  | some v => match violationLine con fmt template r v with
    | .error e => .error e
    | .ok line => .ok (echoLine stderr line :: printDiff showDiff v.diff, true)
  | none => match r.error with
    | some e => .ok ([echoLine stderr (displayPath con.cwd r.path ++ py ": EXCEPTION: " ++ con.errorText e), echoLine stderr (strip (con.traceback e))], true)
    | none => .ok ([], false)

/-- `set.add`; sets are kept as lists without repetitions (cli.py:149, 156, 218, 228). -/
def pathAdd (x : Path) (s : List Path) : List Path := if x ∈ s then s else s ++ [x]

/-- `"file" if v == 1 else "files"`, cli.py:27-28. -/
def fileWord (n : Nat) : PStr := if n == 1 then py "file" else py "files"

/-- `"fix" if n == 1 else "fixes"`, cli.py:38 and 41. -/
def fixWord (n : Nat) : PStr := if n == 1 then py "fix" else py "fixes"

/-- `splash`, cli.py:24-47: what is printed on standard error. -/
def splash (visited dirty : List Path) (autofixes fixed : Nat) : Out :=
  if !dirty.isEmpty then
    echoLine true (py "🛠️  " ++ join (py ", ")
      ([natStr visited.length ++ py " " ++ fileWord visited.length ++ py " checked",
        natStr dirty.length ++ py " " ++ fileWord dirty.length ++ py " with errors"] ++
       (if autofixes != 0 then [natStr autofixes ++ py " auto-" ++ fixWord autofixes ++ py " available"] else []) ++
       (if fixed != 0 then [natStr fixed ++ py " " ++ fixWord fixed ++ py " applied"] else [])) ++ py " 🛠️")
  else echoLine true (py "🧼 " ++ natStr visited.length ++ py " " ++ fileWord visited.length ++ py " clean 🧼")

/-- The variables of the loops, cli.py:141-144 and 199-204. -/
structure Tally where
  exitCode : Nat := 0
  visited : List Path := []
  dirty : List Path := []
  autofixes : Nat := 0
  fixed : Nat := 0

/-! ## lint -/

/-- `result.violation and result.violation.autofixable` (cli.py:157-159, 229, 232). -/
def Result.fixable (r : Result) : Bool :=
  match r.violation with
  | some v => v.autofixable
  | none => false

/-- The body of the loop of `lint` cli.py:149-162, with the outcome of printing. -/
def Tally.lint (t : Tally) (r : Result) (isDirty : Bool) : Tally :=
  let t := { t with visited := pathAdd r.path t.visited }
  if isDirty then
    let t := { t with dirty := pathAdd r.path t.dirty }
    let t := if r.violation.isSome then { t with exitCode := t.exitCode ||| 1, autofixes := if r.fixable then t.autofixes + 1 else t.autofixes } else t
    if r.error.isSome then { t with exitCode := t.exitCode ||| 2 } else t
  else t

/-- How a command ends (cli.py:165, 244). -/
inductive Ending where
  /-- `ctx.exit(code)` -/
  | exit (code : Nat)
  /-- an exception escapes -/
  | raised (e : Err)
  /-- not ended: more results are to come -/
  | running
  deriving DecidableEq

/-- The loop of `lint`, cli.py:146-162, over the results there are: what is printed, and the variables, or the exception of `print_result`. -/
def lintLoop (con : Console) (diff : Bool) (fmt : OutputFormat) (template : Toml) : List Result → Tally → List Out × Except Err Tally
  | [], t => ([], .ok t)
  | r :: rs, t => match printResult con diff false fmt template r with
    | .error e => ([], .error e)
    | .ok (outs, d) => (outs ++ (lintLoop con diff fmt template rs (t.lint r d)).1, (lintLoop con diff fmt template rs (t.lint r d)).2)

/-- `lint`, cli.py:126-165, given the configuration for the current directory (`generate_config(options=options)`, cli.py:145), the results of `fixit_paths`
and how it ended. -/
def lintCommand (con : Console) (diff : Bool) (cfg : Except Err (OutputFormat × Toml)) (rs : List Result) (st : Gen.Status Unit) : List Out × Ending :=
  match cfg with
  | .error e => ([], .raised e)
  | .ok (fmt, template) =>
    let (outs, end_) := lintLoop con diff fmt template rs {}
    match end_ with
    | .error e => (outs, .raised e)
    | .ok t => match st with
      | .returned _ => (outs ++ [splash t.visited t.dirty t.autofixes t.fixed], .exit t.exitCode)
      | .raised e => (outs, .raised e)
      | .suspended => (outs, .running)

/-- `if not paths: paths = [Path.cwd()]`, cli.py:138-139 and 193-194. -/
def defaultPaths (con : Console) (paths : List Path) : List Path := if paths.isEmpty then [con.cwd] else paths

/-- The runs of `fixit lint`, cli.py:126-165, from the world `w`: what it prints, how it ends and the world then. The loop answers nothing. The exception of a
bad configuration comes before the generator starts, that of `print_result` at the last result it gets. `hook` is `--print-metrics`. -/
inductive LintRun {C : Type} (env : Env C) (con : Console) (walk : (Path → Option Bytes) → Path → Except Err (List Path)) (diff hook : Bool)
    (cfg : Except Err (OutputFormat × Toml)) (paths : List Path) (w : World) : List Out × Ending × World → Prop
  | badConfig (e : Err) : cfg = .error e → LintRun env con walk diff hook cfg paths w ([], .raised e, w)
  | ran (fmt : OutputFormat) (template : Toml) (n : Nat) (rs : List Result) (st : Gen.Status Unit) (w' : World) : cfg = .ok (fmt, template) →
      PathsRun env walk false hook true (defaultPaths con paths) (List.replicate n none) w (rs, st, w') →
      (∀ r ∈ rs.dropLast, ∀ e, printResult con diff false fmt template r ≠ .error e) →
      LintRun env con walk diff hook cfg paths w ((lintCommand con diff cfg rs st).1, (lintCommand con diff cfg rs st).2, w')

/-! ## fix -/

/-- What the user may answer to the prompt, cli.py:234-236 (`click.prompt` asks again until there is an answer; an empty line is `y`). -/
inductive Reply where
  | yes
  | no
  | quit
  /-- end of input or an interrupt: `click.Abort` -/
  | abort
  deriving DecidableEq

/-- `click.Abort`, as an exception (raised by `click.prompt`, cli.py:234). -/
def abortError : Err := .other 3

/-- The world of a command: that of linting, and what was printed (cli.py:126-165, 179-244). -/
abbrev Session := World × List Out

/-- A command: a generator whose values are the prompts (each with the result it is about), to be sent the user's replies (cli.py:217-241). -/
abbrev Command (R : Type) := Gen Session Result Reply R

/-- What one pass of a loop over `capture(...)` comes to: go on, having responded or not, or `break` (cli.py:217-241). -/
inductive Pass (T A : Type) where
  | next (st : T) (response : Option A)
  | stop (st : T)

/-- `for z in capture(g): ...`: the wrapped generator gets the response of the last pass, or `None` (C60) (cli.py:207-241, util.py:42-60). -/
def forCapture {W Y S Z A R T : Type} (body : Z → T → Gen W Y S (Pass T A)) : Gen W Z (Option A) R → T → Gen W Y S T
  | .ret _, st => .ret st
  | .raise e, _ => .raise e
  | .act a k, st => .act a (fun w => forCapture body (k w) st)
  | .yield z k, st => (body z st).bind (fun p => match p with
    | .next st' a => forCapture body (k a) st'
    | .stop st' => .ret st')

/-- A generator working on the first part of a world (cli.py:146, 208). -/
def onFirst {W V Y S R : Type} : Gen W Y S R → Gen (W × V) Y S R
  | .ret r => .ret r
  | .raise e => .raise e
  | .yield y k => .yield y (fun s => onFirst (k s))
  | .act a k => .act (fun w => (a w.1, w.2)) (fun w => onFirst (k w.1))

/-- Print (cli.py:150, 221). -/
def printing (outs : List Out) : Command Unit := .act (fun w => (w.1, w.2 ++ outs)) (fun _ => .ret ())

/-- cli.py:218-231, after printing. -/
def Tally.fix (t : Tally) (autofix : Bool) (r : Result) (isDirty : Bool) : Tally :=
  let t := { t with visited := pathAdd r.path t.visited }
  if isDirty then
    let t := { t with dirty := pathAdd r.path t.dirty }
    if autofix && r.fixable then { t with autofixes := t.autofixes + 1, fixed := t.fixed + 1 } else t
  else t

/-- `autofixes += 1`, cli.py:233. -/
def Tally.offer (t : Tally) : Tally := { t with autofixes := t.autofixes + 1 }

/-- `fixed += 1`, cli.py:239. -/
def Tally.accept (t : Tally) : Tally := { t with fixed := t.fixed + 1 }

/-- The prompt, cli.py:232-241. -/
def askUser (r : Result) (t : Tally) : Command (Pass Tally Bool) :=
  .yield r (fun reply => match reply with
    | .yes => .ret (.next t.offer.accept (some true))
    | .no => .ret (.next t.offer none)
    | .quit => .ret (.stop t.offer)
    | .abort => .raise abortError)

/-- The body of the loop of `fix`, cli.py:218-241. -/
def fixBody (con : Console) (interactive diff isStdin : Bool) (fmt : OutputFormat) (template : Toml) (r : Result) (t : Tally) : Command (Pass Tally Bool) :=
  match printResult con (interactive || diff) isStdin fmt template r with
  | .error e => .raise e
  | .ok (outs, d) => (printing outs).bind (fun _ =>
    if interactive && r.fixable then askUser r (t.fix (!interactive) r d) else .ret (.next (t.fix (!interactive) r d) none))

/-- `paths[0] and str(paths[0]) == "-"`, cli.py:196 (a path is always true). -/
def isStdinArgs (paths : List Path) : Bool := paths.head? == some stdinArg

/-- `fix`, cli.py:179-244, with `--interactive`/`--automatic`, `--diff`; `hook` is `--print-metrics`. The generator is not started before the loop. -/
def fixCommand {C : Type} (env : Env C) (con : Console) (walk : (Path → Option Bytes) → Path → Except Err (List Path)) (interactiveFlag diff hook : Bool)
    (cfg : Except Err (OutputFormat × Toml)) (args : List Path) : Command Nat :=
  let paths := defaultPaths con args
  let isStdin := isStdinArgs paths
  let interactive := interactiveFlag && !isStdin
  (Gen.ofExcept cfg).bind (fun c =>
    (forCapture (fixBody con interactive diff isStdin c.1 c.2) (onFirst (fixitPaths env walk (!interactive) hook paths)) {}).bind (fun t =>
      (printing [splash t.visited t.dirty t.autofixes t.fixed]).bind (fun _ => .ret t.exitCode)))

/-- `upgrade`, cli.py:308-317: `fix --automatic`; that only the rules of `fixit.upgrade` are enabled is in `env`, made from the changed options. -/
def upgradeCommand {C : Type} (env : Env C) (con : Console) (walk : (Path → Option Bytes) → Path → Except Err (List Path)) (hook : Bool)
    (cfg : Except Err (OutputFormat × Toml)) (args : List Path) : Command Nat := fixCommand env con walk false false hook cfg args

end Fixit
