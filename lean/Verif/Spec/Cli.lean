import Verif.Spec.Paths
import Verif.Model.Cli

/-!
# What the commands should do
-/

namespace Spec
open Py Fixit

/-- `1 word`, `0 words`, `2 words`. -/
def counted (n : Nat) (one many : PStr) : PStr := (toString n).toList ++ py " " ++ (if n = 1 then one else many)

/-- The summary of a run. -/
def summary (checked bad available applied : Nat) : PStr :=
  if bad = 0 then py "🧼 " ++ counted checked (py "file") (py "files") ++ py " clean 🧼\n"
  else py "🛠️  " ++ counted checked (py "file") (py "files") ++ py " checked, " ++ counted bad (py "file") (py "files") ++ py " with errors" ++
    (if available = 0 then [] else py ", " ++ counted available (py "auto-fix") (py "auto-fixes") ++ py " available") ++
    (if applied = 0 then [] else py ", " ++ counted applied (py "fix") (py "fixes") ++ py " applied") ++ py " 🛠️\n"

/-- A list of these things without repetitions. -/
structure Lists {A : Type} (l : List A) (P : A → Prop) : Prop where
  nodup : l.Nodup
  mem : ∀ a, a ∈ l ↔ P a

/-- There is something to report. -/
def Dirty (r : Result) : Prop := r.violation ≠ none ∨ r.error ≠ none

/-- The answers the results get from the user: `yes` accepts, anything else does not; the user is asked about fixable violations only, and after quitting (or
at a result that cannot be printed) nothing is answered any more. -/
def answersTo (printable : Result → Bool) (interactive : Bool) : List Result → List Reply → List Answer
  | [], _ => []
  | r :: rs, replies =>
    if printable r then
      if interactive && r.fixable then
        match replies with
        | .yes :: more => some true :: answersTo printable interactive rs more
        | .no :: more => none :: answersTo printable interactive rs more
        | _ => []
      else none :: answersTo printable interactive rs replies
    else []

/-- The violations whose fix the user accepts, the fixable ones being asked about in turn until there is no reply. -/
def chosen : List LintViolation → List Reply → List LintViolation
  | [], _ => []
  | v :: vs, replies =>
    if v.autofixable then
      match replies with
      | .yes :: more => v :: chosen vs more
      | .no :: more => chosen vs more
      | _ => []
    else chosen vs replies

/-- The bytes written to standard output by reports. -/
def onStdout (outs : List Out) : List PStr := (outs.filter (fun o => !o.err)).map (·.text)

end Spec

namespace Spec
open Py Fixit

/-- A path as seen from the current directory: relative if it is in it, else absolute. -/
def seenFrom (cwd path : Path) : PStr :=
  if cwd <+: path then (if path = cwd then py "." else join (py "/") (path.drop cwd.length)) else py "/" ++ join (py "/") path

/-- A message as shown: with a note when there is a fix. -/
def noted (v : LintViolation) : PStr := v.base.message ++ (if v.autofixable then py " (has autofix)" else [])

/-- The line for a violation in this style. -/
def LineFor (con : Console) (fmt : OutputFormat) (template : Toml) (r : Result) (v : LintViolation) (line : PStr) : Prop :=
  let place := (toString v.base.range.start.line).toList ++ py ":" ++ (toString v.base.range.start.column).toList
  let said := py " " ++ v.base.ruleName ++ py ": " ++ noted v
  match fmt with
  | .fixit => line = seenFrom con.cwd r.path ++ py "@" ++ place ++ said
  | .vscode => line = seenFrom con.cwd r.path ++ py ":" ++ place ++ said
  | .custom => con.format template ⟨noted v, seenFrom con.cwd r.path, r, v.base.ruleName, v.base.range.start.column, v.base.range.start.line⟩ = .ok line

/-- What is written for a result: a line and perhaps the diff, two lines for an error, nothing when it is clean. The diff is always on standard output. -/
def Written (con : Console) (diff stderr : Bool) (fmt : OutputFormat) (template : Toml) (r : Result) (outs : List Out) : Prop :=
  match r.violation, r.error with
  | some v, _ => ∃ line, LineFor con fmt template r v line ∧
      outs = ⟨stderr, line ++ py "\n"⟩ :: (if diff = true ∧ v.diff ≠ [] then [⟨false, v.diff⟩] else [])
  | none, some e => outs = [⟨stderr, seenFrom con.cwd r.path ++ py ": EXCEPTION: " ++ con.errorText e ++ py "\n"⟩, ⟨stderr, strip (con.traceback e) ++ py "\n"⟩]
  | none, none => outs = []

/-- The results are written one after the other. -/
inductive AllWritten (con : Console) (diff stderr : Bool) (fmt : OutputFormat) (template : Toml) : List Result → List Out → Prop
  | nil : AllWritten con diff stderr fmt template [] []
  | cons {r : Result} {rs : List Result} {outs more : List Out} : Written con diff stderr fmt template r outs → AllWritten con diff stderr fmt template rs more →
      AllWritten con diff stderr fmt template (r :: rs) (outs ++ more)

end Spec
