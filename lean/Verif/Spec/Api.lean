import Verif.Spec.Engine
import Verif.Model.Api

/-!
# What linting one file should do
-/

namespace Spec
open Py Fixit

variable {C : Type} (env : Env C)

/-- The violations the consumer sees for this content under this configuration, in order; nothing when linting fails before them or no rule is enabled. -/
def found (files : Path → Option Bytes) (path : Path) (content : Bytes) (cfg : C) : List LintViolation :=
  match env.collect files cfg with
  | .error _ => []
  | .ok [] => []
  | .ok rules => match env.parse content with
    | .error _ => []
    | .ok m => match env.visit files cfg m rules with
      | .error _ => []
      | .ok (recorded, _) => (displayed env path m (rules.flatMap recorded)).1

/-- The violations whose fix is to be applied: all with autofix, otherwise those answered positively. -/
def accepted (autofix : Bool) (vs : List LintViolation) (answers : List Answer) : List LintViolation :=
  (vs.zip answers).filterMap (fun p => if autofix || p.2 = some true then some p.1 else none)

/-- The content with these fixes applied, formatted as configured. -/
def fixedContent (path : Path) (content : Bytes) (cfg : C) (fixes : List LintViolation) : Except Err Bytes := do
  let m ← env.parse content
  let m' ← applyReplacements m (fixes.map LintViolation.fix)
  formatModule env m' path cfg

/-- A result reporting a violation. -/
def reporting (path : Path) (v : LintViolation) : Result := ⟨path, some v, none⟩

/-- A result saying the file is clean. -/
def cleanResult (path : Path) : Result := ⟨path, none, none⟩

/-- A result reporting an exception. -/
def errorResult (path : Path) (e : Err) : Result := ⟨path, none, some e⟩

end Spec

namespace Spec
open Py Fixit

variable {C : Type} (env : Env C)

/-- Reading and configuring a file, before linting it. -/
def loaded (files : Path → Option Bytes) (path : Path) : Except Err (Bytes × C) :=
  match files path with
  | none => .error (.other 1)
  | some content => match env.readRaises path with
    | some e => .error e
    | none => match env.config files path with
      | .error e => .error e
      | .ok cfg => .ok (content, cfg)

/-- The violations the consumer sees for a file. -/
def foundIn (files : Path → Option Bytes) (path : Path) : List LintViolation :=
  match loaded env files path with
  | .error _ => []
  | .ok (content, cfg) => found env files path content cfg

/-- What one event does to the files: writing starts at the beginning of the file and leaves what is behind. -/
def Event.apply (files : Path → Option Bytes) : Event → Path → Option Bytes
  | .opened p => fun q => if q = p then some [] else files q
  | .wrote p b => fun q => if q = p then some (b ++ ((files p).getD []).drop b.length) else files q
  | _ => files

/-- What a list of events does to the files. -/
def replay (files : Path → Option Bytes) (evs : List Event) : Path → Option Bytes := evs.foldl Event.apply files

/-- The events that concern files. -/
def fileEvents (evs : List Event) : List Event :=
  evs.filter (fun e => match e with | .opened _ => true | .wrote _ _ => true | _ => false)

/-- The file was read, configured, parsed and visited by at least one rule, and the rules recorded these violations. -/
structure Inspected (files : Path → Option Bytes) (path : Path) (content : Bytes) (cfg : C) (m : Node) (vs : List (Violation Nat Repl)) : Prop where
  load : loaded env files path = .ok (content, cfg)
  visit : ∃ rules recorded durations, rules ≠ [] ∧ env.collect files cfg = .ok rules ∧ env.parse content = .ok m ∧
    env.visit files cfg m rules = .ok (recorded, durations) ∧ vs = rules.flatMap recorded

/-- The content the file is to have after a run in which nothing went wrong before fixing. `events` is what the run did. -/
structure Fixing (files : Path → Option Bytes) (path : Path) (autofix : Bool) (answers : List Answer) (events : List Event) (content : Bytes) (b : Except Err Bytes) :
    Prop where
  inspected : ∃ cfg m vs, Inspected env files path content cfg m vs ∧ (∀ v ∈ vs, ∃ lv, display env path m v = .ok lv) ∧
    b = fixedContent env path content cfg (accepted autofix (foundIn env files path) answers)
  hook : ∀ μ, .hook μ ∈ events → env.hookRaises μ = none
  some : accepted autofix (foundIn env files path) answers ≠ []

/-- Everything that can go wrong while a file is linted and fixed, each with its exception, in the order in which it can happen. -/
inductive Breaks (files : Path → Option Bytes) (path : Path) (autofix : Bool) (answers : List Answer) (events : List Event) : Err → Prop where
  /-- reading the file, or its configuration -/
  | load {e} : loaded env files path = .error e → Breaks files path autofix answers events e
  /-- collecting the rules -/
  | collect {e content cfg} : loaded env files path = .ok (content, cfg) → env.collect files cfg = .error e → Breaks files path autofix answers events e
  /-- parsing -/
  | parse {e content cfg rules} : loaded env files path = .ok (content, cfg) → env.collect files cfg = .ok rules → rules ≠ [] → env.parse content = .error e →
      Breaks files path autofix answers events e
  /-- a rule, or the metadata -/
  | visit {e content cfg rules m} : loaded env files path = .ok (content, cfg) → env.collect files cfg = .ok rules → rules ≠ [] → env.parse content = .ok m →
      env.visit files cfg m rules = .error e → Breaks files path autofix answers events e
  /-- making the diff of a violation -/
  | show {e content cfg m before v after} : Inspected env files path content cfg m (before ++ v :: after) → (∀ v' ∈ before, ∃ lv, display env path m v' = .ok lv) →
      display env path m v = .error e → Breaks files path autofix answers events e
  /-- the metrics hook -/
  | hook {e μ} : .hook μ ∈ events → env.hookRaises μ = .some e → Breaks files path autofix answers events e
  /-- applying the fixes, or formatting -/
  | fix {e content} : Fixing env files path autofix answers events content (.error e) → Breaks files path autofix answers events e
  /-- opening the file for writing -/
  | opening {e content b} : Fixing env files path autofix answers events content (.ok b) → b ≠ [] → b ≠ content → env.openRaises path = .some e →
      Breaks files path autofix answers events e
  /-- writing -/
  | writing {e content b n} : Fixing env files path autofix answers events content (.ok b) → b ≠ [] → b ≠ content → env.openRaises path = none →
      env.writeRaises path b = .some (n, e) → Breaks files path autofix answers events e

end Spec
