import Verif.Model.Collect

/-!
# Collecting rules in several threads at once

The server validates each document in a timer thread of its own (lsp.py:85-110, 170-175; `Model/Lsp`), and formats in the main thread. Each of them collects the rules anew
(`collect_rules`, api.py:122), and so changes `sys.path` and `fixit.local`, which all threads share. Here only that is modelled: a thread takes the steps of `collect_rules` one by one, in any order with the others.
The grain: one access to the shared state is one step; `importlib.import_module` is one step (it takes locks of its own). Simplification: a local reference imports one module,
whose own imports from `fixit.local` are left out.
-/

namespace Fixit
open Py

/-- Where a module below `fixit.local` came from: the directory of a local reference, or the package's own directory, which has no modules (config.py:106-119). -/
abbrev LocalRoot := Option Path

/-- What the threads share (util.py:72-90, config.py:87-127). -/
structure SharedImports where
  sysPath : List PStr
  /-- `sys.modules["fixit.local"]`, if it is there: its `__path__` -/
  package : Option LocalRoot
  /-- the modules `fixit.local.…` in `sys.modules`, and the directory they came from -/
  loaded : List (PStr × Path)

/-- A reference of a configuration (config.py:228-254). -/
inductive ThreadRef where
  | absolute (module : PStr)
  | loc (root : Path) (module : PStr)
  deriving DecidableEq

/-- What a thread has to do: the directory for root imports, if any, and the references (config.py:219-254). -/
structure Job where
  rootDir : Option PStr
  refs : List ThreadRef

/-- What a thread has seen: the `sys.path` an absolute module was looked for in, or the directory a local module came from, if it was found (config.py:147, 150). -/
inductive Seen where
  | absolute (module : PStr) (sysPath : List PStr)
  | loc (root : Path) (module : PStr) (got : Option Path)
  deriving DecidableEq

/-- Where a thread is (util.py:80-90, config.py:105-127, 145-147). `mine`: it has appended its directory to `sys.path` itself. -/
inductive Stage where
  | start
  /-- `path_str not in sys.path` was true -/
  | absent
  /-- the loop over the references -/
  | body (mine : Bool) (todo : List ThreadRef)
  /-- in `local_rule_loader`, after `import fixit.local` -/
  | imported (mine : Bool) (root : Path) (module : PStr) (todo : List ThreadRef)
  /-- after `fixit.local.__path__ = …` -/
  | rooted (mine : Bool) (root : Path) (module : PStr) (todo : List ThreadRef)
  /-- after `importlib.import_module`, before the modules are removed -/
  | leaving (mine : Bool) (todo : List ThreadRef)
  | finished
  /-- `list.remove` raised ValueError -/
  | failed

/-- A thread (lsp.py:174). -/
structure Loader where
  job : Job
  stage : Stage
  seen : List Seen

/-- `import fixit.local`: a new package object, unless it is in `sys.modules` (config.py:106). -/
def SharedImports.importPackage (s : SharedImports) : SharedImports :=
  match s.package with
  | some _ => s
  | none => { s with package := some none }

/-- `fixit.local.__path__ = [rule.root.as_posix()]`, config.py:113. If another thread has removed the package from `sys.modules` meanwhile, the assignment is to an object that nobody imports from any more. -/
def SharedImports.setRoot (s : SharedImports) (root : Path) : SharedImports :=
  match s.package with
  | some _ => { s with package := some (some root) }
  | none => s

/-- `importlib.import_module(rule.module, "fixit.local")`, config.py:147: what is in `sys.modules` is taken; otherwise the parent package is imported, if it is gone, and the module is looked for in its `__path__`.
`exists_` says which modules there are. -/
def SharedImports.importLocal (exists_ : Path → PStr → Bool) (s : SharedImports) (module : PStr) : Option Path × SharedImports :=
  match s.loaded.lookup module with
  | some r => (some r, s)
  | none => match s.importPackage.package with
    | some (some r) => if exists_ r module then (some r, { s.importPackage with loaded := (module, r) :: s.loaded }) else (none, s.importPackage)
    | _ => (none, s.importPackage)

/-- The `finally` clause, config.py:123-127 (as one step). -/
def SharedImports.popLocals (s : SharedImports) : SharedImports := { s with package := none, loaded := [] }

/-- One step of a thread (util.py:80-90, config.py:105-150, 219-254). -/
def Loader.step (exists_ : Path → PStr → Bool) (t : Loader) (s : SharedImports) : Loader × SharedImports :=
  match t.stage with
  | .start => match t.job.rootDir with
    -- config.py:219
    | none => ({ t with stage := .body false t.job.refs }, s)
    -- util.py:83
    | some p => if p ∈ s.sysPath then ({ t with stage := .body false t.job.refs }, s) else ({ t with stage := .absent }, s)
  | .absent => match t.job.rootDir with
    | none => (t, s)
    -- util.py:84
    | some p => ({ t with stage := .body true t.job.refs }, { s with sysPath := s.sysPath ++ [p] })
  | .body mine (.absolute m :: rest) =>
    -- config.py:150
    ({ t with stage := .body mine rest, seen := t.seen ++ [.absolute m s.sysPath] }, s)
  | .body mine (.loc r m :: rest) => ({ t with stage := .imported mine r m rest }, s.importPackage)
  | .body mine [] => match mine, t.job.rootDir with
    -- util.py:86
    | true, some p => if p ∈ s.sysPath then ({ t with stage := .finished }, { s with sysPath := removeFirst p s.sysPath }) else ({ t with stage := .failed }, s)
    | _, _ => ({ t with stage := .finished }, s)
  | .imported mine r m rest => ({ t with stage := .rooted mine r m rest }, s.setRoot r)
  | .rooted mine r m rest =>
    ({ t with stage := .leaving mine rest, seen := t.seen ++ [.loc r m (s.importLocal exists_ m).1] }, (s.importLocal exists_ m).2)
  | .leaving mine rest => ({ t with stage := .body mine rest }, s.popLocals)
  | .finished => (t, s)
  | .failed => (t, s)

/-- The threads and what they share (lsp.py:174). -/
structure Threads where
  shared : SharedImports
  loaders : List Loader

/-- A thread about to begin (lsp.py:174-175, api.py:122). -/
def Job.begin (j : Job) : Loader := ⟨j, .start, []⟩

/-- The `i`-th thread takes a step (lsp.py:174-175). -/
def Threads.step (exists_ : Path → PStr → Bool) (w : Threads) (i : Nat) : Threads :=
  match w.loaders[i]? with
  | none => w
  | some t => ⟨(t.step exists_ w.shared).2, w.loaders.set i (t.step exists_ w.shared).1⟩

/-- A schedule: which thread takes the next step, again and again (lsp.py:174-175). -/
def Threads.run (exists_ : Path → PStr → Bool) (w : Threads) (schedule : List Nat) : Threads := schedule.foldl (Threads.step exists_) w

/-- Validation of several documents begins: one thread each (lsp.py:112-120, 174-175). -/
def Threads.begin (sysPath : List PStr) (jobs : List Job) : Threads := ⟨⟨sysPath, none, []⟩, jobs.map Job.begin⟩

end Fixit
