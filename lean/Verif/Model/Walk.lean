import Verif.Model.Visit
import Verif.Model.System

/-!
# The visitors of the rules, in the whole program

`Outside` (Model/System) leaves open what the visitors of the rules do. Here they are the batched visit of Model/Visit, after the preparation of the metadata in `engine.py`.
-/

namespace Cst
open Py Fixit

/-- One step of the walk for several rules (`batchStep`): the reports made before a method raises are kept (engine.py:103; a method that raises makes no report before, a simplification). -/
def batchStepTrace : (rs : List VRule) → Nat → Ev → Store → States rs → List (Nat × Rep) × Except Err (Store × States rs)
  | [], _, _, st, s => ([], .ok (st, s))
  | r :: rs, i, e, st, (s, ss) =>
    match r.step e st s with
    | .error x => ([], .error x)
    | .ok (st, s, out) => match batchStepTrace rs (i + 1) e st ss with
      | (out', .error x) => (out.map (fun o => (i, o)) ++ out', .error x)
      | (out', .ok (st, ss)) => (out.map (fun o => (i, o)) ++ out', .ok (st, (s, ss)))

/-- A walk for several rules: the reports made, and what ended it, if it was not its end (engine.py:103). -/
def batchTrace (rs : List VRule) : List Ev → Store → States rs → List (Nat × Rep) × Option Err
  | [], _, _ => ([], none)
  | e :: es, st, s =>
    match batchStepTrace rs 0 e st s with
    | (out, .error x) => (out, some x)
    | (out, .ok (st, s)) => (out ++ (batchTrace rs es st s).1, (batchTrace rs es st s).2)

end Cst

namespace Fixit
open Py Cst

/-- What the visits depend on. Metadata providers are named by numbers. Nothing here depends on the rest of the configuration, because rules are made without arguments and
`collect_violations` uses only `config.root` and `config.path` (config.py:270, engine.py:81-103). -/
structure Visits where
  /-- the visitor methods of a rule class, given the files, `config.root`, `config.path` and the module with its metadata -/
  rule : (Path → Option Bytes) → Path → Path → Node → Nat → VRule
  /-- the module as a tree -/
  syn : Node → Syn
  /-- the sets of qualified names -/
  names : (Path → Option Bytes) → Path → Path → Node → Store
  /-- `rule.get_inherited_dependencies()` -/
  deps : Nat → List Nat
  /-- `provider.gen_cache is not None` -/
  genCache : Nat → Bool
  /-- what making the `FullRepoManager`, `resolve_cache` and `get_cache_for_path` raise, if anything, for these providers -/
  repoRaises : (Path → Option Bytes) → Path → Path → List Nat → Option Err
  /-- what computing the metadata raises, if anything, for these providers -/
  resolveRaises : (Path → Option Bytes) → Path → Path → Node → List Nat → Option Err
  /-- the replacement for a node -/
  replacement : Node → Nat → Change → Repl
  /-- how long the calls of visitor methods take -/
  clock : (Path → Option Bytes) → Node → List Nat

/-- The set `needs_repo_manager`, engine.py:82-89. -/
def Visits.needs (v : Visits) (ks : List Nat) : List Nat :=
  ks.foldl (fun needs k => (v.deps k).foldl (fun needs p => if v.genCache p then setAdd id p needs else needs) needs) []

/-- The repository manager is made only when something needs it, engine.py:91-98. -/
def Visits.repo (v : Visits) (files : Path → Option Bytes) (root path : Path) (ks : List Nat) : Option Err :=
  if v.needs ks = [] then none else v.repoRaises files root path (v.needs ks)

/-- The call of `report` (rule.py:219-265). -/
def Visits.call (v : Visits) (m : Node) (r : Rep) : ReportCall :=
  { node := r.node, message := r.message, replacement := r.change.map (v.replacement m r.node) }

/-- engine.py:71-103: metadata, then the visit. -/
def Visits.visitors {V : Type} (v : Visits) (className : Nat → PStr) (files : Path → Option Bytes) (cfg : Config V) (m : Node) (rules : List RuleInst) : Visiting :=
  match v.repo files cfg.root cfg.path (rules.map RuleInst.id) with
  | some e => ⟨[], some e, []⟩
  | none => match v.resolveRaises files cfg.root cfg.path m (rules.flatMap (fun r => v.deps r.id)) with
    | some e => ⟨[], some e, []⟩
    | none =>
      let vs := rules.map (fun r => v.rule files cfg.root cfg.path m r.id)
      let trace := batchTrace vs (v.syn m).events (v.names files cfg.root cfg.path m) (States.init vs)
      ⟨trace.1.filterMap (fun x => rules[x.1]?.map (fun r => (r, v.call m x.2))), trace.2,
        durations (hookNames (rules.map (fun r => (className r.id, (v.rule files cfg.root cfg.path m r.id).methods))) (v.syn m).events) (v.clock files m) []⟩

/-- The whole program with these visits (engine.py:58-123). -/
def Outside.walking {V M : Type} (o : Outside V M) (v : Visits) : Outside V M := { o with visitors := v.visitors o.className }

end Fixit
