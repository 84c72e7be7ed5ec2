import Verif.Model.Config

/-!
# Model of rule collection: `config.py:find_rules`, `walk_module`, `collect_rules`, `validate_config`; `util.py:append_sys_path`
-/

namespace Fixit
open Py

/-! ## Importing modules and finding the rules in them -/

/-- A class statement: the module and name it is written under (config.py:79-83, 190). -/
structure ClassDef where
  module : PStr
  name : PStr
  deriving DecidableEq, Repr

/-- A class object. Executing the same class statement again makes a different object: `load` says in which execution
it was made (0 for modules that stay in `sys.modules`) (config.py:79-83, 123-125). -/
structure Cls where
  cdef : ClassDef
  load : Nat
  deriving DecidableEq, Repr

/-- The value of a module attribute, as `is_rule` sees it (config.py:79-83). -/
inductive Member where
  /-- a subclass of `LintRule` other than `LintRule` -/
  | rule (c : ClassDef)
  /-- `LintRule` itself -/
  | lintRule
  /-- any other class -/
  | otherClass
  /-- not a class -/
  | value
  deriving DecidableEq, Repr

mutual
/-- A module object: its attributes in `inspect.getmembers` order and, if it has `__path__`, what `pkgutil.iter_modules` lists (config.py:190-197). -/
inductive Mod where
  | mk (members : List (PStr × Member)) (subs : Pkg)
/-- `hasattr(module, "__path__")` (config.py:193). -/
inductive Pkg where
  | plain
  | package (l : Subs)
/-- The entries of `pkgutil.iter_modules(module.__path__)` (config.py:194). -/
inductive Subs where
  | nil
  | cons (name : PStr) (isPkg : Bool) (imp : Import) (rest : Subs)
/-- The outcome of importing a module: an exception or the module object (config.py:141, 144, 196). -/
inductive Import where
  | fail (e : Err)
  | ok (m : Mod)
end

/-- `inspect.getmembers(module, is_rule)` (config.py:190): the attributes for which `is_rule` (config.py:79-83) is true. -/
def ruleMembers : List (PStr × Member) → List (PStr × ClassDef)
  | [] => []
  | (n, .rule c) :: rest => (n, c) :: ruleMembers rest
  | (_, _) :: rest => ruleMembers rest

mutual
/-- `walk_module`, config.py:177-199. -/
def walkModule : Mod → Except Err (List (PStr × ClassDef))
  | .mk members subs => walkPath subs (dictUpdate [] (ruleMembers members))
/-- config.py:193: only packages have submodules. -/
def walkPath : Pkg → List (PStr × ClassDef) → Except Err (List (PStr × ClassDef))
  | .plain, rules => .ok rules
  | .package l, rules => walkSubs l rules
/-- The loop of config.py:194-197. -/
def walkSubs : Subs → List (PStr × ClassDef) → Except Err (List (PStr × ClassDef))
  | .nil, rules => .ok rules
  | .cons _ true _ rest, rules => walkSubs rest rules
  | .cons _ false imp rest, rules => do
    let found ← walkImport imp
    walkSubs rest (dictUpdate rules found)
/-- `importlib.import_module(…)` of a submodule followed by `walk_module`, config.py:196-197. -/
def walkImport : Import → Except Err (List (PStr × ClassDef))
  | .fail e => .error e
  | .ok m => walkModule m
end

/-- The importable modules: absolute ones through `sys.path`, local ones below a root directory (config.py:139-145). -/
structure Modules where
  absolute : List PStr → PStr → Import
  locals : Option Path → PStr → Import

/-- `rules.get(name)` (config.py:148). -/
def ruleGet (name : PStr) (d : List (PStr × ClassDef)) : Option ClassDef := (d.find? (fun e => e.1 = name)).map (·.2)

/-- `bool(rule.name)` (config.py:147). -/
def QualifiedRule.named (q : QualifiedRule) : Option PStr :=
  match q.name with
  | some (c :: cs) => some (c :: cs)
  | _ => none

/-- `bool(rule.local)` (config.py:139). -/
def QualifiedRule.isLocal (q : QualifiedRule) : Bool :=
  match q.loc with
  | some (_ :: _) => true
  | _ => false

/-- The import statements at the head of `find_rules`, config.py:139-145. -/
def importRef (mods : Modules) (sysPath : List PStr) (q : QualifiedRule) : Import :=
  if q.isLocal then mods.locals q.root q.module else mods.absolute sysPath q.module

/-- `except ImportError … raise CollectionError`, config.py:168-174. -/
def importToCollection : Err → Err
  | .importError => .collection
  | e => e

/-- The part of `find_rules` after the walk, config.py:147-165, ftypes.py:116-117. The values of `module_rules` are all rule classes, so the
branches for other values are dead. -/
def selectRules (q : QualifiedRule) (found : List (PStr × ClassDef)) : Except Err (List ClassDef) :=
  match q.named with
  | some n => match ruleGet n found with
    | some c => .ok [c]
    | none => .error .collection
  | none => .ok ((sortBy (keyLt Prod.fst) found).map (·.2))

/-- `find_rules`, config.py:128-174, in terms of class statements. -/
def findDefs (mods : Modules) (sysPath : List PStr) (q : QualifiedRule) : Except Err (List ClassDef) :=
  match walkImport (importRef mods sysPath q) with
  | .error e => .error (importToCollection e)
  | .ok found => selectRules q found

/-- Modules removed from `sys.modules` when `local_rule_loader` exits, config.py:122-125. -/
def isLocalModule (m : PStr) : Bool := startsWith m (py "fixit.local")

/-- The class object a definition stands for in the `n`-th load: local modules are executed afresh in every load (`local_rule_loader`,
config.py:86-125), all others stay in `sys.modules`. -/
def classOf (n : Nat) (q : QualifiedRule) (c : ClassDef) : Cls :=
  ⟨c, if q.isLocal && isLocalModule c.module then n else 0⟩

/-- `find_rules` as a computation on the number of loads done so far (config.py:128-174). -/
def findRules (mods : Modules) (sysPath : List PStr) (n : Nat) (q : QualifiedRule) : Except Err (List Cls) × Nat :=
  ((findDefs mods sysPath q).map (fun l => l.map (classOf (n + 1) q)), n + 1)

/-! ## collect_rules -/

/-- What `collect_rules` depends on: `K` are class objects, `M` is the state of the import system.
`find` is `find_rules` run to its end (importing is assumed not to change `sys.path`); exceptions are subclasses of `Exception` (config.py:202-272). -/
structure CollectEnv (K V M : Type) where
  find : List PStr → M → QualifiedRule → Except Err (List K) × M
  /-- `R.TAGS` -/
  tags : K → List PStr
  /-- `version in SpecifierSet(R.PYTHON_VERSION)` -/
  supports : V → K → Except Err Bool
  /-- `R()` raises -/
  make : K → Except Err Unit

/-- Why a rule was dropped, config.py:243, 256, 263. -/
inductive Reason where
  | disabled | tags | pythonVersion
  deriving DecidableEq, Repr

/-- The variables of `collect_rules`, config.py:212-217, the warnings logged and the import state. -/
structure CState (K M : Type) where
  all : List K
  named : List K
  reasons : List (K × Reason)
  warned : List QualifiedRule
  mods : M

section
variable {K V M : Type} [DecidableEq K] (env : CollectEnv K V M)

/-- `s |= t` (config.py:232-233). -/
def setUnion (s t : List K) : List K := t.foldl (fun s x => setAdd id x s) s

/-- `s -= set(d)` (config.py:248, 258, 268). -/
def setMinus (s : List K) (d : List (K × Reason)) : List K := s.filter (fun x => x ∉ d.map (·.1))

/-- One enable, config.py:228-237. -/
def enableOne (path : List PStr) (q : QualifiedRule) (s : CState K M) : CState K M :=
  match env.find path s.mods q with
  | (.error _, m) => { s with warned := s.warned ++ [q], mods := m }
  | (.ok cs, m) =>
    { s with named := (if q.named.isSome then setUnion s.named (setOf id cs) else s.named),
             all := setUnion s.all (setOf id cs), mods := m }

/-- config.py:228-237. -/
def enableAll (path : List PStr) : List QualifiedRule → CState K M → CState K M
  | [], s => s
  | q :: qs, s => enableAll path qs (enableOne env path q s)

/-- One disable, config.py:239-252. -/
def disableOne (path : List PStr) (q : QualifiedRule) (s : CState K M) : CState K M :=
  match env.find path s.mods q with
  | (.error _, m) => { s with warned := s.warned ++ [q], mods := m }
  | (.ok cs, m) =>
    let reasons := dictUpdate s.reasons ((cs.filter (fun r => r ∉ s.named)).map (fun r => (r, Reason.disabled)))
    { s with reasons := reasons, all := setMinus s.all reasons, mods := m }

/-- config.py:239-252. -/
def disableAll (path : List PStr) : List QualifiedRule → CState K M → CState K M
  | [], s => s
  | q :: qs, s => disableAll path qs (disableOne env path q s)

/-- config.py:254-258. `order` is the iteration order of the set. -/
def tagStage (order : List K → List K) (t : Tags) (s : CState K M) : CState K M :=
  if t.truthy then
    let reasons := dictUpdate s.reasons (((order s.all).filter (fun r => !t.contains (env.tags r))).map (fun r => (r, Reason.tags)))
    { s with reasons := reasons, all := setMinus s.all reasons }
  else s

/-- The comprehension of config.py:261-267. -/
def unsupported (v : V) : List K → Except Err (List K)
  | [] => .ok []
  | r :: rs => do
    let b ← env.supports v r
    let rest ← unsupported v rs
    return if b then rest else r :: rest

/-- config.py:260-268. -/
def versionStage (order : List K → List K) (v : Option V) (s : CState K M) : Except Err (CState K M) :=
  match v with
  | none => .ok s
  | some v => do
    let bad ← unsupported env v (order s.all)
    let reasons := dictUpdate s.reasons (bad.map (fun r => (r, Reason.pythonVersion)))
    return { s with reasons := reasons, all := setMinus s.all reasons }

/-- `[R() for R in all_rules]`, config.py:270: each instance is represented by its class. -/
def materialize : List K → Except Err (List K)
  | [] => .ok []
  | r :: rs => do
    env.make r
    return r :: (← materialize rs)

/-- What is left when `collect_rules` returns (config.py:206, 272). -/
structure Collected (K M : Type) where
  rules : List K
  reasons : List (K × Reason)
  warned : List QualifiedRule
  mods : M

/-- The body of the `with` statement, config.py:228-270. -/
def collectBody (order : List K → List K) (cfg : Config V) (mods : M) (path : List PStr) : Except Err (Collected K M) := do
  let s := enableAll env path cfg.enable { all := [], named := [], reasons := [], warned := [], mods := mods }
  let s := disableAll env path cfg.disable s
  let s := tagStage env order cfg.tags s
  let s ← versionStage env order cfg.pyver s
  let rules ← materialize env (order s.all)
  return { rules := rules, reasons := s.reasons, warned := s.warned, mods := s.mods }

end

/-- `path.as_posix()` (util.py:80). -/
def asPosix (p : Path) : PStr := '/' :: join ['/'] p

/-- `list.remove(x)`: the first occurrence (util.py:86). -/
def removeFirst (x : PStr) : List PStr → List PStr
  | [] => []
  | y :: ys => if y = x then ys else y :: removeFirst x ys

/-- `append_sys_path`, util.py:72-90, around a body. There is no `try`/`finally`: the removal is skipped when the body raises. -/
def appendSysPath {α : Type} (path : Path) (sysPath : List PStr) (body : List PStr → Except Err α) : Except Err α × List PStr :=
  if asPosix path ∈ sysPath then (body sysPath, sysPath)
  else
    match body (sysPath ++ [asPosix path]) with
    | .ok a => (.ok a, removeFirst (asPosix path) (sysPath ++ [asPosix path]))
    | .error e => (.error e, sysPath ++ [asPosix path])

/-- The directory to import from, config.py:220-225. -/
def importDir {V : Type} (cfg : Config V) : Option Path :=
  match cfg.rootImport with
  | .off => none
  | .on => some cfg.root
  | .sub parts => some (cfg.root ++ parts)

/-- `collect_rules`, config.py:202-272, with `sys.path` before and after. `debug_reasons` starts empty, as in cli.py. -/
def collectRules {K V M : Type} [DecidableEq K] (env : CollectEnv K V M) (order : List K → List K) (cfg : Config V) (sysPath : List PStr)
    (mods : M) : Except Err (Collected K M) × List PStr :=
  match importDir cfg with
  | none => (collectBody env order cfg mods sysPath, sysPath)
  | some p => appendSysPath p sysPath (collectBody env order cfg mods)

/-! ## validate_config -/

/-- A message of `validate_config`, taken apart (config.py:616-622, 640); `Report.text` is the text. -/
inductive Report where
  /-- `Failed to parse rule …` -/
  | parse (rule : Toml) (context : PStr) (e : Err)
  /-- `Failed to import rule …` -/
  | imp (rule : Toml) (context : PStr) (e : Err)
  /-- `Invalid config: …` -/
  | invalid (e : Err)

/-- `for x in value`: strings iterate over characters, tables over keys (config.py:609, 628). -/
def iterToml : Toml → Except Err (List Toml)
  | .arr l => .ok l
  | .str s => .ok (s.map (fun c => .str [c]))
  | .tbl d => .ok (d.map (fun e => .str e.1))
  | _ => .error .type

/-- `for x in data.get(key, [])` (config.py:625-637). -/
def iterField (key : PStr) (d : Dict) : Except Err (List Toml) :=
  match dget key d with
  | none => .ok []
  | some v => iterToml v

section
variable {K M : Type} (find : M → QualifiedRule → Except Err (List K) × M)

/-- One rule in `validate_rules`, config.py:609-622. -/
def validateOne (root : Path) (ctx : PStr) (rule : Toml) (m : M) : List Report × M :=
  match parseRuleToml root rule with
  | .error e => ([.parse rule ctx e], m)
  | .ok q => match find m q with
    | (.ok _, m) => ([], m)
    | (.error e, m) => ([.imp rule ctx e], m)

/-- `validate_rules`, config.py:608-622. -/
def validateRules (root : Path) (ctx : PStr) : List Toml → M → List Report × M
  | [], m => ([], m)
  | r :: rs, m =>
    let (a, m) := validateOne find root ctx r m
    let (b, m) := validateRules root ctx rs m
    (a ++ b, m)

/-- `validate_rules(data.get(key, []), ctx)`: the messages so far are kept when iteration itself raises (config.py:608-637). -/
def validateField (root : Path) (key ctx : PStr) (d : Dict) (s : List Report × M) : List Report × M × Option Err :=
  match iterField key d with
  | .error e => (s.1, s.2, some e)
  | .ok l => let (r, m) := validateRules find root ctx l s.2; (s.1 ++ r, m, none)

/-- The root of a path written like this, as `str(Path(s))` keeps it: two leading slashes are kept, three or more are one (config.py:629). -/
def pathAnchor : PStr → PStr
  | '/' :: '/' :: '/' :: _ => py "/"
  | '/' :: '/' :: _ => py "//"
  | '/' :: _ => py "/"
  | _ => []

/-- `str(Path(s))`, config.py:629, 632, 636. -/
def pathText (s : PStr) : PStr :=
  if pathAnchor s = [] ∧ relParts s = [] then py "." else pathAnchor s ++ join ['/'] (relParts s)

/-- `Path(override.get("path", path))`, config.py:629: as text, for the context of the message. -/
def overrideCtx (path : Path) (o : Dict) : Except Err PStr :=
  match dget (py "path") o with
  | none => .ok (asPosix path)
  | some (.str s) => .ok (pathText s)
  | some _ => .error .type

/-- `` f"override enable: `{override_path}`" ``, config.py:632, 636. -/
def overrideContext (what c : PStr) : PStr := what ++ py ": `" ++ c ++ py "`"

/-- One override, config.py:628-637. -/
def validateOverride (path : Path) (o : Toml) (s : List Report × M) : List Report × M × Option Err :=
  match o with
  | .tbl o =>
    match overrideCtx path o with
    | .error e => (s.1, s.2, some e)
    | .ok c =>
      match validateField find path.parent (py "enable") (overrideContext (py "override enable") c) o s with
      | (r, m, some e) => (r, m, some e)
      | (r, m, none) => validateField find path.parent (py "disable") (overrideContext (py "override disable") c) o (r, m)
  | _ => (s.1, s.2, some .attribute)

/-- config.py:628-637. -/
def validateOverrides (path : Path) : List Toml → List Report × M → List Report × M × Option Err
  | [], s => (s.1, s.2, none)
  | o :: os, s =>
    match validateOverride find path o s with
    | (r, m, some e) => (r, m, some e)
    | (r, m, none) => validateOverrides path os (r, m)

/-- The loop header `for override in data.get("overrides", [])`, config.py:628. -/
def validateOverridesField (path : Path) (d : Dict) (s : List Report × M) : List Report × M × Option Err :=
  match iterField (py "overrides") d with
  | .error e => (s.1, s.2, some e)
  | .ok l => validateOverrides find path l s

/-- The body of the outer `try` after the file was read, config.py:624-637. -/
def validateData (path : Path) (d : Dict) (m : M) : List Report × M × Option Err :=
  match validateField find path.parent (py "enable") (py "global enable") d ([], m) with
  | (r, m, some e) => (r, m, some e)
  | (r, m, none) =>
    match validateField find path.parent (py "disable") (py "global disable") d (r, m) with
    | (r, m, some e) => (r, m, some e)
    | (r, m, none) => validateOverridesField find path d (r, m)

/-- `validate_config`, config.py:597-642. `sys.path` is not extended, so `find` is at the caller's `sys.path`. -/
def validateConfig (load : Path → Except Err Dict) (path : Path) (m : M) : List Report :=
  match (readConfigs load [path]).1 with
  | .error e => [.invalid e]
  | .ok [] => [.invalid .index]
  | .ok (c :: _) =>
    match validateData find path c.data m with
    | (r, _, none) => r
    | (r, _, some e) => r ++ [.invalid e]

end

end Fixit
