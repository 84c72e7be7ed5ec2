import Verif.Model.Refs

/-!
# TOML values and paths, as the configuration code sees them
-/

namespace Fixit
open Py

/-- A value produced by `tomllib.loads`. Floats and dates are opaque (`float 0` stands for `±0.0`, the only falsy float) (config.py:324). -/
inductive Toml where
  | str (s : PStr)
  | int (n : Int)
  | float (n : Int)
  | bool (b : Bool)
  | date (n : Nat)
  | arr (l : List Toml)
  | tbl (d : List (PStr × Toml))

/-- A TOML table (Python dict): keys are distinct, which the lookup and pop below do not rely on (config.py:324-331, 478). -/
abbrev Dict := List (PStr × Toml)

/-- Python truth value (config.py:327, 331, 479-509). -/
def Toml.truthy : Toml → Bool
  | .str s => !s.isEmpty
  | .int n => n != 0
  | .float n => n != 0
  | .bool b => b
  | .date _ => true
  | .arr l => !l.isEmpty
  | .tbl d => !d.isEmpty

/-- `d.get(k)` (config.py:325, 331, 525). -/
def dget (k : PStr) (d : Dict) : Option Toml := (d.find? (fun e => e.1 = k)).map (·.2)

/-- The dict after `d.pop(k, default)` (config.py:342-360, 479-518, 537-538). -/
def ddel (k : PStr) (d : Dict) : Dict := d.filter (fun e => e.1 ≠ k)

/-- Values allowed as rule options, ftypes.py:43 (`str`, `int`, `float`; a `bool` is an `int`). -/
inductive OptVal where
  | str (s : PStr)
  | int (n : Int)
  | float (n : Int)
  | bool (b : Bool)
  deriving DecidableEq, Repr

/-- `isinstance(value, RuleOptionTypes)`, config.py:371. -/
def Toml.toOptVal : Toml → Option OptVal
  | .str s => some (.str s)
  | .int n => some (.int n)
  | .float n => some (.float n)
  | .bool b => some (.bool b)
  | _ => none

/-! ## Paths -/

/-- `path.parent` of an absolute path; the parent of `/` is `/` (config.py:291, 305, 439). -/
def Path.parent (p : Path) : Path := p.dropLast

/-- `path.relative_to(root)` succeeds (config.py:294, 434-437). -/
def Path.under (path root : Path) : Bool := root.isPrefixOf path

/-- One component during `resolve()` of a path without symbolic links: empty and `.` are dropped, `..` goes up (config.py:322, 433, 567, api.py:169, 204). -/
def resolveStep (acc : Path) (c : PStr) : Path :=
  if c = [] ∨ c = py "." then acc else if c = py ".." then acc.dropLast else acc ++ [c]

/-- `(dir / s).resolve()` on POSIX: an absolute `s` replaces `dir`. Symbolic links are not modelled (config.py:322, 433, 567, api.py:169, 204). -/
def resolveFrom (dir : Path) (s : PStr) : Path :=
  (splitOn '/' s).foldl resolveStep (if startsWith s ['/'] then [] else dir)

/-- `Path(s).parts` of a relative path (config.py:488-493). -/
def relParts (s : PStr) : List PStr := (splitOn '/' s).filter (fun c => c ≠ [] ∧ c ≠ py ".")

end Fixit
