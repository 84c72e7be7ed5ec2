import Verif.Model.Collect

/-!
# `append_sys_path` around code that changes `sys.path` itself (util.py:72-90)

`Model/Collect.lean` runs `append_sys_path` around a body that only reads `sys.path`. Importing a rule module runs its
code, which may change `sys.path`; here the body hands back the list as it leaves it, also when it raises.
-/

namespace Fixit
open Py

/-- `append_sys_path(path)` around a body, util.py:72-90: the body's outcome and `sys.path` after the `with` statement.
`list.remove` raises ValueError when the entry is gone (util.py:86). -/
def withSysPath {α : Type} (path : Path) (sysPath : List PStr) (body : List PStr → Except Err α × List PStr) : Except Err α × List PStr :=
  if asPosix path ∈ sysPath then body sysPath
  else
    match body (sysPath ++ [asPosix path]) with
    | (.ok a, left) => if asPosix path ∈ left then (.ok a, removeFirst (asPosix path) left) else (.error .value, left)
    | (.error e, left) => (.error e, left)

end Fixit
