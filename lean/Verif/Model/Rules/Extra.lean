import Verif.Model.Rules.Expr

/-!
# The extra rules: ExplicitFrozenDataclass and UseLintFixmeComment
-/

namespace Cst
open Py

/-- `func` and `args` (rules/extra/explicit_frozen_dataclass.py:238-243). -/
def decoratorCall (d : Expr) : Expr × List Arg :=
  match d.core with
  | .call f as => (f, as)
  | _ => (d, [])

/-- The new argument (rules/extra/explicit_frozen_dataclass.py:253-260). -/
def frozenArg : Arg := .mk .none (some (py "frozen")) (.name (py "True"))

/-- One round of the loop (rules/extra/explicit_frozen_dataclass.py:230-263): the new decorator, if this one is reported. `isDataclass` is `QualifiedNameProvider.has_name` for
`dataclasses.dataclass`. -/
def frozenDecorator (isDataclass : Expr → Bool) (d : Expr) : Option Expr :=
  if isDataclass d then
    if (decoratorCall d).2.any (fun a => a.keyword == some (py "frozen")) then none
    else some (.call (decoratorCall d).1 ((decoratorCall d).2 ++ [frozenArg]))
  else none

/-- `visit_ClassDef` (rules/extra/explicit_frozen_dataclass.py:228-263): the reports, with the number of the decorator. -/
def frozenReports (isDataclass : Expr → Bool) (decorators : List Expr) : List (Nat × Expr) :=
  decorators.zipIdx.filterMap (fun p => (frozenDecorator isDataclass p.1).map (fun e => (p.2, e)))

/-- `visit_Comment` (rules/extra/use_lint_fixme_comment.py:58-61): whether the comment is reported. No letter outside ASCII has a lower case in `noqa`. -/
def noqaComment (value : PStr) : Bool := (value.take (py "# noqa").length).map Char.toLower == py "# noqa"

end Cst
