import Verif.Spec.StrLit
import Verif.Spec.PyEval
import Verif.Model.Rules.Strings

/-!
# What `%` formatting with `%s` means, and what f-strings mean

After the Python library reference ("printf-style String Formatting") and the language reference ("f-strings").
-/

namespace Spec
open Py Cst

/-- A format string with no conversions but `%s`: the characters, and `none` for each `%s`. The result is `none` when there is another conversion. -/
def percentItems : List Nat → Option (List (Option Nat))
  | [] => some []
  | c :: t =>
    if c = 37 then
      match t with
      | [] => none
      | d :: u =>
        if d = 115 then (percentItems u).map (none :: ·)
        else if d = 37 then (percentItems u).map (some 37 :: ·)
        else none
    else (percentItems t).map (some c :: ·)

/-- The pieces of a format with the source texts of expressions in its holes. -/
def fillCodes : List (Option Nat) → List PStr → List Item
  | [], _ => []
  | some c :: its, codes => .inl c :: fillCodes its codes
  | none :: its, code :: codes => .inr code :: fillCodes its codes
  | none :: _, [] => []

/-- The pieces of a format with values in its holes: `none` when there are too few or too many (a `TypeError`). -/
def fillValues {V : Type} (toStr : V → List Nat) : List (Option Nat) → List V → Option (List Nat)
  | [], [] => some []
  | [], _ :: _ => none
  | some c :: its, vs => (fillValues toStr its vs).map (c :: ·)
  | none :: its, v :: vs => (fillValues toStr its vs).map (toStr v ++ ·)
  | none :: _, [] => none

/-- The arguments of `… % right`: a tuple gives its items (a tuple display, the values of its elements), anything else is one argument. -/
def percentArgs (I : Interp) (ρ : I.Locals) (items : I.Val → Option (List I.Val)) (right : Expr) : Run I.St I.Exc (List I.Val) :=
  match right.core with
  | .tuple es => evalElems I ρ es
  | _ => (eval I ρ right).bind fun v => Run.pure (match items v with | some vs => vs | none => [v])

/-- `format % right`. -/
def percentRun (I : Interp) (ρ : I.Locals) (items : I.Val → Option (List I.Val)) (toStr : I.Val → List Nat) (typeError : I.Exc) (its : List (Option Nat)) (right : Expr) :
    Run I.St I.Exc (List Nat) :=
  (percentArgs I ρ items right).bind fun vs =>
    match fillValues toStr its vs with
    | some r => Run.pure r
    | none => Run.raise typeError

/-- An f-string with these characters and, in the holes, these expressions: each is evaluated and formatted before the next one. -/
def fstringRun (I : Interp) (ρ : I.Locals) (format : I.Val → List Nat) : List (Option Nat) → List Expr → Run I.St I.Exc (List Nat)
  | [], _ => Run.pure []
  | some c :: its, es => (fstringRun I ρ format its es).bind fun r => Run.pure (c :: r)
  | none :: its, e :: es => (eval I ρ e).bind fun v => (fstringRun I ρ format its es).bind fun r => Run.pure (format v ++ r)
  | none :: _, [] => Run.pure []

/-- Every `%` is followed by an `s`. -/
def OnlyS (s : PStr) : Prop := ∀ u v, s = u ++ '%' :: v → v.head? = some 's'

/-- The source text of the parts of an f-string. -/
def renderParts (codegen : Expr → PStr) : List FPart → PStr
  | [] => []
  | .text t :: ps => t ++ renderParts codegen ps
  | .expr e spec :: ps => '{' :: (codegen e ++ spec ++ '}' :: renderParts codegen ps)

end Spec

namespace Cst
open Py

/-- The operand on the right is short: its source text, or, for a tuple display, that of each element, has less than 30 characters. -/
def ShortOperand (codegen : Expr → PStr) (e : Expr) : Prop :=
  (codegen e).length < 30 ∨ ∃ es, e.core = .tuple es ∧ ∀ x ∈ es, (codegen x.value).length < 30

end Cst
