import Verif.Py.Repr
import Verif.Model.Config

/-!
# The messages of configuration errors
-/

namespace Fixit
open Py

/-- What the interpreter writes for the values left open: which characters beyond ASCII are printable, floats, dates and the types of dates (config.py:372-375, 468-470). -/
structure Reprs where
  printable : Char → Bool
  float : Int → PStr
  date : Nat → PStr
  dateType : Nat → PStr

/-- A piece of a message (config.py:346-349, 362-365, 372-375, 389, 458-461, 468-470). -/
def Piece.render (R : Reprs) : Piece → PStr
  | .text s => s
  | .str s => reprStr R.printable s
  | .int n => (toString n).toList
  | .float n => R.float n
  | .bool b => if b then py "True" else py "False"
  | .date n => R.date n
  | .dateType n => R.dateType n

/-- `str(error)` of a ConfigError: its message, whatever the `config` it carries (config.py:64-67). -/
def messageText (R : Reprs) (m : List Piece) : PStr := m.flatMap (Piece.render R)

end Fixit
