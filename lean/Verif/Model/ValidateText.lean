import Verif.Model.Collect
import Verif.Model.Messages

/-!
# The texts `validate_config` returns
-/

namespace Fixit
open Py

/-- What is left open about values and exceptions that are not ConfigErrors: `str(value)` of a value that is not a string, `e.__class__.__name__` and `str(e)`
(config.py:616-622, 640). -/
structure Words where
  reprs : Reprs
  value : Toml → PStr
  errClass : Err → PStr
  errText : Err → PStr

/-- `f"{e.__class__.__name__}: {e}"`, config.py:617, 621, 640. The names of the exception classes that Fixit or the interpreter raise here are fixed. -/
def Words.error (W : Words) : Err → PStr
  | .config m => py "ConfigError: " ++ messageText W.reprs m
  | .collection => py "CollectionError: " ++ W.errText .collection
  | .type => py "TypeError: " ++ W.errText .type
  | .attribute => py "AttributeError: " ++ W.errText .attribute
  | e => W.errClass e ++ py ": " ++ W.errText e

/-- `f"{rule}"`, config.py:617, 621. -/
def Words.rule (W : Words) : Toml → PStr
  | .str s => s
  | t => W.value t

/-- The text of a message, config.py:616-622, 640. -/
def Report.text (W : Words) : Report → PStr
  | .parse rule context e => py "Failed to parse rule `" ++ W.rule rule ++ py "` for " ++ context ++ py ": " ++ W.error e
  | .imp rule context e => py "Failed to import rule `" ++ W.rule rule ++ py "` for " ++ context ++ py ": " ++ W.error e
  | .invalid e => py "Invalid config: " ++ W.error e

/-- `validate_config`, config.py:597-642: the list of strings it returns. -/
def validateTexts {K M : Type} (W : Words) (find : M → QualifiedRule → Except Err (List K) × M) (load : Path → Except Err Dict) (path : Path) (m : M) : List PStr :=
  (validateConfig find load path m).map (Report.text W)

end Fixit
