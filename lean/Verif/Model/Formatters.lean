import Verif.Model.Api

/-!
# The formatters that come with Fixit: `BlackFormatter`

`ufmt` handles the same exception of black itself (`ufmt.ufmt_bytes`), so `UfmtFormatter` (format.py:56-68) stays a parameter (`Env.styles`).
-/

namespace Fixit
open Py

/-- What `BlackFormatter.format` uses, format.py:43-54: ufmt's `make_black_config`, black's `format_str`, its checks of the result (`fast=False`), and the UTF-8 codec. -/
structure Black where
  Mode : Type
  config : Path → Except Err Mode
  formatStr : Mode → PStr → Except Err PStr
  check : Mode → PStr → PStr → Option Err
  decode : Bytes → Except Err PStr
  encode : PStr → Except Err Bytes
  /-- `black.NothingChanged` -/
  nothingChanged : Err

/-- `black.format_file_contents(src, fast=False, mode=mode)`, format.py:50-52: black's documented behaviour is to raise `NothingChanged` when the text is formatted already. -/
def Black.formatFileContents (B : Black) (mode : B.Mode) (src : PStr) : Except Err PStr :=
  match B.formatStr mode src with
  | .error e => .error e
  | .ok dst =>
    if src = dst then .error B.nothingChanged
    else match B.check mode src dst with
      | some e => .error e
      | none => .ok dst

/-- `BlackFormatter.format`, format.py:43-54; `bytes` is `module.bytes`. -/
def Black.format (B : Black) (bytes : Node → Except Err Bytes) (m : Node) (path : Path) : Except Err Bytes := do
  let mode ← B.config path
  let src ← bytes m
  let text ← B.decode src
  let content ← B.formatFileContents mode text
  B.encode content

end Fixit
