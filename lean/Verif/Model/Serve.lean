import Verif.Model.Refs

/-!
# The command `lsp` of `cli.py` and `LSP.start` of `lsp.py`
-/

namespace Fixit

/-- Where the server listens, always on `localhost` (lsp.py:153-157). -/
inductive Transport where
  | ws (port : Int)
  | tcp (port : Int)
  | stdio
  deriving DecidableEq

/-- An option given to `fixit lsp`, cli.py:249-257 (`--debounce-interval` has nothing to do with the channels: `Client.debounced`). -/
inductive LspFlag where
  | stdio (b : Bool)
  | tcp (port : Int)
  | ws (port : Int)

/-- `LSPOptions`, ftypes.py:198-206, without the interval. -/
structure LspOptions where
  tcp : Option Int
  ws : Option Int
  stdio : Bool
  deriving DecidableEq

/-- The value `click` passes for an option: the last one given (cli.py:249-257). -/
def setFlag (o : LspOptions) : LspFlag → LspOptions
  | .stdio b => { o with stdio := b }
  | .tcp p => { o with tcp := some p }
  | .ws p => { o with ws := some p }

/-- `LSPOptions(tcp=tcp, ws=ws, stdio=stdio, …)`, cli.py:258-276; the defaults are at cli.py:249-251. -/
def lspOptions (flags : List LspFlag) : LspOptions := flags.foldl setFlag ⟨none, none, true⟩

/-- `if self.lsp_options.ws:`, lsp.py:152, 154: neither absent nor zero. -/
def givenPort : Option Int → List Int
  | none => []
  | some p => if p = 0 then [] else [p]

/-- The calls `start_ws`, `start_tcp` and `start_io` one after the other, lsp.py:152-157. Each returns when that channel is served no longer, or raises;
how it ends may depend on the ones before it. -/
def serveAll (serve : List Transport → Transport → Except Err Unit) : List Transport → List Transport → List Transport × Except Err Unit
  | past, [] => (past, .ok ())
  | past, c :: cs => match serve past c with
    | .error e => (past ++ [c], .error e)
    | .ok _ => serveAll serve (past ++ [c]) cs

/-- `LSP.start`, lsp.py:148-157: the channels served, in order, and how it ends. -/
def startServer (serve : List Transport → Transport → Except Err Unit) (o : LspOptions) : List Transport × Except Err Unit :=
  serveAll serve [] ((givenPort o.ws).map .ws ++ (givenPort o.tcp).map .tcp ++ (if o.stdio then [.stdio] else []))

/-- `fixit lsp`, cli.py:247-278. -/
def lspCommand (serve : List Transport → Transport → Except Err Unit) (flags : List LspFlag) : List Transport × Except Err Unit :=
  startServer serve (lspOptions flags)

end Fixit
