import Verif.Model.Api

/-!
# `lsp.py`

The server's main thread handles notifications and requests; every debounced call starts a `threading.Timer`, a thread. The model is a machine whose steps are
what the outside does (edits, notifications, requests, changes of files) and the steps of the timer threads, in any order: time is not modelled, so the runs
of the machine include the real ones for every interval and every speed.
-/

namespace Fixit
open Py

/-- A document URI (lsp.py:67, 85). -/
abbrev Uri := PStr

/-- `lsprotocol.types.Diagnostic`, as filled in at lsp.py:97-108. Lines are zero-based. -/
structure Diagnostic where
  startLine : Int
  startChar : Nat
  endLine : Int
  endChar : Nat
  message : PStr
  /-- `DiagnosticSeverity.Warning` is 2 -/
  severity : Nat
  code : PStr
  source : PStr
  deriving DecidableEq

/-- What the server depends on outside the modelled code (lsp.py:63, 72, 77, 80, 146). -/
structure Client where
  /-- `Uri.to_fs_path(uri)`; `none` also for the empty path -/
  fsPath : Uri → Option Path
  /-- `str.encode()` -/
  encode : PStr → Except Err Bytes
  /-- `bytes.decode()` -/
  decode : Bytes → Except Err PStr
  /-- `TextDocument.source` of a document that is not open: read from the disk by `pygls` -/
  diskText : (Path → Option Bytes) → Uri → Except Err PStr
  /-- `debounce_interval > 0` -/
  debounced : Bool

/-- Where a call of `_validate` is (lsp.py:85-110, 170-175). -/
inductive Phase (C : Type) where
  /-- the timer is waiting -/
  | waiting
  /-- the timer was cancelled while waiting -/
  | cancelled
  /-- the timer thread has found it was not cancelled, and calls `_validate` -/
  | running
  /-- a configuration was generated, and is to be put in the cache, lsp.py:63 -/
  | storing (path : Path) (content : Bytes) (cfg : C)
  /-- the cache is to be read, lsp.py:64 -/
  | returning (path : Path) (content : Bytes)
  /-- linting is to begin -/
  | ready (path : Path) (content : Bytes) (cfg : C)
  /-- returned or raised -/
  | ended

/-- A call of a debounced `_validate` for some document (lsp.py:85, 174). -/
structure Validation (C : Type) where
  version : Int
  phase : Phase C

/-- `publish_diagnostics`: the document, the version given, the diagnostics, and (for reference) which call it comes from (lsp.py:110). -/
structure Publication where
  uri : Uri
  call : Nat
  version : Int
  diagnostics : List Diagnostic

/-- `lsprotocol.types.TextEdit` (lsp.py:146). -/
structure TextEdit where
  startLine : Nat
  startChar : Nat
  endLine : Nat
  endChar : Nat
  newText : PStr
  deriving DecidableEq

/-- The state of the server and what it has sent (lsp.py:42-56, 164-168). -/
structure Server (C : Type) where
  files : Path → Option Bytes
  /-- the text of the open documents (kept by `pygls`) -/
  docs : Uri → Option PStr
  cache : Path → Option C
  /-- the calls made of the debouncer of a document, oldest first; its `_timer` is the last one -/
  calls : Uri → List (Validation C)
  sent : List Publication
  /-- the format requests of a document, oldest first, as far as they are not answered in one go -/
  requests : Uri → List (Phase C)
  /-- the replies to format requests; `.error` is an exception -/
  edits : List (Uri × Except Err (Option TextEdit))

/-- A server just started (lsp.py:42-56). -/
def Server.start {C : Type} (files : Path → Option Bytes) : Server C := ⟨files, fun _ => none, fun _ => none, fun _ => [], [], fun _ => [], []⟩

/-- What can happen (lsp.py:122-146, 170-175). -/
inductive LspEvent where
  /-- files change on the disk -/
  | files (f : Path → Option Bytes)
  /-- the workspace gets the text of a document (opened or changed) -/
  | edit (uri : Uri) (text : PStr)
  | close (uri : Uri)
  /-- `on_did_open` or `on_did_change`, lsp.py:122-126 -/
  | notify (uri : Uri) (version : Int)
  /-- the thread of a call takes its next step -/
  | step (uri : Uri) (call : Nat)
  /-- a format request that is answered before anything else happens -/
  | format (uri : Uri)
  /-- a format request that takes its time, lsp.py:128 -/
  | request (uri : Uri)
  /-- the main thread goes on with a format request -/
  | go (uri : Uri) (request : Nat)

/-! ## Debouncer -/

/-- `threading.Timer.cancel`: no effect once the thread is past its check (lsp.py:173). -/
def Validation.cancel {C : Type} (v : Validation C) : Validation C :=
  match v.phase with
  | .waiting => { v with phase := .cancelled }
  | _ => v

/-- `self._timer.cancel()` of the last call (lsp.py:172-173). -/
def cancelLast {C : Type} : List (Validation C) → List (Validation C)
  | [] => []
  | [v] => [v.cancel]
  | v :: vs => v :: cancelLast vs

/-- `Debouncer.__call__`, lsp.py:170-175 (with its lock: one step). -/
def debounceCall {C : Type} (version : Int) (calls : List (Validation C)) : List (Validation C) := cancelLast calls ++ [⟨version, .waiting⟩]

/-! ## Validation -/

/-- lsp.py:94-109. -/
def mirror (v : LintViolation) : Diagnostic :=
  ⟨(v.base.range.start.line : Int) - 1, v.base.range.start.column, (v.base.range.stop.line : Int) - 1, v.base.range.stop.column, v.base.message, 2,
   v.base.ruleName, py "fixit"⟩

/-- The loop of `_validate`, lsp.py:92-109. -/
def diagnosticsOf : List Result → List Diagnostic
  | [] => []
  | r :: rs => match r.violation with
    | none => diagnosticsOf rs
    | some v => mirror v :: diagnosticsOf rs

section
variable {C : Type} (env : Env C) (client : Client)

/-- `self.lsp.workspace.get_document(uri).source.encode()`, lsp.py:77-80. -/
def Server.source (s : Server C) (uri : Uri) : Except Err Bytes :=
  match s.docs uri with
  | some text => client.encode text
  | none => match client.diskText s.files uri with
    | .error e => .error e
    | .ok text => client.encode text

/-- The next phase of a call, and the cache then. The source is read before the configuration is loaded, lsp.py:77-83. -/
def nextPhase (s : Server C) (uri : Uri) : Phase C → Phase C
  | .waiting => .running
  | .cancelled => .cancelled
  | .running => match client.fsPath uri with
    | none => .ended
    | some path => match s.source client uri with
      | .error _ => .ended
      | .ok content => match s.cache path with
        | some _ => .returning path content
        | none => match env.config s.files path with
          | .error _ => .ended
          | .ok cfg => .storing path content cfg
  | .storing path content _ => .returning path content
  | .returning path content => match s.cache path with
    | some cfg => .ready path content cfg
    | none => .ended
  | .ready _ _ _ => .ended
  | .ended => .ended

/-- What a step of a call in this phase does to the cache (lsp.py:62-64). -/
def nextCache (s : Server C) : Phase C → Path → Option C
  | .storing path _ cfg => fun p => if p = path then some cfg else s.cache p
  | _ => s.cache

/-- Linting: all results of `fixit_bytes(path, content, autofix=False, config=cfg)` (lsp.py:78-83, 93). -/
def lintResults (s : Server C) (path : Path) (content : Bytes) (cfg : C) : List Result :=
  (Gen.drain none (fixitBytes env path content cfg false false) ⟨s.files, []⟩).1

/-- What a step of a call in this phase sends: `ready` lints and publishes, lsp.py:92-110. -/
def nextSent (s : Server C) (uri : Uri) (call : Nat) (version : Int) : Phase C → List Publication
  | .ready path content cfg => [⟨uri, call, version, diagnosticsOf (lintResults env s path content cfg)⟩]
  | _ => []

/-- One document's calls replaced (lsp.py:116-120). -/
def setCalls (calls : Uri → List (Validation C)) (uri : Uri) (l : List (Validation C)) : Uri → List (Validation C) := fun u => if u = uri then l else calls u

/-- The thread of a call takes a step (lsp.py:85-110). -/
def Server.stepCall (s : Server C) (uri : Uri) (i : Nat) : Server C :=
  match (s.calls uri)[i]? with
  | none => s
  | some v =>
    { s with
      calls := setCalls s.calls uri ((s.calls uri).set i ⟨v.version, nextPhase env client s uri v.phase⟩)
      cache := nextCache s v.phase
      sent := s.sent ++ nextSent env s uri i v.version v.phase }

/-- `validate`, lsp.py:112-120. Each document has its own debouncer. Without a positive interval `debounce` gives the function itself, lsp.py:185-190:
`_validate` is run to its end at once (recorded as a call, too). -/
def Server.validate (s : Server C) (uri : Uri) (version : Int) : Server C :=
  if client.debounced then { s with calls := setCalls s.calls uri (debounceCall version (s.calls uri)) }
  else
    let i := (s.calls uri).length
    let s₀ : Server C := { s with calls := setCalls s.calls uri (s.calls uri ++ [Validation.mk version .running]) }
    (((s₀.stepCall env client uri i).stepCall env client uri i).stepCall env client uri i).stepCall env client uri i

/-! ## Formatting -/

/-- A line boundary of `str.splitlines` (lsp.py:143). -/
def isLineBreak (c : Char) : Bool :=
  c == '\n' || c == '\r' || c == '\x0b' || c == '\x0c' || c == '\x1c' || c == '\x1d' || c == '\x1e' || c == '\u0085' || c == '\u2028' || c == '\u2029'

/-- Put a character in front of the first line (lsp.py:143). -/
def consLine (c : Char) : List PStr → List PStr
  | [] => [[c]]
  | l :: ls => (c :: l) :: ls

/-- `str.splitlines(True)`, which is `TextDocument.lines` in `pygls` (lsp.py:143). -/
def splitLines : PStr → List PStr
  | [] => []
  | [c] => [[c]]
  | c :: d :: cs =>
    if c == '\r' && d == '\n' then [c, d] :: splitLines cs
    else if isLineBreak c then [c] :: splitLines (d :: cs)
    else consLine c (splitLines (d :: cs))

/-- `load_config`, lsp.py:58-64, with nothing in between. -/
def Server.loadConfig (s : Server C) (path : Path) : Except Err C × Server C :=
  match s.cache path with
  | some cfg => (.ok cfg, s)
  | none => match env.config s.files path with
    | .error e => (.error e, s)
    | .ok cfg => (.ok cfg, { s with cache := fun p => if p = path then some cfg else s.cache p })

/-- The end of the range of the edit, lsp.py:143. -/
def wholeEnd (text : PStr) : Except Err (Nat × Nat) :=
  match (splitLines text).getLast? with
  | none => .error .index
  | some l => .ok ((splitLines text).length - 1, l.length)

/-- The text of a document, again (lsp.py:77, 140). -/
def Server.text (s : Server C) (uri : Uri) : Except Err PStr :=
  match s.docs uri with
  | some text => .ok text
  | none => client.diskText s.files uri

/-- lsp.py:133-146, given what `fixit_bytes(..., autofix=True)` returned. -/
def editFor (s : Server C) (uri : Uri) (formatted : Option Bytes) : Except Err (Option TextEdit) :=
  match formatted with
  | none => .ok none
  | some [] => .ok none
  | some (b :: bs) => do
    let text ← s.text client uri
    let (line, char) ← wholeEnd text
    let new ← client.decode (b :: bs)
    return some ⟨0, 0, line, char, new⟩

/-- The value a finished generator returned (lsp.py:133-136). -/
def returnedValue {R : Type} : Gen.Status (Option R) → Option R
  | .returned r => r
  | _ => none

/-- The reply to a format request in this phase, if its next step ends it (lsp.py:128-146). The cache entry that was just stored cannot be missing (lsp.py:64); it would be a KeyError. -/
def requestReply (s : Server C) (uri : Uri) : Phase C → Option (Except Err (Option TextEdit))
  | .running => match client.fsPath uri with
    | none => some (.ok none)
    | some path => match s.source client uri with
      | .error e => some (.error e)
      | .ok _ => match s.cache path with
        | some _ => none
        | none => match env.config s.files path with
          | .error e => some (.error e)
          | .ok _ => none
  | .returning path _ => match s.cache path with
    | some _ => none
    | none => some (.error (.other 0))
  | .ready path content cfg => some (editFor client s uri (returnedValue (Gen.drain none (fixitBytes env path content cfg true false) ⟨s.files, []⟩).2.1))
  | _ => none

/-- The main thread begins with a format request (lsp.py:128-129). -/
def Server.request (s : Server C) (uri : Uri) : Server C := { s with requests := fun u => if u = uri then s.requests u ++ [.running] else s.requests u }

/-- The main thread goes on with a format request (lsp.py:58-83, 128-146): the same phases as those of a validation, ending in a reply. Timer threads may go on between the steps. In the code the main thread takes no other
message before it has replied; here it may, so the histories of this model include the real ones. -/
def Server.stepRequest (s : Server C) (uri : Uri) (i : Nat) : Server C :=
  match (s.requests uri)[i]? with
  | none => s
  | some phase =>
    { s with
      requests := fun u => if u = uri then (s.requests uri).set i (nextPhase env client s uri phase) else s.requests u
      cache := nextCache s phase
      edits := s.edits ++ (requestReply env client s uri phase).toList.map (fun r => (uri, r)) }

/-- `format`, lsp.py:128-146, when no other thread does anything meanwhile: see `Server.stepRequest` for the steps. -/
def Server.format (s : Server C) (uri : Uri) : Server C :=
  match client.fsPath uri with
  | none => { s with edits := s.edits ++ [(uri, .ok none)] }
  | some path => match s.source client uri with
    | .error e => { s with edits := s.edits ++ [(uri, .error e)] }
    | .ok content => match s.loadConfig env path with
      | (.error e, s') => { s' with edits := s'.edits ++ [(uri, .error e)] }
      | (.ok cfg, s') => { s' with edits := s'.edits ++ [(uri,
          editFor client s' uri (returnedValue (Gen.drain none (fixitBytes env path content cfg true false) ⟨s'.files, []⟩).2.1))] }

/-- What happens (lsp.py:85-146). -/
def Server.next (s : Server C) : LspEvent → Server C
  | .files f => { s with files := f }
  | .edit uri text => { s with docs := fun u => if u = uri then some text else s.docs u }
  | .close uri => { s with docs := fun u => if u = uri then none else s.docs u }
  | .notify uri version => s.validate env client uri version
  | .step uri i => s.stepCall env client uri i
  | .format uri => s.format env client uri
  | .request uri => s.request uri
  | .go uri i => s.stepRequest env client uri i

/-- A whole history (lsp.py:85-146). -/
def Server.run (s : Server C) (es : List LspEvent) : Server C := es.foldl (Server.next env client) s

end

end Fixit
