import Verif.Model.Engine

/-!
# `api.py` and `format.py`
-/

namespace Fixit
open Py

/-- `Result`, ftypes.py:277-285 (the traceback text is left out). -/
structure Result where
  path : Path
  violation : Option LintViolation
  error : Option Err

/-- What a consumer may send: nothing (`next`), or an answer (the send type `bool`, api.py:104, 134). -/
abbrev Answer := Option Bool

/-- `bool(fix)` (api.py:135). -/
def Answer.yes : Answer → Bool
  | some b => b
  | none => false

/-- A generator of results (`Generator[Result, bool, …]`, api.py:104, 159, 192, 245). -/
abbrev Linting (R : Type) := Gen World Result Answer R

section
variable {C : Type} (env : Env C)

/-- `FORMAT_STYLES[name]`, format.py:20-34: a later class with the same name replaces an earlier one. -/
def styleOf (name : PStr) : List (PStr × (Node → Path → Except Err Bytes)) → Option (Node → Path → Except Err Bytes)
  | [] => none
  | (n, f) :: rest => match styleOf name rest with
    | some g => some g
    | none => if n = name then some f else none

/-- `format_module`, format.py:71-79; `FORMAT_STYLES[None]` is the plain `Formatter`, format.py:82. A missing style is a KeyError. -/
def formatModule (m : Node) (path : Path) (cfg : C) : Except Err Bytes :=
  match env.formatter cfg with
  | none => env.bytes m
  | some s => match styleOf s env.styles with
    | some f => f m path
    | none => .error (.other 2)

/-- The body of the loop over violations, api.py:132-136: `clean` and `pending_fixes` are carried along. -/
def onViolation (path : Path) (autofix : Bool) (v : LintViolation) (st : Bool × List LintViolation) : Linting (Bool × List LintViolation) :=
  .yield ⟨path, some v, none⟩ (fun s => .ret (false, if s.yes || autofix then st.2 ++ [v] else st.2))

/-- `yield Result(path, violation=None)` (api.py:125, 139). -/
def yieldClean (path : Path) : Linting Unit := .yield ⟨path, none, none⟩ (fun _ => .ret ())

/-- `yield Result(path, violation=None, error=...)` (api.py:148, 183, 219). -/
def yieldError (path : Path) (e : Err) : Linting Unit := .yield ⟨path, none, some e⟩ (fun _ => .ret ())

/-- api.py:138-143. -/
def finishBytes (path : Path) (cfg : C) (m : Node) (st : Bool × List LintViolation) : Linting (Option Bytes) :=
  (if st.1 then yieldClean path else .ret ()).bind (fun _ =>
    if st.2.isEmpty then .ret none
    else Gen.ofExcept (do
      let updated ← applyReplacements m (st.2.map LintViolation.fix)
      return some (← formatModule env updated path cfg)))

/-- The `try` body of `fixit_bytes`, api.py:121-143. -/
def bytesBody (path : Path) (content : Bytes) (cfg : C) (autofix hook : Bool) : Linting (Option Bytes) :=
  .look (fun w =>
    (Gen.ofExcept (env.collect w.files cfg)).bind (fun rules =>
      if rules.isEmpty then (yieldClean path).bind (fun _ => .ret none)
      else (Gen.ofExcept (env.parse content)).bind (fun m =>
        ((collectViolations env path m rules cfg hook).forIn (onViolation path autofix) (true, [])).bind (finishBytes env path cfg m))))

/-- `fixit_bytes`, api.py:97-150. -/
def fixitBytes (path : Path) (content : Bytes) (cfg : C) (autofix hook : Bool) : Linting (Option Bytes) :=
  (bytesBody env path content cfg autofix hook).except (fun e => (yieldError path e).bind (fun _ => .ret none))

/-- `sys.stdout.buffer.write(b)` (api.py:179). -/
def writeStdout (b : Bytes) : Linting Unit :=
  match env.stdoutRaises b with
  | some e => .raise e
  | none => .act (fun w => { w with log := w.log ++ [.stdout b] }) (fun _ => .ret ())

/-- `updated or content` (api.py:179). -/
def orElseBytes (updated : Option Bytes) (content : Bytes) : Bytes :=
  match updated with
  | some (b :: bs) => b :: bs
  | _ => content

/-- `fixit_stdin`, api.py:153-183, after `path = path.resolve()`. -/
def lintStdin (path : Path) (autofix hook : Bool) : Linting Unit :=
  ((Gen.ofExcept env.stdin).bind (fun content =>
    .look (fun w => (Gen.ofExcept (env.config w.files path)).bind (fun cfg =>
      (fixitBytes env path content cfg autofix hook).bind (fun updated =>
        if autofix then writeStdout env (orElseBytes updated content) else .ret ()))))).except (yieldError path)

/-- `fixit_stdin`, api.py:153-183. -/
def fixitStdin (path : Path) (autofix hook : Bool) : Linting Unit := lintStdin env (env.resolve path) autofix hook

/-- `path.read_bytes()` (api.py:207). -/
def readBytes {Y S : Type} (path : Path) : Gen World Y S Bytes :=
  .look (fun w => match w.files path with
    | none => .raise (.other 1)
    | some b => match env.readRaises path with
      | some e => .raise e
      | none => .ret b)

/-- The world with another content of a file (effect of api.py:215). -/
def World.put (w : World) (p : Path) (b : Bytes) : World := { w with files := fun q => if q = p then some b else w.files q }

/-- The world after bytes were written from the start of a file that is open: what was behind them stays, if another process has written it since the file was truncated (effect of api.py:215). -/
def World.overwrite (w : World) (p : Path) (b : Bytes) : World := w.put p (b ++ ((w.files p).getD []).drop b.length)

/-- The world after one more event (effects of api.py:179, 215 and engine.py:121). -/
def World.note (w : World) (e : Event) : World := { w with log := w.log ++ [e] }

/-- `path.write_bytes(b)`: open for writing (which truncates), then write. Each can fail, the write after part of the bytes (api.py:215). -/
def writeBytes {Y S : Type} (path : Path) (b : Bytes) : Gen World Y S Unit :=
  match env.openRaises path with
  | some e => .raise e
  | none => .act (fun w => (w.put path []).note (.opened path)) (fun _ =>
    match env.writeRaises path b with
    | some (n, e) => .act (fun w => (w.overwrite path (b.take n)).note (.wrote path (b.take n))) (fun _ => .raise e)
    | none => .act (fun w => (w.overwrite path b).note (.wrote path b)) (fun _ => .ret ()))

/-- `if updated and updated != content: path.write_bytes(updated)`, api.py:213-215. -/
def writeBack (path : Path) (content : Bytes) (updated : Option Bytes) : Linting Unit :=
  match updated with
  | none => .ret ()
  | some b => if b.isEmpty then .ret () else if b = content then .ret () else writeBytes env path b

/-- `fixit_file`, api.py:186-219, after `path = path.resolve()`. -/
def lintFile (path : Path) (autofix hook : Bool) : Linting Unit :=
  ((readBytes env path).bind (fun content =>
    .look (fun w => (Gen.ofExcept (env.config w.files path)).bind (fun cfg =>
      (fixitBytes env path content cfg autofix hook).bind (writeBack env path content))))).except (yieldError path)

/-- `fixit_file`, api.py:186-219. -/
def fixitFile (path : Path) (autofix hook : Bool) : Linting Unit := lintFile env (env.resolve path) autofix hook

end
end Fixit
