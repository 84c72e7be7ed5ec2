import Verif.Props.LspFormat
import Verif.Props.LspRequests
import Verif.Props.LspFresh
import Verif.Props.ApiCases

/-!
# Concrete histories of the language server, C62–C68
-/

namespace Fixit
open Py Py.Gen Spec

/-- The toy language with a configuration: whether the rule is on. A file `off` turns it off, a file `bad` is an invalid configuration. -/
def lspEnv : Env Bool where
  resolve := fun p => p
  config := fun f _ => if (f [py "bad"]).isSome then .error (.other 3) else .ok (f [py "off"]).isNone
  collect := fun _ on => .ok (if on then [toyRule] else [])
  parse := toyParse
  visit := fun _ _ m _ => .ok (fun _ => toyFind 1 (toyBytes m), [])
  unifiedDiff := fun _ _ _ => .ok []
  hookRaises := fun _ => none
  formatter := fun _ => none
  styles := []
  bytes := fun m => .ok (toyBytes m)
  readRaises := fun _ => none
  openRaises := fun _ => none
  writeRaises := fun _ _ => none
  stdin := .ok []
  stdoutRaises := fun _ => none

/-- `file:` URIs are files; one byte per character. -/
def lspClient (debounced : Bool) : Client where
  fsPath := fun u => if (py "file:").isPrefixOf u then some [u.drop 5] else none
  encode := fun t => .ok (t.map (fun c => UInt8.ofNat c.toNat))
  decode := fun b => .ok (b.map (fun x => Char.ofNat x.toNat))
  diskText := fun _ _ => .ok []
  debounced := debounced

def noFiles : Path → Option Bytes := fun _ => none
def withFile (p : Path) : Path → Option Bytes := fun q => if q = p then some [] else none

/-- Version and messages of what was published. -/
def published (s : Server Bool) (u : Uri) : List (Int × List PStr) := (publishedFor s u).map (fun p => (p.version, p.diagnostics.map (·.message)))

def allOver (s : Server Bool) (u : Uri) : Bool := (s.calls u).all (fun v => match v.phase with | .cancelled => true | .ended => true | _ => false)

theorem allOver_iff (s : Server Bool) (u : Uri) (h : allOver s u = true) : ∀ v ∈ s.calls u, Over v.phase := by
  intro v hv
  have := (List.all_eq_true.mp h) v hv
  cases hp : v.phase <;> rw [hp] at this <;> simp_all [Over]

def docA : Uri := py "file:a"
def docB : Uri := py "file:b"

/-- Opened, changed before the timer runs, changed again while the first validation is under way. -/
def busyHistory : List LspEvent :=
  [.edit docA (py "n"), .notify docA 1, .edit docB (py "d"), .notify docB 1, .edit docA (py "b"), .notify docA 2, .step docA 1, .step docB 0, .step docA 1,
   .edit docA (py "ab"), .notify docA 3, .step docA 0, .step docA 2, .step docA 2, .step docA 2, .step docA 2, .step docA 2, .step docB 0, .step docA 1, .step docA 1, .step docA 1,
   .step docB 0, .step docB 0, .step docB 0, .step docB 0]

/-- C62, C63, C64: version 1 was superseded while waiting and is not published; 2 and 3 are, in the other order; document `b` is not affected. -/
example :
    let s := (Server.start noFiles).run lspEnv (lspClient true) busyHistory
    published s docA = [(3, [py "b"]), (2, [py "b"])] ∧ published s docB = [(1, [py "d"])] ∧ allOver s docA = true ∧ notified docA busyHistory = [1, 2, 3] := by
  decide +kernel

/-- The hypotheses of `C62_latest` are met by this history. -/
example :
    let es₁ := [.edit docA (py "n"), .notify docA 1, .edit docB (py "d"), .notify docB 1, .edit docA (py "b"), .notify docA 2, .step docA 1, .step docB 0, .step docA 1]
    let es₂ := [.step docA 0, .step docA 2, .step docA 2, .step docA 2, .step docA 2, .step docA 2, .step docB 0, .step docA 1, .step docA 1, .step docA 1,
      .step docB 0, .step docB 0, .step docB 0, .step docB 0]
    busyHistory = es₁ ++ [.edit docA (py "ab"), .notify docA 3] ++ es₂ ∧ (∀ e ∈ es₂, LspEvent.changes docA e = false) ∧
    (lspClient true).fsPath docA = some [py "a"] ∧ ∀ v ∈ ((Server.start noFiles).run lspEnv (lspClient true) busyHistory).calls docA, Over v.phase := by
  refine ⟨rfl, by decide, by decide, allOver_iff _ _ (by decide +kernel)⟩

/-- C63: the first notification's thread did not move before the second, so the first is never answered. -/
example : ∀ p ∈ ((Server.start noFiles).run lspEnv (lspClient true)
      ([.edit docA (py "n")] ++ [.notify docA 1] ++ [.edit docB (py "d"), .notify docB 1, .edit docA (py "b")] ++ [.notify docA 2] ++ [.step docA 1, .step docA 0])).sent,
    ¬ (p.uri = docA ∧ p.call = 0) :=
  fun p hp => C63_superseded lspEnv (lspClient true) rfl noFiles _ _ _ docA 1 2 (by simp [notified]) p hp

/-- **Finding (C62)** The last diagnostics published need not be those of the last version: a validation under way is not stopped by a newer one, and may
publish after it. -/
theorem C62_stale_last : ∃ es : List LspEvent,
    let s := (Server.start noFiles).run lspEnv (lspClient true) es
    notified docA es = [1, 2] ∧ s.docs docA = some (py "a") ∧ allOver s docA = true ∧ published s docA = [(2, []), (1, [py "b"])] :=
  ⟨[.edit docA (py "b"), .notify docA 1, .step docA 0, .step docA 0, .edit docA (py "a"), .notify docA 2, .step docA 1, .step docA 1, .step docA 1, .step docA 1, .step docA 1,
    .step docA 0, .step docA 0, .step docA 0], by decide +kernel⟩

/-- **Finding (C66)** The text published for a version may be a newer one: the validation of version 1 reads the text after the change to version 2, and says it is version 1. -/
theorem C66_newer_text : ∃ es : List LspEvent,
    let s := (Server.start noFiles).run lspEnv (lspClient true) es
    notified docA es = [1, 2] ∧ textAfter docA none (es.take 2) = some (py "b") ∧ published s docA = [(1, [])] ∧
    published ((Server.start noFiles).run lspEnv (lspClient false) (es.take 2)) docA = [(1, [py "b"])] :=
  ⟨[.edit docA (py "b"), .notify docA 1, .step docA 0, .edit docA (py "a"), .notify docA 2, .step docA 0, .step docA 0, .step docA 0, .step docA 0], by decide +kernel⟩

/-- C66: what a publication in the busy history is made of: the document had that source when version 3 was announced or later. -/
example : ∃ p ∈ ((Server.start noFiles).run lspEnv (lspClient true) busyHistory).sent, p.uri = docA ∧ p.version = 3 ∧ p.call = 2 ∧ p.diagnostics.map (·.message) = [py "b"] := by
  decide +kernel

/-- C65: without debouncing, at once. -/
example :
    let s := (Server.start noFiles).run lspEnv (lspClient false) [.edit docA (py "b"), .notify docA 1, .edit docA (py "a"), .notify docA 2]
    published s docA = [(1, [py "b"]), (2, [])] ∧ allOver s docA = true := by
  decide +kernel

def returnsOk : Except Err Bool → Option Bool
  | .ok b => some b
  | .error _ => none

/-- **Finding (C68)** After the first validation the configuration files of a path can change as they like: the server goes on with the configuration it has. -/
theorem C68_stale_config : ∃ es : List LspEvent,
    let s := (Server.start noFiles).run lspEnv (lspClient false) es
    published s docA = [(1, [py "b"]), (2, [py "b"])] ∧ returnsOk (lspEnv.config s.files [py "a"]) = some false :=
  ⟨[.edit docA (py "b"), .notify docA 1, .files (withFile [py "off"]), .notify docA 2], by decide +kernel⟩

/-- An invalid configuration: nothing is published, not even an empty list; once it is valid again the next notification is answered. -/
example :
    let s := (Server.start (withFile [py "bad"])).run lspEnv (lspClient false) [.edit docA (py "b"), .notify docA 1, .files noFiles, .notify docA 2]
    published s docA = [(2, [py "b"])] := by
  decide +kernel

/-- C68: the hypotheses of `C68_settled` are met after a first validation. -/
example :
    let s := (Server.start noFiles).run lspEnv (lspClient true) [.edit docA (py "b"), .notify docA 1, .step docA 0, .step docA 0, .step docA 0, .step docA 0, .step docA 0]
    published s docA = [(1, [py "b"])] ∧ allOver s docA = true ∧ s.calls docB = [] ∧ s.requests docA = [] := by
  refine ⟨by decide +kernel, by decide +kernel, rfl, rfl⟩

/-- A format request that finds no cached configuration and generates one; then the files change; a validation generates its own, publishes and ends. -/
def overtaken : List LspEvent :=
  [.edit docA (py "b"), .request docA, .go docA 0, .files (withFile [py "off"]), .notify docA 1, .step docA 0, .step docA 0, .step docA 0, .step docA 0, .step docA 0]

/-- **Finding (C68)** A format request that is under way when a validation is published stores the older configuration it generated, and later validations use that
one: between the two publications only the format request went on. -/
theorem C68_request_overtakes :
    let s := (Server.start noFiles).run lspEnv (lspClient true) overtaken
    let t := s.run lspEnv (lspClient true) [.go docA 0, .notify docA 2, .step docA 1, .step docA 1, .step docA 1, .step docA 1, .step docA 1]
    published s docA = [(1, [])] ∧ allOver s docA = true ∧ published t docA = [(1, []), (2, [py "b"])] ∧ allOver t docA = true := by
  decide +kernel

/-- Two documents of the same path share their configuration, so `C64_apart` asks for a path of its own; otherwise a document does. -/
example : ∀ p, (lspClient true).fsPath docA = some p → ∀ u', u' ≠ docA → (lspClient true).fsPath u' ≠ some p := by
  intro p hp u' hu h
  simp only [lspClient] at hp h
  split at h
  · rename_i hpre
    have : (py "file:") <+: u' := List.isPrefixOf_iff_prefix.mp hpre
    obtain ⟨t, rfl⟩ := this
    have hp' : some [py "a"] = some p := hp
    rw [← hp'] at h
    have ht : t = py "a" := by simpa using h
    exact hu (by rw [ht]; rfl)
  · cases h

/-! ## Formatting -/

/-- Text and edit of the last reply, applied. -/
def formattedTo (s : Server Bool) (text : PStr) : Option (Option PStr) :=
  match s.edits.getLast? with
  | some (_, .ok (some e)) => some (some (applyEdit text e))
  | some (_, .ok none) => some none
  | _ => none

/-- C67: a document without a final line terminator is replaced whole; nothing found, nothing edited. -/
example :
    formattedTo ((Server.start noFiles).run lspEnv (lspClient true) [.edit docA (py "a\nbb"), .format docA]) (py "a\nbb") = some (some (py "a\nBB")) ∧
    formattedTo ((Server.start noFiles).run lspEnv (lspClient true) [.edit docA (py "a\na"), .format docA]) (py "a\na") = some none ∧
    formattedTo ((Server.start noFiles).run lspEnv (lspClient true) [.edit docA (py "bx"), .format docA]) (py "bx") = some none := by
  decide +kernel

/-- C127: a request that takes its time, with a validation and a change of the configuration in between: the reply is that of the configuration the validation cached. -/
example :
    let s := (Server.start noFiles).run lspEnv (lspClient true) [.edit docA (py "a\nbb"), .notify docA 1, .step docA 0, .request docA]
    let t := s.run lspEnv (lspClient true) [.step docA 0, .go docA 0, .files (withFile [py "off"]), .go docA 0, .step docA 0, .go docA 0]
    s.docs docA = some (py "a\nbb") ∧ (s.requests docA).length = 1 ∧ t.edits.length = 0 ∧ ((t.requests docA).map isOver) = [false] ∧
    (((t.next lspEnv (lspClient true) (.go docA 0)).requests docA).map isOver) = [true] ∧
    formattedTo (t.next lspEnv (lspClient true) (.go docA 0)) (py "a\nbb") = some (some (py "a\nBB")) := by
  decide +kernel

/-- **Finding (C67)** A document that ends in a line terminator gets one more: the range of the edit stops before it, and the new text has it already. -/
theorem C67_extra_newline :
    formattedTo ((Server.start noFiles).run lspEnv (lspClient true) [.edit docA (py "ab\n"), .format docA]) (py "ab\n") = some (some (py "aB\n\n")) := by
  decide +kernel

/-- **Finding (C67)** Columns are counted in characters, not in UTF-16 units: a last line with a character outside the Basic Multilingual Plane is replaced
only in part. -/
theorem C67_astral_tail :
    formattedTo ((Server.start noFiles).run lspEnv (lspClient true) [.edit docA ['b', '😀', 'a'], .format docA]) ['b', '😀', 'a'] =
      some (some (['B', Char.ofNat 0, 'a'] ++ ['a'])) := by
  decide +kernel

/-- A rule that puts something in every file. -/
def headerEnv : Env Bool := { lspEnv with
  visit := fun _ _ m _ => .ok (fun _ => [⟨py "Header", ⟨⟨1, 0⟩, ⟨1, 0⟩⟩, py "header", 0, some (.node (.mk 0 false false (.seq [] true [] [] (.ofList (toyLeaf 1 72 :: toyStmts 2 (toyBytes m))) .nil)))⟩], []) }

/-- The last reply is an `IndexError`. -/
def indexError (s : Server Bool) : Bool :=
  match s.edits.getLast? with
  | some (_, .error .index) => true
  | _ => false

/-- **Finding (C67)** In an empty document a fix cannot be sent: the reply is an `IndexError`. -/
theorem C67_empty_case :
    formattedTo ((Server.start noFiles).run headerEnv (lspClient true) [.edit docA (py "a"), .format docA]) (py "a") = some (some (py "Ha")) ∧
    indexError ((Server.start noFiles).run headerEnv (lspClient true) [.edit docA [], .format docA]) = true := by
  decide +kernel

end Fixit
