import Verif.Spec.Api
import Verif.Model.Lsp

/-!
# What the language server should do
-/

namespace Spec
open Py Fixit

/-- How a violation is shown: lines count from 0 for the client and from 1 for Fixit. -/
def shownAs (v : LintViolation) : Diagnostic where
  startLine := v.base.range.start.line - 1
  startChar := v.base.range.start.column
  endLine := v.base.range.stop.line - 1
  endChar := v.base.range.stop.column
  message := v.base.message
  severity := 2
  code := v.base.ruleName
  source := py "fixit"

/-- The files after these events: as they were changed last. -/
def filesAfter (f : Path → Option Bytes) : List LspEvent → Path → Option Bytes
  | [] => f
  | .files g :: es => filesAfter g es
  | _ :: es => filesAfter f es

/-- The text of a document after these events: the one it was last opened or edited with, none when it was closed since. -/
def textAfter (uri : Uri) (t : Option PStr) : List LspEvent → Option PStr
  | [] => t
  | .edit u text :: es => textAfter uri (if u = uri then some text else t) es
  | .close u :: es => textAfter uri (if u = uri then none else t) es
  | _ :: es => textAfter uri t es

/-- The source of a document after these events, encoded: its text when it is open, else that of its file. -/
def sourceAfter (client : Client) (files : Path → Option Bytes) (es : List LspEvent) (uri : Uri) : Except Err Bytes :=
  match textAfter uri none es with
  | some text => client.encode text
  | none => (client.diskText (filesAfter files es) uri).bind client.encode

/-- The files were like this at some time during `es`, which came after `before`. -/
def FilesSeen (files : Path → Option Bytes) (before es : List LspEvent) (f : Path → Option Bytes) : Prop :=
  ∃ pre, pre <+: es ∧ filesAfter files (before ++ pre) = f

/-- The document had this (encoded) source at some time during `es`, which came after `before`. -/
def SourceSeen (client : Client) (files : Path → Option Bytes) (before es : List LspEvent) (uri : Uri) (content : Bytes) : Prop :=
  ∃ pre, pre <+: es ∧ sourceAfter client files (before ++ pre) uri = .ok content

/-- This was the configuration for the path at some time during `es`, which came after `before`. -/
def ConfigSeen {C : Type} (env : Env C) (files : Path → Option Bytes) (before es : List LspEvent) (path : Path) (cfg : C) : Prop :=
  ∃ f, FilesSeen files before es f ∧ env.config f path = .ok cfg

/-- The call is over, or never begins. -/
def Over {C : Type} : Phase C → Prop
  | .cancelled => True
  | .ended => True
  | _ => False

/-- The versions a document was notified with, in order. -/
def notified (uri : Uri) : List LspEvent → List Int
  | [] => []
  | .notify u v :: es => if u = uri then v :: notified uri es else notified uri es
  | _ :: es => notified uri es

/-- The event is about this document. -/
def LspEvent.about (uri : Uri) : LspEvent → Bool
  | .files _ => false
  | .edit u _ => u = uri
  | .close u => u = uri
  | .notify u _ => u = uri
  | .step u _ => u = uri
  | .format u => u = uri
  | .request u => u = uri
  | .go u _ => u = uri

/-- The event changes the text of this document or announces that. -/
def LspEvent.changes (uri : Uri) : LspEvent → Bool
  | .edit u _ => u = uri
  | .close u => u = uri
  | .notify u _ => u = uri
  | _ => false

/-- The event is about this document or about files. -/
def LspEvent.concerns (uri : Uri) : LspEvent → Bool
  | .files _ => true
  | e => LspEvent.about uri e

/-- What was published for a document, in order. -/
def publishedFor {C : Type} (s : Server C) (uri : Uri) : List Publication := s.sent.filter (fun p => p.uri = uri)

/-- What format requests for a document were replied to with, in order. -/
def repliesFor {C : Type} (s : Server C) (uri : Uri) : List (Uri × Except Err (Option TextEdit)) := s.edits.filter (fun p => p.1 = uri)

/-! ## Text edits, as the protocol defines them -/

/-- How many UTF-16 code units a character takes. -/
def utf16Units (c : Char) : Nat := if c.toNat < 0x10000 then 1 else 2

/-- The offset of a character position in the first line of a text: it stops at the end of the line (the terminator is not part of it). -/
def inLine : PStr → Nat → Nat
  | [], _ => 0
  | c :: cs, k => if c = '\n' ∨ c = '\r' then 0 else if utf16Units c ≤ k then inLine cs (k - utf16Units c) + 1 else 0

/-- What the first line takes, terminator included, and the text after it; nothing when there is no terminator. The terminators are `\n`, `\r\n` and `\r`. -/
def afterLine : PStr → Option (Nat × PStr)
  | [] => none
  | [c] => if c = '\n' ∨ c = '\r' then some (1, []) else none
  | c :: d :: cs =>
    if c = '\r' ∧ d = '\n' then some (2, cs)
    else if c = '\n' ∨ c = '\r' then some (1, d :: cs)
    else (afterLine (d :: cs)).map (fun x => (x.1 + 1, x.2))

/-- The offset of a position; beyond the last line it is the end of the text. -/
def offset (text : PStr) : Nat → Nat → Nat
  | 0, k => inLine text k
  | n + 1, k => match afterLine text with
    | none => text.length
    | some (used, rest) => used + offset rest n k

/-- The text after an edit. -/
def applyEdit (text : PStr) (e : TextEdit) : PStr :=
  text.take (offset text e.startLine e.startChar) ++ e.newText ++ text.drop (offset text e.endLine e.endChar)

end Spec

namespace Spec
open Py Fixit

/-- The terminator of the last line, if it has one. -/
def finalBreak (text : PStr) : PStr :=
  if ['\r', '\n'] <:+ text then ['\r', '\n'] else if ['\n'] <:+ text then ['\n'] else if ['\r'] <:+ text then ['\r'] else []

/-- A text all of whose line breaks are those of the protocol (none of the others Python splits lines at), in the Basic Multilingual Plane. -/
structure PlainText (text : PStr) : Prop where
  breaks : ∀ c ∈ text, c ∉ ['\x0b', '\x0c', '\x1c', '\x1d', '\x1e', '\u0085', '\u2028', '\u2029']
  bmp : ∀ c ∈ text, c.toNat < 0x10000

end Spec

namespace Spec
open Py

/-- The line breaks Python splits lines at beyond those of the protocol. -/
def otherBreaks : List Char := ['\x0b', '\x0c', '\x1c', '\x1d', '\x1e', '\u0085', '\u2028', '\u2029']

/-- One of these breaks stands somewhere before the end of the text. -/
def OtherBreakInside (text : PStr) : Prop := ∃ pre c post, text = pre ++ c :: post ∧ c ∈ otherBreaks ∧ post ≠ []

/-- A terminator of a line in the protocol. -/
def IsTerminator (t : PStr) : Prop := t = ['\n'] ∨ t = ['\r'] ∨ t = ['\r', '\n']

/-- The last line of a text, with its terminator: what comes before it ends a line, and it contains no terminator but at its end. -/
structure LastLine (text l : PStr) : Prop where
  suffix : ∃ pre, text = pre ++ l ∧ (pre = [] ∨ ∃ p t, pre = p ++ t ∧ IsTerminator t ∧ ¬ (t = ['\r'] ∧ l.head? = some '\n'))
  nonempty : l ≠ []
  single : ∃ body t, l = body ++ t ∧ (t = [] ∨ IsTerminator t) ∧ '\n' ∉ body ∧ '\r' ∉ body

end Spec

namespace Spec
open Py Fixit

/-- How many format requests for this document were answered in one go. -/
def formatted (uri : Uri) : List LspEvent → Nat
  | [] => 0
  | .format u :: es => (if u = uri then 1 else 0) + formatted uri es
  | _ :: es => formatted uri es

/-- How many format requests for this document began otherwise. -/
def requested (uri : Uri) : List LspEvent → Nat
  | [] => 0
  | .request u :: es => (if u = uri then 1 else 0) + requested uri es
  | _ :: es => requested uri es

/-- How often the main thread went on with this request. -/
def wentOn (uri : Uri) (i : Nat) : List LspEvent → Nat
  | [] => 0
  | .go u j :: es => (if u = uri ∧ j = i then 1 else 0) + wentOn uri i es
  | _ :: es => wentOn uri i es

/-- The request is over. -/
def isOver {C : Type} : Phase C → Bool
  | .ended => true
  | _ => false

end Spec
