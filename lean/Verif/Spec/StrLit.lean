import Verif.Py.Str

/-!
# What string literals mean

After the Python language reference, chapter 2.4 ("String and Bytes literals", "f-strings"). Values are lists of code points.
-/

namespace Spec
open Py

/-- A digit of a number with base 8 or 16. -/
def isOctDigit (c : Char) : Bool := '0' ≤ c && c ≤ '7'
def isHexDigit (c : Char) : Bool := c.isDigit || ('a' ≤ c && c ≤ 'f') || ('A' ≤ c && c ≤ 'F')
def digitValue (c : Char) : Nat :=
  if c.isDigit then c.toNat - '0'.toNat else if 'a' ≤ c && c ≤ 'f' then c.toNat - 'a'.toNat + 10 else c.toNat - 'A'.toNat + 10
def number (base : Nat) (ds : PStr) : Nat := ds.foldl (fun n c => n * base + digitValue c) 0

/-- The escapes of one letter. -/
def simpleEscape (c : Char) : Option Nat :=
  if c = '\\' then some 92 else if c = '\'' then some 39 else if c = '"' then some 34
  else if c = 'a' then some 7 else if c = 'b' then some 8 else if c = 'f' then some 12
  else if c = 'n' then some 10 else if c = 'r' then some 13 else if c = 't' then some 9
  else if c = 'v' then some 11 else none

/-- Exactly `n` hexadecimal digits, of a code point. -/
def hexEscape (n : Nat) (t : PStr) : Option (List Nat × Nat) :=
  let ds := (t.take n).takeWhile isHexDigit
  if ds.length = n ∧ number 16 ds ≤ 0x10ffff then some ([number 16 ds], n + 1) else none

/-- `{name}`, with the names of the Unicode data base. -/
def nameEscape (names : PStr → Option Nat) : PStr → Option (List Nat × Nat)
  | '{' :: u =>
    let name := u.takeWhile (fun c => c ≠ '}')
    if name.length < u.length then
      match names name with
      | some n => some ([n], name.length + 3)
      | none => none
    else none
  | _ => none

/-- The text after a backslash: what the escape stands for and how many characters of the text belong to it. When it is no escape, the backslash stands for itself. `none`: an error. -/
def readEscape (names : PStr → Option Nat) : PStr → Option (List Nat × Nat)
  | [] => some ([92], 0)
  | c :: t =>
    if c = '\n' then some ([], 1)
    else if (simpleEscape c).isSome then some ((simpleEscape c).toList, 1)
    else if isOctDigit c then
      let ds := ((c :: t).take 3).takeWhile isOctDigit
      some ([number 8 ds], ds.length)
    else if c = 'x' then hexEscape 2 t
    else if c = 'u' then hexEscape 4 t
    else if c = 'U' then hexEscape 8 t
    else if c = 'N' then nameEscape names t
    else some ([92], 0)

/-- The value of the text between the quotes of a string; the first `skip` characters are done. -/
def decodeGo (names : PStr → Option Nat) (raw : Bool) : Nat → PStr → Option (List Nat)
  | _, [] => some []
  | skip + 1, _ :: t => decodeGo names raw skip t
  | 0, c :: t =>
    if c = '\\' ∧ raw = false then
      match readEscape names t with
      | some (v, n) => (decodeGo names raw n t).map (v ++ ·)
      | none => none
    else (decodeGo names raw 0 t).map (c.toNat :: ·)

/-- The value of the text between the quotes of a string. -/
def decode (names : PStr → Option Nat) (raw : Bool) (s : PStr) : Option (List Nat) := decodeGo names raw 0 s

/-- The text of a replacement field that this specification covers: it is not blank and has none of the characters that can mean something in a field besides the expression
(conversions, format specifications, `=`, comments), not even inside a nested literal. -/
def fieldOk (code : PStr) : Bool := code.any (fun c => !isSpace c) && code.all (fun c => !(['{', '}', '\\', '!', ':', '=', '#', '\n'].contains c))

/-- A piece of the value of an f-string: a code point, or the source text of a field. -/
abbrev Item := Nat ⊕ PStr

/-- The pieces of the text between the quotes of an f-string. Escapes come first, then braces: doubled ones stand for one, a single `{` starts a field and a single `}` is an error. -/
def fItemsGo (names : PStr → Option Nat) (raw : Bool) : Nat → PStr → Option (List Item)
  | _, [] => some []
  | skip + 1, _ :: t => fItemsGo names raw skip t
  | 0, c :: t =>
    if c = '\\' ∧ raw = false then
      match readEscape names t with
      | some (v, n) => (fItemsGo names raw n t).map (v.map .inl ++ ·)
      | none => none
    else if c = '{' then
      if t.head? = some '{' then (fItemsGo names raw 1 t).map (.inl c.toNat :: ·)
      else
        let code := t.takeWhile (fun c => c ≠ '}')
        if fieldOk code ∧ code.length < t.length then (fItemsGo names raw (code.length + 1) t).map (.inr code :: ·) else none
    else if c = '}' then
      if t.head? = some '}' then (fItemsGo names raw 1 t).map (.inl c.toNat :: ·) else none
    else (fItemsGo names raw 0 t).map (.inl c.toNat :: ·)

/-- The pieces of the text between the quotes of an f-string. -/
def fItems (names : PStr → Option Nat) (raw : Bool) (s : PStr) : Option (List Item) := fItemsGo names raw 0 s

/-- The text does not contain the closing quote: reading on from here, `quote` first comes, without a backslash before it, at the end. -/
def closedGo (quote : PStr) : Bool → PStr → Bool
  | escaped, [] => !escaped
  | true, _ :: t => closedGo quote false t
  | false, c :: t => !quote.isPrefixOf (c :: t ++ quote) && closedGo quote (c == '\\') t

def closed (quote s : PStr) : Bool := closedGo quote false s

/-- The four quotes. -/
def quotes : List PStr := [py "'", py "\"", py "'''", py "\"\"\""]

def isRaw (p : PStr) : Bool := p.contains 'r' || p.contains 'R'

/-- `text` is a string literal with this value. -/
def StringLiteral (names : PStr → Option Nat) (text : PStr) (v : List Nat) : Prop :=
  ∃ p q s, text = p ++ q ++ s ++ q ∧ p ∈ [[], py "r", py "R"] ∧ q ∈ quotes ∧ closed q s = true ∧ decode names (isRaw p) s = some v

/-- The prefixes of f-strings. -/
def fPrefixes : List PStr := [py "f", py "F", py "rf", py "rF", py "Rf", py "RF", py "fr", py "fR", py "Fr", py "FR"]

/-- Prefix, quote, text and quote are an f-string with these pieces. -/
structure FStringLiteral (names : PStr → Option Nat) (p q s : PStr) (items : List Item) : Prop where
  hasPrefix : p ∈ fPrefixes
  quote : q ∈ quotes
  ends : closed q s = true
  pieces : fItems names (isRaw p) s = some items

/-- No Unicode name has a brace. -/
def BraceFreeNames (names : PStr → Option Nat) : Prop := ∀ n, (names n).isSome = true → ∀ c ∈ n, c ≠ '{' ∧ c ≠ '}'

end Spec
