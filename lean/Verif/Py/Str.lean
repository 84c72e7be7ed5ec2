/-!
# Python strings

A Python `str` is modelled as a list of characters (`Char` = Unicode scalar values; Python strings may
also hold lone surrogates, which never occur in decoded source or TOML text).
-/

namespace Py

/-- A Python `str`. -/
abbrev PStr := List Char

open Lean in
/-- `py "abc"` is the list literal `['a', 'b', 'c']`, so that kernel `decide` computes on it. -/
macro "py " s:str : term => do
  let cs := s.getString.toList.map fun c => Syntax.mkCharLit c
  `(([ $(cs.toArray),* ] : List Char))

/-- Python's `str.isspace` for one character, which is also the class `\s` of `re` on `str` patterns and the set
of characters removed by `str.strip()` (CPython `_PyUnicode_IsWhitespace`). -/
def isSpace (c : Char) : Bool :=
  let n := c.toNat
  (9 ≤ n && n ≤ 13) || (28 ≤ n && n ≤ 32) || n == 0x85 || n == 0xa0 || n == 0x1680 ||
  (0x2000 ≤ n && n ≤ 0x200a) || n == 0x2028 || n == 0x2029 || n == 0x202f || n == 0x205f || n == 0x3000

/-- The parts of Python's Unicode tables that the code uses and that the proofs keep abstract:
`word` is `re`'s `\w` on `str` patterns, `lower` is `str.lower`. The fields are the only facts used about them. -/
structure Unicode where
  word : Char → Bool
  lower : PStr → PStr
  word_not_space : ∀ c, word c = true → isSpace c = false
  word_comma : word ',' = false
  word_colon : word ':' = false
  word_hash : word '#' = false
  word_ascii : ∀ c, (c.isAlphanum || c == '_') = true → word c = true

/-- The ASCII instance of `Unicode`, used in concrete examples. -/
def asciiWord (c : Char) : Bool := c.isAlphanum || c == '_'

theorem asciiWord_not_space (c : Char) (h : asciiWord c = true) : isSpace c = false := by
  have hc : ∀ d : Char, d = '_' → isSpace d = false := by intro d hd; subst hd; decide
  simp only [asciiWord, Char.isAlphanum, Char.isAlpha, Char.isUpper, Char.isLower, Char.isDigit,
    Bool.or_eq_true, Bool.and_eq_true, decide_eq_true_eq, beq_iff_eq] at h
  rcases h with h | h
  · unfold isSpace
    have e : c.toNat = c.val.toNat := rfl
    simp only [ge_iff_le, UInt32.le_iff_toNat_le] at h
    simp only [e, Bool.or_eq_false_iff, Bool.and_eq_false_iff, decide_eq_false_iff_not, beq_eq_false_iff_ne]
    simp at h
    omega
  · exact hc c h

def Unicode.ascii : Unicode where
  word := asciiWord
  lower := fun s => s.map Char.toLower
  word_not_space := asciiWord_not_space
  word_comma := by decide
  word_colon := by decide
  word_hash := by decide
  word_ascii := fun _ h => h

/-- `str.startswith`. -/
def startsWith (s p : PStr) : Bool := p.isPrefixOf s

/-- `str.endswith`. -/
def endsWith (s p : PStr) : Bool := p.isSuffixOf s

/-- `str.lstrip()`. -/
def lstrip (s : PStr) : PStr := s.dropWhile isSpace

/-- `str.rstrip()`. -/
def rstrip (s : PStr) : PStr := (s.reverse.dropWhile isSpace).reverse

/-- `str.strip()`. -/
def strip (s : PStr) : PStr := rstrip (lstrip s)

/-- `str.split(c)` for a one-character separator: always at least one field. -/
def splitOn (c : Char) : PStr → List PStr
  | [] => [[]]
  | x :: xs =>
    if x = c then [] :: splitOn c xs
    else match splitOn c xs with
      | [] => [[x]]
      | f :: fs => (x :: f) :: fs

/-- `sep.join(parts)`. -/
def join (sep : PStr) : List PStr → PStr
  | [] => []
  | [x] => x
  | x :: y :: ys => x ++ sep ++ join sep (y :: ys)

end Py
