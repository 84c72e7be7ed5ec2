import Verif.Py.Str

/-!
# `repr` of Python strings
-/

namespace Py

/-- A lower-case hexadecimal digit (CPython `unicode_repr`, used by the messages of config.py:346-470). -/
def hexDigit (n : Nat) : Char := if n < 10 then Char.ofNat ('0'.toNat + n) else Char.ofNat ('a'.toNat + (n - 10))

/-- `n` with this many hexadecimal digits (config.py:346-470). -/
def hexDigits : Nat → Nat → PStr
  | 0, _ => []
  | w + 1, n => hexDigits w (n / 16) ++ [hexDigit (n % 16)]

/-- How `repr` writes one character of a string between these quotes (CPython `unicode_repr`; config.py:346-470). `printable` is `str.isprintable` beyond ASCII. -/
def reprChar (printable : Char → Bool) (q c : Char) : PStr :=
  if c = q ∨ c = '\\' then ['\\', c]
  else if c = '\t' then ['\\', 't']
  else if c = '\n' then ['\\', 'n']
  else if c = '\r' then ['\\', 'r']
  else if c.toNat < 32 ∨ c.toNat = 127 then ['\\', 'x'] ++ hexDigits 2 c.toNat
  else if c.toNat < 127 then [c]
  else if printable c then [c]
  else if c.toNat < 256 then ['\\', 'x'] ++ hexDigits 2 c.toNat
  else if c.toNat < 65536 then ['\\', 'u'] ++ hexDigits 4 c.toNat
  else ['\\', 'U'] ++ hexDigits 8 c.toNat

/-- The quotes `repr` takes: `"` if the string has `'` and no `"` in it (CPython `unicode_repr`; config.py:346-470). -/
def reprQuote (s : PStr) : Char := if '\'' ∈ s ∧ '"' ∉ s then '"' else '\''

/-- `repr(s)`, in messages `{s!r}` (config.py:346-470). -/
def reprStr (printable : Char → Bool) (s : PStr) : PStr :=
  reprQuote s :: (s.flatMap (reprChar printable (reprQuote s)) ++ [reprQuote s])

end Py
