import Verif.Py.Str

/-!
# A backtracking regular-expression engine with Python's priority semantics

`Re.run r s` is the list of *all* ways `r` can match at state `s`, in the order in which Python's backtracking
matcher (`re`/`sre`) tries them; the match Python reports is the first one. Only the constructs used by the two
regexes of `ftypes.py` are present.
-/

namespace Py

inductive Re where
  /-- matches the empty string -/
  | eps
  /-- one character of a class -/
  | chr (p : Char → Bool)
  /-- `ab` -/
  | seq (a b : Re)
  /-- `a|b`, `a` tried first -/
  | alt (a b : Re)
  /-- `a*`, greedy -/
  | star (a : Re)
  /-- capture group number `n` -/
  | grp (n : Nat) (a : Re)
  /-- `^` (no MULTILINE): only at position 0 -/
  | bos
  /-- `$` (no MULTILINE): at the end, or just before a newline that ends the string -/
  | eos

/-- Matcher state: position, remaining input, captures (`none` = group did not participate). -/
structure St where
  pos : Nat
  rest : PStr
  caps : Nat → Option PStr

def setCap (f : Nat → Option PStr) (n : Nat) (v : PStr) : Nat → Option PStr :=
  fun m => if m = n then some v else f m

/-- Greedy iteration of a matcher; an iteration must consume input. The fuel is the length of the remaining input,
which bounds the number of consuming iterations. -/
def starGo (f : St → List St) : Nat → St → List St
  | 0, s => [s]
  | n + 1, s => ((f s).filter fun t => t.rest.length < s.rest.length).flatMap (starGo f n) ++ [s]

def Re.run : Re → St → List St
  | .eps, s => [s]
  | .chr p, s =>
    match s.rest with
    | [] => []
    | c :: cs => if p c then [{ s with pos := s.pos + 1, rest := cs }] else []
  | .seq a b, s => (a.run s).flatMap b.run
  | .alt a b, s => a.run s ++ b.run s
  | .star a, s => starGo a.run s.rest.length s
  | .grp n a, s => (a.run s).map fun t =>
      { t with caps := setCap t.caps n (s.rest.take (s.rest.length - t.rest.length)) }
  | .bos, s => if s.pos = 0 then [s] else []
  | .eos, s => if s.rest = [] ∨ s.rest = ['\n'] then [s] else []

/-- `a?` (greedy) -/
def Re.opt (a : Re) : Re := .alt a .eps
/-- `a+` (greedy) -/
def Re.plus (a : Re) : Re := .seq a (.star a)
/-- a literal character -/
def Re.lit (c : Char) : Re := .chr (fun d => d == c)
/-- a literal string -/
def Re.str : PStr → Re
  | [] => .eps
  | c :: cs => .seq (.lit c) (Re.str cs)

/-- `pattern.match(s)`: the captures of the first match at position 0. -/
def Re.matchAt (r : Re) (pos : Nat) (s : PStr) : Option St :=
  (r.run ⟨pos, s, fun _ => none⟩).head?

/-- `pattern.search(s)`: the first match at the leftmost position where there is one. -/
def Re.searchFrom (r : Re) : Nat → PStr → Option St
  | pos, [] => r.matchAt pos []
  | pos, c :: cs =>
    match r.matchAt pos (c :: cs) with
    | some t => some t
    | none => r.searchFrom (pos + 1) cs

def Re.search (r : Re) (s : PStr) : Option St := r.searchFrom 0 s
def Re.match_ (r : Re) (s : PStr) : Option St := r.matchAt 0 s

end Py
