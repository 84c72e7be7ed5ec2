import Verif.Spec.Directive
import Verif.Spec.Config
import Verif.Props.LspFormatAny

/-!
# The character classes and truth values the other specifications use
-/

namespace Spec
open Py
open Fixit (Toml)

/-- The whitespace characters of Python (`str.isspace`): tab to carriage return, the separators 28 to 31, space, and the Unicode ones. -/
def whitespace : List Nat :=
  [9, 10, 11, 12, 13, 28, 29, 30, 31, 32, 0x85, 0xa0, 0x1680, 0x2000, 0x2001, 0x2002, 0x2003, 0x2004, 0x2005, 0x2006, 0x2007, 0x2008, 0x2009, 0x200a,
   0x2028, 0x2029, 0x202f, 0x205f, 0x3000]

/-- The line boundaries of `str.splitlines`. -/
def lineBoundaries : List Nat := [10, 11, 12, 13, 28, 29, 30, 0x85, 0x2028, 0x2029]

/-- The values Python takes for false. -/
inductive Falsy : Toml → Prop where
  | str : Falsy (.str [])
  | int : Falsy (.int 0)
  | float : Falsy (.float 0)
  | bool : Falsy (.bool false)
  | arr : Falsy (.arr [])
  | tbl : Falsy (.tbl [])

end Spec

namespace Fixit
open Py Spec

/-- **C07** The blanks in a directive are the whitespace characters of Python. -/
theorem C07_blank (s : PStr) : Blank s ↔ ∀ c ∈ s, c.toNat ∈ whitespace := by
  have : ∀ c : Char, isSpace c = true ↔ c.toNat ∈ whitespace := by
    intro c
    simp only [isSpace, whitespace, List.mem_cons, List.not_mem_nil, or_false, Bool.or_eq_true, Bool.and_eq_true, decide_eq_true_eq, beq_iff_eq]
    omega
  unfold Blank
  exact ⟨fun h c hc => (this c).1 (h c hc), fun h c hc => (this c).2 (h c hc)⟩

/-- **C67** The lines the server counts end at the line boundaries of Python. -/
theorem C67_line_boundaries (c : Char) (cs : PStr) (hc : ¬ (c = '\r' ∧ cs.head? = some '\n')) (hcs : cs ≠ []) :
    (splitLines (c :: cs)).length = (splitLines cs).length + (if c.toNat ∈ lineBoundaries then 1 else 0) := by
  have hb : isLineBreak c = true ↔ c.toNat ∈ lineBoundaries := by
    rw [break_iff]
    simp only [otherBreaks, lineBoundaries, List.mem_cons, List.not_mem_nil, or_false]
    have : ∀ d : Char, c = d ↔ c.toNat = d.toNat := fun d => ⟨fun h => h ▸ rfl, fun h => Char.ext (UInt32.toNat_inj.1 h)⟩
    simp only [this]
    simp only [show '\n'.toNat = 10 from rfl, show '\r'.toNat = 13 from rfl, show '\x0b'.toNat = 11 from rfl, show '\x0c'.toNat = 12 from rfl, show '\x1c'.toNat = 28 from rfl,
      show '\x1d'.toNat = 29 from rfl, show '\x1e'.toNat = 30 from rfl, show '\u0085'.toNat = 0x85 from rfl, show '\u2028'.toNat = 0x2028 from rfl, show '\u2029'.toNat = 0x2029 from rfl]
    omega
  cases cs with
  | nil => exact absurd rfl hcs
  | cons d ds =>
    have hcr : (c == '\r' && d == '\n') = false := by simpa using hc
    rw [splitLines, hcr]
    by_cases h : isLineBreak c = true
    · simp [h, hb.1 h]
    · have : ¬ c.toNat ∈ lineBoundaries := fun x => h (hb.2 x)
      simp [h, this, consLine_length (splitLines_ne_nil d ds)]

/-- **C22** A setting counts as given unless its value is one Python takes for false. -/
theorem C22_given (k : PStr) (d : Dict) (v : Toml) : truthyField k d = some v ↔ field k d = some v ∧ ¬ Falsy v := by
  have ht : ∀ t : Toml, t.truthy = true ↔ ¬ Falsy t := by
    intro t
    cases t with
    | str s => cases s with
      | nil => simp [Toml.truthy, Falsy.str]
      | cons a as => simp only [Toml.truthy, List.isEmpty_cons, Bool.not_false, true_iff]; intro h; cases h
    | int n =>
      by_cases h : n = 0
      · subst h; simp [Toml.truthy, Falsy.int]
      · simp only [Toml.truthy, bne_iff_ne, ne_eq, h, not_false_eq_true, true_iff]; intro h'; cases h'; exact h rfl
    | float n =>
      by_cases h : n = 0
      · subst h; simp [Toml.truthy, Falsy.float]
      · simp only [Toml.truthy, bne_iff_ne, ne_eq, h, not_false_eq_true, true_iff]; intro h'; cases h'; exact h rfl
    | bool b => cases b with
      | false => simp [Toml.truthy, Falsy.bool]
      | true => simp only [Toml.truthy, true_iff]; intro h; cases h
    | date n => simp only [Toml.truthy, true_iff]; intro h; cases h
    | arr l => cases l with
      | nil => simp [Toml.truthy, Falsy.arr]
      | cons a as => simp only [Toml.truthy, List.isEmpty_cons, Bool.not_false, true_iff]; intro h; cases h
    | tbl l => cases l with
      | nil => simp [Toml.truthy, Falsy.tbl]
      | cons a as => simp only [Toml.truthy, List.isEmpty_cons, Bool.not_false, true_iff]; intro h; cases h
  simp only [truthyField, Option.filter_eq_some_iff, ht]

end Fixit
