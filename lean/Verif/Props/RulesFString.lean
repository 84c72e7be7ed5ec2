import Verif.Proof.StrLit

/-!
# C109: NoRedundantFString
-/

namespace Cst
open Py Spec

/-- C109: an f-string is reported exactly when it is one piece of text. -/
theorem C109_reports (n : FNode) : (noRedundantFString n).isSome = true ↔ ∃ s, n.parts = [.text s] := by
  unfold noRedundantFString
  split
  · rename_i s h
    exact ⟨fun _ => ⟨s, h⟩, fun _ => rfl⟩
  · rename_i h
    exact ⟨fun h' => by (cases h'), fun ⟨s, hs⟩ => absurd hs (h s)⟩

/-- C109: the replacement is a string literal with the same value, with the same quotes, and raw exactly when the f-string is. -/
theorem C109_sound (names : PStr → Option Nat) (hn : BraceFreeNames names) (p q s : PStr) (v : List Nat) (h : FStringLiteral names p q s (v.map .inl)) (new : PStr)
    (hr : noRedundantFString ⟨p ++ q, [.text s], q⟩ = some new) :
    StringLiteral names new v ∧ ∃ p' s', new = p' ++ q ++ s' ++ q ∧ p'.length + 1 = p.length ∧ isRaw p' = isRaw p := by
  have hpre : ∀ p ∈ fPrefixes, ∀ q ∈ quotes, ∃ p' ∈ [[], py "r", py "R"], replaceAll (py "F") [] (replaceAll (py "f") [] (p ++ q)) = p' ++ q ∧ p'.length + 1 = p.length ∧ isRaw p' = isRaw p := by
    decide +kernel
  obtain ⟨p', hp', he, hlen, hraw⟩ := hpre p h.hasPrefix q h.quote
  have hq : '{' ∉ q ∧ '}' ∉ q := by
    have : ∀ q ∈ quotes, '{' ∉ q ∧ '}' ∉ q := by decide
    exact this q h.quote
  have hnew : new = p' ++ q ++ halves s ++ q := by
    have : some (replaceAll (py "F") [] (replaceAll (py "f") [] (p ++ q)) ++ halveBraces s ++ q) = some new := hr
    rw [he, halveBraces_eq] at this
    exact (Option.some.inj this).symm
  refine ⟨⟨p', q, halves s, hnew, hp', h.quote, closed_halves q hq.1 hq.2 s h.ends, ?_⟩, p', halves s, hnew, hlen, hraw⟩
  rw [hraw]
  exact decode_halves hn _ _ s v (Nat.le_refl _) h.pieces

/-! ## Cases -/

/-- Just one name. -/
def oneName (n : PStr) : Option Nat := if n = py "DASH" then some 45 else none

theorem oneName_names : BraceFreeNames oneName := by
  intro n h
  unfold oneName at h
  split at h
  · rename_i hn
    subst hn
    decide
  · cases h

/-- `f"a{{\N{DASH}}}\x41"` is `a{-}A`, and so is the replacement. -/
example : FStringLiteral oneName (py "f") (py "\"") (py "a{{\\N{DASH}}}\\x41") ([97, 123, 45, 125, 65].map .inl) ∧
    noRedundantFString ⟨py "f\"", [.text (py "a{{\\N{DASH}}}\\x41")], py "\""⟩ = some (py "\"a{\\N{DASH}}\\x41\"") ∧
    StringLiteral oneName (py "\"a{\\N{DASH}}\\x41\"") [97, 123, 45, 125, 65] := by
  have h : FStringLiteral oneName (py "f") (py "\"") (py "a{{\\N{DASH}}}\\x41") ([97, 123, 45, 125, 65].map .inl) :=
    ⟨by decide, by decide, by decide +kernel, by decide +kernel⟩
  have hr : noRedundantFString ⟨py "f\"", [.text (py "a{{\\N{DASH}}}\\x41")], py "\""⟩ = some (py "\"a{\\N{DASH}}\\x41\"") := by decide +kernel
  exact ⟨h, hr, (C109_sound oneName oneName_names _ _ _ _ h _ hr).1⟩

/-- A finding: `f""` has no placeholders either, but libCST gives it no parts, and it is not reported. -/
theorem C109_empty : noRedundantFString ⟨py "f\"", [], py "\""⟩ = none ∧ FStringLiteral oneName (py "f") (py "\"") [] [] :=
  ⟨rfl, by decide, by decide, by decide, rfl⟩

end Cst
