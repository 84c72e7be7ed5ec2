import Verif.Props.Messages

/-!
# C122: which quotes and escapes the literal in a message has
-/

namespace Spec
open Py

/-- A character that stands for itself between these quotes. -/
def PlainIn (q c : Char) : Prop := 32 ≤ c.toNat ∧ c.toNat < 127 ∧ c ≠ q ∧ c ≠ '\\'

/-- The letter for a line break or a tab. -/
def letterFor : Char → Option Char
  | '\n' => some 'n'
  | '\r' => some 'r'
  | '\t' => some 't'
  | _ => none

/-- A character, or a backslash and its letter. -/
def withLetter (c : Char) : PStr := match letterFor c with
  | some l => ['\\', l]
  | none => [c]

end Spec

namespace Fixit
open Py Spec

theorem reprChar_plain (printable : Char → Bool) (q c : Char) (h : PlainIn q c) : reprChar printable q c = [c] := by
  obtain ⟨h1, h2, h3, h4⟩ := h
  have hc : ∀ d : Char, d.toNat < 32 → c ≠ d := by rintro d hd rfl; omega
  unfold reprChar
  rw [if_neg (by simp [h3, h4]), if_neg (hc _ (by decide)), if_neg (hc _ (by decide)), if_neg (hc _ (by decide)), if_neg (by omega), if_pos h2]

theorem reprChar_letter (printable : Char → Bool) (q c : Char) (hq : q = '\'' ∨ q = '"') (h : PlainIn q c ∨ ∃ l, letterFor c = some l) :
    reprChar printable q c = withLetter c := by
  rcases h with h | ⟨l, h⟩
  · rw [reprChar_plain printable q c h]
    have hc : ∀ d : Char, d.toNat < 32 → c ≠ d := by rintro d hd rfl; have := h.1; omega
    have : letterFor c = none := by
      unfold letterFor
      split
      · exact absurd rfl (hc _ (by decide))
      · exact absurd rfl (hc _ (by decide))
      · exact absurd rfl (hc _ (by decide))
      · rfl
    rw [withLetter, this]
  · unfold letterFor at h
    split at h
    · rcases hq with rfl | rfl <;> rfl
    · rcases hq with rfl | rfl <;> rfl
    · rcases hq with rfl | rfl <;> rfl
    · cases h

/-- **C122** A string with `'` in it but no `"` is shown in double quotes, any other in single quotes; line breaks and tabs are written as backslash and letter. (For strings of printable ASCII, line
breaks and tabs, without backslashes and the quote that surrounds them.) -/
theorem C122_quotes (R : Reprs) (s : PStr) (q : Char) (hq : q = if '\'' ∈ s ∧ '"' ∉ s then '"' else '\'')
    (h : ∀ c ∈ s, PlainIn q c ∨ ∃ l, letterFor c = some l) : (Piece.str s).render R = [q] ++ s.flatMap withLetter ++ [q] := by
  have hr : reprQuote s = q := by rw [hq]; rfl
  have hq' : q = '\'' ∨ q = '"' := by rw [hq]; split <;> simp
  show Py.reprStr R.printable s = _
  unfold Py.reprStr
  rw [hr]
  have : s.flatMap (reprChar R.printable q) = s.flatMap withLetter := by
    clear hq hr
    induction s with
    | nil => rfl
    | cons c s ih =>
      rw [List.flatMap_cons, List.flatMap_cons, ih (fun x hx => h x (List.mem_cons_of_mem _ hx)), reprChar_letter R.printable q c hq' (h c List.mem_cons_self)]
  rw [this]
  rfl

theorem hexDigit_plain : ∀ n, n < 16 → 32 ≤ (hexDigit n).toNat ∧ (hexDigit n).toNat ≠ 127 := by decide

theorem hexDigits_plain : ∀ w n, ∀ c ∈ hexDigits w n, 32 ≤ c.toNat ∧ c.toNat ≠ 127
  | 0, _, c, h => by cases h
  | w + 1, n, c, h => by
    rw [hexDigits, List.mem_append, List.mem_singleton] at h
    rcases h with h | rfl
    · exact hexDigits_plain w (n / 16) c h
    · exact hexDigit_plain _ (Nat.mod_lt _ (by decide))

theorem reprChar_visible (printable : Char → Bool) (q c : Char) (hq : q = '\'' ∨ q = '"') (hp : ∀ c, printable c = true → 127 < c.toNat) :
    ∀ d ∈ reprChar printable q c, 32 ≤ d.toNat ∧ d.toNat ≠ 127 := by
  intro d hd
  unfold reprChar at hd
  split at hd
  · rename_i h
    rcases List.mem_cons.1 hd with rfl | hd
    · decide
    · rw [List.mem_singleton.1 hd]
      rcases h with rfl | rfl
      · rcases hq with rfl | rfl <;> decide
      · decide
  split at hd
  · simp at hd; rcases hd with rfl | rfl <;> decide
  split at hd
  · simp at hd; rcases hd with rfl | rfl <;> decide
  split at hd
  · simp at hd; rcases hd with rfl | rfl <;> decide
  split at hd
  · simp only [List.cons_append, List.nil_append, List.mem_cons] at hd
    rcases hd with rfl | rfl | hd
    · decide
    · decide
    · exact hexDigits_plain _ _ d hd
  rename_i h1
  split at hd
  · rw [List.mem_singleton.1 hd]; omega
  split at hd
  · rw [List.mem_singleton.1 hd]; have := hp c (by assumption); omega
  split at hd
  · simp only [List.cons_append, List.nil_append, List.mem_cons] at hd
    rcases hd with rfl | rfl | hd
    · decide
    · decide
    · exact hexDigits_plain _ _ d hd
  split at hd
  · simp only [List.cons_append, List.nil_append, List.mem_cons] at hd
    rcases hd with rfl | rfl | hd
    · decide
    · decide
    · exact hexDigits_plain _ _ d hd
  · simp only [List.cons_append, List.nil_append, List.mem_cons] at hd
    rcases hd with rfl | rfl | hd
    · decide
    · decide
    · exact hexDigits_plain _ _ d hd

/-- **C122** Whatever the string, what is shown has no control characters of ASCII in it: no line break, no tab, no escape sequence for the terminal. -/
theorem C122_one_line (R : Reprs) (hp : ∀ c, R.printable c = true → 127 < c.toNat) (s : PStr) : ∀ c ∈ (Piece.str s).render R, 32 ≤ c.toNat ∧ c.toNat ≠ 127 := by
  have hq : reprQuote s = '\'' ∨ reprQuote s = '"' := by unfold reprQuote; split <;> simp
  intro c hc
  have hc' : c ∈ Py.reprStr R.printable s := hc
  unfold Py.reprStr at hc'
  simp only [List.mem_cons, List.mem_append, List.mem_flatMap, List.mem_singleton, List.not_mem_nil, or_false] at hc'
  rcases hc' with rfl | ⟨d, _, hd⟩ | rfl
  · rcases hq with h | h <;> rw [h] <;> decide
  · exact reprChar_visible R.printable _ d hq hp c hd
  · rcases hq with h | h <;> rw [h] <;> decide

example (R : Reprs) : (Piece.str (py "it's\n")).render R = py "\"it's\\n\"" := rfl
example (R : Reprs) : (Piece.str (py "\x1b[31m")).render R = py "'\\x1b[31m'" := rfl
example : ∀ c ∈ py "it's\n", PlainIn '"' c ∨ ∃ l, letterFor c = some l := by
  intro c hc
  simp at hc
  rcases hc with rfl | rfl | rfl | rfl | rfl
  · exact .inl (by unfold PlainIn; decide +kernel)
  · exact .inl (by unfold PlainIn; decide +kernel)
  · exact .inl (by unfold PlainIn; decide +kernel)
  · exact .inl (by unfold PlainIn; decide +kernel)
  · exact .inr ⟨'n', rfl⟩

end Fixit
