import Verif.Py.Repr
import Verif.Spec.StrLit

/-!
# `repr` of a string reads back as the string
-/

namespace Py
open Spec

theorem hexDigit_facts : ∀ n, n < 16 → isHexDigit (hexDigit n) = true ∧ digitValue (hexDigit n) = n ∧ hexDigit n ≠ '\\' ∧ hexDigit n ≠ '\'' ∧ hexDigit n ≠ '"' := by
  decide

theorem hexDigits_length (w : Nat) : ∀ n, (hexDigits w n).length = w := by
  induction w with
  | zero => intro n; rfl
  | succ w ih => intro n; simp [hexDigits, ih]

theorem hexDigits_mem (w : Nat) : ∀ n, ∀ c ∈ hexDigits w n, isHexDigit c = true ∧ c ≠ '\\' ∧ c ≠ '\'' ∧ c ≠ '"' := by
  induction w with
  | zero => intro n c h; simp [hexDigits] at h
  | succ w ih =>
    intro n c h
    rw [hexDigits, List.mem_append, List.mem_singleton] at h
    rcases h with h | rfl
    · exact ih _ c h
    · have := hexDigit_facts (n % 16) (Nat.mod_lt _ (by decide))
      exact ⟨this.1, this.2.2.1, this.2.2.2⟩

theorem hexDigits_number (w : Nat) : ∀ n, n < 16 ^ w → number 16 (hexDigits w n) = n := by
  induction w with
  | zero => intro n h; simp at h; subst h; rfl
  | succ w ih =>
    intro n h
    have h1 := ih (n / 16) (by rw [Nat.pow_succ, Nat.mul_comm] at h; exact Nat.div_lt_of_lt_mul h)
    unfold number at h1 ⊢
    rw [hexDigits, List.foldl_append, h1]
    simp only [List.foldl_cons, List.foldl_nil, (hexDigit_facts (n % 16) (Nat.mod_lt _ (by decide))).2.1]
    omega

theorem decodeGo_skip (names : PStr → Option Nat) (raw : Bool) (l t : PStr) : decodeGo names raw l.length (l ++ t) = decodeGo names raw 0 t := by
  induction l with
  | nil => rfl
  | cons c l ih => exact ih

theorem takeWhile_all {α : Type} (p : α → Bool) (l : List α) (h : ∀ x ∈ l, p x = true) : l.takeWhile p = l := by
  induction l with
  | nil => rfl
  | cons a l ih => rw [List.takeWhile_cons, if_pos (h a (by simp)), ih (fun x hx => h x (by simp [hx]))]

theorem hexEscape_hexDigits (w n : Nat) (t : PStr) (h : n < 16 ^ w) (h' : n ≤ 0x10ffff) : hexEscape w (hexDigits w n ++ t) = some ([n], w + 1) := by
  have e : (hexDigits w n ++ t).take w = hexDigits w n := by
    have := hexDigits_length w n
    rw [List.take_append_of_le_length (by omega), List.take_of_length_le (by omega)]
  unfold hexEscape
  simp only [e]
  rw [takeWhile_all _ _ (fun c hc => (hexDigits_mem w n c hc).1), hexDigits_number w n h, hexDigits_length, if_pos ⟨rfl, h'⟩]

theorem decode_hex (names : PStr → Option Nat) (k : Char) (w n : Nat) (t : PStr) (hk : ∀ u, readEscape names (k :: u) = hexEscape w u) (h : n < 16 ^ w) (h' : n ≤ 0x10ffff) :
    decodeGo names false 0 (['\\', k] ++ hexDigits w n ++ t) = (decodeGo names false 0 t).map (n :: ·) := by
  simp only [List.cons_append, List.nil_append]
  rw [decodeGo, if_pos ⟨rfl, rfl⟩, hk, hexEscape_hexDigits w n t h h']
  simp only
  have e : decodeGo names false (w + 1) (k :: (hexDigits w n ++ t)) = decodeGo names false 0 t := by
    have := decodeGo_skip names false (k :: hexDigits w n) t
    rw [List.length_cons, hexDigits_length] at this
    exact this
  rw [e]
  rfl

theorem decode_letter (names : PStr → Option Nat) (k : Char) (n : Nat) (t : PStr) (hk : k ≠ '\n') (hs : simpleEscape k = some n) :
    decodeGo names false 0 ('\\' :: k :: t) = (decodeGo names false 0 t).map (n :: ·) := by
  rw [decodeGo, if_pos ⟨rfl, rfl⟩]
  have : readEscape names (k :: t) = some ([n], 1) := by
    simp [readEscape, hk, hs]
  rw [this]
  rfl

theorem readEscape_x (names : PStr → Option Nat) (u : PStr) : readEscape names ('x' :: u) = hexEscape 2 u := by
  simp [readEscape, simpleEscape, isOctDigit]
theorem readEscape_u (names : PStr → Option Nat) (u : PStr) : readEscape names ('u' :: u) = hexEscape 4 u := by
  simp [readEscape, simpleEscape, isOctDigit]
theorem readEscape_U (names : PStr → Option Nat) (u : PStr) : readEscape names ('U' :: u) = hexEscape 8 u := by
  simp [readEscape, simpleEscape, isOctDigit]

theorem char_le (c : Char) : c.toNat ≤ 0x10ffff := by
  have := c.valid
  simp only [UInt32.isValidChar, Nat.isValidChar] at this
  show c.val.toNat ≤ _
  omega

theorem decode_reprChar (names : PStr → Option Nat) (printable : Char → Bool) (q c : Char) (t : PStr) (hq : q = '\'' ∨ q = '"') :
    decodeGo names false 0 (reprChar printable q c ++ t) = (decodeGo names false 0 t).map (c.toNat :: ·) := by
  have plain : c ≠ '\\' → decodeGo names false 0 ([c] ++ t) = (decodeGo names false 0 t).map (c.toNat :: ·) := by
    intro h
    show decodeGo names false 0 (c :: t) = _
    rw [decodeGo, if_neg (fun x => h x.1)]
  have hle := char_le c
  unfold reprChar
  split
  · rename_i h
    rcases h with rfl | rfl
    · rcases hq with rfl | rfl
      · exact decode_letter names _ 39 t (by decide) rfl
      · exact decode_letter names _ 34 t (by decide) rfl
    · exact decode_letter names _ 92 t (by decide) rfl
  · rename_i h
    have hne : c ≠ '\\' := fun e => h (Or.inr e)
    split
    · rename_i h; subst h; exact decode_letter names _ 9 t (by decide) rfl
    · split
      · rename_i h; subst h; exact decode_letter names _ 10 t (by decide) rfl
      · split
        · rename_i h; subst h; exact decode_letter names _ 13 t (by decide) rfl
        · split
          · exact decode_hex names 'x' 2 _ t (readEscape_x names) (by omega) hle
          · split
            · exact plain hne
            · split
              · exact plain hne
              · split
                · exact decode_hex names 'x' 2 _ t (readEscape_x names) (by omega) hle
                · split
                  · exact decode_hex names 'u' 4 _ t (readEscape_u names) (by omega) hle
                  · exact decode_hex names 'U' 8 _ t (readEscape_U names) (by omega) hle

theorem closed_plain (q c : Char) (t : PStr) (h1 : c ≠ q) (h2 : c ≠ '\\') : closedGo [q] false (c :: t) = closedGo [q] false t := by
  simp [closedGo, List.isPrefixOf, beq_eq_false_iff_ne.2 (Ne.symm h1), beq_eq_false_iff_ne.2 h2]

theorem closed_plains (q : Char) (l t : PStr) (h : ∀ c ∈ l, c ≠ q ∧ c ≠ '\\') : closedGo [q] false (l ++ t) = closedGo [q] false t := by
  induction l with
  | nil => rfl
  | cons c l ih =>
    rw [List.cons_append, closed_plain q c _ (h c (by simp)).1 (h c (by simp)).2]
    exact ih (fun x hx => h x (by simp [hx]))

theorem closed_escape (q k : Char) (t : PStr) (hq : q ≠ '\\') : closedGo [q] false ('\\' :: k :: t) = closedGo [q] false t := by
  simp [closedGo, List.isPrefixOf, hq]

theorem closed_hex (q k : Char) (w n : Nat) (t : PStr) (hq : q = '\'' ∨ q = '"') : closedGo [q] false (['\\', k] ++ hexDigits w n ++ t) = closedGo [q] false t := by
  simp only [List.cons_append, List.nil_append]
  rw [closed_escape q k _ (by rcases hq with rfl | rfl <;> decide)]
  refine closed_plains q _ t (fun c hc => ?_)
  obtain ⟨-, h1, h2, h3⟩ := hexDigits_mem w n c hc
  exact ⟨by rcases hq with rfl | rfl <;> assumption, h1⟩

theorem closed_reprChar (printable : Char → Bool) (q c : Char) (t : PStr) (hq : q = '\'' ∨ q = '"') :
    closedGo [q] false (reprChar printable q c ++ t) = closedGo [q] false t := by
  have hq' : q ≠ '\\' := by rcases hq with rfl | rfl <;> decide
  unfold reprChar
  split
  · exact closed_escape q c t hq'
  · rename_i h
    have h1 : c ≠ q := fun e => h (Or.inl e)
    have h2 : c ≠ '\\' := fun e => h (Or.inr e)
    split
    · exact closed_escape q _ t hq'
    · split
      · exact closed_escape q _ t hq'
      · split
        · exact closed_escape q _ t hq'
        · split
          · exact closed_hex q _ _ _ t hq
          · split
            · exact closed_plain q c t h1 h2
            · split
              · exact closed_plain q c t h1 h2
              · split
                · exact closed_hex q _ _ _ t hq
                · split
                  · exact closed_hex q _ _ _ t hq
                  · exact closed_hex q _ _ _ t hq

theorem reprQuote_or (s : PStr) : reprQuote s = '\'' ∨ reprQuote s = '"' := by
  unfold reprQuote; split <;> simp

theorem decode_flatMap (names : PStr → Option Nat) (printable : Char → Bool) (q : Char) (hq : q = '\'' ∨ q = '"') (s : PStr) :
    decodeGo names false 0 (s.flatMap (reprChar printable q)) = some (s.map Char.toNat) := by
  induction s with
  | nil => rfl
  | cons c s ih => rw [List.flatMap_cons, decode_reprChar names printable q c _ hq, ih]; rfl

theorem closed_flatMap (printable : Char → Bool) (q : Char) (hq : q = '\'' ∨ q = '"') (s : PStr) :
    closedGo [q] false (s.flatMap (reprChar printable q)) = true := by
  induction s with
  | nil => rfl
  | cons c s ih => rw [List.flatMap_cons, closed_reprChar printable q c _ hq, ih]

/-- `repr` of a string is a string literal with its value. -/
theorem reprStr_literal (names : PStr → Option Nat) (printable : Char → Bool) (s : PStr) : StringLiteral names (reprStr printable s) (s.map Char.toNat) := by
  refine ⟨[], [reprQuote s], s.flatMap (reprChar printable (reprQuote s)), by simp [reprStr], by simp, ?_, closed_flatMap printable _ (reprQuote_or s) s,
    decode_flatMap names printable _ (reprQuote_or s) s⟩
  rcases reprQuote_or s with h | h <;> rw [h] <;> simp [quotes]

/-- Without quotes, backslashes and characters beyond printable ASCII it is the string in single quotes. -/
theorem reprStr_plain (printable : Char → Bool) (s : PStr) (h : ∀ c ∈ s, 32 ≤ c.toNat ∧ c.toNat < 127 ∧ c ≠ '\'' ∧ c ≠ '\\') :
    reprStr printable s = py "'" ++ s ++ py "'" := by
  have hq : reprQuote s = '\'' := by
    unfold reprQuote
    rw [if_neg]
    rintro ⟨h1, -⟩
    exact (h _ h1).2.2.1 rfl
  have : s.flatMap (reprChar printable '\'') = s := by
    clear hq
    induction s with
    | nil => rfl
    | cons c s ih =>
      obtain ⟨h1, h2, h3, h4⟩ := h c (by simp)
      rw [List.flatMap_cons, ih (fun x hx => h x (by simp [hx]))]
      have hc : ∀ d : Char, d.toNat < 32 → c ≠ d := by rintro d hd rfl; omega
      have : reprChar printable '\'' c = [c] := by
        unfold reprChar
        rw [if_neg (by simp [h3, h4]), if_neg (hc '\t' (by decide)), if_neg (hc '\n' (by decide)), if_neg (hc '\r' (by decide)), if_neg (by omega), if_pos h2]
      rw [this]; rfl
  rw [reprStr, hq, this]
  rfl

end Py
