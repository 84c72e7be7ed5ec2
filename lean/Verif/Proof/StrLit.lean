import Verif.Spec.StrLit
import Verif.Model.Rules.Strings

/-!
# Lemmas about string literals and brace doubling
-/

namespace Cst
open Py Spec

/-! ## Skipping -/

theorem replaceGo_skip (old new : PStr) : ∀ (k : Nat) (s : PStr), replaceGo old new k s = replaceAll old new (s.drop k)
  | 0, s => rfl
  | k + 1, [] => by simp [replaceGo, replaceAll]
  | k + 1, c :: t => by rw [replaceGo, replaceGo_skip old new k t, List.drop_succ_cons]

theorem decodeGo_skip (names : PStr → Option Nat) (raw : Bool) : ∀ (k : Nat) (s : PStr), decodeGo names raw k s = decode names raw (s.drop k)
  | 0, s => rfl
  | k + 1, [] => by simp [decodeGo, decode]
  | k + 1, c :: t => by rw [decodeGo, decodeGo_skip names raw k t, List.drop_succ_cons]

theorem fItemsGo_skip (names : PStr → Option Nat) (raw : Bool) : ∀ (k : Nat) (s : PStr), fItemsGo names raw k s = fItems names raw (s.drop k)
  | 0, s => rfl
  | k + 1, [] => by simp [fItemsGo, fItems]
  | k + 1, c :: t => by rw [fItemsGo, fItemsGo_skip names raw k t, List.drop_succ_cons]

/-! ## Halving a doubled character -/

/-- `s.replace(cc, c)`. -/
abbrev halve (c : Char) (s : PStr) : PStr := replaceAll [c, c] [c] s

theorem halve_nil (c : Char) : halve c [] = [] := rfl

theorem halve_double (c : Char) (t : PStr) : halve c (c :: c :: t) = c :: halve c t := by
  unfold halve replaceAll
  rw [replaceGo, if_pos (by simp)]
  simp [replaceGo]

theorem halve_other {c d : Char} (h : d ≠ c) (t : PStr) : halve c (d :: t) = d :: halve c t := by
  unfold halve replaceAll
  rw [replaceGo, if_neg (by simp [List.isPrefixOf, Ne.symm h])]

theorem halve_single {c : Char} {t : PStr} (h : t.head? ≠ some c) : halve c (c :: t) = c :: halve c t := by
  unfold halve replaceAll
  rw [replaceGo, if_neg]
  cases t with
  | nil => simp [List.isPrefixOf]
  | cons d t =>
    simp only [List.head?_cons, ne_eq, Option.some.injEq] at h
    simp [List.isPrefixOf, Ne.symm h]

theorem halve_head (c : Char) : ∀ s : PStr, (halve c s).head? = s.head?
  | [] => rfl
  | d :: t => by
    by_cases h : d = c
    · subst h
      cases t with
      | nil => rw [halve_single (by simp)]; rfl
      | cons e u =>
        by_cases h' : e = d
        · subst h'; rw [halve_double]; rfl
        · rw [halve_single (by simpa using h')]; rfl
    · rw [halve_other h]; rfl

theorem halve_no (c : Char) : ∀ s : PStr, isIn [c, c] s = false → halve c s = s
  | [], _ => rfl
  | d :: t, h => by
    simp only [isIn, Bool.or_eq_false_iff] at h
    obtain ⟨h1, h2⟩ := h
    have ih := halve_no c t h2
    by_cases hd : d = c
    · subst hd
      rw [halve_single, ih]
      intro ht
      cases t with
      | nil => cases ht
      | cons e u =>
        simp only [List.head?_cons, Option.some.injEq] at ht
        subst ht
        simp [List.isPrefixOf] at h1
    · rw [halve_other hd, ih]

theorem halve_noChar (c : Char) : ∀ s : PStr, c ∉ s → halve c s = s
  | [], _ => rfl
  | d :: t, h => by
    simp only [List.mem_cons, not_or] at h
    rw [halve_other (Ne.symm h.1), halve_noChar c t h.2]

/-- Both braces. -/
def halves (s : PStr) : PStr := halve '}' (halve '{' s)

theorem halveBraces_eq (s : PStr) : halveBraces s = halves s := by
  unfold halveBraces halves
  split
  · rfl
  · rename_i h
    simp only [Bool.or_eq_true, not_or, Bool.not_eq_true] at h
    rw [halve_no '{' s h.1, halve_no '}' s h.2]

theorem halves_nil : halves [] = [] := rfl
theorem halves_open (t : PStr) : halves ('{' :: '{' :: t) = '{' :: halves t := by
  unfold halves; rw [halve_double, halve_other (by decide)]
theorem halves_close (t : PStr) : halves ('}' :: '}' :: t) = '}' :: halves t := by
  unfold halves; rw [halve_other (c := '{') (by decide), halve_other (c := '{') (by decide), halve_double]
theorem halves_other {d : Char} (h1 : d ≠ '{') (h2 : d ≠ '}') (t : PStr) : halves (d :: t) = d :: halves t := by
  unfold halves; rw [halve_other h1, halve_other h2]
theorem halves_open_single {t : PStr} (h : t.head? ≠ some '{') : halves ('{' :: t) = '{' :: halves t := by
  unfold halves; rw [halve_single h, halve_other (by decide)]
theorem halves_close_single {t : PStr} (h : t.head? ≠ some '}') : halves ('}' :: t) = '}' :: halves t := by
  unfold halves
  rw [halve_other (by decide), halve_single]
  rw [halve_head]; exact h
theorem halves_head (s : PStr) : (halves s).head? = s.head? := by unfold halves; rw [halve_head, halve_head]

theorem halves_append {w : PStr} (h : ∀ c ∈ w, c ≠ '{' ∧ c ≠ '}') (t : PStr) : halves (w ++ t) = w ++ halves t := by
  induction w with
  | nil => rfl
  | cons c w ih =>
    rw [List.cons_append, halves_other (h c (by simp)).1 (h c (by simp)).2, ih (fun d hd => h d (by simp [hd]))]
    rfl

/-! ## Reading an f-string -/

theorem fItems_close {names : PStr → Option Nat} {raw : Bool} {t : PStr} {items : List Item} (h : fItems names raw ('}' :: t) = some items) :
    ∃ u items', t = '}' :: u ∧ fItems names raw u = some items' ∧ items = .inl 125 :: items' := by
  unfold fItems at h
  rw [fItemsGo, if_neg (by simp), if_neg (by decide), if_pos rfl] at h
  split at h
  · rename_i ht
    cases t with
    | nil => cases ht
    | cons e u =>
      simp only [List.head?_cons, Option.some.injEq] at ht
      subst ht
      rw [fItemsGo_skip] at h
      simp only [List.drop_succ_cons, List.drop_zero, Option.map_eq_some_iff] at h
      obtain ⟨it, h1, h2⟩ := h
      exact ⟨u, it, rfl, h1, h2.symm⟩
  · cases h

/-- After a brace that closes a name, doubled braces are still halved in pairs. -/
theorem halves_after (names : PStr → Option Nat) (raw : Bool) : ∀ (n : Nat) (t : PStr) (items : List Item), t.length ≤ n → fItems names raw t = some items → halves ('}' :: t) = '}' :: halves t
  | 0, [], _, _, _ => halves_close_single (by simp)
  | 0, _ :: _, _, hl, _ => by simp at hl
  | n + 1, t, items, hl, h => by
    by_cases ht : t.head? = some '}'
    · cases t with
      | nil => cases ht
      | cons e t =>
        simp only [List.head?_cons, Option.some.injEq] at ht
        subst ht
        obtain ⟨u, items', rfl, h', -⟩ := fItems_close h
        rw [halves_close, halves_close, halves_after names raw n u items' (by simp at hl; omega) h']
    · exact halves_close_single ht

/-- The characters that a prefix of a text may have stay. -/
theorem halves_take (p : Char → Bool) (h1 : p '{' = false) (h2 : p '}' = false) : ∀ (k : Nat) (t : PStr),
    ((halves t).take k).takeWhile p = (t.take k).takeWhile p ∧ (halves t).drop ((t.take k).takeWhile p).length = halves (t.drop ((t.take k).takeWhile p).length)
  | 0, t => by simp
  | k + 1, [] => by simp [halves_nil]
  | k + 1, c :: t => by
    by_cases hc : p c = true
    · have hne1 : c ≠ '{' := fun e => by rw [e, h1] at hc; cases hc
      have hne2 : c ≠ '}' := fun e => by rw [e, h2] at hc; cases hc
      obtain ⟨ih1, ih2⟩ := halves_take p h1 h2 k t
      rw [halves_other hne1 hne2]
      simp only [List.take_succ_cons, List.takeWhile_cons, hc, if_true, ih1, List.length_cons, List.drop_succ_cons, ih2, and_self]
    · have hh := halves_head (c :: t)
      cases hx : halves (c :: t) with
      | nil => rw [hx] at hh; cases hh
      | cons d u =>
        rw [hx] at hh
        simp only [List.head?_cons, Option.some.injEq] at hh
        subst hh
        simp [List.take_succ_cons, List.takeWhile_cons, hc, hx]

theorem until_close : ∀ u : PStr, (u.takeWhile (fun c => decide (c ≠ '}'))).length < u.length → ∃ r, u = u.takeWhile (fun c => decide (c ≠ '}')) ++ '}' :: r
  | [], h => by simp at h
  | c :: u, h => by
    by_cases hc : c = '}'
    · subst hc
      exact ⟨u, by simp⟩
    · have : decide (c ≠ '}') = true := by simpa using hc
      rw [List.takeWhile_cons, if_pos this] at h ⊢
      obtain ⟨r, hr⟩ := until_close u (by simpa using h)
      exact ⟨r, by rw [List.cons_append, ← hr]⟩

/-- Halving does not disturb an escape. -/
theorem readEscape_halves {names : PStr → Option Nat} (hn : BraceFreeNames names) (raw : Bool) (t : PStr) (v : List Nat) (n : Nat) (items : List Item)
    (h : readEscape names t = some (v, n)) (hrest : fItems names raw (t.drop n) = some items) :
    readEscape names (halves t) = some (v, n) ∧ (halves t).drop n = halves (t.drop n) := by
  cases t with
  | nil =>
    cases h
    exact ⟨rfl, rfl⟩
  | cons c t =>
    have hex : ∀ k, hexEscape k t = some (v, n) → hexEscape k (halves t) = some (v, n) ∧ (halves t).drop (n - 1) = halves (t.drop (n - 1)) ∧ n = k + 1 := by
      intro k hk
      obtain ⟨e1, e2⟩ := halves_take isHexDigit (by decide) (by decide) k t
      unfold hexEscape at hk ⊢
      simp only at hk ⊢
      rw [e1]
      split at hk
      · rename_i hc
        rw [if_pos hc]
        cases hk
        rw [hc.1] at e2
        exact ⟨rfl, e2, rfl⟩
      · cases hk
    have hexDrop : ∀ k, c ≠ '{' → c ≠ '}' → hexEscape k t = some (v, n) → hexEscape k (halves t) = some (v, n) ∧ (halves (c :: t)).drop n = halves ((c :: t).drop n) := by
      intro k hc1 hc2 hk
      obtain ⟨e1, e2, rfl⟩ := hex k hk
      refine ⟨e1, ?_⟩
      rw [halves_other hc1 hc2, List.drop_succ_cons, List.drop_succ_cons]
      exact e2
    rw [readEscape] at h
    by_cases c1 : c = '\n'
    · subst c1
      rw [if_pos rfl] at h
      cases h
      rw [halves_other (by decide) (by decide), readEscape, if_pos rfl]
      exact ⟨rfl, rfl⟩
    rw [if_neg c1] at h
    by_cases c2 : (simpleEscape c).isSome = true
    · rw [if_pos c2] at h
      have hc1 : c ≠ '{' := fun e => by subst e; revert c2; decide
      have hc2 : c ≠ '}' := fun e => by subst e; revert c2; decide
      cases h
      rw [halves_other hc1 hc2, readEscape, if_neg c1, if_pos c2]
      exact ⟨rfl, rfl⟩
    rw [if_neg c2] at h
    by_cases c3 : isOctDigit c = true
    · rw [if_pos c3] at h
      obtain ⟨e1, e2⟩ := halves_take isOctDigit (by decide) (by decide) 3 (c :: t)
      have hc1 : c ≠ '{' := fun e => by subst e; revert c3; decide
      have hc2 : c ≠ '}' := fun e => by subst e; revert c3; decide
      simp only [Option.some.injEq, Prod.mk.injEq] at h
      obtain ⟨rfl, rfl⟩ := h
      refine ⟨?_, e2⟩
      rw [← e1, halves_other hc1 hc2, readEscape, if_neg c1, if_neg c2, if_pos c3]
    rw [if_neg c3] at h
    by_cases c4 : c = 'x'
    · rw [if_pos c4] at h
      obtain ⟨e1, e2⟩ := hexDrop 2 (by rw [c4]; decide) (by rw [c4]; decide) h
      refine ⟨?_, e2⟩
      rw [halves_other (by rw [c4]; decide) (by rw [c4]; decide), readEscape, if_neg c1, if_neg c2, if_neg c3, if_pos c4, e1]
    rw [if_neg c4] at h
    by_cases c5 : c = 'u'
    · rw [if_pos c5] at h
      obtain ⟨e1, e2⟩ := hexDrop 4 (by rw [c5]; decide) (by rw [c5]; decide) h
      refine ⟨?_, e2⟩
      rw [halves_other (by rw [c5]; decide) (by rw [c5]; decide), readEscape, if_neg c1, if_neg c2, if_neg c3, if_neg c4, if_pos c5, e1]
    rw [if_neg c5] at h
    by_cases c6 : c = 'U'
    · rw [if_pos c6] at h
      obtain ⟨e1, e2⟩ := hexDrop 8 (by rw [c6]; decide) (by rw [c6]; decide) h
      refine ⟨?_, e2⟩
      rw [halves_other (by rw [c6]; decide) (by rw [c6]; decide), readEscape, if_neg c1, if_neg c2, if_neg c3, if_neg c4, if_neg c5, if_pos c6, e1]
    rw [if_neg c6] at h
    by_cases c7 : c = 'N'
    · rw [if_pos c7] at h
      subst c7
      rw [halves_other (by decide) (by decide), readEscape, if_neg c1, if_neg c2, if_neg c3, if_neg c4, if_neg c5, if_neg c6, if_pos rfl]
      unfold nameEscape at h
      split at h
      · rename_i u
        simp only at h
        split at h
        · rename_i hlen
          split at h
          · rename_i k hk
            simp only [Option.some.injEq, Prod.mk.injEq] at h
            obtain ⟨rfl, rfl⟩ := h
            obtain ⟨r, hr⟩ := until_close u hlen
            have hname := hn _ (by rw [hk]; rfl)
            generalize hw : u.takeWhile (fun c => decide (c ≠ '}')) = w at hr hk hlen hname
            subst hr
            have hnotclose : ∀ c ∈ w, decide (c ≠ '}') = true := fun c hc => by simpa using (hname c hc).2
            have hdrop : (('N' :: '{' :: (w ++ '}' :: r)).drop (w.length + 3)) = r := by
              simp [List.drop_append]
            rw [hw, hdrop] at hrest
            have hafter := halves_after names raw _ r items (Nat.le_refl _) hrest
            have hH : halves ('{' :: (w ++ '}' :: r)) = '{' :: (w ++ '}' :: halves r) := by
              rw [halves_open_single, halves_append hname, hafter]
              cases w with
              | nil => simp
              | cons d w => simpa using (hname d (by simp)).1
            rw [hH, hdrop]
            have htw : (w ++ '}' :: halves r).takeWhile (fun c => decide (c ≠ '}')) = w := by
              rw [List.takeWhile_append_of_pos hnotclose]
              simp
            refine ⟨?_, by simp [List.drop_append]⟩
            unfold nameEscape
            simp only
            rw [htw, if_pos (by simp), hk]
          · cases h
        · cases h
      · cases h
    rw [if_neg c7] at h
    cases h
    refine ⟨?_, rfl⟩
    have hh := halves_head (c :: t)
    cases hx : halves (c :: t) with
    | nil => rw [hx] at hh; cases hh
    | cons d u =>
      rw [hx] at hh
      simp only [List.head?_cons, Option.some.injEq] at hh
      subst hh
      rw [readEscape, if_neg c1, if_neg c2, if_neg c3, if_neg c4, if_neg c5, if_neg c6, if_neg c7]

/-- An f-string without fields, with its braces halved, is a string with the same value. -/
theorem decode_halves {names : PStr → Option Nat} (hn : BraceFreeNames names) (raw : Bool) : ∀ (n : Nat) (s : PStr) (v : List Nat), s.length ≤ n →
    fItems names raw s = some (v.map Sum.inl) → decode names raw (halves s) = some v
  | _, [], v, _, h => by
    have : v = [] := by
      have h : (some [] : Option (List Item)) = some (v.map Sum.inl) := h
      simpa using h.symm
    subst this
    rfl
  | 0, _ :: _, _, hl, _ => by simp at hl
  | n + 1, c :: t, v, hl, h => by
    have hl' : t.length ≤ n := by simpa using hl
    have hcons : ∀ (x : Nat) (u : PStr), u.length ≤ n → (fItems names raw u).map (Sum.inl x :: ·) = some (v.map Sum.inl) → ∃ v', v = x :: v' ∧ decode names raw (halves u) = some v' := by
      intro x u hu h
      rw [Option.map_eq_some_iff] at h
      obtain ⟨it, h1, h2⟩ := h
      cases v with
      | nil => cases h2
      | cons y v' =>
        simp only [List.map_cons, List.cons.injEq, Sum.inl.injEq] at h2
        obtain ⟨rfl, rfl⟩ := h2
        exact ⟨v', rfl, decode_halves hn raw n u v' hu h1⟩
    unfold fItems at h
    rw [fItemsGo] at h
    by_cases c1 : c = '\\' ∧ raw = false
    · rw [if_pos c1] at h
      split at h
      · rename_i w k hw
        rw [fItemsGo_skip, Option.map_eq_some_iff] at h
        obtain ⟨it, h1, h2⟩ := h
        obtain ⟨v1, v2, rfl, hv1, hv2⟩ := List.map_eq_append_iff.mp h2.symm
        have hv1' : v1 = w := by
          have := congrArg (fun l : List Item => l.filterMap (fun i => match i with | .inl x => some x | .inr _ => none)) hv1
          simpa [List.filterMap_map, Function.comp_def] using this
        subst hv1' hv2
        obtain ⟨e1, e2⟩ := readEscape_halves hn raw t _ k _ hw h1
        have ih := decode_halves hn raw n (t.drop k) v2 (by simp; omega) h1
        rw [halves_other (by rw [c1.1]; decide) (by rw [c1.1]; decide)]
        unfold decode
        rw [decodeGo, if_pos c1, e1]
        simp only
        rw [decodeGo_skip, e2, ih]
        rfl
      · cases h
    · rw [if_neg c1] at h
      by_cases c2 : c = '{'
      · rw [if_pos c2] at h
        split at h
        · rename_i ht
          cases t with
          | nil => cases ht
          | cons e u =>
            simp only [List.head?_cons, Option.some.injEq] at ht
            subst ht c2
            rw [fItemsGo_skip] at h
            obtain ⟨v', rfl, hv'⟩ := hcons _ u (by simp at hl'; omega) h
            rw [halves_open]
            unfold decode
            rw [decodeGo, if_neg (by simp)]
            show Option.map _ (decode names raw (halves u)) = _
            rw [hv']
            rfl
        · simp only at h
          split at h
          · rw [Option.map_eq_some_iff] at h
            obtain ⟨it, -, h2⟩ := h
            cases v <;> cases h2
          · cases h
      · rw [if_neg c2] at h
        by_cases c3 : c = '}'
        · rw [if_pos c3] at h
          split at h
          · rename_i ht
            cases t with
            | nil => cases ht
            | cons e u =>
              simp only [List.head?_cons, Option.some.injEq] at ht
              subst ht c3
              rw [fItemsGo_skip] at h
              obtain ⟨v', rfl, hv'⟩ := hcons _ u (by simp at hl'; omega) h
              rw [halves_close]
              unfold decode
              rw [decodeGo, if_neg (by simp)]
              show Option.map _ (decode names raw (halves u)) = _
              rw [hv']
              rfl
          · cases h
        · rw [if_neg c3] at h
          obtain ⟨v', rfl, hv'⟩ := hcons _ t hl' h
          rw [halves_other c2 c3]
          unfold decode
          rw [decodeGo, if_neg c1]
          show Option.map _ (decode names raw (halves t)) = _
          rw [hv']
          rfl

/-! ## The closing quote -/

theorem prefix_halve (c : Char) (q : PStr) : ∀ (p s : PStr), c ∉ p → p.isPrefixOf (halve c s ++ q) = true → p.isPrefixOf (s ++ q) = true
  | [], _, _, _ => by simp
  | a :: p, [], _, h => h
  | a :: p, d :: s, hp, h => by
    simp only [List.mem_cons, not_or] at hp
    have hhead := halve_head c (d :: s)
    cases hx : halve c (d :: s) with
    | nil => rw [hx] at hhead; cases hhead
    | cons e u =>
      rw [hx] at hhead h
      simp only [List.head?_cons, Option.some.injEq] at hhead
      subst hhead
      simp only [List.cons_append, List.isPrefixOf, Bool.and_eq_true, beq_iff_eq] at h ⊢
      obtain ⟨rfl, h⟩ := h
      rw [halve_other (Ne.symm hp.1)] at hx
      simp only [List.cons.injEq, true_and] at hx
      subst hx
      exact ⟨rfl, prefix_halve c q p s hp.2 h⟩

theorem closed_halve (c : Char) (q : PStr) (hq : c ∉ q) (hb : c ≠ '\\') : ∀ (n : Nat) (esc : Bool) (s : PStr), s.length ≤ n → closedGo q esc s = true → closedGo q esc (halve c s) = true
  | _, esc, [], _, h => h
  | 0, _, _ :: _, hl, _ => by simp at hl
  | n + 1, esc, d :: t, hl, h => by
    have hl' : t.length ≤ n := by simpa using hl
    have key : ∀ u : PStr, u.length ≤ n → halve c (d :: t) = d :: halve c u → closedGo q (d == '\\' && !esc) u = true → closedGo q esc (halve c (d :: t)) = true := by
      intro u hu he hc
      have hpre := prefix_halve c q q (d :: t) hq
      rw [he]
      rw [he] at hpre
      cases esc with
      | true =>
        simp only [closedGo]
        simp only [Bool.not_true, Bool.and_false] at hc
        exact closed_halve c q hq hb n _ _ hu hc
      | false =>
        simp only [closedGo, Bool.and_eq_true, Bool.not_eq_true'] at h ⊢
        simp only [Bool.not_false, Bool.and_true] at hc
        refine ⟨?_, closed_halve c q hq hb n _ _ hu hc⟩
        cases hp : q.isPrefixOf (d :: halve c u ++ q) with
        | false => rfl
        | true => rw [hpre hp] at h; cases h.1
    have hstep : closedGo q (d == '\\' && !esc) t = true := by
      cases esc with
      | true => simpa [closedGo] using h
      | false =>
        simp only [closedGo, Bool.and_eq_true] at h
        simpa using h.2
    by_cases hd : d = c
    · subst hd
      cases t with
      | nil => exact key [] (by simp) (halve_single (by simp)) hstep
      | cons e u =>
        by_cases he : e = d
        · subst he
          refine key u (by simp at hl'; omega) (halve_double _ _) ?_
          have hd' : (e == '\\') = false := by simpa using hb
          rw [hd'] at hstep ⊢
          simp only [Bool.false_and, closedGo, Bool.and_eq_true] at hstep ⊢
          rw [hd'] at hstep
          exact hstep.2
        · exact key (e :: u) hl' (halve_single (by simpa using he)) hstep
    · exact key t hl' (halve_other hd t) hstep

theorem closed_halves (q : PStr) (h1 : '{' ∉ q) (h2 : '}' ∉ q) (s : PStr) (h : closed q s = true) : closed q (halves s) = true :=
  closed_halve '}' q h2 (by decide) _ false _ (Nat.le_refl _) (closed_halve '{' q h1 (by decide) _ false s (Nat.le_refl _) h)

end Cst
