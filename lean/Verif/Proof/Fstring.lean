import Verif.Proof.StrLit
import Verif.Proof.ReLang
import Verif.Spec.Percent

/-!
# Lemmas for UseFstring
-/

namespace Cst
open Py Spec

/-! ## The regular expression -/

theorem onlyS_nil : OnlyS [] := fun u v h => by cases u <;> cases h

theorem onlyS_cons {c : Char} {t : PStr} (hc : c ≠ '%') : OnlyS (c :: t) ↔ OnlyS t := by
  constructor
  · intro h u v he
    exact h (c :: u) v (by rw [he]; rfl)
  · intro h u v he
    cases u with
    | nil => simp only [List.nil_append, List.cons.injEq] at he; exact absurd he.1 hc
    | cons d u =>
      simp only [List.cons_append, List.cons.injEq] at he
      exact h u v he.2

theorem onlyS_hole (t : PStr) : OnlyS ('%' :: 's' :: t) ↔ OnlyS t := by
  constructor
  · intro h u v he
    exact h ('%' :: 's' :: u) v (by rw [he]; rfl)
  · intro h u v he
    cases u with
    | nil =>
      simp only [List.nil_append, List.cons.injEq, true_and] at he
      rw [← he]; rfl
    | cons d u =>
      simp only [List.cons_append, List.cons.injEq] at he
      exact (onlyS_cons (by decide)).mpr h u v he.2

theorem onlyS_drop {s : PStr} (h : OnlyS s) (n : Nat) : OnlyS (s.drop n) := by
  intro u v he
  exact h (s.take n ++ u) v (by rw [List.append_assoc, ← he, List.take_append_drop])

theorem onlyS_noPercent {w : PStr} (h : '%' ∉ w) (t : PStr) : OnlyS (w ++ t) ↔ OnlyS t := by
  induction w with
  | nil => rfl
  | cons c w ih =>
    simp only [List.mem_cons, not_or] at h
    rw [List.cons_append, onlyS_cons (Ne.symm h.1), ih h.2]

/-- The pieces between the holes. -/
theorem onlyS_pieces : ∀ (n : Nat) (s : PStr), s.length ≤ n → OnlyS s → ∃ (x : PStr) (ps : List PStr), s = x ++ (ps.map (fun p => '%' :: 's' :: p)).flatten ∧ '%' ∉ x ∧ (∀ p ∈ ps, '%' ∉ p) ∧ ('%' ∈ s → ps ≠ [])
  | _, [], _, _ => ⟨[], [], rfl, by simp, by simp, by simp⟩
  | 0, _ :: _, hl, _ => by simp at hl
  | n + 1, c :: t, hl, h => by
    have hl' : t.length ≤ n := by simpa using hl
    by_cases hc : c = '%'
    · subst hc
      have hs := h [] t rfl
      cases t with
      | nil => cases hs
      | cons d t =>
        simp only [List.head?_cons, Option.some.injEq] at hs
        subst hs
        obtain ⟨x, ps, he, h1, h2, -⟩ := onlyS_pieces n t (by simp at hl'; omega) ((onlyS_hole t).mp h)
        refine ⟨[], x :: ps, by rw [he]; simp, by simp, ?_, fun _ => by simp⟩
        intro p hp
        rcases List.mem_cons.mp hp with rfl | hp
        · exact h1
        · exact h2 p hp
    · obtain ⟨x, ps, he, h1, h2, h3⟩ := onlyS_pieces n t hl' ((onlyS_cons hc).mp h)
      refine ⟨c :: x, ps, by rw [he]; rfl, ?_, h2, ?_⟩
      · simp only [List.mem_cons, not_or]; exact ⟨Ne.symm hc, h1⟩
      · intro hm
        rcases List.mem_cons.mp hm with hm | hm
        · exact absurd hm.symm hc
        · exact h3 hm

theorem flatten_singletons : ∀ u : PStr, (u.map (fun c => [c])).flatten = u
  | [] => rfl
  | c :: u => by rw [List.map_cons, List.flatten_cons, flatten_singletons u]; rfl

theorem lang_noPercent (u : PStr) : (Re.star (.chr (fun c => c != '%'))).Lang u ↔ '%' ∉ u := by
  constructor
  · rintro ⟨us, rfl, h⟩ hm
    obtain ⟨x, hx, hmx⟩ := List.mem_flatten.mp hm
    obtain ⟨c, rfl, hc⟩ := h x hx
    have : '%' = c := by simpa using hmx
    subst this
    cases hc
  · intro h
    refine ⟨u.map (fun c => [c]), (flatten_singletons u).symm, ?_⟩
    intro x hx
    obtain ⟨c, hc, rfl⟩ := List.mem_map.mp hx
    refine ⟨c, rfl, ?_⟩
    have : c ≠ '%' := fun e => h (e ▸ hc)
    simpa using this

theorem lang_hole (u : PStr) : (Re.grp 1 (.seq (Re.str (py "%s")) (.star (.chr (fun c => c != '%'))))).Lang u ↔ ∃ p, u = '%' :: 's' :: p ∧ '%' ∉ p := by
  constructor
  · rintro ⟨x, y, rfl, hx, hy⟩
    obtain ⟨a, b, rfl, ⟨c, rfl, hc⟩, d, e, rfl, ⟨c', rfl, hc'⟩, he⟩ := hx
    have he : e = [] := he
    subst he
    have h1 : c = '%' := by simpa using hc
    have h2 : c' = 's' := by simpa using hc'
    subst h1 h2
    exact ⟨y, rfl, (lang_noPercent y).mp hy⟩
  · rintro ⟨p, rfl, hp⟩
    exact ⟨['%', 's'], p, rfl, ⟨['%'], ['s'], rfl, ⟨'%', rfl, rfl⟩, ['s'], [], rfl, ⟨'s', rfl, rfl⟩, rfl⟩, (lang_noPercent p).mpr hp⟩

/-- The regular expression accepts exactly the texts in which there is a `%` and every `%` is followed by an `s`. -/
theorem simpleFormat_iff (s : PStr) : fullmatch simpleFormat s = true ↔ '%' ∈ s ∧ OnlyS s := by
  unfold fullmatch
  rw [fullmatch_iff simpleFormat rfl]
  have hflat : ∀ us : List PStr, (∀ x ∈ us, (Re.grp 1 (.seq (Re.str (py "%s")) (.star (.chr (fun c => c != '%'))))).Lang x) → OnlyS us.flatten := by
    intro us
    induction us with
    | nil => intro _; exact onlyS_nil
    | cons u us ih =>
      intro h
      obtain ⟨p, rfl, hp⟩ := (lang_hole u).mp (h u (by simp))
      show OnlyS ('%' :: 's' :: p ++ us.flatten)
      rw [List.cons_append, List.cons_append, onlyS_hole, onlyS_noPercent hp]
      exact ih (fun x hx => h x (by simp [hx]))
  constructor
  · rintro ⟨x, y, rfl, hx, y1, y2, rfl, hy1, us, rfl, hus⟩
    have hx' := (lang_noPercent x).mp hx
    obtain ⟨p, rfl, hp⟩ := (lang_hole y1).mp hy1
    refine ⟨by simp, ?_⟩
    rw [onlyS_noPercent hx', List.cons_append, List.cons_append, onlyS_hole, onlyS_noPercent hp]
    exact hflat us hus
  · rintro ⟨hm, h⟩
    obtain ⟨x, ps, rfl, h1, h2, h3⟩ := onlyS_pieces _ s (Nat.le_refl _) h
    refine ⟨x, _, rfl, (lang_noPercent x).mpr h1, ?_⟩
    cases ps with
    | nil => exact absurd rfl (h3 hm)
    | cons p ps =>
      refine ⟨'%' :: 's' :: p, _, by simp, (lang_hole _).mpr ⟨p, rfl, h2 p (by simp)⟩, ps.map (fun p => '%' :: 's' :: p), rfl, ?_⟩
      intro y hy
      obtain ⟨p', hp', rfl⟩ := List.mem_map.mp hy
      exact (lang_hole _).mpr ⟨p', rfl, h2 p' (by simp [hp'])⟩

/-! ## Doubling the braces -/

/-- One character of the f-string's text. -/
def dblChar (c : Char) : PStr := if c = '{' ∨ c = '}' then [c, c] else [c]

theorem replace_char (c : Char) (new : PStr) : ∀ s : PStr, replaceAll [c] new s = s.flatMap (fun d => if d = c then new else [d])
  | [] => rfl
  | d :: t => by
    have ih := replace_char c new t
    unfold replaceAll at ih ⊢
    rw [replaceGo]
    by_cases h : d = c
    · subst h
      simp only [List.isPrefixOf, beq_self_eq_true, Bool.true_and, if_true, List.length_singleton, Nat.sub_self, ih, List.flatMap_cons]
    · have : List.isPrefixOf [c] (d :: t) = false := by simp [List.isPrefixOf, Ne.symm h]
      rw [this, if_neg (by simp), ih, List.flatMap_cons, if_neg h]
      rfl

theorem doubleBraces_eq (s : PStr) : doubleBraces s = s.flatMap dblChar := by
  unfold doubleBraces
  rw [show (py "}" : PStr) = ['}'] from rfl, show (py "{" : PStr) = ['{'] from rfl, replace_char, replace_char, List.flatMap_assoc]
  congr 1
  funext c
  unfold dblChar
  by_cases h1 : c = '{'
  · subst h1; rfl
  · by_cases h2 : c = '}'
    · subst h2; rfl
    · simp [h1, h2]

/-! ## The text of the new f-string -/

theorem splitGo_skip (sep : PStr) : ∀ (k : Nat) (s : PStr), splitGo sep k s = splitAll sep (s.drop k)
  | 0, s => rfl
  | k + 1, [] => by simp [splitGo, splitAll]
  | k + 1, c :: t => by rw [splitGo, splitGo_skip sep k t, List.drop_succ_cons]

theorem split_hole (t : PStr) : splitAll (py "%s") ('%' :: 's' :: t) = ([], (splitAll (py "%s") t).1 :: (splitAll (py "%s") t).2) := by
  conv => lhs; unfold splitAll
  rw [splitGo, if_pos (by simp [List.isPrefixOf])]
  rw [splitGo_skip]
  rfl

theorem split_other {c : Char} {t : PStr} (h : ¬ (c = '%' ∧ t.head? = some 's')) : splitAll (py "%s") (c :: t) = (c :: (splitAll (py "%s") t).1, (splitAll (py "%s") t).2) := by
  conv => lhs; unfold splitAll
  rw [splitGo, if_neg]
  · rfl
  · intro hp
    cases t with
    | nil => simp [List.isPrefixOf] at hp
    | cons d t =>
      simp only [List.isPrefixOf, Bool.and_eq_true, beq_iff_eq, and_true] at hp
      exact h ⟨hp.1.symm, by simp [← hp.2]⟩

/-- The tokens after the first, with the expressions between them. -/
def weaveRest : List PStr → List PStr → PStr
  | [], _ => []
  | _ :: _, [] => []
  | token :: tokens, code :: codes => '{' :: (code ++ '}' :: (token ++ weaveRest tokens codes))

/-- The text of the new f-string, from the old text. -/
def expand : PStr → List PStr → PStr
  | [], _ => []
  | c :: t, codes =>
    if c = '%' then
      match t with
      | [] => ['%']
      | d :: u =>
        if d = 's' then
          match codes with
          | [] => []
          | code :: codes => '{' :: (code ++ '}' :: expand u codes)
        else '%' :: expand (d :: u) codes
    else dblChar c ++ expand t codes

theorem expand_hole (t code : PStr) (codes : List PStr) : expand ('%' :: 's' :: t) (code :: codes) = '{' :: (code ++ '}' :: expand t codes) := by
  rw [expand.eq_def]; simp

theorem expand_other {c : Char} (t : PStr) (codes : List PStr) (h : ¬ (c = '%' ∧ t.head? = some 's')) : expand (c :: t) codes = dblChar c ++ expand t codes := by
  rw [expand.eq_def]
  simp only
  split
  · rename_i hc
    subst hc
    cases t with
    | nil => rfl
    | cons d u =>
      have : d ≠ 's' := fun e => h ⟨rfl, by simp [e]⟩
      simp only
      rw [if_neg this]
      rfl
  · rfl

theorem dbl_head {c : Char} {t : PStr} : (c :: t).head? = some 's' ↔ ((c :: t).flatMap dblChar).head? = some 's' := by
  rw [List.flatMap_cons]
  unfold dblChar
  split <;> simp

theorem weave_expand : ∀ (n : Nat) (s : PStr) (codes : List PStr), s.length ≤ n →
    (splitAll (py "%s") (s.flatMap dblChar)).1 ++ weaveRest (splitAll (py "%s") (s.flatMap dblChar)).2 codes = expand s codes
  | _, [], codes, _ => by simp [splitAll, splitGo, weaveRest, expand]
  | 0, _ :: _, _, hl => by simp at hl
  | n + 1, c :: t, codes, hl => by
    have hl' : t.length ≤ n := by simpa using hl
    by_cases hh : c = '%' ∧ t.head? = some 's'
    · obtain ⟨rfl, ht⟩ := hh
      cases t with
      | nil => cases ht
      | cons d u =>
        simp only [List.head?_cons, Option.some.injEq] at ht
        subst ht
        have : ('%' :: 's' :: u).flatMap dblChar = '%' :: 's' :: u.flatMap dblChar := rfl
        rw [this, split_hole]
        cases codes with
        | nil => rw [expand.eq_def]; simp [weaveRest]
        | cons code codes =>
          rw [expand_hole, ← weave_expand n u codes (by simp at hl'; omega)]
          rfl
    · rw [expand_other t codes hh, ← weave_expand n t codes hl', List.flatMap_cons]
      have hsplit : ∀ (d : Char) (u : PStr), (d = '{' ∨ d = '}' ) → splitAll (py "%s") (d :: u) = (d :: (splitAll (py "%s") u).1, (splitAll (py "%s") u).2) := by
        intro d u hd
        apply split_other
        rintro ⟨rfl, -⟩
        rcases hd with h | h <;> cases h
      by_cases hb : c = '{' ∨ c = '}'
      · rw [show dblChar c = [c, c] from if_pos hb]
        simp only [List.cons_append, List.nil_append]
        rw [hsplit c _ hb, hsplit c _ hb]
        simp
      · rw [show dblChar c = [c] from if_neg hb]
        simp only [List.cons_append, List.nil_append]
        rw [split_other]
        · simp
        · rintro ⟨h1, h2⟩
          apply hh
          refine ⟨h1, ?_⟩
          cases t with
          | nil => cases h2
          | cons d u => exact dbl_head.mpr h2

/-- What the loop makes. -/
theorem buildParts_some (escape : Expr → Option Expr) (codegen : Expr → PStr) : ∀ (tokens : List PStr) (es : List Expr) (ps : List FPart), buildParts escape tokens es = some ps →
    ∃ es' : List Expr, es'.length = tokens.length ∧ (es.take tokens.length).map escape = es'.map some ∧ tokens.length ≤ es.length ∧
      renderParts codegen ps = weaveRest tokens (es'.map codegen) ∧ ∀ e ∈ es', .expr e [] ∈ ps
  | [], es, ps, h => by
    cases es <;> (cases h; exact ⟨[], rfl, rfl, by simp, rfl, by simp⟩)
  | _ :: _, [], ps, h => by cases h
  | token :: tokens, e :: es, ps, h => by
    rw [buildParts] at h
    cases he : escape e with
    | none => rw [he] at h; cases h
    | some e' =>
      rw [he] at h
      simp only [Option.map_eq_some_iff] at h
      obtain ⟨ps', h', rfl⟩ := h
      obtain ⟨es', h1, h2, h3, h4, h5⟩ := buildParts_some escape codegen tokens es ps' h'
      refine ⟨e' :: es', by simp [h1], by simp [h2, he], by simpa using h3, ?_, ?_⟩
      · show renderParts codegen (.expr e' [] :: (textPart token ++ ps')) = _
        rw [renderParts, List.append_nil]
        have : renderParts codegen (textPart token ++ ps') = token ++ renderParts codegen ps' := by
          unfold textPart
          split
          · rename_i ht; rw [ht]; rfl
          · rfl
        rw [this, h4]
        rfl
      · intro x hx
        rcases List.mem_cons.mp hx with rfl | hx
        · simp
        · simp [h5 x hx]

/-! ## Reading the new text -/

/-- A change of text that keeps all but the special characters where they are does not disturb an escape other than a name. -/
theorem readEscape_change (names : PStr → Option Nat) (G : PStr → PStr) (hnil : G [] = [])
    (hkeep : ∀ c t, c ≠ '%' → c ≠ '{' → c ≠ '}' → G (c :: t) = c :: G t)
    (hspecial : ∀ c t, (c = '%' ∨ c = '{' ∨ c = '}') → ∀ d u, G (c :: t) = d :: u → d = '%' ∨ d = '{' ∨ d = '}')
    (t : PStr) (v : List Nat) (n : Nat) (h : readEscape names t = some (v, n)) (hN : ¬ ∃ u, t = 'N' :: '{' :: u) :
    readEscape names (G t) = some (v, n) ∧ (G t).drop n = G (t.drop n) ∧ t.count '%' = (t.drop n).count '%' := by
  have htake : ∀ (p : Char → Bool), p '%' = false → p '{' = false → p '}' = false → ∀ (k : Nat) (t : PStr),
      ((G t).take k).takeWhile p = (t.take k).takeWhile p ∧ (G t).drop ((t.take k).takeWhile p).length = G (t.drop ((t.take k).takeWhile p).length) ∧
      t.count '%' = (t.drop ((t.take k).takeWhile p).length).count '%' := by
    intro p h1 h2 h3 k
    induction k with
    | zero => intro t; simp
    | succ k ih =>
      intro t
      cases t with
      | nil => simp [hnil]
      | cons c t =>
        by_cases hc : p c = true
        · have n1 : c ≠ '%' := fun e => by rw [e, h1] at hc; cases hc
          have n2 : c ≠ '{' := fun e => by rw [e, h2] at hc; cases hc
          have n3 : c ≠ '}' := fun e => by rw [e, h3] at hc; cases hc
          obtain ⟨i1, i2, i3⟩ := ih t
          rw [hkeep c t n1 n2 n3]
          simp only [List.take_succ_cons, List.takeWhile_cons, hc, if_true, i1, List.length_cons, List.drop_succ_cons, i2, true_and]
          rw [List.count_cons, if_neg (by simpa using n1), Nat.add_zero]
          exact i3
        · have hpc : (G (c :: t)).takeWhile p = [] ∧ ((G (c :: t)).take (k + 1)).takeWhile p = [] := by
            by_cases hs : c = '%' ∨ c = '{' ∨ c = '}'
            · cases hx : G (c :: t) with
              | nil => simp
              | cons d u =>
                have hd := hspecial c t hs d u hx
                have : p d = false := by rcases hd with rfl | rfl | rfl <;> assumption
                simp [this]
            · simp only [not_or] at hs
              rw [hkeep c t hs.1 hs.2.1 hs.2.2]
              simp [hc]
          simp [hpc.2, hc]
  cases t with
  | nil =>
    cases h
    rw [hnil]
    exact ⟨rfl, by simp [hnil], rfl⟩
  | cons c t =>
    have keep : ∀ k : Nat, c ≠ '%' → c ≠ '{' → c ≠ '}' → hexEscape k t = some (v, n) →
        hexEscape k (G t) = some (v, n) ∧ (G (c :: t)).drop n = G ((c :: t).drop n) ∧ (c :: t).count '%' = ((c :: t).drop n).count '%' := by
      intro k n1 n2 n3 hk
      obtain ⟨e1, e2, e3⟩ := htake isHexDigit (by decide) (by decide) (by decide) k t
      unfold hexEscape at hk ⊢
      simp only at hk ⊢
      rw [e1]
      split at hk
      · rename_i hc
        rw [if_pos hc]
        cases hk
        rw [hc.1] at e2 e3
        refine ⟨rfl, ?_, ?_⟩
        · rw [hkeep c t n1 n2 n3, List.drop_succ_cons, List.drop_succ_cons]; exact e2
        · rw [List.drop_succ_cons, List.count_cons, if_neg (by simpa using n1), Nat.add_zero]; exact e3
      · cases hk
    rw [readEscape] at h
    by_cases c1 : c = '\n'
    · subst c1
      rw [if_pos rfl] at h
      cases h
      rw [hkeep _ _ (by decide) (by decide) (by decide), readEscape, if_pos rfl]
      exact ⟨rfl, rfl, by simp⟩
    rw [if_neg c1] at h
    by_cases c2 : (simpleEscape c).isSome = true
    · rw [if_pos c2] at h
      have n1 : c ≠ '%' := fun e => by subst e; revert c2; decide
      have n2 : c ≠ '{' := fun e => by subst e; revert c2; decide
      have n3 : c ≠ '}' := fun e => by subst e; revert c2; decide
      cases h
      rw [hkeep c t n1 n2 n3, readEscape, if_neg c1, if_pos c2]
      exact ⟨rfl, rfl, by simp [List.count_cons, n1]⟩
    rw [if_neg c2] at h
    by_cases c3 : isOctDigit c = true
    · rw [if_pos c3] at h
      obtain ⟨e1, e2, e3⟩ := htake isOctDigit (by decide) (by decide) (by decide) 3 (c :: t)
      have n1 : c ≠ '%' := fun e => by subst e; revert c3; decide
      have n2 : c ≠ '{' := fun e => by subst e; revert c3; decide
      have n3 : c ≠ '}' := fun e => by subst e; revert c3; decide
      simp only [Option.some.injEq, Prod.mk.injEq] at h
      obtain ⟨rfl, rfl⟩ := h
      refine ⟨?_, e2, e3⟩
      rw [← e1, hkeep c t n1 n2 n3, readEscape, if_neg c1, if_neg c2, if_pos c3]
    rw [if_neg c3] at h
    by_cases c4 : c = 'x'
    · rw [if_pos c4] at h
      obtain ⟨e1, e2⟩ := keep 2 (by rw [c4]; decide) (by rw [c4]; decide) (by rw [c4]; decide) h
      refine ⟨?_, e2⟩
      rw [hkeep c t (by rw [c4]; decide) (by rw [c4]; decide) (by rw [c4]; decide), readEscape, if_neg c1, if_neg c2, if_neg c3, if_pos c4, e1]
    rw [if_neg c4] at h
    by_cases c5 : c = 'u'
    · rw [if_pos c5] at h
      obtain ⟨e1, e2⟩ := keep 4 (by rw [c5]; decide) (by rw [c5]; decide) (by rw [c5]; decide) h
      refine ⟨?_, e2⟩
      rw [hkeep c t (by rw [c5]; decide) (by rw [c5]; decide) (by rw [c5]; decide), readEscape, if_neg c1, if_neg c2, if_neg c3, if_neg c4, if_pos c5, e1]
    rw [if_neg c5] at h
    by_cases c6 : c = 'U'
    · rw [if_pos c6] at h
      obtain ⟨e1, e2⟩ := keep 8 (by rw [c6]; decide) (by rw [c6]; decide) (by rw [c6]; decide) h
      refine ⟨?_, e2⟩
      rw [hkeep c t (by rw [c6]; decide) (by rw [c6]; decide) (by rw [c6]; decide), readEscape, if_neg c1, if_neg c2, if_neg c3, if_neg c4, if_neg c5, if_pos c6, e1]
    rw [if_neg c6] at h
    by_cases c7 : c = 'N'
    · rw [if_pos c7] at h
      subst c7
      unfold nameEscape at h
      split at h
      · rename_i u
        exact absurd ⟨u, rfl⟩ hN
      · cases h
    rw [if_neg c7] at h
    cases h
    refine ⟨?_, rfl, rfl⟩
    by_cases hs : c = '%' ∨ c = '{' ∨ c = '}'
    · cases hx : G (c :: t) with
      | nil => rfl
      | cons d u =>
        have hd := hspecial c t hs d u hx
        rcases hd with rfl | rfl | rfl <;> rfl
    · simp only [not_or] at hs
      rw [hkeep c t hs.1 hs.2.1 hs.2.2, readEscape, if_neg c1, if_neg c2, if_neg c3, if_neg c4, if_neg c5, if_neg c6, if_neg c7]

theorem percentItems_other {c : Nat} (h : c ≠ 37) (t : List Nat) : percentItems (c :: t) = (percentItems t).map (some c :: ·) := by
  rw [percentItems.eq_def]; simp [h]

theorem percentItems_hole (t : List Nat) : percentItems (37 :: 115 :: t) = (percentItems t).map (none :: ·) := by
  rw [percentItems.eq_def]; simp

theorem percentItems_append {v : List Nat} (h : 37 ∉ v) {t : List Nat} {its : List (Option Nat)} (ht : percentItems t = some its) : percentItems (v ++ t) = some (v.map some ++ its) := by
  induction v with
  | nil => exact ht
  | cons c v ih =>
    simp only [List.mem_cons, not_or] at h
    rw [List.cons_append, percentItems_other (Ne.symm h.1), ih h.2]
    rfl

theorem fillCodes_append (v : List Nat) (its : List (Option Nat)) (codes : List PStr) : fillCodes (v.map some ++ its) codes = v.map Sum.inl ++ fillCodes its codes := by
  induction v with
  | nil => rfl
  | cons c v ih => rw [List.map_cons, List.cons_append, fillCodes, ih]; rfl

/-- No named escape. -/
def noNames (raw : Bool) (s : PStr) : Prop := raw = false → isIn (py "\\N{") s = false

theorem noNames_tail {raw : Bool} {c : Char} {t : PStr} (h : noNames raw (c :: t)) : noNames raw t := by
  intro hr
  have := h hr
  simp only [isIn, Bool.or_eq_false_iff] at this
  exact this.2

theorem noNames_drop {raw : Bool} : ∀ (n : Nat) {t : PStr}, noNames raw t → noNames raw (t.drop n)
  | 0, t, h => h
  | n + 1, [], h => h
  | n + 1, _ :: t, h => noNames_drop n (noNames_tail h)

theorem noNames_escape {t : PStr} (h : noNames false ('\\' :: t)) : ¬ ∃ u, t = 'N' :: '{' :: u := by
  rintro ⟨u, rfl⟩
  have := h rfl
  simp [isIn, List.isPrefixOf] at this

/-- The properties of `expand` that `readEscape_change` needs. -/
theorem expand_keep (codes : List PStr) (c : Char) (t : PStr) (h1 : c ≠ '%') (h2 : c ≠ '{') (h3 : c ≠ '}') : expand (c :: t) codes = c :: expand t codes := by
  rw [expand_other t codes (fun h => h1 h.1)]
  unfold dblChar
  rw [if_neg (by simp [h2, h3])]
  rfl

theorem expand_special (codes : List PStr) (c : Char) (t : PStr) (h : c = '%' ∨ c = '{' ∨ c = '}') (d : Char) (u : PStr) (he : expand (c :: t) codes = d :: u) : d = '%' ∨ d = '{' ∨ d = '}' := by
  by_cases hh : c = '%' ∧ t.head? = some 's'
  · obtain ⟨rfl, ht⟩ := hh
    cases t with
    | nil => cases ht
    | cons e t =>
      simp only [List.head?_cons, Option.some.injEq] at ht
      subst ht
      cases codes with
      | nil => rw [expand.eq_def] at he; simp at he
      | cons code codes =>
        rw [expand_hole] at he
        cases he
        exact .inr (.inl rfl)
  · rw [expand_other t codes hh] at he
    unfold dblChar at he
    split at he <;> (cases he; exact h)

/-- The text has no more percent signs than its value. -/
theorem decode_count (names : PStr → Option Nat) (raw : Bool) : ∀ (n : Nat) (s : PStr) (lv : List Nat), s.length ≤ n → noNames raw s → decode names raw s = some lv → s.count '%' ≤ lv.count 37
  | _, [], _, _, _, _ => by simp
  | 0, _ :: _, _, hl, _, _ => by simp at hl
  | n + 1, c :: t, lv, hl, hN, h => by
    have hl' : t.length ≤ n := by simpa using hl
    unfold decode at h
    rw [decodeGo] at h
    by_cases c1 : c = '\\' ∧ raw = false
    · rw [if_pos c1] at h
      obtain ⟨rfl, rfl⟩ := c1
      split at h
      · rename_i v k hv
        rw [decodeGo_skip, Option.map_eq_some_iff] at h
        obtain ⟨lv', h1, rfl⟩ := h
        have hc := (readEscape_change names (fun t => expand t []) rfl (expand_keep []) (fun c t h d u => expand_special [] c t h d u) t v k hv (noNames_escape hN)).2.2
        have ih := decode_count names false n (t.drop k) lv' (by simp; omega) (noNames_drop k (noNames_tail hN)) h1
        rw [List.count_cons, if_neg (by decide), Nat.add_zero, hc, List.count_append]
        omega
      · cases h
    · rw [if_neg c1, Option.map_eq_some_iff] at h
      obtain ⟨lv', h1, rfl⟩ := h
      have ih := decode_count names raw n t lv' hl' (noNames_tail hN) h1
      rw [List.count_cons, List.count_cons]
      by_cases hc : c = '%'
      · subst hc
        simp
        exact ih
      · rw [if_neg (by simpa using hc)]
        omega

theorem fieldOk_chars {code : PStr} (h : fieldOk code = true) : code ≠ [] ∧ ∀ c ∈ code, c ≠ '{' ∧ c ≠ '}' ∧ c ≠ '\\' := by
  simp only [fieldOk, Bool.and_eq_true, List.any_eq_true, List.all_eq_true] at h
  obtain ⟨⟨c, hc, -⟩, h2⟩ := h
  refine ⟨List.ne_nil_of_mem hc, fun d hd => ?_⟩
  have := h2 d hd
  simp at this
  simp [this]

/-- The new text, read as an f-string, is the format with the expressions in its holes. -/
theorem expand_read (names : PStr → Option Nat) (raw : Bool) : ∀ (n : Nat) (s : PStr) (lv : List Nat) (codes : List PStr), s.length ≤ n → noNames raw s → OnlyS s →
    decode names raw s = some lv → lv.count 37 = s.count '%' → (∀ c ∈ codes, fieldOk c = true) → s.count '%' ≤ codes.length →
    ∃ its, percentItems lv = some its ∧ its.count none = s.count '%' ∧ fItems names raw (expand s codes) = some (fillCodes its codes)
  | _, [], lv, codes, _, _, _, h, _, _, _ => by
    cases h
    exact ⟨[], rfl, rfl, rfl⟩
  | 0, _ :: _, _, _, hl, _, _, _, _, _, _ => by simp at hl
  | n + 1, c :: t, lv, codes, hl, hN, hS, h, hcount, hok, hlen => by
    have hl' : t.length ≤ n := by simpa using hl
    unfold decode at h
    rw [decodeGo] at h
    by_cases c1 : c = '\\' ∧ raw = false
    · rw [if_pos c1] at h
      obtain ⟨rfl, rfl⟩ := c1
      split at h
      · rename_i v k hv
        rw [decodeGo_skip, Option.map_eq_some_iff] at h
        obtain ⟨lv', h1, rfl⟩ := h
        obtain ⟨r1, r2, r3⟩ := readEscape_change names (fun t => expand t codes) (by cases codes <;> rfl) (expand_keep codes) (fun c t h d u => expand_special codes c t h d u) t v k hv (noNames_escape hN)
        have hN' := noNames_drop k (noNames_tail hN)
        have hge := decode_count names false n (t.drop k) lv' (by simp; omega) hN' h1
        rw [List.count_cons, if_neg (by decide), Nat.add_zero, r3, List.count_append] at hcount
        have hv0 : v.count 37 = 0 := by omega
        have hcount' : lv'.count 37 = (t.drop k).count '%' := by omega
        have hlen' : (t.drop k).count '%' ≤ codes.length := by
          rw [List.count_cons, if_neg (by decide), Nat.add_zero, r3] at hlen; exact hlen
        obtain ⟨its, i1, i2, i3⟩ := expand_read names false n (t.drop k) lv' codes (by simp; omega) hN' (onlyS_drop ((onlyS_cons (by decide)).mp hS) k) h1 hcount' hok hlen'
        refine ⟨v.map some ++ its, percentItems_append (List.count_eq_zero.mp hv0) i1, ?_, ?_⟩
        · rw [List.count_append, i2, List.count_cons, if_neg (by decide), Nat.add_zero, r3]
          have : (v.map some).count none = 0 := by
            rw [List.count_eq_zero]; simp
          omega
        · rw [expand_keep codes _ _ (by decide) (by decide) (by decide), fillCodes_append]
          unfold fItems
          rw [fItemsGo, if_pos ⟨rfl, rfl⟩, r1]
          simp only
          rw [fItemsGo_skip, r2, i3]
          rfl
      · cases h
    · rw [if_neg c1, Option.map_eq_some_iff] at h
      obtain ⟨lv', h1, rfl⟩ := h
      have h1 : decode names raw t = some lv' := h1
      by_cases hc : c = '%'
      · subst hc
        have hs := hS [] t rfl
        cases t with
        | nil => cases hs
        | cons d u =>
          simp only [List.head?_cons, Option.some.injEq] at hs
          subst hs
          unfold decode at h1
          rw [decodeGo, if_neg (by simp), Option.map_eq_some_iff] at h1
          obtain ⟨lv2, h2, rfl⟩ := h1
          have h2 : decode names raw u = some lv2 := h2
          have e37 : ('%' : Char).toNat = 37 := rfl
          have e115 : ('s' : Char).toNat = 115 := rfl
          rw [e37, e115] at hcount ⊢
          simp only [List.count_cons] at hcount hlen
          simp at hcount hlen
          cases codes with
          | nil => simp at hlen
          | cons code codes =>
            obtain ⟨its, i1, i2, i3⟩ := expand_read names raw n u lv2 codes (by simp at hl'; omega) (noNames_tail (noNames_tail hN)) ((onlyS_hole u).mp hS) h2 (by omega)
              (fun c hc => hok c (by simp [hc])) (by simpa using hlen)
            refine ⟨none :: its, by rw [percentItems_hole, i1]; rfl, by simp [List.count_cons, i2], ?_⟩
            have hco := hok code (by simp)
            obtain ⟨hne, hch⟩ := fieldOk_chars hco
            rw [expand_hole, fillCodes]
            unfold fItems
            rw [fItemsGo, if_neg (by simp), if_pos rfl]
            have hhead : (code ++ '}' :: expand u codes).head? ≠ some '{' := by
              cases code with
              | nil => exact absurd rfl hne
              | cons e code => simpa using (hch e (by simp)).1
            have htw : (code ++ '}' :: expand u codes).takeWhile (fun c => decide (c ≠ '}')) = code := by
              rw [List.takeWhile_append_of_pos (fun c hc => by simpa using (hch c hc).2.1)]
              simp
            rw [if_neg hhead]
            simp only
            rw [htw, if_pos ⟨hco, by simp⟩, fItemsGo_skip]
            have : (code ++ '}' :: expand u codes).drop (code.length + 1) = expand u codes := by
              rw [List.drop_append]; simp
            rw [this, i3]
            rfl
      · have hc37 : c.toNat ≠ 37 := by
          intro e
          apply hc
          have : c.toNat = ('%' : Char).toNat := e
          exact Char.toNat_inj.mp this
        rw [List.count_cons, List.count_cons, if_neg (by simpa using hc37), if_neg (by simpa using hc)] at hcount
        rw [List.count_cons, if_neg (by simpa using hc)] at hlen
        obtain ⟨its, i1, i2, i3⟩ := expand_read names raw n t lv' codes hl' (noNames_tail hN) ((onlyS_cons hc).mp hS) h1 hcount hok hlen
        refine ⟨some c.toNat :: its, by rw [percentItems_other hc37, i1]; rfl, ?_, ?_⟩
        · rw [List.count_cons, List.count_cons, if_neg (by simp), if_neg (by simpa using hc), i2]
        · rw [expand_other t codes (fun h => hc h.1), fillCodes]
          unfold dblChar
          by_cases hb : c = '{' ∨ c = '}'
          · rw [if_pos hb]
            rcases hb with rfl | rfl
            · unfold fItems
              rw [List.cons_append, fItemsGo, if_neg (by simp), if_pos rfl, if_pos (by simp), fItemsGo_skip]
              show (fItems names raw (expand t codes)).map _ = _
              rw [i3]
              rfl
            · unfold fItems
              rw [List.cons_append, fItemsGo, if_neg (by simp), if_neg (by decide), if_pos rfl, if_pos (by simp), fItemsGo_skip]
              show (fItems names raw (expand t codes)).map _ = _
              rw [i3]
              rfl
          · rw [if_neg hb]
            simp only [not_or] at hb
            unfold fItems
            rw [List.cons_append, fItemsGo, if_neg c1, if_neg hb.1, if_neg hb.2]
            show (fItems names raw (expand t codes)).map _ = _
            rw [i3]
            rfl

/-! ## The closing quote -/

theorem prefix_expand (q : PStr) : ∀ (p s : PStr) (codes : List PStr), (∀ c ∈ p, c ≠ '%' ∧ c ≠ '{' ∧ c ≠ '}') → s.count '%' ≤ codes.length → p.isPrefixOf (expand s codes ++ q) = true → p.isPrefixOf (s ++ q) = true
  | [], _, _, _, _, _ => by simp
  | a :: p, [], codes, _, _, h => by
    cases codes <;> exact h
  | a :: p, d :: s, codes, hp, hlen, h => by
    have ha := hp a (by simp)
    by_cases hd : d = '%' ∨ d = '{' ∨ d = '}'
    · exfalso
      cases hx : expand (d :: s) codes with
      | nil =>
        have : codes = [] := by
          cases codes with
          | nil => rfl
          | cons code codes =>
            exfalso
            by_cases hh : d = '%' ∧ s.head? = some 's'
            · obtain ⟨rfl, hs⟩ := hh
              cases s with
              | nil => cases hs
              | cons e s =>
                simp only [List.head?_cons, Option.some.injEq] at hs
                subst hs
                rw [expand_hole] at hx
                cases hx
            · rw [expand_other s _ hh] at hx
              unfold dblChar at hx
              split at hx <;> cases hx
        subst this
        by_cases hh : d = '%' ∧ s.head? = some 's'
        · rw [hh.1] at hlen; simp at hlen
        · rw [expand_other s _ hh] at hx
          unfold dblChar at hx
          split at hx <;> cases hx
      | cons e u =>
        have he := expand_special codes d s hd e u hx
        rw [hx] at h
        simp only [List.cons_append, List.isPrefixOf, Bool.and_eq_true, beq_iff_eq] at h
        rw [← h.1] at he
        rcases he with he | he | he
        · exact ha.1 he
        · exact ha.2.1 he
        · exact ha.2.2 he
    · simp only [not_or] at hd
      rw [expand_keep codes d s hd.1 hd.2.1 hd.2.2] at h
      simp only [List.cons_append, List.isPrefixOf, Bool.and_eq_true, beq_iff_eq] at h ⊢
      rw [List.count_cons, if_neg (by simpa using hd.1), Nat.add_zero] at hlen
      exact ⟨h.1, prefix_expand q p s codes (fun c hc => hp c (by simp [hc])) hlen h.2⟩

theorem quote_chars : ∀ q ∈ quotes, q ≠ [] ∧ ∀ c ∈ q, c = '\'' ∨ c = '"' := by decide

/-- A text without quotes and backslashes can be skipped. -/
theorem closed_skip {q : PStr} (hq : q ∈ quotes) : ∀ (w t : PStr), (∀ c ∈ w, c ∉ q ∧ c ≠ '\\') → closedGo q false (w ++ t) = closedGo q false t
  | [], _, _ => rfl
  | c :: w, t, h => by
    have hc := h c (by simp)
    rw [List.cons_append, closedGo]
    have h1 : (c == '\\') = false := by simpa using hc.2
    have h2 : q.isPrefixOf (c :: (w ++ t) ++ q) = false := by
      obtain ⟨hne, hch⟩ := quote_chars q hq
      cases q with
      | nil => exact absurd rfl hne
      | cons a q =>
        have : a ≠ c := by
          rintro rfl
          exact hc.1 (by simp)
        simp [List.isPrefixOf, this]
    rw [h1, h2, closed_skip hq w t (fun c hc => h c (by simp [hc]))]
    rfl

theorem closed_expand {q : PStr} (hq : q ∈ quotes) : ∀ (n : Nat) (esc : Bool) (s : PStr) (codes : List PStr), s.length ≤ n → (∀ c ∈ codes, fieldOk c = true ∧ ∀ x ∈ c, x ∉ q) → s.count '%' ≤ codes.length →
    closedGo q esc s = true → closedGo q esc (expand s codes) = true
  | _, esc, [], codes, _, _, _, h => by cases codes <;> exact h
  | 0, _, _ :: _, _, hl, _, _, _ => by simp at hl
  | n + 1, esc, c :: t, codes, hl, hok, hlen, h => by
    have hl' : t.length ≤ n := by simpa using hl
    have hstep : closedGo q (c == '\\' && !esc) t = true := by
      cases esc with
      | true => simpa [closedGo] using h
      | false =>
        simp only [closedGo, Bool.and_eq_true] at h
        simpa using h.2
    have hqs : ∀ c ∈ q, c ≠ '%' ∧ c ≠ '{' ∧ c ≠ '}' := by
      intro c hc
      rcases (quote_chars q hq).2 c hc with rfl | rfl <;> decide
    by_cases hh : c = '%' ∧ t.head? = some 's'
    · obtain ⟨rfl, hs⟩ := hh
      cases t with
      | nil => cases hs
      | cons d u =>
        simp only [List.head?_cons, Option.some.injEq] at hs
        subst hs
        have hu : closedGo q false u = true := by
          have : closedGo q false ('s' :: u) = true := by simpa using hstep
          simp only [closedGo, Bool.and_eq_true] at this
          exact this.2
        cases codes with
        | nil => simp at hlen
        | cons code codes =>
          have hlen' : u.count '%' ≤ codes.length := by
            simp [List.count_cons] at hlen
            exact hlen
          have ih := closed_expand hq n false u codes (by simp at hl'; omega) (fun c hc => hok c (by simp [hc])) hlen' hu
          rw [expand_hole]
          have hch := (fieldOk_chars (hok code (by simp)).1).2
          have hcq := (hok code (by simp)).2
          have hbody : closedGo q false (code ++ '}' :: expand u codes) = true := by
            rw [closed_skip hq code _ (fun c hc => ⟨hcq c hc, (hch c hc).2.2⟩)]
            have := closed_skip hq ['}'] (expand u codes) (fun c hc => by
              rw [List.mem_singleton.mp hc]
              exact ⟨fun h => (hqs _ h).2.2 rfl, by decide⟩)
            rw [List.singleton_append] at this
            rw [this]; exact ih
          cases esc with
          | true => rw [closedGo]; exact hbody
          | false =>
            have := closed_skip hq ['{'] (code ++ '}' :: expand u codes) (fun c hc => by
              rw [List.mem_singleton.mp hc]
              exact ⟨fun h => (hqs _ h).2.1 rfl, by decide⟩)
            rw [List.singleton_append] at this
            rw [this]; exact hbody
    · have hlen' : t.count '%' ≤ codes.length := by
        rw [List.count_cons] at hlen; omega
      by_cases hb : c = '{' ∨ c = '}'
      · have ih := closed_expand hq n false t codes hl' hok hlen' (by
          rcases hb with rfl | rfl <;> simpa using hstep)
        rw [expand_other t codes hh, show dblChar c = [c, c] from if_pos hb]
        have hcs : ∀ d ∈ [c], d ∉ q ∧ d ≠ '\\' := by
          intro d hd
          rw [List.mem_singleton.mp hd]
          rcases hb with rfl | rfl
          · exact ⟨fun h => (hqs _ h).2.1 rfl, by decide⟩
          · exact ⟨fun h => (hqs _ h).2.2 rfl, by decide⟩
        have e1 := closed_skip hq [c] (expand t codes) hcs
        have e2 := closed_skip hq [c] (c :: expand t codes) hcs
        simp only [List.singleton_append] at e1 e2
        simp only [List.cons_append, List.nil_append]
        cases esc with
        | true => rw [closedGo, e1]; exact ih
        | false => rw [e2, e1]; exact ih
      · have hpre := prefix_expand q q (c :: t) codes hqs hlen
        have ih := closed_expand hq n _ t codes hl' hok hlen' hstep
        rw [expand_other t codes hh, show dblChar c = [c] from if_neg hb] at hpre ⊢
        simp only [List.singleton_append] at hpre ⊢
        cases esc with
        | true =>
          rw [closedGo]
          simpa using ih
        | false =>
          rw [closedGo] at h ⊢
          simp only [Bool.and_eq_true, Bool.not_eq_true'] at h ⊢
          simp only [Bool.not_false, Bool.and_true] at ih
          refine ⟨?_, ih⟩
          cases hp : q.isPrefixOf (c :: expand t codes ++ q) with
          | false => rfl
          | true => rw [hpre hp] at h; cases h.1

end Cst
