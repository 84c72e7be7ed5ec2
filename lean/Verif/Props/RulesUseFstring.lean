import Verif.Proof.Fstring
import Verif.Proof.Escape
import Verif.Props.RulesFString
import Verif.Props.RulesQuantify

/-!
# C110: UseFstring
-/

namespace Cst
open Py Spec

/-! ## The parts of a literal -/

theorem quote_cases : ∀ q ∈ quotes, (∃ c, q = [c] ∧ (c = '\'' ∨ c = '"')) ∨ (∃ c, q = [c, c, c] ∧ (c = '\'' ∨ c = '"')) := by
  intro q hq
  simp only [quotes, List.mem_cons, List.not_mem_nil, or_false] at hq
  rcases hq with rfl | rfl | rfl | rfl
  · exact .inl ⟨'\'', rfl, .inl rfl⟩
  · exact .inl ⟨'"', rfl, .inr rfl⟩
  · exact .inr ⟨'\'', rfl, .inl rfl⟩
  · exact .inr ⟨'"', rfl, .inr rfl⟩

/-- The prefixes of the literals of `StringLiteral`. -/
abbrev strPrefixes : List PStr := [[], py "r", py "R"]

theorem strPrefix_lit {p q : PStr} (hp : p ∈ strPrefixes) (hq : q ∈ quotes) (t : PStr) : strPrefix (p ++ (q ++ t)) = p.map Char.toLower := by
  have : ∃ c q', q = c :: q' ∧ (c = '\'' ∨ c = '"') := by
    rcases quote_cases q hq with ⟨c, rfl, h⟩ | ⟨c, rfl, h⟩ <;> exact ⟨c, _, rfl, h⟩
  obtain ⟨c, q', rfl, hc⟩ := this
  simp only [strPrefixes, List.mem_cons, List.not_mem_nil, or_false] at hp
  unfold strPrefix
  rcases hp with rfl | rfl | rfl <;> rcases hc with rfl | rfl <;> simp [List.takeWhile]

theorem strQuote_lit {p q s : PStr} (hp : p ∈ strPrefixes) (hq : q ∈ quotes) (hs : closed q s = true) : strQuote (p ++ (q ++ (s ++ q))) = q := by
  unfold strQuote
  rw [strPrefix_lit hp hq, List.length_map, List.drop_left]
  rcases quote_cases q hq with ⟨c, rfl, hc⟩ | ⟨c, rfl, hc⟩
  · cases s with
    | nil => simp [List.takeWhile]
    | cons d s =>
      have : d ≠ c := by
        rintro rfl
        simp [closed, closedGo, List.isPrefixOf] at hs
      have hd : (d == c) = false := by simpa using this
      simp [List.takeWhile, hd]
  · simp only [List.cons_append, List.nil_append, List.takeWhile_cons, beq_self_eq_true, if_true, List.length_cons]
    split
    · omega
    · split
      · rfl
      · have : ((s ++ [c, c, c]).takeWhile (fun d => d == c)).length = 0 := by omega
        rw [List.length_eq_zero_iff.mp this]

theorem strRaw_lit {p q s : PStr} (hp : p ∈ strPrefixes) (hq : q ∈ quotes) (hs : closed q s = true) : strRaw (p ++ (q ++ (s ++ q))) = s := by
  unfold strRaw
  rw [strPrefix_lit hp hq, strQuote_lit hp hq hs, List.length_map]
  simp only [← List.drop_drop, List.drop_left]
  simp

/-! ## The tokens -/

theorem tokens_length : ∀ (n : Nat) (s : PStr), s.length ≤ n → OnlyS s → (splitAll (py "%s") (s.flatMap dblChar)).2.length = s.count '%'
  | _, [], _, _ => rfl
  | 0, _ :: _, hl, _ => by simp at hl
  | n + 1, c :: t, hl, hS => by
    have hl' : t.length ≤ n := by simpa using hl
    by_cases hc : c = '%'
    · subst hc
      have ht := hS [] t rfl
      cases t with
      | nil => cases ht
      | cons d u =>
        simp only [List.head?_cons, Option.some.injEq] at ht
        subst ht
        have : ('%' :: 's' :: u).flatMap dblChar = '%' :: 's' :: u.flatMap dblChar := rfl
        rw [this, split_hole, List.length_cons, tokens_length n u (by simp at hl'; omega) ((onlyS_hole u).mp hS)]
        simp [List.count_cons]
    · have ih := tokens_length n t hl' ((onlyS_cons hc).mp hS)
      rw [List.count_cons, if_neg (by simpa using hc), List.flatMap_cons]
      have hsplit : ∀ (u : PStr), splitAll (py "%s") (c :: u) = (c :: (splitAll (py "%s") u).1, (splitAll (py "%s") u).2) := fun u => split_other (fun h => hc h.1)
      by_cases hb : c = '{' ∨ c = '}'
      · rw [show dblChar c = [c, c] from if_pos hb]
        simp only [List.cons_append, List.nil_append]
        rw [hsplit, hsplit]
        exact ih
      · rw [show dblChar c = [c] from if_neg hb]
        simp only [List.cons_append, List.nil_append]
        rw [hsplit]
        exact ih

theorem isIn_iff (sub : PStr) : ∀ s : PStr, isIn sub s = true ↔ ∃ u v, s = u ++ (sub ++ v)
  | [] => by
    rw [isIn, List.isPrefixOf_iff_prefix]
    constructor
    · rintro ⟨v, h⟩
      exact ⟨[], v, h.symm⟩
    · rintro ⟨u, v, h⟩
      have := List.append_eq_nil_iff.mp h.symm
      exact ⟨v, this.2⟩
  | c :: s => by
    rw [isIn, Bool.or_eq_true, List.isPrefixOf_iff_prefix, isIn_iff sub s]
    constructor
    · rintro (⟨v, h⟩ | ⟨u, v, h⟩)
      · exact ⟨[], v, h.symm⟩
      · exact ⟨c :: u, v, by rw [h]; rfl⟩
    · rintro ⟨u, v, h⟩
      cases u with
      | nil => exact .inl ⟨v, h.symm⟩
      | cons d u =>
        simp only [List.cons_append, List.cons.injEq] at h
        exact .inr ⟨u, v, h.2⟩

theorem noNames_of {raw : Bool} {s : PStr} (h : raw = true ∨ ¬ ∃ u v, s = u ++ (py "\\N{" ++ v)) : noNames raw s := by
  intro hr
  rcases h with h | h
  · rw [h] at hr; cases hr
  · cases hi : isIn (py "\\N{") s with
    | false => rfl
    | true => exact absurd ((isIn_iff _ _).mp hi) h

/-! ## Values -/

/-- The formatted text or a `TypeError`. -/
def filled {V S E : Type} (toStr : V → List Nat) (typeError : E) (its : List (Option Nat)) (vs : List V) : Run S E (List Nat) :=
  match fillValues toStr its vs with
  | some r => Run.pure r
  | none => Run.raise typeError

theorem filled_some {V S E : Type} (toStr : V → List Nat) (typeError : E) (c : Nat) (its : List (Option Nat)) (vs : List V) :
    (filled toStr typeError (some c :: its) vs : Run S E (List Nat)) = (filled toStr typeError its vs).bind fun r => Run.pure (c :: r) := by
  unfold filled
  rw [fillValues]
  cases fillValues toStr its vs <;> rfl

theorem filled_none {V S E : Type} (toStr : V → List Nat) (typeError : E) (its : List (Option Nat)) (v : V) (vs : List V) :
    (filled toStr typeError (none :: its) (v :: vs) : Run S E (List Nat)) = (filled toStr typeError its vs).bind fun r => Run.pure (toStr v ++ r) := by
  unfold filled
  rw [fillValues]
  cases fillValues toStr its vs <;> rfl

theorem fstring_filled (I : Interp) (ρ : I.Locals) (toStr : I.Val → List Nat) (typeError : I.Exc) : ∀ (its : List (Option Nat)) (es : List Expr), es.length = its.count none →
    fstringRun I ρ toStr its es = (evalElems I ρ (es.map Elem.plain)).bind (filled toStr typeError its)
  | [], [], _ => rfl
  | [], _ :: _, h => by cases h
  | some c :: its, es, h => by
    have ih := fstring_filled I ρ toStr typeError its es (by simpa [List.count_cons] using h)
    rw [fstringRun, ih, Run.bind_assoc]
    congr 1
    funext vs
    rw [filled_some]
  | none :: its, [], h => by simp [List.count_cons] at h
  | none :: its, e :: es, h => by
    have ih := fstring_filled I ρ toStr typeError its es (by simpa [List.count_cons] using h)
    rw [fstringRun, ih, List.map_cons, evalElems, Run.bind_assoc]
    congr 1
    funext v
    rw [Run.bind_assoc, Run.bind_assoc]
    congr 1
    funext vs
    rw [Run.pure_bind, filled_none]

theorem percent_filled (I : Interp) (ρ : I.Locals) (items : I.Val → Option (List I.Val)) (toStr : I.Val → List Nat) (typeError : I.Exc) (its : List (Option Nat)) (right : Expr) :
    percentRun I ρ items toStr typeError its right = (percentArgs I ρ items right).bind (filled toStr typeError its) := rfl

theorem evalElems_plain (I : Interp) (ρ : I.Locals) : ∀ (xs : List Elem) (es : List Expr), es.length = xs.length → (∀ x ∈ xs, x.isStarred = false) →
    (∀ i : Nat, ∀ e x, es[i]? = some e → xs[i]? = some x → eval I ρ e = eval I ρ x.value) → evalElems I ρ (es.map Elem.plain) = evalElems I ρ xs
  | [], [], _, _, _ => rfl
  | [], _ :: _, h, _, _ => by cases h
  | _ :: _, [], h, _, _ => by cases h
  | x :: xs, e :: es, hl, hp, he => by
    have ih := evalElems_plain I ρ xs es (by simpa using hl) (fun x hx => hp x (by simp [hx])) (fun i e x h1 h2 => he (i + 1) e x h1 h2)
    cases x with
    | starred x => cases hp (.starred x) (by simp)
    | plain x =>
      rw [List.map_cons, evalElems, evalElems, ih, he 0 e (.plain x) rfl rfl]
      rfl

/-! ## The rule -/

theorem short_iff (codegen : Expr → PStr) (e : Expr) : matchSimpleExpression codegen e = true ↔ ShortOperand codegen e := by
  unfold matchSimpleExpression ShortOperand simpleTuple
  rw [Bool.or_eq_true, decide_eq_true_eq]
  constructor
  · rintro (h | h)
    · split at h
      · rename_i es he
        exact .inr ⟨es, he, by simpa using h⟩
      · cases h
    · exact .inl h
  · rintro (h | ⟨es, he, h⟩)
    · exact .inr h
    · left
      rw [he]
      simpa using h

theorem escapeString_value {L : Type} [DecidableEq L] {value : PStr → Option L} {quote t t' : PStr} (h : escapeString value quote t = some t') : t' = t ∨ ∃ x, value t' = some x ∧ value t = some x := by
  unfold escapeString at h
  split at h
  · split at h
    · split at h
      · rename_i x y hx hy
        split at h
        · rename_i hxy
          cases h
          exact .inr ⟨y, by rw [hx, hxy], hy⟩
        · cases h
      · cases h
    · cases h
  · cases h
    exact .inl rfl

/-- C110: a literal in an operand that is written with the quotes of the format gets other quotes, ones that are not in its text: the first such of `'`, `"`, `'''`, `"""`. -/
theorem C110_requoted {L : Type} [DecidableEq L] {value : PStr → Option L} {p q s t' : PStr} (hp : p ∈ strPrefixes) (hq : q ∈ quotes) (hs : closed q s = true)
    (h : escapeString value q (p ++ (q ++ (s ++ q))) = some t') :
    ∃ (pre post : List PStr) (quo : PStr), quotes = pre ++ quo :: post ∧ quo ≠ q ∧ (¬ ∃ u v, s = u ++ (quo ++ v)) ∧ (∀ o ∈ pre, o = q ∨ ∃ u v, s = u ++ (o ++ v)) ∧
      t' = p.map Char.toLower ++ (quo ++ (s ++ quo)) := by
  unfold escapeString at h
  rw [strPrefix_lit hp hq, strQuote_lit hp hq hs, strRaw_lit hp hq hs, if_pos rfl] at h
  split at h
  · rename_i quo hfind
    rw [List.find?_eq_some_iff_append] at hfind
    obtain ⟨hb, pre, post, hsplit, hpre⟩ := hfind
    have hb' : quo ≠ q ∧ isIn quo s = false := by simpa using hb
    have ht : t' = p.map Char.toLower ++ quo ++ s ++ quo := by
      split at h
      · split at h
        · cases h; rfl
        · cases h
      · cases h
    refine ⟨pre, post, quo, hsplit, hb'.1, ?_, ?_, by rw [ht]; simp⟩
    · rw [← isIn_iff, hb'.2]; exact Bool.false_ne_true
    · intro o ho
      have hx := hpre o ho
      by_cases ho' : o = q
      · exact .inl ho'
      · right
        rw [← isIn_iff]
        simpa [ho'] using hx
  · cases h

/-- C110: and one with other quotes stays as it is. -/
theorem C110_other_quotes {L : Type} [DecidableEq L] {value : PStr → Option L} {p q o s : PStr} (hp : p ∈ strPrefixes) (ho : o ∈ quotes) (hs : closed o s = true) (hne : o ≠ q) :
    escapeString value q (p ++ (o ++ (s ++ o))) = some (p ++ (o ++ (s ++ o))) := by
  unfold escapeString
  rw [strQuote_lit hp ho hs, if_neg (fun h => hne h.symm)]

section
variable {L : Type} [DecidableEq L] (codegen : Expr → PStr) (value : PStr → Option L) (isText : L → Bool)

/-- The expressions that go into the string: the elements of a tuple display, or the operand. -/
def OperandAt (right : Expr) (i : Nat) (e : Expr) : Prop :=
  (∃ es : List Elem, right.core = .tuple es ∧ (es[i]?).map Elem.value = some e) ∨ ((∀ es, right.core ≠ .tuple es) ∧ i = 0 ∧ e = right)

theorem operand_iff (right : Expr) (i : Nat) (e : Expr) : (expressionsOf right)[i]? = some e ↔ OperandAt right i e := by
  unfold expressionsOf OperandAt
  split
  · rename_i es he
    rw [List.getElem?_map]
    constructor
    · intro h; exact .inl ⟨es, he, h⟩
    · rintro (⟨es', h1, h2⟩ | ⟨h1, -⟩)
      · rw [he] at h1; cases h1; exact h2
      · exact absurd he (h1 es)
  · rename_i he
    constructor
    · intro h
      cases i with
      | zero => simp at h; exact .inr ⟨he, rfl, h.symm⟩
      | succ i => simp at h
    · rintro (⟨es', h1, h2⟩ | ⟨h1, rfl, rfl⟩)
      · exact absurd h1 (he es')
      · rfl

theorem buildParts_isSome (escape : Expr → Option Expr) : ∀ (tokens : List PStr) (es : List Expr), ((buildParts escape tokens es).isSome = true ↔ ∀ i, i < tokens.length → ∃ e, es[i]? = some e ∧ (escape e).isSome = true)
  | [], _ => by simp [buildParts]
  | _ :: _, [] => by
    simp only [buildParts, Option.isSome_none, Bool.false_eq_true, false_iff]
    intro h
    obtain ⟨e, he, -⟩ := h 0 (by simp)
    cases he
  | token :: tokens, e :: es => by
    rw [buildParts]
    have ih := buildParts_isSome escape tokens es
    constructor
    · intro h
      cases he : escape e with
      | none => rw [he] at h; cases h
      | some e' =>
        rw [he] at h
        simp only [Option.isSome_map] at h
        intro i hi
        cases i with
        | zero => exact ⟨e, rfl, by rw [he]; rfl⟩
        | succ i => exact ih.mp h i (by simpa using hi)
    · intro h
      obtain ⟨e0, h0, h1⟩ := h 0 (by simp)
      simp only [List.getElem?_cons_zero, Option.some.injEq] at h0
      subst h0
      cases he : escape e with
      | none => rw [he] at h1; cases h1
      | some e' =>
        simp only [Option.isSome_map]
        exact ih.mpr (fun i hi => h (i + 1) (by simpa using hi))

/-- C110: what is reported, on a string literal and the other operand of the `%`. Fixed are the formats that have a `%` and only `%s`, when the operand is short, there is an expression for
each `%s` and its literals can be written with other quotes. All other formatting of text is reported without a fix. -/
theorem C110_reports (p q s : PStr) (hp : p ∈ [[], py "r", py "R"]) (hq : q ∈ quotes) (hs : closed q s = true) (left right : Expr) (hl : left.core = .str (p ++ q ++ s ++ q))
    (x : L) (hv : value (p ++ q ++ s ++ q) = some x) (ht : isText x = true) :
    ((∃ node, useFstring codegen value isText left right = .fix node) ∨ useFstring codegen value isText left right = .warn) ∧
    ((∃ node, useFstring codegen value isText left right = .fix node) ↔
      '%' ∈ s ∧ OnlyS s ∧ ShortOperand codegen right ∧ ∀ i, i < s.count '%' → ∃ e, OperandAt right i e ∧ (escapeExpr (escapeString value q) e).isSome = true) := by
  have hb : isIn (py "b") (p.map Char.toLower) = false := by
    simp only [List.mem_cons, List.not_mem_nil, or_false] at hp
    rcases hp with rfl | rfl | rfl <;> decide
  have e : p ++ q ++ s ++ q = p ++ (q ++ (s ++ q)) := by simp
  rw [e] at hl hv
  have hm : matchSimpleString (p ++ (q ++ (s ++ q))) = fullmatch simpleFormat s := by
    unfold matchSimpleString
    rw [strPrefix_lit hp hq, strRaw_lit hp hq hs, hb]
    rfl
  have hu : useFstring codegen value isText left right =
      if fullmatch simpleFormat s && matchSimpleExpression codegen right then
        match fstringParts value (p ++ (q ++ (s ++ q))) right with
        | some ps => .fix ⟨py "f" ++ strPrefix (p ++ (q ++ (s ++ q))) ++ strQuote (p ++ (q ++ (s ++ q))), ps, strQuote (p ++ (q ++ (s ++ q)))⟩
        | none => .warn
      else .warn := by
    unfold useFstring
    rw [hl]
    simp only
    rw [hm, hv]
    simp only
    rw [ht]
    rfl
  by_cases hc : (fullmatch simpleFormat s && matchSimpleExpression codegen right) = true
  · rw [hu, if_pos hc]
    rw [Bool.and_eq_true, simpleFormat_iff, short_iff] at hc
    have hparts : (fstringParts value (p ++ (q ++ (s ++ q))) right).isSome = true ↔ ∀ i, i < s.count '%' → ∃ e, OperandAt right i e ∧ (escapeExpr (escapeString value q) e).isSome = true := by
      unfold fstringParts
      rw [Option.isSome_map, strRaw_lit hp hq hs, strQuote_lit hp hq hs, buildParts_isSome, doubleBraces_eq, tokens_length _ s (Nat.le_refl _) hc.1.2]
      simp only [operand_iff]
    cases hf : fstringParts value (p ++ (q ++ (s ++ q))) right with
    | none =>
      rw [hf] at hparts
      refine ⟨.inr rfl, fun ⟨_, h⟩ => by (cases h), fun ⟨_, _, _, h⟩ => ?_⟩
      cases hparts.mpr h
    | some ps =>
      rw [hf] at hparts
      exact ⟨.inl ⟨_, rfl⟩, fun _ => ⟨hc.1.1, hc.1.2, hc.2, hparts.mp rfl⟩, fun _ => ⟨_, rfl⟩⟩
  · rw [hu, if_neg hc]
    rw [Bool.and_eq_true, simpleFormat_iff, short_iff] at hc
    exact ⟨.inr rfl, fun ⟨_, h⟩ => by (cases h), fun ⟨h1, h2, h3, _⟩ => absurd ⟨⟨h1, h2⟩, h3⟩ hc⟩

/-- C110: when the left operand is no string literal, or a literal whose value is not text, nothing is reported. -/
theorem C110_silent (left right : Expr) (h : (∀ t, left.core ≠ .str t) ∨ ∃ t x, left.core = .str t ∧ 'b' ∈ strPrefix t ∧ value t = some x ∧ isText x = false) :
    useFstring codegen value isText left right = .silent := by
  unfold useFstring
  rcases h with h | ⟨t, x, h1, h2, h3, h4⟩
  · split
    · rename_i t ht
      exact absurd ht (h t)
    · rfl
  · rw [h1]
    simp only
    have : matchSimpleString t = false := by
      unfold matchSimpleString
      rw [show isIn (py "b") (strPrefix t) = true from ?_]
      · rfl
      · obtain ⟨u, v, huv⟩ := List.append_of_mem h2
        exact (isIn_iff _ _).mpr ⟨u, v, huv⟩
    rw [this, h3]
    simp [h4]

/-- C110: calls of `"…".format` are reported, and never fixed. -/
theorem C110_format (node : Expr) : useFstringCall node = .warn ∨ useFstringCall node = .silent := by
  unfold useFstringCall
  split
  · split
    · exact .inl rfl
    · exact .inr rfl
  · exact .inr rfl

theorem C110_format_iff (node : Expr) : useFstringCall node = .warn ↔ ∃ f v as t, node.core = .call f as ∧ f.core = .attr v (py "format") ∧ v.core = .str t := by
  unfold useFstringCall
  constructor
  · intro h
    split at h
    · rename_i f as hn
      split at h
      · rename_i hf
        unfold isStringFormat at hf
        split at hf
        · rename_i v a hfa
          split at hf
          · rename_i t ht
            simp only [beq_iff_eq] at hf
            subst hf
            exact ⟨f, v, as, t, hn, hfa, ht⟩
          · cases hf
        · cases hf
      · cases h
    · cases h
  · rintro ⟨f, v, as, t, h1, h2, h3⟩
    rw [h1]
    simp only
    have : isStringFormat f = true := by
      unfold isStringFormat
      rw [h2]
      simp only
      rw [h3]
      simp
    rw [if_pos this]

/-- C110: the replacement. Let the format have no escape that makes a percent sign or names a character, and the new fields no characters that mean something in a field and no quotes of
the literal. Then the replacement is an f-string, raw exactly when the literal is, and its pieces are the characters of the format with the expressions in the place of the `%s`. Each of
these expressions has the value of the operand it comes from, and the f-string has the value of the formatting, when there are exactly as many operands as `%s` (in a tuple display
without `*`, or one that is not a tuple) and making text of the values has no effects. -/
theorem C110_sound (names : PStr → Option Nat) (p q s : PStr) (lv : List Nat) (hp : p ∈ [[], py "r", py "R"]) (hq : q ∈ quotes) (hs : closed q s = true)
    (hlv : decode names (isRaw p) s = some lv) (left right : Expr) (hl : left.core = .str (p ++ q ++ s ++ q)) (node : FNode)
    (hfix : useFstring codegen value isText left right = .fix node)
    (hcount : lv.count 37 = s.count '%') (hN : isRaw p = true ∨ ¬ ∃ u v, s = u ++ (py "\\N{" ++ v))
    (hfields : ∀ e spec, FPart.expr e spec ∈ node.parts → fieldOk (codegen e) = true ∧ ∀ c ∈ codegen e, c ∉ q) :
    ∃ (its : List (Option Nat)) (es : List Expr) (p' : PStr),
      node.start = p' ++ q ∧ node.stop = q ∧ isRaw p' = isRaw p ∧
      percentItems lv = some its ∧ es.length = its.count none ∧
      FStringLiteral names p' q (renderParts codegen node.parts) (fillCodes its (es.map codegen)) ∧
      ∀ (I : Interp), (∀ t t' x, value t = some x → value t' = some x → I.str t = I.str t') →
        (∀ t t', escapeExpr (escapeString value q) t = some t' → I.assign t' = I.assign t) →
        (∀ (ρ : I.Locals) (i : Nat) (e e0 : Expr), es[i]? = some e → OperandAt right i e0 → eval I ρ e = eval I ρ e0) ∧
        ∀ (ρ : I.Locals) (items : I.Val → Option (List I.Val)) (toStr : I.Val → List Nat) (typeError : I.Exc),
          ((∃ xs, right.core = .tuple xs ∧ xs.length = its.count none ∧ ∀ x ∈ xs, x.isStarred = false) ∨
            ((∀ xs, right.core ≠ .tuple xs) ∧ ∀ st v st', eval I ρ right st = (.ok v, st') → items v = none)) →
          fstringRun I ρ toStr its es = percentRun I ρ items toStr typeError its right := by
  have e : p ++ q ++ s ++ q = p ++ (q ++ (s ++ q)) := by simp
  rw [e] at hl
  unfold useFstring at hfix
  rw [hl] at hfix
  simp only at hfix
  by_cases hsimple : (matchSimpleString (p ++ (q ++ (s ++ q))) && matchSimpleExpression codegen right) = true
  case neg =>
    rw [if_neg hsimple] at hfix
    split at hfix
    · split at hfix <;> cases hfix
    · cases hfix
  rw [if_pos hsimple] at hfix
  cases hps : fstringParts value (p ++ (q ++ (s ++ q))) right with
  | none => rw [hps] at hfix; cases hfix
  | some ps =>
  rw [hps] at hfix
  cases hfix
  have hb : isIn (py "b") (p.map Char.toLower) = false := by
    simp only [List.mem_cons, List.not_mem_nil, or_false] at hp
    rcases hp with rfl | rfl | rfl <;> decide
  unfold matchSimpleString at hsimple
  rw [strPrefix_lit hp hq, strRaw_lit hp hq hs, hb, Bool.and_eq_true, Bool.and_eq_true, simpleFormat_iff, short_iff] at hsimple
  obtain ⟨⟨-, hmem, hS⟩, -⟩ := hsimple
  simp only [strPrefix_lit hp hq, strQuote_lit hp hq hs] at hfields ⊢
  unfold fstringParts at hps
  rw [strRaw_lit hp hq hs, strQuote_lit hp hq hs, Option.map_eq_some_iff, doubleBraces_eq] at hps
  obtain ⟨ps', hps', hps⟩ := hps
  obtain ⟨es, h1, h2, h3, h4, h5⟩ := buildParts_some _ codegen _ _ _ hps'
  rw [tokens_length _ s (Nat.le_refl _) hS] at h1 h2 h3
  have hrender : renderParts codegen ps = expand s (es.map codegen) := by
    rw [← weave_expand _ s _ (Nat.le_refl _), ← h4, ← hps]
    unfold textPart
    split
    · rename_i ht; rw [ht]; rfl
    · rfl
  have hmemps : ∀ e ∈ es, FPart.expr e [] ∈ ps := by
    intro e he
    rw [← hps]
    exact List.mem_append_right _ (h5 e he)
  have hok : ∀ c ∈ es.map codegen, fieldOk c = true ∧ ∀ x ∈ c, x ∉ q := by
    intro c hc
    obtain ⟨e, he, rfl⟩ := List.mem_map.mp hc
    exact hfields e [] (hmemps e he)
  obtain ⟨its, i1, i2, i3⟩ := expand_read names (isRaw p) _ s lv (es.map codegen) (Nat.le_refl _) (noNames_of hN) hS hlv hcount (fun c hc => (hok c hc).1) (by simp [h1])
  have hraw : isRaw (py "f" ++ p.map Char.toLower) = isRaw p ∧ py "f" ++ p.map Char.toLower ∈ fPrefixes := by
    simp only [List.mem_cons, List.not_mem_nil, or_false] at hp
    rcases hp with rfl | rfl | rfl <;> decide
  refine ⟨its, es, py "f" ++ p.map Char.toLower, rfl, trivial, hraw.1, i1, by rw [h1, i2], ⟨hraw.2, hq, ?_, ?_⟩, ?_⟩
  · rw [hrender]
    exact closed_expand hq _ false s _ (Nat.le_refl _) hok (by simp [h1]) hs
  · rw [hrender, hraw.1]
    exact i3
  intro I hI hA
  have hvals : ∀ (ρ : I.Locals) (i : Nat) (e e0 : Expr), es[i]? = some e → OperandAt right i e0 → eval I ρ e = eval I ρ e0 := by
    intro ρ i e e0 he h0
    have hi : i < es.length := (List.getElem?_eq_some_iff.mp he).1
    rw [← operand_iff] at h0
    have := congrArg (·[i]?) h2
    simp only [List.getElem?_map, he, Option.map_some] at this
    rw [List.getElem?_take_of_lt (by omega), h0] at this
    simp only [Option.map_some, Option.some.injEq] at this
    refine (escapeExpr_same I _ ?_ hA e0 e this).1 ρ
    intro t t' ht
    rcases escapeString_value ht with rfl | ⟨x, hx, hy⟩
    · rfl
    · exact hI t' t x hx hy
  refine ⟨hvals, fun ρ items toStr typeError hright => ?_⟩
  rw [fstring_filled I ρ toStr typeError its es (by rw [h1, i2]), percent_filled]
  congr 1
  rcases hright with ⟨xs, hxs, hlen, hstar⟩ | ⟨hnt, hitems⟩
  · unfold percentArgs
    rw [hxs]
    refine evalElems_plain I ρ xs es (by rw [h1, hlen, i2]) hstar ?_
    intro i e x he hx
    exact hvals ρ i e x.value he (.inl ⟨xs, hxs, by rw [hx]; rfl⟩)
  · have hex : expressionsOf right = [right] := by
      unfold expressionsOf
      split
      · rename_i xs hxs; exact absurd hxs (hnt xs)
      · rfl
    rw [hex] at h3
    have hpos : 0 < s.count '%' := List.count_pos_iff.mpr hmem
    have h3' : s.count '%' ≤ 1 := by simpa using h3
    have hes : es.length = 1 := by omega
    cases es with
    | nil => cases hes
    | cons e es =>
      have : es = [] := List.length_eq_zero_iff.mp (by simpa using hes)
      subst this
      have hev := hvals ρ 0 e right rfl (.inr ⟨hnt, rfl, rfl⟩)
      have hargs : percentArgs I ρ items right = (eval I ρ right).bind fun v => Run.pure (match items v with | some vs => vs | none => [v]) := by
        unfold percentArgs
        split
        · rename_i xs hxs; exact absurd hxs (hnt xs)
        · rfl
      rw [hargs, List.map_cons, List.map_nil, evalElems, hev]
      funext st
      unfold Run.bind
      have hi := hitems st
      rcases hr : eval I ρ right st with ⟨_ | v, st'⟩
      · rfl
      · rw [hr] at hi
        have := hi v st' rfl
        simp only [Run.andThen, this]
        rfl
end

/-! ## Cases -/

/-- The source text of the expressions in the cases. -/
def showExpr : Expr → PStr
  | .name n => n
  | .str t => t
  | .attr v a => showExpr v ++ '.' :: a
  | .tuple _ => py "(…)"
  | .dict _ => py "{a: b}"
  | _ => []

/-- The value of a literal in the cases: the text between its quotes, when there is a closing quote. -/
def plainValue (t : PStr) : Option PStr := if closed (strQuote t) (strRaw t) then some (strRaw t) else none

theorem plainValue_escape : escapeString plainValue (py "\"") (py "\"k\"") = some (py "'k'") := by decide +kernel

/-- The hypotheses of `C110_requoted` are met: a prefix, and an apostrophe in the text, so the third quotes are the first that fit. -/
example : py "r" ∈ strPrefixes ∧ closed (py "\"") (py "it's") = true ∧
    escapeString (fun _ => some ()) (py "\"") (py "r\"it's\"") = some (py "r'''it's'''") := by decide +kernel

/-- `"{a: %s, %s\n" % (x, y.z)` becomes `f"{{a: {x}, {y.z}\n"`. -/
def caseRight : Expr := .tuple [.plain (.name (py "x")), .plain (.attr (.name (py "y")) (py "z"))]

def caseNode : FNode := ⟨py "f\"", [.text (py "{{a: "), .expr (.name (py "x")) [], .text (py ", "), .expr (.attr (.name (py "y")) (py "z")) [], .text (py "\\n")], py "\""⟩

theorem case_fix : useFstring showExpr plainValue (fun _ => true) (.str (py "\"{a: %s, %s\\n\"")) caseRight = .fix caseNode := by rfl

example : ∃ (its : List (Option Nat)) (es : List Expr) (p' : PStr), caseNode.start = p' ++ py "\"" ∧ percentItems (py "{a: %s, %s" |>.map Char.toNat |>.append [10]) = some its ∧
    FStringLiteral oneName p' (py "\"") (py "{{a: {x}, {y.z}\\n") (fillCodes its (es.map showExpr)) := by
  obtain ⟨its, es, p', h1, -, -, h4, -, h6, -⟩ := C110_sound showExpr plainValue (fun _ => true) oneName [] (py "\"") (py "{a: %s, %s\\n") ((py "{a: %s, %s" |>.map Char.toNat).append [10])
    (by decide) (by decide) (by decide +kernel) (by decide +kernel) (.str (py "\"{a: %s, %s\\n\"")) caseRight rfl caseNode case_fix (by decide +kernel)
    (.inr (by
      rintro ⟨u, v, h⟩
      have : isIn (py "\\N{") (py "{a: %s, %s\\n") = true := (isIn_iff _ _).mpr ⟨u, v, h⟩
      exact absurd this (by decide +kernel)))
    (by
      intro e spec h
      simp only [caseNode, List.mem_cons, FPart.expr.injEq, List.not_mem_nil, or_false, reduceCtorEq, false_or] at h
      rcases h with ⟨rfl, -⟩ | ⟨rfl, -⟩ <;> decide +kernel)
  exact ⟨its, es, p', h1, h4, h6⟩

/-! ## Findings -/

/-- A finding: elements of the tuple that have no `%s` are dropped, and with them the `TypeError`. -/
theorem C110_drops : ∃ node, useFstring showExpr plainValue (fun _ => true) (.str (py "'%s'")) (.tuple [.plain (.name (py "a")), .plain (.name (py "b"))]) = .fix node ∧
    renderParts showExpr node.parts = py "{a}" := ⟨_, rfl, rfl⟩

/-- A finding: `*args` in the tuple loses its star; the f-string shows the list and not its items. -/
theorem C110_star : ∃ node, useFstring showExpr plainValue (fun _ => true) (.str (py "'%s %s'")) (.tuple [.plain (.name (py "a")), .starred (.name (py "b"))]) = .fix node ∧
    renderParts showExpr node.parts = py "{a} {b}" := ⟨_, rfl, rfl⟩

/-- A finding: a variable that holds a tuple gives its items to `%`, but not to the f-string, and the rule cannot tell: with `t = (1,)` the one is `1` and the other `(1,)`. -/
theorem C110_variable : ∃ node, useFstring showExpr plainValue (fun _ => true) (.str (py "'%s'")) (.name (py "t")) = .fix node ∧ renderParts showExpr node.parts = py "{t}" := ⟨_, rfl, rfl⟩

/-- A finding: `u"%s" % x` becomes `fu"{x}"`, which is no Python. -/
theorem C110_unicode : ∃ node, useFstring showExpr plainValue (fun _ => true) (.str (py "u'%s'")) (.name (py "x")) = .fix node ∧ node.start = py "fu'" ∧ py "fu" ∉ fPrefixes :=
  ⟨_, rfl, rfl, by decide⟩

/-- A finding: `'%s' % {a: b}` becomes `f'{{a: b}}'`, which is just the text `{a: b}`; the variables are not looked at. -/
theorem C110_display : ∃ node, useFstring showExpr plainValue (fun _ => true) (.str (py "'%s'")) (.dict [.pair (.name (py "a")) (.name (py "b"))]) = .fix node ∧
    renderParts showExpr node.parts = py "{{a: b}}" ∧ fItems oneName false (renderParts showExpr node.parts) = some ((py "{a: b}").map (fun c => .inl c.toNat)) := ⟨_, rfl, rfl, by decide +kernel⟩

/-- A finding: an escape that makes a percent sign. `"\x25s %s" % (a, b)` uses both values, the f-string shows `%s` and the first. -/
theorem C110_escape : ∃ node, useFstring showExpr plainValue (fun _ => true) (.str (py "'\\x25s %s'")) (.tuple [.plain (.name (py "a")), .plain (.name (py "b"))]) = .fix node ∧
    renderParts showExpr node.parts = py "\\x25s {a}" ∧ (decode oneName false (py "\\x25s %s")).bind percentItems = some [none, some 32, none] := ⟨_, rfl, rfl, by decide +kernel⟩

/-- A finding: the braces of a named character are doubled too. `"\N{DASH}%s" % x` becomes `f"\N{{DASH}}{x}"`, which is no Python. -/
theorem C110_named : ∃ node, useFstring showExpr plainValue (fun _ => true) (.str (py "'\\N{DASH}%s'")) (.name (py "x")) = .fix node ∧
    renderParts showExpr node.parts = py "\\N{{DASH}}{x}" ∧ fItems oneName false (renderParts showExpr node.parts) = none := ⟨_, rfl, rfl, by decide +kernel⟩

/-- A finding: only literals with the very same quote are rewritten. `"%s" % '"'` becomes `f"{'"'}"`; before Python 3.12 the string ends at the second quote. -/
theorem C110_quote : ∃ node, useFstring showExpr plainValue (fun _ => true) (.str (py "\"%s\"")) (.str (py "'\"'")) = .fix node ∧
    renderParts showExpr node.parts = py "{'\"'}" ∧ closed (py "\"") (renderParts showExpr node.parts) = false := ⟨_, rfl, rfl, by decide +kernel⟩

end Cst
