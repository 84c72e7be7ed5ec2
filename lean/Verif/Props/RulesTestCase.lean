import Verif.Spec.RulesStateful
import Verif.Proof.Tracked

/-!
# C103: the upgrade of test cases
-/

namespace Cst
open Py Fixit Spec

/-- What the rule says at a step. -/
def testCaseOut (qual : Nat → List PStr) (code : Expr → PStr) (parse : PStr → Except Err Expr) (_ : Unit) : Ev → Except Err (List Rep)
  | .visit i (.call _ args) => convertEach code parse i args (qual i)
  | _ => .ok []

theorem testCaseRule_tracked (qual : Nat → List PStr) (code : Expr → PStr) (parse : PStr → Except Err Expr) :
    Tracked (σ := Unit) (testCaseRule qual code parse).methods (testCaseRule qual code parse).on (fun s _ => s) (testCaseOut qual code parse) where
  mem := by
    intro st s e _
    cases e with
    | leave i l => rfl
    | visit i l => cases l <;> rfl
  other := by
    intro s e h
    refine ⟨rfl, ?_⟩
    cases e with
    | leave i l => rfl
    | visit i l =>
      cases l with
      | call f args => exact absurd (by simp [Ev.method, Label.typeName, testCaseRule]) h
      | _ => rfl

theorem lastKeyword_none (k : PStr) (args : List Arg) : lastKeyword k args = none ↔ ∀ x ∈ args, x.keyword ≠ some k := by
  induction args with
  | nil => simp [lastKeyword]
  | cons a as ih =>
    rw [lastKeyword, List.forall_mem_cons, ← ih]
    cases h : lastKeyword k as with
    | some e => simp
    | none =>
      simp only [and_true]
      split
      · rename_i hk; simp [hk]
      · rename_i hk; simp [hk]

theorem lastKeyword_some (k : PStr) (e : Expr) : ∀ args : List Arg, lastKeyword k args = some e ↔ LastKeyword args k e
  | [] => ⟨fun h => by (cases h), fun ⟨pre, a, post, h, _⟩ => by simp at h⟩
  | a :: as => by
    rw [lastKeyword]
    have ih := fun e => lastKeyword_some k e as
    have hnone := (lastKeyword_none k as).mp
    cases hl : lastKeyword k as with
    | some e' =>
      simp only [Option.some.injEq]
      obtain ⟨pre, b, post, has, hb, hv, hp⟩ := (ih e').mp hl
      constructor
      · rintro rfl
        exact ⟨a :: pre, b, post, by rw [has]; rfl, hb, hv, hp⟩
      · rintro ⟨pre', b', post', has', hb', hv', hp'⟩
        cases pre' with
        | nil =>
          cases has'
          exact absurd hb (hp' b (by rw [has]; simp))
        | cons p pre' =>
          cases has'
          have := (ih e).mpr ⟨pre', b', post', rfl, hb', hv', hp'⟩
          rw [hl] at this
          cases this
          rfl
    | none =>
      simp only
      constructor
      · intro h
        split at h
        · rename_i hk
          cases h
          exact ⟨[], a, as, rfl, hk, rfl, hnone hl⟩
        · cases h
      · rintro ⟨pre, b, post, has, hb, hv, hp⟩
        cases pre with
        | nil => cases has; rw [if_pos hb, hv]
        | cons p pre => cases has; exact absurd hb (hnone hl b (by simp))

/-- The text that is parsed. -/
theorem rangeArgs_cases (code : Expr → PStr) (parse : PStr → Except Err Expr) (args : List Arg) :
    ((∀ a ∈ args, a.keyword ≠ some (py "line")) ∧ rangeArgs code parse args = .ok []) ∨
    ∃ text, RangeOf code args text ∧ rangeArgs code parse args = (parse text).map (fun e => [.mk .none (some (py "range")) e]) := by
  unfold rangeArgs
  cases hl : lastKeyword (py "line") args with
  | none => exact .inl ⟨(lastKeyword_none _ _).mp hl, rfl⟩
  | some l =>
    refine .inr ?_
    cases hc : lastKeyword (py "column") args with
    | none => exact ⟨_, .line l ((lastKeyword_some _ _ _).mp hl) ((lastKeyword_none _ _).mp hc), rfl⟩
    | some c => exact ⟨_, .both l c ((lastKeyword_some _ _ _).mp hl) ((lastKeyword_some _ _ _).mp hc), rfl⟩

theorem _root_.Spec.RangeOf.unique {code : Expr → PStr} {args : List Arg} {t t' : PStr} (h : RangeOf code args t) (h' : RangeOf code args t') : t = t' := by
  have line : ∀ k l l', LastKeyword args k l → LastKeyword args k l' → l = l' := by
    intro k l l' hl hl'
    rw [← lastKeyword_some] at hl hl'
    rw [hl] at hl'
    cases hl'
    rfl
  have no : ∀ k c, LastKeyword args k c → (∀ a ∈ args, a.keyword ≠ some k) → False := by
    rintro k c ⟨pre, a, post, rfl, ha, -⟩ h
    exact h a (by simp) ha
  cases h with
  | both l c hl hc =>
    cases h' with
    | both l' c' hl' hc' => rw [line _ _ _ hl hl', line _ _ _ hc hc']
    | line l' hl' hc' => exact (no _ _ hc hc').elim
  | line l hl hc =>
    cases h' with
    | both l' c' hl' hc' => exact (no _ _ hc' hc).elim
    | line l' hl' hc' => rw [line _ _ _ hl hl']

theorem _root_.Spec.RangeOf.has_line {code : Expr → PStr} {args : List Arg} {t : PStr} (h : RangeOf code args t) : ∃ a ∈ args, a.keyword = some (py "line") := by
  cases h with
  | both l c hl hc => obtain ⟨pre, a, post, rfl, ha, -⟩ := hl; exact ⟨a, by simp, ha⟩
  | line l hl hc => obtain ⟨pre, a, post, rfl, ha, -⟩ := hl; exact ⟨a, by simp, ha⟩

theorem keywordIn_iff (a : Arg) (names : List PStr) : a.keywordIn names = true ↔ ∃ k ∈ names, a.keyword = some k := by
  unfold Arg.keywordIn
  cases h : a.keyword with
  | none => simp
  | some k => simp

theorem filter_kept (args : List Arg) : args.filter (fun a => !a.keywordIn oldKeywords) = args.filter (fun a => ∀ k ∈ droppedKeywords, a.keyword ≠ some k) := by
  congr 1
  funext a
  rw [Bool.eq_iff_iff, Bool.not_eq_true', Bool.eq_false_iff, ne_eq, keywordIn_iff, decide_eq_true_iff]
  simp only [not_exists, not_and]
  rfl

/-- One conversion. -/
theorem convertArgs_cases (code : Expr → PStr) (parse : PStr → Except Err Expr) (i : Nat) (args : List Arg) :
    (∃ text x, RangeOf code args text ∧ parse text = .error x ∧ convertArgs code parse i args = .error x) ∨
    ((∀ text, RangeOf code args text → ∃ e, parse text = .ok e) ∧ ∃ out, convertArgs code parse i args = .ok out ∧
      ∀ rep, rep ∈ out ↔ (∃ a ∈ args, ∃ k ∈ droppedKeywords, a.keyword = some k) ∧ ∃ new, NewArgs code parse args new ∧ rep = { node := i, message := none, change := some (.args new) }) := by
  have hany : (args.any (·.keywordIn oldKeywords)) = true ↔ ∃ a ∈ args, ∃ k ∈ droppedKeywords, a.keyword = some k := by
    rw [List.any_eq_true]
    constructor
    · rintro ⟨a, ha, hk⟩; exact ⟨a, ha, (keywordIn_iff _ _).mp hk⟩
    · rintro ⟨a, ha, hk⟩; exact ⟨a, ha, (keywordIn_iff _ _).mpr hk⟩
  have fin : ∀ new : List Arg, (∀ new', NewArgs code parse args new' ↔ new' = args.filter (fun a => ∀ k ∈ droppedKeywords, a.keyword ≠ some k) ++ new) →
      rangeArgs code parse args = .ok new → ∃ out, convertArgs code parse i args = .ok out ∧
      ∀ rep, rep ∈ out ↔ (∃ a ∈ args, ∃ k ∈ droppedKeywords, a.keyword = some k) ∧ ∃ new, NewArgs code parse args new ∧ rep = { node := i, message := none, change := some (.args new) } := by
    intro new hnew hr
    unfold convertArgs
    rw [hr, filter_kept]
    simp only
    by_cases ha : (args.any (·.keywordIn oldKeywords)) = true
    · rw [if_pos ha]
      refine ⟨_, rfl, fun rep => ?_⟩
      rw [List.mem_singleton]
      constructor
      · rintro rfl; exact ⟨hany.mp ha, _, (hnew _).mpr rfl, rfl⟩
      · rintro ⟨-, new', hn, rfl⟩; rw [(hnew _).mp hn]
    · rw [if_neg ha]
      refine ⟨_, rfl, fun rep => ⟨fun h => by (cases h), fun h => absurd (hany.mpr h.1) ha⟩⟩
  rcases rangeArgs_cases code parse args with ⟨hl, hr⟩ | ⟨text, ht, hr⟩
  · refine .inr ⟨fun text ht => ?_, fin [] ?_ hr⟩
    · obtain ⟨a, ha, hk⟩ := ht.has_line; exact absurd hk (hl a ha)
    · intro new'
      rw [List.append_nil]
      constructor
      · intro h
        cases h with
        | range text e h hp => obtain ⟨a, ha, hk⟩ := h.has_line; exact absurd hk (hl a ha)
        | plain h => rfl
      · rintro rfl; exact .plain hl
  · cases hp : parse text with
    | error x =>
      refine .inl ⟨text, x, ht, hp, ?_⟩
      unfold convertArgs
      rw [hr, hp]
      rfl
    | ok e =>
      refine .inr ⟨fun text' ht' => ⟨e, by rw [← ht.unique ht']; exact hp⟩, fin _ ?_ (by rw [hr, hp]; rfl)⟩
      intro new'
      constructor
      · intro h
        cases h with
        | range text' e' h' hp' =>
          rw [h'.unique ht, hp] at hp'
          cases hp'
          rfl
        | plain h => obtain ⟨a, ha, hk⟩ := ht.has_line; exact absurd hk (h a ha)
      · rintro rfl; exact .range text e ht hp

theorem convertEach_cases (code : Expr → PStr) (parse : PStr → Except Err Expr) (i : Nat) (args : List Arg) : ∀ qs : List PStr,
    (IsTestCase qs ∧ ∃ text x, RangeOf code args text ∧ parse text = .error x ∧ convertEach code parse i args qs = .error x) ∨
    ((IsTestCase qs → ∀ text, RangeOf code args text → ∃ e, parse text = .ok e) ∧ ∃ out, convertEach code parse i args qs = .ok out ∧
      ∀ rep, rep ∈ out ↔ IsTestCase qs ∧ (∃ a ∈ args, ∃ k ∈ droppedKeywords, a.keyword = some k) ∧ ∃ new, NewArgs code parse args new ∧ rep = { node := i, message := none, change := some (.args new) })
  | [] => .inr ⟨fun h => by simp [IsTestCase] at h, [], rfl, fun rep => ⟨fun h => by (cases h), fun h => by simp [IsTestCase] at h⟩⟩
  | q :: qs => by
    rw [convertEach]
    have ih := convertEach_cases code parse i args qs
    by_cases hq : q = py "fixit.InvalidTestCase" ∨ q = py "fixit.ValidTestCase"
    · rw [if_pos hq]
      have htc : IsTestCase (q :: qs) := by
        rcases hq with rfl | rfl
        · exact .inl List.mem_cons_self
        · exact .inr List.mem_cons_self
      rcases convertArgs_cases code parse i args with ⟨text, x, ht, hp, hc⟩ | ⟨hall, out, ho, hout⟩
      · exact .inl ⟨htc, text, x, ht, hp, by rw [hc]⟩
      · rw [ho]
        simp only
        rcases ih with ⟨-, text, x, ht, hp, hc⟩ | ⟨-, out', ho', hout'⟩
        · obtain ⟨e, he⟩ := hall text ht
          rw [hp] at he
          cases he
        · refine .inr ⟨fun _ => hall, out ++ out', by rw [ho'], fun rep => ?_⟩
          rw [List.mem_append, hout, hout']
          exact ⟨fun h => h.elim (fun h => ⟨htc, h⟩) (fun h => ⟨htc, h.2⟩), fun h => .inl h.2⟩
    · rw [if_neg hq]
      have htc : IsTestCase (q :: qs) ↔ IsTestCase qs := by
        unfold IsTestCase
        rw [List.mem_cons, List.mem_cons]
        constructor
        · rintro ((h | h) | (h | h))
          · exact absurd (.inl h.symm) hq
          · exact .inl h
          · exact absurd (.inr h.symm) hq
          · exact .inr h
        · rintro (h | h)
          · exact .inl (.inr h)
          · exact .inr (.inr h)
      rw [htc]
      exact ih

/-- C103: when it does not fail, `FixitDeprecatedTestCaseKeywords` reports exactly the calls that make a test case of Fixit 1 with one of the five old keywords; the new arguments are the
others, in order, and a range if `line` was given. -/
theorem C103_calls (qual : Nat → List PStr) (code : Expr → PStr) (parse : PStr → Except Err Expr) (meta_ : Store) (t : Syn) (reps : List Rep)
    (h : (testCaseRule qual code parse).alone meta_ t = .ok reps) (rep : Rep) : rep ∈ reps ↔
    ∃ way i f args ks new, At way (.node i (.call f args) ks) t ∧ IsTestCase (qual i) ∧ (∃ a ∈ args, ∃ k ∈ droppedKeywords, a.keyword = some k) ∧ NewArgs code parse args new ∧
      rep = { node := i, message := none, change := some (.args new) } := by
  rw [(testCaseRule_tracked qual code parse).mem_alone meta_ t reps h rep]
  constructor
  · rintro ⟨way, i, l, ks, hat, ⟨out, ho, hm⟩ | ⟨out, ho, hm⟩⟩
    · cases l with
      | call f args =>
        rcases convertEach_cases code parse i args (qual i) with ⟨-, text, x, -, -, hx⟩ | ⟨-, out', ho', hout⟩
        · rw [testCaseOut, hx] at ho; cases ho
        · rw [testCaseOut, ho'] at ho
          cases ho
          obtain ⟨h1, h2, new, h3, h4⟩ := (hout rep).mp hm
          exact ⟨way, i, f, args, ks, new, hat, h1, h2, h3, h4⟩
      | _ => cases ho; cases hm
    · cases ho; cases hm
  · rintro ⟨way, i, f, args, ks, new, hat, h1, h2, h3, h4⟩
    refine ⟨way, i, _, ks, hat, .inl ?_⟩
    rcases convertEach_cases code parse i args (qual i) with ⟨-, text, x, ht, hp, hx⟩ | ⟨-, out', ho', hout⟩
    · -- no such new arguments
      cases h3 with
      | range text' e ht' hp' => rw [ht'.unique ht, hp] at hp'; cases hp'
      | plain hl => obtain ⟨a, ha, hk⟩ := ht.has_line; exact absurd hk (hl a ha)
    · exact ⟨out', ho', (hout rep).mpr ⟨h1, h2, new, h3, h4⟩⟩

/-- C103: it fails exactly when the text of a range, made from the texts of `line` and `column`, is not an expression. -/
theorem C103_raises (qual : Nat → List PStr) (code : Expr → PStr) (parse : PStr → Except Err Expr) (meta_ : Store) (t : Syn) :
    (∃ x, (testCaseRule qual code parse).alone meta_ t = .error x) ↔
    ∃ way i f args ks text, At way (.node i (.call f args) ks) t ∧ IsTestCase (qual i) ∧ RangeOf code args text ∧ ∃ x, parse text = .error x := by
  refine Iff.trans ((testCaseRule_tracked qual code parse).error_alone (init := ()) meta_ t) ?_
  constructor
  · rintro ⟨way, i, l, ks, hat, ⟨x, hx⟩ | ⟨x, hx⟩⟩
    · cases l with
      | call f args =>
        rcases convertEach_cases code parse i args (qual i) with ⟨h1, text, x', ht, hp, -⟩ | ⟨-, out', ho', hout⟩
        · exact ⟨way, i, f, args, ks, text, hat, h1, ht, x', hp⟩
        · rw [testCaseOut, ho'] at hx; cases hx
      | _ => cases hx
    · cases hx
  · rintro ⟨way, i, f, args, ks, text, hat, h1, ht, x, hp⟩
    refine ⟨way, i, _, ks, hat, .inl ?_⟩
    rcases convertEach_cases code parse i args (qual i) with ⟨-, text', x', -, -, hx⟩ | ⟨hall, -⟩
    · exact ⟨x', hx⟩
    · obtain ⟨e, he⟩ := hall h1 text ht
      rw [hp] at he
      cases he

/-! ## Cases -/

/-- `InvalidTestCase("…", …)`. -/
def caseCall (i : Nat) (args : List Arg) : Syn :=
  .node i (.call (.name (py "InvalidTestCase")) (.pos (.str (py "'x'")) :: args)) [.node (i + 1) (.name (py "InvalidTestCase")) []]

/-- Where every call is one of a test case; the text of an expression is `7`, and every text is parsed as a name. -/
def caseRule : VRule := testCaseRule (fun _ => [py "fixit.InvalidTestCase"]) (fun _ => py "7") (fun s => .ok (.name s))

/-- `line` and `column` become a range after the other arguments. -/
example : ∃ reps, caseRule.alone (fun _ => []) (.node 0 .module [caseCall 1 [.mk .none (some (py "line")) (.num (py "7")), .mk .none (some (py "kind")) (.num (py "7")),
      .mk .none (some (py "expected_message")) (.num (py "7"))]]) = .ok reps ∧
    reps = [{ node := 1, change := some (.args [.pos (.str (py "'x'")), .mk .none (some (py "expected_message")) (.num (py "7")),
      .mk .none (some (py "range")) (.name (py "CodeRange(start=CodePosition(7, 0), end=CodePosition(1 + 7, 0))"))]) }] := ⟨_, rfl, rfl⟩

/-- Other calls stay. -/
example : (caseRule.alone (fun _ => []) (.node 0 .module [caseCall 1 [.mk .none (some (py "expected_message")) (.num (py "7"))]])).map (·.map (·.node)) = .ok [] := by decide +kernel

/-- A finding: a `column` without a `line` is lost without a trace. -/
theorem C103_column_lost : ∃ reps, caseRule.alone (fun _ => []) (.node 0 .module [caseCall 1 [.mk .none (some (py "column")) (.num (py "7"))]]) = .ok reps ∧
    reps = [{ node := 1, change := some (.args [.pos (.str (py "'x'"))]) }] := ⟨_, rfl, rfl⟩

/-- A test case whose range is not an expression: it fails. -/
example : (testCaseRule (fun _ => [py "fixit.InvalidTestCase"]) (fun _ => py "lambda: 0") (fun _ => .error (.other 5))).alone (fun _ => [])
    (.node 0 .module [caseCall 1 [.mk .none (some (py "line")) (.name (py "lambda: 0"))]]) = .error (.other 5) := rfl

end Cst
