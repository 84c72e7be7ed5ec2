import Verif.Props.Suppression

/-!
# C06 and C71–C74 in terms of what `report` does
-/

namespace Fixit
open Py Spec

variable (u : Unicode) {Node Repl : Type}

theorem silences_iff (comments : List PStr) (name : PStr) : Silences u comments name ↔ ignoreLint u name comments = true := by
  rw [ignoreLint, List.any_eq_true]
  constructor
  · rintro ⟨c, hc, h⟩; exact ⟨c, hc, (commentSilences_iff u _ _).2 h⟩
  · rintro ⟨c, hc, h⟩; exact ⟨c, hc, (commentSilences_iff u _ _).1 h⟩

theorem silences_one (comment name : PStr) : Silences u [comment] name ↔ commentSilences u name comment = true := by
  rw [silences_iff, ignoreLint]; simp

/-- **C06** What a call of `report` does, completely. If a directive silences the rule, nothing. Otherwise, if there is no message to use, it raises
ValueError, recording nothing. Otherwise the rule gets exactly one more violation, at the end: with the rule's name, the message, the node and the
replacement given, and the range given, or from the position given to the start of the next line, or else the node's own. -/
theorem C06_report (comments : List PStr) (own : CodeRange) (r : RuleState Node Repl) (node : Node) (msg : Option PStr) (position : PositionArg)
    (repl : Option Repl) :
    (Silences u comments r.name → report u comments own r node msg position repl = some r) ∧
    (¬ Silences u comments r.name →
      ((¬ ∃ m, MessageFor msg r.message m) → report u comments own r node msg position repl = none) ∧
      ∀ m, MessageFor msg r.message m → ∃ range,
        report u comments own r node msg position repl = some { r with violations := r.violations ++ [⟨r.name, range, m, node, repl⟩] } ∧
        (position = .none → range = own) ∧ (∀ rg, position = .range rg → range = rg) ∧
        (∀ p, position = .pos p → range = ⟨p, ⟨p.line + 1, 0⟩⟩)) := by
  constructor
  · intro h
    rw [silences_iff] at h
    rw [report, if_pos h]
  · intro h
    rw [silences_iff] at h
    constructor
    · intro hm
      rw [report, if_neg h]
      cases hr : resolveMessage msg r.message with
      | none => rfl
      | some m => exact absurd ⟨m, (C06_message msg r.message m).mp hr⟩ hm
    · intro m hm
      have hr := (C06_message msg r.message m).mpr hm
      refine ⟨resolveRange own position, ?_, ?_, ?_, ?_⟩
      · rw [report, if_neg h, hr]
      · rintro rfl; rfl
      · rintro rg rfl; rfl
      · rintro p rfl; rfl

/-- **C71** A report is dropped only if some comment of the node contains a hash, blanks and then a directive word. -/
theorem C71_report_dropped (comments : List PStr) (own : CodeRange) (r : RuleState Node Repl) (node : Node) (msg : Option PStr) (position : PositionArg)
    (repl : Option Repl) (h : report u comments own r node msg position repl = some r) :
    ∃ comment ∈ comments, ∃ pre ws kw tail, comment = pre ++ '#' :: (ws ++ kw ++ tail) ∧ Blank ws ∧ kw ∈ keywords := by
  obtain ⟨c, hc, kw, names, hf, hn⟩ := (C02_silenced_iff u comments r own node msg position repl).1 h
  exact ⟨c, hc, C71_directive_word_required u r.name c ((commentSilences_iff u _ _).2 ⟨kw, names, hf, hn⟩)⟩

/-- **C71** (finding) Any word that merely begins with a directive word silences every rule. -/
theorem C71_longer_word_drops (comments : List PStr) (pre ws kw : PStr) (c : Char) (tail : PStr) (hpre : ¬ HasDirective pre)
    (hws : Blank ws) (hk : kw ∈ keywords) (hc : u.word c = true) (hmem : pre ++ '#' :: (ws ++ kw ++ c :: tail) ∈ comments)
    (own : CodeRange) (r : RuleState Node Repl) (node : Node) (msg : Option PStr) (position : PositionArg) (repl : Option Repl) :
    report u comments own r node msg position repl = some r :=
  C06_report_silenced u comments _ hmem r (C71_longer_word_is_bare_directive u pre ws kw c tail hpre hws hk hc r.name) own node msg position repl

/-- **C73** With one comment, its first directive alone decides whether a report is dropped. -/
theorem C73_first_decides_report (comment kw : PStr) (names : Option (List PStr)) (hf : FirstDirective u comment kw names)
    (own : CodeRange) (r : RuleState Node Repl) (node : Node) (msg : Option PStr) (position : PositionArg) (repl : Option Repl) :
    report u [comment] own r node msg position repl = some r ↔ (names = none ∨ ∃ ns n, names = some ns ∧ n ∈ ns ∧ Names u n r.name) := by
  rw [C02_silenced_iff]
  constructor
  · rintro ⟨c, hc, kw', names', hf', h⟩
    rw [List.mem_singleton] at hc
    subst hc
    rw [(C07_first_directive_unique u hf hf').2]; exact h
  · intro h; exact ⟨comment, by simp, kw, names, hf, h⟩

/-- **C74** For a rule of the class `cls`: a directive listing the class name, or listing the printed name unless that itself ends in `Rule`, drops its reports;
one listing a printed name that ends in `Rule` drops none (provided lower-casing keeps the name's length). The printed name is the class name without one
`Rule` at its end. -/
theorem C74_report (cls printed ws kw sep : PStr) (hcls : IsName u cls) (hws : Blank ws) (hk : kw ∈ keywords) (hsep : Separator sep)
    (hp : cls = printed ++ py "Rule" ∨ (printed = cls ∧ ¬ ∃ b, cls = b ++ py "Rule"))
    (own : CodeRange) (r : RuleState Node Repl) (hr : r.name = printed) (node : Node) (msg : Option PStr) (position : PositionArg) (repl : Option Repl) :
    report u ['#' :: (ws ++ kw ++ (sep ++ cls))] own r node msg position repl = some r ∧
    ((¬ ∃ b, printed = b ++ py "Rule") → printed ≠ [] → report u ['#' :: (ws ++ kw ++ (sep ++ printed))] own r node msg position repl = some r) ∧
    ((∃ b, printed = b ++ py "Rule") → (u.lower printed).length = printed.length →
      report u ['#' :: (ws ++ kw ++ (sep ++ printed))] own r node msg position repl ≠ some r) := by
  have hpn : ruleName cls = printed := by
    rcases hp with h | ⟨h1, h2⟩
    · exact (C06_rule_name cls).1 _ h
    · rw [h1]; exact (C06_rule_name cls).2 h2
  have key : ∀ c, report u [c] own r node msg position repl = some r ↔ commentSilences u printed c = true := by
    intro c
    rw [C02_silenced_iff, ← silences_one, ← hr]
    rfl
  obtain ⟨h1, h2⟩ := C74_class_or_printed_name_silences u cls ws kw sep hcls hws hk hsep
  rw [hpn] at h1 h2
  refine ⟨(key _).2 h1, fun hb hne => (key _).2 (h2 hb hne), fun hb hlow => ?_⟩
  rw [Ne, key]
  have := C74_printed_name_ending_in_rule u cls ws kw sep hcls hws hk hsep (by rw [hpn]; exact hlow) (by rw [hpn]; exact hb)
  rw [hpn] at this
  rw [this]
  exact Bool.false_ne_true

/-- **C72** (finding) A violation reported at a position extends to the start of the next line, never to one character. -/
theorem C72_report_at_position (comments : List PStr) (own : CodeRange) (r r' : RuleState Node Repl) (node : Node) (msg : Option PStr) (p : CodePosition)
    (repl : Option Repl) (hns : ¬ Silences u comments r.name) (h : report u comments own r node msg (.pos p) repl = some r') :
    ∃ v, r'.violations = r.violations ++ [v] ∧ v.range = ⟨p, ⟨p.line + 1, 0⟩⟩ ∧ v.range.stop ≠ ⟨p.line, p.column + 1⟩ := by
  obtain ⟨h1, h2⟩ := (C06_report u comments own r node msg (.pos p) repl).2 hns
  by_cases hm : ∃ m, MessageFor msg r.message m
  · obtain ⟨m, hm⟩ := hm
    obtain ⟨rg, h3, -, -, h4⟩ := h2 m hm
    have h5 := h4 p rfl
    subst h5
    rw [h3] at h
    cases h
    refine ⟨_, rfl, rfl, ?_⟩
    intro he
    have := congrArg CodePosition.line he
    simp at this
  · rw [h1 hm] at h; cases h

/-- C06: a silenced and a recorded report of the rule `Foo`. -/
example :
    let r : RuleState Nat Nat := ⟨py "Foo", some (py "own message"), []⟩
    (report .ascii [py "# lint-ignore: Bar", py "# x # lint-fixme: FooRule"] ⟨⟨1, 0⟩, ⟨1, 5⟩⟩ r 7 none .none none).map (·.violations.length) = some 0 ∧
    (report .ascii [py "# lint-ignore: Bar"] ⟨⟨1, 0⟩, ⟨1, 5⟩⟩ r 7 none (.pos ⟨1, 2⟩) (some 3)).map (·.violations.map (fun v => (v.ruleName, v.range.stop, v.node))) =
      some [(py "Foo", ⟨2, 0⟩, 7)] := by decide

/-- C74: the class `FooRuleRule`, printed `FooRule`. -/
example :
    let r : RuleState Nat Nat := ⟨py "FooRule", some (py "m"), []⟩
    (report .ascii [py "# lint-ignore: FooRuleRule"] ⟨⟨1, 0⟩, ⟨1, 5⟩⟩ r 7 none .none none).map (·.violations.length) = some 0 ∧
    (report .ascii [py "# lint-ignore: FooRule"] ⟨⟨1, 0⟩, ⟨1, 5⟩⟩ r 7 none .none none).map (·.violations.length) = some 1 := by decide

end Fixit
