import Verif.Proof.Directive
import Verif.Spec.Comments

/-!
# C01–C07: suppression directives and `report`
-/

namespace Fixit
open Py Spec

variable (u : Unicode)

/-! ## C07: the regex recognises exactly the directive grammar -/

/-- No directive, no match; otherwise the match is the first directive, with its word and names. -/
theorem C07_search_iff_first_directive (s kw : PStr) (names : Option (List PStr)) :
    FirstDirective u s kw names ↔
      ∃ t, (lintIgnoreRegex u).search s = some t ∧ t.caps 1 = some kw ∧
        (t.caps 2).map (fun txt => (splitOn ',' txt).map strip) = names := by
  constructor
  · intro h
    cases names with
    | none =>
      obtain ⟨t, h1, h2, h3⟩ := search_bare u h
      exact ⟨t, h1, h2, by simp [h3]⟩
    | some ns =>
      obtain ⟨t, text, h1, h2, h3, h4⟩ := search_named u h
      refine ⟨t, h1, h2, ?_⟩
      have := names_split u h4 [] (by simp [Blank])
      simp only [List.nil_append] at this
      simp [h3, this]
  · rintro ⟨t, h1, h2, h3⟩
    have hd : HasDirective s := by
      by_cases hd : HasDirective s
      · exact hd
      · have := searchFrom_none u hd 0
        rw [Re.search, this] at h1; simp at h1
    obtain ⟨kw', names', hf⟩ := firstDirective_total u hd
    cases names' with
    | none =>
      obtain ⟨t', h1', h2', h3'⟩ := search_bare u hf
      rw [h1'] at h1; cases h1
      rw [h2'] at h2; cases h2
      rw [h3'] at h3; simp at h3; subst h3; exact hf
    | some ns =>
      obtain ⟨t', text, h1', h2', h3', h4'⟩ := search_named u hf
      rw [h1'] at h1; cases h1
      rw [h2'] at h2; cases h2
      have := names_split u h4' [] (by simp [Blank])
      simp only [List.nil_append] at this
      rw [h3'] at h3; simp [this] at h3; subst h3; exact hf

theorem C07_no_match_iff (s : PStr) : (lintIgnoreRegex u).search s = none ↔ ¬ HasDirective s := by
  constructor
  · intro h hd
    obtain ⟨kw, names, hf⟩ := firstDirective_total u hd
    obtain ⟨t, h1, -⟩ := (C07_search_iff_first_directive u s kw names).1 hf
    rw [h] at h1; simp at h1
  · intro h; exact searchFrom_none u h 0

/-- The specification is functional: a comment has at most one first directive and one list of names. -/
theorem C07_first_directive_unique {s kw kw' : PStr} {n n' : Option (List PStr)}
    (h : FirstDirective u s kw n) (h' : FirstDirective u s kw' n') : kw = kw' ∧ n = n' := by
  obtain ⟨t, h1, h2, h3⟩ := (C07_search_iff_first_directive u _ _ _).1 h
  obtain ⟨t', h1', h2', h3'⟩ := (C07_search_iff_first_directive u _ _ _).1 h'
  rw [h1] at h1'; cases h1'
  rw [h2] at h2'; cases h2'
  exact ⟨rfl, h3.symm.trans h3'⟩

/-! ## Building directives out of text -/

theorem hash_not_in_head {ws kw : PStr} (hws : Blank ws) (hk : kw ∈ keywords) : '#' ∉ ws ++ kw := by
  intro hm
  rw [List.mem_append] at hm
  rcases hm with h | h
  · exact absurd (hws _ h) (by decide)
  · simp only [keywords, List.mem_cons, List.not_mem_nil, or_false] at hk
    rcases hk with rfl | rfl <;> exact absurd h (by decide)

/-- A directive written after directive-free text is the first one. -/
theorem first_of_clean {pre r : PStr} (hpre : ¬ HasDirective pre) (p q kw' tail' : PStr)
    (he : pre ++ '#' :: r = p ++ q) (hd : DirectiveHead q kw' tail') : pre.length ≤ p.length := by
  by_cases hlt : pre.length ≤ p.length
  · exact hlt
  · exfalso
    obtain ⟨ws, rfl, hws, hk⟩ := hd
    obtain ⟨q1, hp, hq⟩ : ∃ q1, pre = p ++ q1 ∧ '#' :: (ws ++ kw' ++ tail') = q1 ++ '#' :: r := by
      rcases List.append_eq_append_iff.1 he with ⟨a, h1, h2⟩ | ⟨a, h1, h2⟩
      · rw [h1] at hlt; simp at hlt
      · exact ⟨a, h1, h2⟩
    have hq1 : q1 ≠ [] := by rintro rfl; simp [hp] at hlt
    have hq' : ('#' :: (ws ++ kw')) ++ tail' = q1 ++ '#' :: r := by simpa using hq
    have nodir : ∀ a, q1 ≠ ('#' :: (ws ++ kw')) ++ a := by
      intro a ha
      exact hpre ⟨p, q1, kw', a, hp, ws, by rw [ha]; simp, hws, hk⟩
    rcases List.append_eq_append_iff.1 hq' with ⟨a, h1, _⟩ | ⟨a, h1, h2⟩
    · exact nodir a h1
    · cases a with
      | nil => exact nodir [] (by simpa using h1.symm)
      | cons c cs =>
        simp only [List.cons_append, List.cons.injEq] at h2
        obtain ⟨rfl, -⟩ := h2
        cases q1 with
        | nil => exact hq1 rfl
        | cons d ds =>
          simp only [List.cons_append, List.cons.injEq] at h1
          exact hash_not_in_head hws hk (by rw [h1.2]; simp)

/-- A comment made of directive-free text and a directive, whose first directive is the one written. -/
theorem firstDirective_of_text {pre ws kw tail : PStr} {names} (hpre : ¬ HasDirective pre) (hws : Blank ws)
    (hk : kw ∈ keywords) (hn : NamesAfter u tail names) :
    FirstDirective u (pre ++ '#' :: (ws ++ kw ++ tail)) kw names :=
  ⟨pre, _, tail, rfl, ⟨ws, rfl, hws, hk⟩, hn, fun p q kw' tail' he hd => first_of_clean hpre p q kw' tail' he hd⟩

/-! ## The decision in full -/

/-- One comment silences a rule exactly when its first directive is bare or names the rule. -/
theorem commentSilences_iff (name comment : PStr) :
    commentSilences u name comment = true ↔
      ∃ kw names, FirstDirective u comment kw names ∧
        (names = none ∨ ∃ ns n, names = some ns ∧ n ∈ ns ∧ Names u n name) := by
  have key : ∀ ns : List PStr, (ns.any fun n => [name, u.lower name].contains (stripRuleSuffix n)) = true ↔
      ∃ n, n ∈ ns ∧ Names u n name := by
    intro ns
    simp only [List.any_eq_true, List.contains_eq_mem, List.mem_cons, List.not_mem_nil, or_false, decide_eq_true_eq,
      names_iff]
  by_cases hd : HasDirective comment
  · obtain ⟨kw, names, hf⟩ := firstDirective_total u hd
    obtain ⟨t, h1, h2, h3⟩ := (C07_search_iff_first_directive u _ _ _).1 hf
    have huniq : ∀ kw' names', FirstDirective u comment kw' names' → names' = names :=
      fun kw' names' hf' => (C07_first_directive_unique u hf' hf).2
    rw [commentSilences, h1]
    simp only
    cases hc : t.caps 2 with
    | none =>
      rw [hc] at h3; simp only [Option.map_none] at h3; subst h3
      exact iff_of_true rfl ⟨kw, none, hf, Or.inl rfl⟩
    | some txt =>
      rw [hc] at h3; simp only [Option.map_some] at h3
      simp only [key]
      constructor
      · rintro ⟨n, hn, hnm⟩
        exact ⟨kw, names, hf, Or.inr ⟨_, n, h3.symm, hn, hnm⟩⟩
      · rintro ⟨kw', names', hf', h | ⟨ns, n, h, hn, hnm⟩⟩
        · rw [huniq _ _ hf', ← h3] at h; simp at h
        · rw [huniq _ _ hf', ← h3] at h; cases h; exact ⟨n, hn, hnm⟩
  · rw [commentSilences, (C07_no_match_iff u comment).2 hd]
    simp only [Bool.false_eq_true, false_iff]
    rintro ⟨kw, names, ⟨pre, rest, tail, h1, h2, -⟩, -⟩
    exact hd ⟨pre, rest, kw, tail, h1, h2⟩

/-! ## C01–C04 at the level of `report` -/

section
variable {Node Repl : Type}

/-- C01. A bare directive in any comment of the node: `report` records nothing and raises nothing. -/
theorem C01_bare_directive_silences (m : ModuleTree) (p : Pos) (pre ws kw tail : PStr)
    (hmem : (pre ++ '#' :: (ws ++ kw ++ tail)) ∈ nodeComments m p)
    (hpre : ¬ HasDirective pre) (hws : Blank ws) (hk : kw ∈ keywords)
    (hbare : ¬ ∃ sep c r, tail = sep ++ c :: r ∧ Separator sep ∧ u.word c = true)
    (r : RuleState Node Repl) (dflt : CodeRange) (node : Node) (msg) (position) (repl) :
    report u (nodeComments m p) dflt r node msg position repl = some r := by
  have hs : ignoreLint u r.name (nodeComments m p) = true := by
    rw [ignoreLint, List.any_eq_true]
    exact ⟨_, hmem, (commentSilences_iff u _ _).2
      ⟨kw, none, firstDirective_of_text u hpre hws hk hbare, Or.inl rfl⟩⟩
  rw [report, if_pos hs]

/-- C02 (and the full decision). `report` keeps silent exactly when some comment of the node has a first directive that is
bare or names the rule. (A report that is not silenced either raises or appends, see C06.) -/
theorem C02_silenced_iff (comments : List PStr) (r : RuleState Node Repl) (dflt : CodeRange) (node : Node)
    (msg) (position) (repl) :
    report u comments dflt r node msg position repl = some r ↔
      ∃ comment ∈ comments, ∃ kw names, FirstDirective u comment kw names ∧
        (names = none ∨ ∃ ns n, names = some ns ∧ n ∈ ns ∧ Names u n r.name) := by
  have h1 : report u comments dflt r node msg position repl = some r ↔ ignoreLint u r.name comments = true := by
    constructor
    · intro h
      by_cases hi : ignoreLint u r.name comments = true
      · exact hi
      · rw [report, if_neg hi] at h
        cases hm : resolveMessage msg r.message with
        | none => rw [hm] at h; simp at h
        | some m =>
          rw [hm] at h
          simp only [Option.some.injEq] at h
          have := congrArg (fun r => r.violations.length) h
          simp at this
    · intro h; rw [report, if_pos h]
  rw [h1, ignoreLint, List.any_eq_true]
  simp only [commentSilences_iff]

/-- C02. A directive that lists `ns`, alone on the node, silences exactly the rules it names: the decision depends on nothing
but the list of names, for every layout the grammar admits. -/
theorem C02_named_directive_silences_exactly (pre ws kw sep text post : PStr) (ns : List PStr)
    (hpre : ¬ HasDirective pre) (hws : Blank ws) (hk : kw ∈ keywords)
    (hsep : Separator sep) (hl : NameList u text ns) (hpost : EndsList u post)
    (r : RuleState Node Repl) (dflt : CodeRange) (node : Node) (msg) (position) (repl) :
    report u [pre ++ '#' :: (ws ++ kw ++ (sep ++ text ++ post))] dflt r node msg position repl = some r ↔
      ∃ n ∈ ns, Names u n r.name := by
  rw [C02_silenced_iff]
  have hf : FirstDirective u (pre ++ '#' :: (ws ++ kw ++ (sep ++ text ++ post))) kw (some ns) :=
    firstDirective_of_text u hpre hws hk ⟨sep, text, post, rfl, hsep, hl, hpost⟩
  constructor
  · rintro ⟨c, hc, kw', names, hf', h⟩
    simp only [List.mem_singleton] at hc; subst hc
    obtain ⟨-, rfl⟩ := C07_first_directive_unique u hf' hf
    rcases h with h | ⟨ns', n, h, hn, hnm⟩
    · simp at h
    · cases h; exact ⟨n, hn, hnm⟩
  · rintro ⟨n, hn, hnm⟩
    exact ⟨_, by simp, kw, some ns, hf, Or.inr ⟨ns, n, rfl, hn, hnm⟩⟩

/-- C03. Swapping one directive word for the other never changes the outcome of `report`, whatever the other comments are. -/
theorem C03_ignore_fixme_interchangeable (before after : List PStr) (pre ws kw kw' tail : PStr)
    (hpre : ¬ HasDirective pre) (hws : Blank ws) (hk : kw ∈ keywords) (hk' : kw' ∈ keywords)
    (r : RuleState Node Repl) (dflt : CodeRange) (node : Node) (msg) (position) (repl) :
    report u (before ++ (pre ++ '#' :: (ws ++ kw ++ tail)) :: after) dflt r node msg position repl =
    report u (before ++ (pre ++ '#' :: (ws ++ kw' ++ tail)) :: after) dflt r node msg position repl := by
  have one : ∀ k ∈ keywords, ∀ k' ∈ keywords, ∀ name, commentSilences u name (pre ++ '#' :: (ws ++ k ++ tail)) = true →
      commentSilences u name (pre ++ '#' :: (ws ++ k' ++ tail)) = true := by
    intro k hk k' hk' name h
    rw [commentSilences_iff] at h ⊢
    obtain ⟨kw1, names, hf, h⟩ := h
    obtain ⟨names', hn'⟩ := namesAfter_total u tail
    obtain ⟨-, rfl⟩ := C07_first_directive_unique u hf (firstDirective_of_text u hpre hws hk hn')
    exact ⟨k', names, firstDirective_of_text u hpre hws hk' hn', h⟩
  have hi : ignoreLint u r.name (before ++ (pre ++ '#' :: (ws ++ kw ++ tail)) :: after) =
      ignoreLint u r.name (before ++ (pre ++ '#' :: (ws ++ kw' ++ tail)) :: after) := by
    have : commentSilences u r.name (pre ++ '#' :: (ws ++ kw ++ tail)) =
        commentSilences u r.name (pre ++ '#' :: (ws ++ kw' ++ tail)) := by
      rw [Bool.eq_iff_iff]
      exact ⟨one kw hk kw' hk' _, one kw' hk' kw hk _⟩
    simp only [ignoreLint, List.any_append, List.any_cons, this]
  simp only [report, hi]

/-- C04. Without any directive in its comments, a report with a message is always recorded. -/
theorem C04_no_directive_never_silenced (comments : List PStr) (hc : ∀ c ∈ comments, ¬ HasDirective c)
    (r : RuleState Node Repl) (dflt : CodeRange) (node : Node) (msg) (position) (repl) (message : PStr)
    (hm : resolveMessage msg r.message = some message) :
    ∃ v, report u comments dflt r node msg position repl = some { r with violations := r.violations ++ [v] } ∧
      v.node = node ∧ v.ruleName = r.name ∧ v.message = message ∧ v.replacement = repl := by
  have hi : ignoreLint u r.name comments = false := by
    rw [ignoreLint, List.any_eq_false]
    intro c hcm h
    obtain ⟨kw, names, ⟨pre, rest, tail, h1, h2, -⟩, -⟩ := (commentSilences_iff u _ _).1 h
    exact hc c hcm ⟨pre, rest, kw, tail, h1, h2⟩
  refine ⟨⟨r.name, resolveRange dflt position, message, node, repl⟩, ?_, rfl, rfl, rfl, rfl⟩
  rw [report, if_neg (by simp [hi]), hm]

/-! ## C06: what `report` records -/

/-- The message used: the given one unless missing or empty, else the class message unless missing or empty. -/
theorem C06_message (msg cls : Option PStr) (m : PStr) :
    resolveMessage msg cls = some m ↔
      m ≠ [] ∧ (msg = some m ∨ ((msg = none ∨ msg = some []) ∧ cls = some m)) := by
  cases msg with
  | none => cases cls with
    | none => simp [resolveMessage]
    | some c => cases c with
      | nil => simp [resolveMessage]
      | cons a b => simp [resolveMessage]; rintro rfl; simp
  | some x => cases x with
    | nil => cases cls with
      | none => simp [resolveMessage]
      | some c => cases c with
        | nil => simp [resolveMessage]
        | cons a b =>
          simp [resolveMessage]
          constructor
          · rintro rfl; simp
          · rintro ⟨h, rfl | h⟩
            · exact absurd rfl h
            · exact h
    | cons a b =>
      simp [resolveMessage]
      rintro rfl; simp

/-- C06. A report that is not silenced appends exactly one violation with the given data, or raises (`none`) and leaves the
rule as it was exactly when no message is available. -/
theorem C06_report_effect (r : RuleState Node Repl) (comments : List PStr) (hns : ∀ c ∈ comments, commentSilences u r.name c = false)
    (dflt : CodeRange) (node : Node) (msg) (position : PositionArg) (repl : Option Repl) :
    (report u comments dflt r node msg position repl = none ↔ ¬ ∃ m, resolveMessage msg r.message = some m) ∧
    ∀ r', report u comments dflt r node msg position repl = some r' →
      r'.name = r.name ∧ r'.message = r.message ∧
      ∃ v, r'.violations = r.violations ++ [v] ∧ v.ruleName = r.name ∧ v.node = node ∧ v.replacement = repl ∧
        resolveMessage msg r.message = some v.message ∧
        (position = .none → v.range = dflt) ∧ (∀ rg, position = .range rg → v.range = rg) ∧
        (∀ cp, position = .pos cp → v.range.start = cp) := by
  have hi : ignoreLint u r.name comments = false := by
    rw [ignoreLint, List.any_eq_false]
    intro c hc h; rw [hns c hc] at h; simp at h
  rw [report, if_neg (by simp [hi])]
  cases hm : resolveMessage msg r.message with
  | none => simp
  | some m =>
    simp only [reduceCtorEq, Option.some.injEq, exists_eq', not_true, true_and]
    rintro r' rfl
    refine ⟨rfl, rfl, _, rfl, rfl, rfl, rfl, rfl, ?_, ?_, ?_⟩
    · rintro rfl; rfl
    · rintro rg rfl; rfl
    · rintro cp rfl; rfl

/-- C06, silenced: nothing is recorded and nothing is raised even when there is no message. -/
theorem C06_report_silenced (comments : List PStr) (c : PStr) (hc : c ∈ comments) (r : RuleState Node Repl)
    (hs : commentSilences u r.name c = true) (dflt : CodeRange) (node : Node) (msg) (position) (repl) :
    report u comments dflt r node msg position repl = some r := by
  rw [report, if_pos]
  rw [ignoreLint, List.any_eq_true]; exact ⟨c, hc, hs⟩

/-- The friendly name: the class name without one `Rule` suffix. -/
theorem C06_rule_name (cls : PStr) :
    (∀ b, cls = b ++ py "Rule" → ruleName cls = b) ∧ ((¬ ∃ b, cls = b ++ py "Rule") → ruleName cls = cls) :=
  ⟨fun b h => by rw [h]; exact stripRuleSuffix_append b, fun h => stripRuleSuffix_id h⟩

/-! ## C05: which comments are consulted -/

theorem mem_nodeOwnComments (n : NodeInfo) (c : PStr) : c ∈ nodeOwnComments n ↔ Attached n c := by
  obtain ⟨dec, tr, body, comma, rb, lb, lad, ll⟩ := n
  have hfl : ∀ w : Ws, c ∈ w.firstLineComments ↔ ∃ ls, w = .paren (some c) ls := by
    intro w; cases w with
    | simple => simp [Ws.firstLineComments]
    | paren fl ls => cases fl <;> simp [Ws.firstLineComments, eq_comm]
  have hel : ∀ w : Ws, c ∈ w.emptyLineComments ↔ ∃ fl ls, w = .paren fl ls ∧ some c ∈ ls := by
    intro w; cases w with
    | simple => simp [Ws.emptyLineComments]
    | paren fl ls => simp [Ws.emptyLineComments]; exact ⟨fun h => ⟨_, _, ⟨rfl, rfl⟩, h⟩, by rintro ⟨_, _, ⟨rfl, rfl⟩, h⟩; exact h⟩
  have htr : c ∈ trailingComments ⟨dec, tr, body, comma, rb, lb, lad, ll⟩ ↔
      tr = some (some c) ∨ (tr = none ∧ (body = .simpleSuite (some c) ∨ body = .indented (some c))) := by
    cases tr with
    | some t => cases t <;> simp [trailingComments, eq_comm]
    | none => cases body with
      | other => simp [trailingComments]
      | simpleSuite t => cases t <;> simp [trailingComments, eq_comm]
      | indented t => cases t <;> simp [trailingComments, eq_comm]
  have hopt : ∀ (o : Option Ws) (f : Ws → List PStr), c ∈ slotComments f o ↔ ∃ w, o = some w ∧ c ∈ f w := by
    intro o f; cases o <;> simp [slotComments]
  have hls : ∀ (o : Option (List OptComment)), c ∈ lineComments o ↔ ∃ ls, o = some ls ∧ some c ∈ ls := by
    intro o; cases o <;> simp [lineComments]
  simp only [nodeOwnComments, List.mem_append, htr, hopt, hls, hfl, hel, Attached, or_assoc]
  have e1 : ∀ o : Option Ws, (∃ w, o = some w ∧ ∃ ls, w = .paren (some c) ls) ↔ ∃ ls, o = some (.paren (some c) ls) := by
    intro o; constructor
    · rintro ⟨w, rfl, ls, rfl⟩; exact ⟨ls, rfl⟩
    · rintro ⟨ls, rfl⟩; exact ⟨_, rfl, ls, rfl⟩
  have e2 : ∀ o : Option Ws, (∃ w, o = some w ∧ ∃ fl ls, w = .paren fl ls ∧ some c ∈ ls) ↔
      ∃ fl ls, o = some (.paren fl ls) ∧ some c ∈ ls := by
    intro o; constructor
    · rintro ⟨w, rfl, fl, ls, rfl, h⟩; exact ⟨fl, ls, rfl, h⟩
    · rintro ⟨fl, ls, rfl, h⟩; exact ⟨_, rfl, fl, ls, rfl, h⟩
  simp only [e1, e2]

theorem stopsAt_iff (n : NodeInfo) : stopsAt n = true ↔ OwnsLines n := by
  simp [stopsAt, OwnsLines, Option.isSome_iff_ne_none]

theorem mem_climb (ch : List NodeInfo) (c : PStr) :
    c ∈ (climb ch).1 ↔ ∃ (k : Nat) (n : NodeInfo), ch[k]? = some n ∧ Attached n c ∧
      ∀ j < k, ∀ n', ch[j]? = some n' → ¬ OwnsLines n' := by
  induction ch with
  | nil => simp [climb]
  | cons a rest ih =>
    rw [climb]
    by_cases hs : stopsAt a = true
    · rw [if_pos hs, mem_nodeOwnComments]
      constructor
      · intro h; exact ⟨0, a, rfl, h, by simp⟩
      · rintro ⟨k, n, h1, h2, h3⟩
        cases k with
        | zero => simp at h1; subst h1; exact h2
        | succ k => exact absurd ((stopsAt_iff a).1 hs) (h3 0 (by omega) a rfl)
    · rw [if_neg hs]
      simp only [List.mem_append, mem_nodeOwnComments, ih]
      rw [stopsAt_iff] at hs
      constructor
      · rintro (h | ⟨k, n, h1, h2, h3⟩)
        · exact ⟨0, a, rfl, h, by simp⟩
        · refine ⟨k + 1, n, by simpa using h1, h2, ?_⟩
          intro j hj n' hn'
          cases j with
          | zero => simp at hn'; subst hn'; exact hs
          | succ j => exact h3 j (by omega) n' (by simpa using hn')
      · rintro ⟨k, n, h1, h2, h3⟩
        cases k with
        | zero => simp at h1; subst h1; exact Or.inl h2
        | succ k =>
          refine Or.inr ⟨k, n, by simpa using h1, h2, ?_⟩
          intro j hj n' hn'
          exact h3 (j + 1) (by omega) n' (by simpa using hn')

theorem climb_none (ch : List NodeInfo) : (climb ch).2 = none ↔ ∀ n ∈ ch, ¬ OwnsLines n := by
  induction ch with
  | nil => simp [climb]
  | cons a rest ih =>
    rw [climb]
    by_cases hs : stopsAt a = true
    · simp [hs, (stopsAt_iff a).1 hs]
    · rw [if_neg hs]; rw [stopsAt_iff] at hs
      simp [ih, hs]

theorem climb_zero (ch : List NodeInfo) (h : ¬ ∀ n ∈ ch, ¬ OwnsLines n) :
    (climb ch).2 = some 0 ↔ ∀ (j : Nat) (n : NodeInfo), j + 1 < ch.length → ch[j]? = some n → ¬ OwnsLines n := by
  induction ch with
  | nil => simp at h
  | cons a rest ih =>
    rw [climb]
    by_cases hs : stopsAt a = true
    · rw [if_pos hs]; rw [stopsAt_iff] at hs
      simp only [Option.some.injEq]
      constructor
      · intro hr j n hj; simp [hr] at hj
      · intro hall
        cases rest with
        | nil => rfl
        | cons b bs => exact absurd hs (hall 0 a (by simp) rfl)
    · rw [if_neg hs]; rw [stopsAt_iff] at hs
      simp only [List.mem_cons, forall_eq_or_imp, hs, not_false_iff, true_and] at h
      have hne : rest ≠ [] := by rintro rfl; simp at h
      simp only [ih h]
      constructor
      · intro hall j n hj hn
        cases j with
        | zero => simp at hn; subst hn; exact hs
        | succ j => exact hall j n (by simpa using hj) (by simpa using hn)
      · intro hall j n hj hn
        exact hall (j + 1) n (by simpa using hj) (by simpa using hn)

/-- C05. The comments consulted are exactly the associated ones. -/
theorem C05_consulted_iff_associated (m : ModuleTree) (p : Pos) (c : PStr) :
    c ∈ nodeComments m p ↔ Associated m p c := by
  rw [nodeComments, Associated]
  cases hch : m.chain p with
  | none => simp
  | some ch =>
    simp only [Option.some.injEq, exists_eq_left']
    rw [← mem_climb]
    have hhead : c ∈ m.header.filterMap id ↔ some c ∈ m.header := by simp
    have happ : headerApplies (climb ch).2 p = true ↔ ((∀ n ∈ ch, ¬ OwnsLines n) ∨
        (∃ path, p = .inBody 0 path ∧ ∀ (j : Nat) (n : NodeInfo), j + 1 < ch.length → ch[j]? = some n → ¬ OwnsLines n)) := by
      by_cases hall : ∀ n ∈ ch, ¬ OwnsLines n
      · rw [(climb_none ch).2 hall]
        exact iff_of_true rfl (Or.inl hall)
      · have hne : (climb ch).2 ≠ none := fun h => hall ((climb_none ch).1 h)
        obtain ⟨k, hk⟩ := Option.ne_none_iff_exists'.1 hne
        have hz := climb_zero ch hall
        rw [hk] at hz ⊢
        simp only [hall, false_or]
        constructor
        · intro h
          cases k with
          | succ k => simp [headerApplies] at h
          | zero =>
            cases p with
            | module => simp [headerApplies] at h
            | inOther i q => simp [headerApplies] at h
            | inBody i q =>
              cases i with
              | zero => exact ⟨q, rfl, hz.1 rfl⟩
              | succ i => simp [headerApplies] at h
        · rintro ⟨path, rfl, h⟩
          have := hz.2 h
          simp only [Option.some.injEq] at this
          subst this; rfl
    rw [List.mem_append, ← happ]
    by_cases hb : headerApplies (climb ch).2 p = true
    · simp [hb]
    · simp [hb]

theorem along_replaceAt (t' : Tree) : ∀ (q p : List Nat) (t : Tree), ¬ q <+: p →
    (Spec.replaceAt t' q t).along p = t.along p := by
  intro q
  induction q with
  | nil => intro p t h; exact absurd (List.nil_prefix) h
  | cons i q ih =>
    intro p t h
    obtain ⟨info, cs⟩ := t
    cases p with
    | nil => rfl
    | cons j p =>
      simp only [Spec.replaceAt, Tree.along]
      by_cases hij : i = j
      · subst hij
        have hq : ¬ q <+: p := fun hp => h (by simpa using hp)
        rw [List.getElem?_modify]
        cases cs[i]? with
        | none => rfl
        | some c => simp [ih p c hq]
      · rw [List.getElem?_modify]
        simp only [hij, if_false]
        cases cs[j]? <;> rfl

/-- C05, locality. Replacing any subtree that does not contain the reported node — a sibling, another statement, or anything
below the node itself — never changes the comments consulted, hence never changes the outcome of `report`. -/
theorem C05_other_nodes_irrelevant (m : ModuleTree) (p q : Pos) (t' : Tree) (h : ¬ OnChain q p) :
    nodeComments (ModuleTree.replaceAt m t' q) p = nodeComments m p := by
  have hch : (ModuleTree.replaceAt m t' q).chain p = m.chain p := by
    cases q with
    | module => rfl
    | inBody i q =>
      cases p with
      | module => rfl
      | inOther j p => rfl
      | inBody j p =>
        simp only [ModuleTree.replaceAt, ModuleTree.chain, List.getElem?_modify]
        by_cases hij : i = j
        · subst hij
          have hq : ¬ q <+: p := fun hp => h ⟨rfl, hp⟩
          cases m.body[i]? with
          | none => rfl
          | some c => simp [along_replaceAt t' q p c hq]
        · simp only [hij, if_false]; cases m.body[j]? <;> rfl
    | inOther i q =>
      cases p with
      | module => rfl
      | inBody j p => rfl
      | inOther j p =>
        simp only [ModuleTree.replaceAt, ModuleTree.chain, List.getElem?_modify]
        by_cases hij : i = j
        · subst hij
          have hq : ¬ q <+: p := fun hp => h ⟨rfl, hp⟩
          cases m.others[i]? with
          | none => rfl
          | some c => simp [along_replaceAt t' q p c hq]
        · simp only [hij, if_false]; cases m.others[j]? <;> rfl
  have hh : (ModuleTree.replaceAt m t' q).header = m.header := by cases q <;> rfl
  simp only [nodeComments, hch, hh]

/-! ## C71–C74: corner cases of directives and positions -/

/-- **C71** (finding) Any word that merely begins with a directive word is a bare directive and silences every rule. -/
theorem C71_longer_word_is_bare_directive (pre ws kw : PStr) (c : Char) (tail : PStr) (hpre : ¬ HasDirective pre)
    (hws : Blank ws) (hk : kw ∈ keywords) (hc : u.word c = true) (name : PStr) :
    commentSilences u name (pre ++ '#' :: (ws ++ kw ++ c :: tail)) = true := by
  rw [commentSilences_iff]
  refine ⟨kw, none, firstDirective_of_text u hpre hws hk ?_, Or.inl rfl⟩
  rintro ⟨sep, d, r, he, hs, -⟩
  cases sep with
  | nil => rcases hs with ⟨_, h, _⟩ | ⟨h, _⟩ <;> simp at h
  | cons x xs =>
    simp only [List.cons_append, List.cons.injEq] at he
    obtain ⟨rfl, -⟩ := he
    rcases hs with ⟨_, h, _⟩ | ⟨_, h⟩
    · simp only [List.cons.injEq] at h
      rw [h.1, u.word_colon] at hc; simp at hc
    · have := u.word_not_space c hc
      rw [h c (by simp)] at this; simp at this

/-- **C71** Something beginning with a directive word is necessary for silencing. -/
theorem C71_directive_word_required (name comment : PStr) (h : commentSilences u name comment = true) :
    ∃ pre ws kw tail, comment = pre ++ '#' :: (ws ++ kw ++ tail) ∧ Blank ws ∧ kw ∈ keywords := by
  obtain ⟨kw, _, ⟨pre, _, tail, h1, ⟨ws, h2, h3, h4⟩, -⟩, -⟩ := (commentSilences_iff u _ _).1 h
  exact ⟨pre, ws, kw, tail, by rw [h1, h2], h3, h4⟩

/-- **C72** (finding) A violation reported at a `CodePosition` extends to the start of the next line, never to one character. -/
theorem C72_position_extends_to_next_line (r r' : RuleState Node Repl) (comments : List PStr)
    (hns : ∀ c ∈ comments, commentSilences u r.name c = false) (dflt : CodeRange) (node : Node) (msg) (cp : CodePosition)
    (repl : Option Repl) (h : report u comments dflt r node msg (.pos cp) repl = some r') :
    ∃ v, r'.violations = r.violations ++ [v] ∧ v.range = ⟨cp, ⟨cp.line + 1, 0⟩⟩ ∧
      v.range.stop ≠ ⟨cp.line, cp.column + 1⟩ := by
  have hi : ignoreLint u r.name comments = false := by
    rw [ignoreLint, List.any_eq_false]
    intro c hc h; rw [hns c hc] at h; simp at h
  rw [report, if_neg (by simp [hi])] at h
  cases hm : resolveMessage msg r.message with
  | none => rw [hm] at h; simp at h
  | some m =>
    rw [hm] at h
    simp only [Option.some.injEq] at h
    subst h
    refine ⟨_, rfl, rfl, ?_⟩
    simp [resolveRange]

/-- **C73** Whatever follows it in the comment, the first directive decides alone whether the comment silences a rule. -/
theorem C73_first_decides (comment kw : PStr) (names : Option (List PStr)) (hf : FirstDirective u comment kw names) (name : PStr) :
    commentSilences u name comment = true ↔ (names = none ∨ ∃ ns n, names = some ns ∧ n ∈ ns ∧ Names u n name) := by
  rw [commentSilences_iff]
  constructor
  · rintro ⟨kw', names', hf', h⟩
    rw [(C07_first_directive_unique u hf hf').2]; exact h
  · exact fun h => ⟨kw, names, hf, h⟩

/-- **C73** (finding) A second directive in the same comment is never looked at. -/
theorem C73_second_directive_ignored :
    commentSilences .ascii (py "B") (py "# lint-ignore: A # lint-ignore: B") = false ∧
    commentSilences .ascii (py "B") (py "# lint-ignore: B") = true := by decide

/-- **C73** The first directive of each comment is honoured, so directives in separate comments all are. -/
theorem C73_first_directives_honoured (comments : List PStr) (comment kw : PStr) (ns : List PStr) (n : PStr)
    (hc : comment ∈ comments) (hf : FirstDirective u comment kw (some ns)) (hn : n ∈ ns)
    (r : RuleState Node Repl) (hnm : Names u n r.name) (dflt : CodeRange) (node : Node) (msg) (position) (repl) :
    report u comments dflt r node msg position repl = some r :=
  (C02_silenced_iff u comments r dflt node msg position repl).2
    ⟨comment, hc, kw, some ns, hf, Or.inr ⟨ns, n, rfl, hn, hnm⟩⟩

/-- **C74** (finding) The name printed with a violation does not always silence it (class `FooRuleRule`, printed `FooRule`). -/
theorem C74_printed_name_may_not_silence :
    ruleName (py "FooRuleRule") = py "FooRule" ∧
    commentSilences .ascii (ruleName (py "FooRuleRule")) (py "# lint-ignore: FooRule") = false := by decide

/-- **C74** The class name always silences the rule, and so does the printed name unless it ends in `Rule`. -/
theorem C74_class_or_printed_name_silences (cls ws kw sep : PStr) (hcls : IsName u cls) (hws : Blank ws)
    (hk : kw ∈ keywords) (hsep : Separator sep) :
    commentSilences u (ruleName cls) ('#' :: (ws ++ kw ++ (sep ++ cls))) = true ∧
    ((¬ ∃ b, ruleName cls = b ++ py "Rule") → ruleName cls ≠ [] →
      commentSilences u (ruleName cls) ('#' :: (ws ++ kw ++ (sep ++ ruleName cls))) = true) := by
  have hnil : ¬ HasDirective [] := by
    rintro ⟨pre, rest, kw, tail, h, ws, h2, -⟩
    have : rest = [] := by
      have := congrArg List.length h; simp at this
      exact List.eq_nil_of_length_eq_zero (by omega)
    rw [this] at h2; simp at h2
  have hend : EndsList u [] := ⟨by simp, by simp⟩
  have go : ∀ n, IsName u n → Names u n (ruleName cls) →
      commentSilences u (ruleName cls) ('#' :: (ws ++ kw ++ (sep ++ n))) = true := by
    intro n hn hnm
    rw [commentSilences_iff]
    have hf := firstDirective_of_text u (pre := []) (tail := sep ++ n ++ []) hnil hws hk
      (names := some [n]) ⟨sep, n, [], rfl, hsep, NameList.one n hn, hend⟩
    simp only [List.append_nil, List.nil_append] at hf
    exact ⟨kw, _, hf, Or.inr ⟨[n], n, rfl, by simp, hnm⟩⟩
  refine ⟨go cls hcls ((names_iff u _ _).2 (Or.inl rfl)), fun hb hne => go _ ⟨hne, ?_⟩ ?_⟩
  · intro c hc
    refine hcls.2 c ?_
    rw [ruleName, stripRuleSuffix] at hc
    split at hc
    · exact List.mem_of_mem_take hc
    · exact hc
  · exact (names_iff u _ _).2 (Or.inl (stripRuleSuffix_id hb))

/-- **C74** (finding) A printed name that still ends in `Rule` never silences its rule when written alone (lower-casing does not shorten names). -/
theorem C74_printed_name_ending_in_rule (cls ws kw sep : PStr) (hcls : IsName u cls) (hws : Blank ws) (hk : kw ∈ keywords) (hsep : Separator sep)
    (hlow : (u.lower (ruleName cls)).length = (ruleName cls).length) (hb : ∃ b, ruleName cls = b ++ py "Rule") :
    commentSilences u (ruleName cls) ('#' :: (ws ++ kw ++ (sep ++ ruleName cls))) = false := by
  obtain ⟨b, hb⟩ := hb
  have hnil : ¬ HasDirective [] := by
    rintro ⟨pre, rest, kw, tail, h, ws, h2, -⟩
    have : rest = [] := by
      have := congrArg List.length h; simp at this
      exact List.eq_nil_of_length_eq_zero (by omega)
    rw [this] at h2; simp at h2
  have hname : IsName u (ruleName cls) := by
    refine ⟨by rw [hb]; simp, fun c hc => hcls.2 c ?_⟩
    rw [ruleName, stripRuleSuffix] at hc
    split at hc
    · exact List.mem_of_mem_take hc
    · exact hc
  have hf := firstDirective_of_text u (pre := []) (tail := sep ++ ruleName cls ++ []) hnil hws hk
    (names := some [ruleName cls]) ⟨sep, ruleName cls, [], rfl, hsep, NameList.one _ hname, ⟨by simp, by simp⟩⟩
  simp only [List.append_nil, List.nil_append] at hf
  rw [Bool.eq_false_iff]
  intro h
  rcases (C73_first_decides u _ _ _ hf _).mp h with h | ⟨ns, n, h, hn, hnm⟩
  · cases h
  · cases h
    rw [List.mem_singleton] at hn
    subst hn
    have hstrip : stripRuleSuffix (ruleName cls) = b := by rw [hb, stripRuleSuffix_append]
    rcases (names_iff u _ _).1 hnm with h | h
    · rw [hstrip] at h
      have := congrArg List.length (h.trans hb)
      simp at this
    · rw [hstrip] at h
      have := congrArg List.length h
      rw [hlow, hb] at this
      simp at this

end

/-! ## The hypotheses above are met by concrete cases -/

theorem hasDirective_hash {s : PStr} (h : HasDirective s) : '#' ∈ s := by
  obtain ⟨pre, rest, kw, tail, rfl, ws, rfl, -⟩ := h
  simp

/-- A statement with a trailing comment. -/
def exStmt (c : OptComment) : Tree := .node ⟨false, some c, .other, none, none, none, none, some []⟩ [.node ⟨false, none, .other, none, none, none, none, none⟩ []]
/-- `x  # lint-ignore` after a first statement. -/
def exModule : ModuleTree := ⟨[some (py "# header")], [exStmt none, exStmt (some (py "# note # lint-ignore"))], []⟩

-- C01: a nested node of the second statement
example : (py "# note " ++ '#' :: ([' '] ++ py "lint-ignore" ++ [])) ∈ nodeComments exModule (.inBody 1 [0]) ∧
    ¬ HasDirective (py "note ") ∧ Blank [' '] ∧ py "lint-ignore" ∈ keywords :=
  ⟨by decide, fun h => absurd (hasDirective_hash h) (by decide), by decide, by decide⟩
example : report (Node := Unit) (Repl := Unit) .ascii (nodeComments exModule (.inBody 1 [0])) ⟨⟨1, 0⟩, ⟨1, 1⟩⟩
    ⟨py "Foo", some (py "msg"), []⟩ () none .none none = some ⟨py "Foo", some (py "msg"), []⟩ :=
  C01_bare_directive_silences .ascii exModule (.inBody 1 [0]) (py "# note ") [' '] (py "lint-ignore") []
    (by decide) (by
      rintro ⟨pre, rest, kw, tail, h, ws, h2, hb, hk⟩
      have hh : (py "# note ") = pre ++ '#' :: (ws ++ kw ++ tail) := by rw [h, h2]
      cases pre with
      | nil =>
        simp at hh
        cases ws with
        | nil => simp [keywords] at hk; rcases hk with rfl | rfl <;> simp at hh
        | cons a as =>
          simp at hh
          obtain ⟨-, hh⟩ := hh
          cases as with
          | nil => simp [keywords] at hk; rcases hk with rfl | rfl <;> simp at hh
          | cons b bs =>
            simp at hh
            have := hb b (by simp)
            rw [← hh.1] at this
            exact absurd this (by decide)
      | cons a as =>
        simp at hh
        have hm : '#' ∈ (py " note ") := by rw [hh.2]; simp
        exact absurd hm (by decide)) (by decide) (by decide) (by
      rintro ⟨sep, c, r, h, -⟩
      cases sep <;> simp at h) _ _ _ _ _ _
-- C02: `# lint-fixme: Foo, BarRule` silences Foo and Bar and nothing else
example : Separator [':', ' '] ∧ NameList .ascii (py "Foo, BarRule") [py "Foo", py "BarRule"] ∧ EndsList .ascii (py " - why") := by
  refine ⟨Or.inl ⟨[' '], rfl, by decide⟩, ?_, ?_, ?_⟩
  · exact NameList.more (py "Foo") [' '] (py "BarRule") _ (by unfold IsName; decide) (by decide) (NameList.one _ (by unfold IsName; decide))
  · intro c r h; cases h; decide
  · intro ws c r h; simp at h
example : commentSilences .ascii (py "Bar") (py "# lint-fixme: Foo, BarRule - why") = true ∧
    commentSilences .ascii (py "BarRule") (py "# lint-fixme: Foo, BarRule - why") = false ∧
    commentSilences .ascii (py "Fo") (py "# lint-fixme: Foo, BarRule - why") = false := by decide
-- C04: an ordinary comment
example : ¬ HasDirective (py "# noqa: lint-ignore") := by
  rw [← C07_no_match_iff .ascii]
  rfl
-- C05: the header belongs to the first statement only
example : py "# header" ∈ nodeComments exModule (.inBody 0 [0]) ∧ py "# header" ∉ nodeComments exModule (.inBody 1 [0]) := by decide
example : ¬ OnChain (.inBody 0 []) (.inBody 1 [0]) := by simp [OnChain]
-- C06: hypotheses met by a rule without directives
example : ∀ c ∈ [py "# hello"], commentSilences .ascii (py "Foo") c = false := by decide

end Fixit
