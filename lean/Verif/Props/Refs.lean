import Verif.Proof.Refs
import Verif.Proof.Sets
import Verif.Spec.Tags

/-!
# C08–C10, C12–C14, C58: rule references, tag filters, the `--rules` option
-/

namespace Fixit
open Py Spec

/-! ## C08: grammar -/

/-- The rule object a well-formed reference stands for when read in directory `root`. -/
def refValue (r : RuleRef) (root : Path) : QualifiedRule where
  module := r.module
  name := r.name
  loc := if r.isLocal then some ['.'] else none
  root := if r.isLocal then some root else none

/-- What parsing a well-formed reference gives. -/
theorem parseRule_render (r : RuleRef) (hr : r.WF) (nl : PStr) (hnl : nl = [] ∨ nl = ['\n']) (root : Path) :
    parseRule (r.render ++ nl) root = .ok (refValue r root) := by
  obtain ⟨t, h, h1, h2, h4⟩ := match_render r hr nl hnl
  unfold parseRule
  rw [h]
  simp only [h1, h2, h4]
  unfold refValue
  cases r.isLocal <;> simp

/-- `parse_rule` accepts exactly the references of the grammar, each with or without one final newline. -/
theorem C08_accepts_iff_grammar (s : PStr) (root : Path) :
    (∃ q, parseRule s root = .ok q) ↔
      ∃ r : RuleRef, r.WF ∧ (s = r.render ∨ s = r.render ++ ['\n']) := by
  constructor
  · rintro ⟨q, h⟩
    unfold parseRule at h
    cases hm : qualifiedRuleRegex.match_ s with
    | none => rw [hm] at h; simp at h
    | some t =>
      obtain ⟨r, nl, hr, hnl, hs⟩ := match_sound s t hm
      refine ⟨r, hr, ?_⟩
      rcases hnl with rfl | rfl
      · left; simpa using hs
      · right; exact hs
  · rintro ⟨r, hr, h | h⟩
    · exact ⟨_, by rw [h]; have := parseRule_render r hr [] (Or.inl rfl) root; simpa using this⟩
    · exact ⟨_, by rw [h]; exact parseRule_render r hr ['\n'] (Or.inr rfl) root⟩

/-- Anything else raises ConfigError, never another exception. -/
theorem C08_rejects_with_config_error (s : PStr) (root : Path)
    (h : ¬ ∃ r : RuleRef, r.WF ∧ (s = r.render ∨ s = r.render ++ ['\n'])) :
    ∃ msg, parseRule s root = .error (.config msg) := by
  have h' : ¬ ∃ q, parseRule s root = .ok q := fun hq => h ((C08_accepts_iff_grammar s root).1 hq)
  unfold parseRule at h' ⊢
  cases hm : qualifiedRuleRegex.match_ s with
  | none => exact ⟨_, rfl⟩
  | some m =>
    rw [hm] at h'
    exfalso; apply h'
    simp only
    cases m.caps 2 with
    | none => exact ⟨_, rfl⟩
    | some l => cases l <;> exact ⟨_, rfl⟩

/-- No character of a well-formed reference is a newline. -/
theorem render_no_newline (r : RuleRef) (hr : r.WF) : '\n' ∉ r.render := by
  obtain ⟨-, hhead, hsegs, hname⟩ := hr
  have hi : ∀ c, IdentChar c → c ≠ '\n' := by
    intro c hc e; subst e; exact absurd hc (by unfold IdentChar; decide)
  have hs : ∀ c, SegChar c → c ≠ '\n' := by
    rintro c (h | h)
    · exact hi c h
    · rw [h]; decide
  intro hm
  simp only [RuleRef.render, RuleRef.module, List.mem_append, List.mem_flatten, List.mem_map] at hm
  rcases hm with ((h | h) | ⟨l, ⟨sg, hsg, rfl⟩, h⟩) | h
  · cases hl : r.isLocal <;> rw [hl] at h <;> simp at h
  · exact hi _ (hhead _ h) rfl
  · rw [List.mem_cons] at h
    rcases h with h | h
    · exact absurd h (by decide)
    · exact hs _ ((hsegs sg hsg).2 _ h) rfl
  · cases hn : r.name with
    | none => rw [hn] at h; simp [nameSuffix] at h
    | some n =>
      rw [hn] at h
      simp only [nameSuffix, List.mem_cons] at h
      rcases h with h | h
      · exact absurd h (by decide)
      · exact hs _ ((hname n hn).2 _ h) rfl

/-- For strings without a newline, acceptance is exactly the grammar. -/
theorem C08_accepts_iff_grammar_no_newline (s : PStr) (hs : '\n' ∉ s) (root : Path) :
    (∃ q, parseRule s root = .ok q) ↔ ∃ r : RuleRef, r.WF ∧ s = r.render := by
  rw [C08_accepts_iff_grammar]
  constructor
  · rintro ⟨r, hr, h | h⟩
    · exact ⟨r, hr, h⟩
    · rw [h] at hs; simp at hs
  · rintro ⟨r, hr, h⟩; exact ⟨r, hr, Or.inl h⟩

/-- A reference of the grammar used in the examples: `.my-rules.sub:Name`. -/
def exampleRef : RuleRef := { isLocal := true, head := py "my_rules", segs := [py "sub-x"], name := some (py "Name") }

theorem exampleRef_wf : exampleRef.WF := by
  refine ⟨by decide, ?_, ?_, ?_⟩
  · unfold IdentChar; decide
  · unfold SegChar IdentChar; decide
  · intro n hn
    cases hn
    unfold SegChar IdentChar; decide

example : ∃ r : RuleRef, r.WF ∧ r.render = py ".my_rules.sub-x:Name" := ⟨exampleRef, exampleRef_wf, by decide⟩
/-- Accepted and rejected strings exist. -/
example : (∃ q, parseRule (py "fixit.rules:Foo") [] = .ok q) ∧ (∃ m, parseRule (py "fixit..rules") [] = .error (.config m)) :=
  ⟨⟨{ module := py "fixit.rules", name := some (py "Foo") }, by decide⟩, ⟨[.text (py "invalid rule name "), .str (py "fixit..rules")], by decide⟩⟩

/-- The end-of-string boundary: a reference followed by a newline is accepted. -/
theorem C08_trailing_newline_accepted :
    parseRule (py "fixit.rules\n") [] = .ok { module := py "fixit.rules" } := by decide

/-! ## C09: round trip -/

theorem str_of_parse (r : RuleRef) (hr : r.WF) (l : Option PStr) (root : Option Path) :
    ({ module := r.module, name := r.name, loc := l, root := root } : QualifiedRule).str = r.render := by
  unfold QualifiedRule.str RuleRef.render
  congr 1
  cases hn : r.name with
  | none => rfl
  | some n =>
    have := (hr.name_ok n hn).1
    cases n with
    | nil => exact absurd rfl this
    | cons c cs => rfl

/-- Without a newline in the input, `str(parse_rule(s)) == s`. -/
theorem C09_round_trip (s : PStr) (root : Path) (q : QualifiedRule) (hs : '\n' ∉ s) (h : parseRule s root = .ok q) :
    q.str = s := by
  obtain ⟨r, hr, rfl⟩ := (C08_accepts_iff_grammar_no_newline s hs root).1 ⟨q, h⟩
  have := parseRule_render r hr [] (Or.inl rfl) root
  rw [List.append_nil, h] at this
  cases this
  exact str_of_parse r hr _ _

/-- In general `str` gives back the input, minus at most one final newline. -/
theorem C09_round_trip_newline (s : PStr) (root : Path) (q : QualifiedRule) (h : parseRule s root = .ok q) :
    s = q.str ∨ s = q.str ++ ['\n'] := by
  obtain ⟨r, hr, hh⟩ := (C08_accepts_iff_grammar s root).1 ⟨q, h⟩
  rcases hh with rfl | rfl
  · left; exact (C09_round_trip _ root q (render_no_newline r hr) h).symm
  · right
    rw [parseRule_render r hr _ (Or.inr rfl) root] at h
    cases h
    rw [refValue, str_of_parse r hr]

/-- Parsing the string form again gives the same rule, whatever the roots. -/
theorem parse_str_key (s : PStr) (root root' : Path) (q : QualifiedRule) (h : parseRule s root = .ok q) :
    ∃ q', parseRule q.str root' = .ok q' ∧ q'.key = q.key := by
  obtain ⟨r, hr, hh⟩ := (C08_accepts_iff_grammar s root).1 ⟨q, h⟩
  have hq : q = refValue r root := by
    rcases hh with rfl | rfl
    · have := parseRule_render r hr [] (Or.inl rfl) root
      rw [List.append_nil, h] at this; cases this; rfl
    · rw [parseRule_render r hr _ (Or.inr rfl) root] at h; cases h; rfl
  have hstr : q.str = r.render := by rw [hq]; exact str_of_parse r hr _ _
  rw [hstr]
  have := parseRule_render r hr [] (Or.inl rfl) root'
  rw [List.append_nil] at this
  refine ⟨_, this, ?_⟩
  rw [hq]; rfl

/-- Two parsed rules with the same string are equal as rules (`==`, `hash`), whatever their roots. -/
theorem C09_equal_string_equal_rule (s₁ s₂ : PStr) (r₁ r₂ : Path) (q₁ q₂ : QualifiedRule)
    (h₁ : parseRule s₁ r₁ = .ok q₁) (h₂ : parseRule s₂ r₂ = .ok q₂) : q₁.str = q₂.str ↔ q₁.key = q₂.key := by
  constructor
  · intro h
    obtain ⟨a, ha, ha'⟩ := parse_str_key s₁ r₁ [] q₁ h₁
    obtain ⟨b, hb, hb'⟩ := parse_str_key s₂ r₂ [] q₂ h₂
    rw [h, hb] at ha
    cases ha
    exact ha'.symm.trans hb'
  · intro h
    simp only [QualifiedRule.key, Prod.mk.injEq] at h
    simp [QualifiedRule.str, h.1, h.2.1]

example : ∃ q, parseRule (py ".rules.a:B") [py "x"] = .ok q ∧ q.str = py ".rules.a:B" ∧ q.root = some [py "x"] :=
  ⟨{ module := py ".rules.a", name := some (py "B"), loc := some (py "."), root := some [py "x"] }, by decide⟩

/-! ## C10: local references -/

theorem C10_root_iff_dot (s : PStr) (root : Path) (q : QualifiedRule) (h : parseRule s root = .ok q) :
    (q.root = some root ↔ s.head? = some '.') ∧ (q.root = none ↔ s.head? ≠ some '.') := by
  obtain ⟨r, hr, hh⟩ := (C08_accepts_iff_grammar s root).1 ⟨q, h⟩
  have hq : q = refValue r root := by
    rcases hh with rfl | rfl
    · have := parseRule_render r hr [] (Or.inl rfl) root
      rw [List.append_nil, h] at this; cases this; rfl
    · rw [parseRule_render r hr _ (Or.inr rfl) root] at h; cases h; rfl
  have hhead : s.head? = some '.' ↔ r.isLocal = true := by
    have hd : s.head? = r.render.head? := by
      have hne : r.render ≠ [] := by
        intro e
        have := hr.head_ne
        simp only [RuleRef.render, RuleRef.module, List.append_eq_nil_iff] at e
        exact this e.1.1.2
      rcases hh with rfl | rfl
      · rfl
      · cases hrr : r.render with
        | nil => exact absurd hrr hne
        | cons c cs => rfl
    rw [hd]
    cases hl : r.isLocal with
    | true => simp [RuleRef.render, RuleRef.module, hl]
    | false =>
      cases hhd : r.head with
      | nil => exact absurd hhd hr.head_ne
      | cons c cs =>
        have hc : IdentChar c := hr.head_ok c (by rw [hhd]; simp)
        have : c ≠ '.' := by intro e; subst e; exact absurd hc (by unfold IdentChar; decide)
        simp [RuleRef.render, RuleRef.module, hl, hhd, this]
  rw [hq, refValue]
  cases hl : r.isLocal <;> simp [hhead, hl]

/-- References without a leading dot parse the same from every directory. -/
theorem C10_absolute_ignores_root (s : PStr) (root root' : Path) (h : s.head? ≠ some '.') :
    parseRule s root = parseRule s root' := by
  cases hm : parseRule s root with
  | ok q =>
    have hn := ((C10_root_iff_dot s root q hm).2).2 h
    unfold parseRule at hm ⊢
    cases hmm : qualifiedRuleRegex.match_ s with
    | none => rw [hmm] at hm; simp at hm
    | some m =>
      rw [hmm] at hm
      simp only at hm ⊢
      cases hc : m.caps 2 with
      | none => rw [hc] at hm; simp only at hm ⊢; exact hm.symm
      | some l =>
        cases l with
        | nil => rw [hc] at hm; simp only at hm ⊢; exact hm.symm
        | cons c cs =>
          rw [hc] at hm; simp only at hm
          cases hm; simp at hn
  | error e =>
    unfold parseRule at hm ⊢
    cases hmm : qualifiedRuleRegex.match_ s with
    | none => rw [hmm] at hm; exact hm.symm
    | some m =>
      rw [hmm] at hm
      simp only at hm
      cases hc : m.caps 2 with
      | none => rw [hc] at hm; simp at hm
      | some l => cases l <;> (rw [hc] at hm; simp at hm)

example : ∃ q q', parseRule (py ".a") [py "x"] = .ok q ∧ parseRule (py ".a") [py "y"] = .ok q' ∧ q ≠ q' :=
  ⟨{ module := py ".a", loc := some (py "."), root := some [py "x"] },
   { module := py ".a", loc := some (py "."), root := some [py "y"] }, by decide⟩

/-! ## C12: selection by tags -/

theorem C12_contains_iff (t : Tags) (tags : List PStr) :
    t.contains tags = true ↔ Selected t.incl t.excl tags := by
  unfold Tags.contains Selected
  by_cases hx : tags.any (fun x => t.excl.contains x) = true
  · rw [if_pos hx]
    simp only [List.any_eq_true, List.contains_iff_mem] at hx
    obtain ⟨x, hx, hxe⟩ := hx
    constructor
    · simp
    · intro h; exact absurd hxe (h.1 x hx)
  · rw [if_neg hx]
    have hx' : ∀ x ∈ tags, x ∉ t.excl := by
      intro x hxm hxe
      exact hx (by simp only [List.any_eq_true, List.contains_iff_mem]; exact ⟨x, hxm, hxe⟩)
    by_cases hy : (t.incl.isEmpty || tags.any (fun x => t.incl.contains x)) = true
    · rw [if_pos hy]
      simp only [Bool.or_eq_true, List.isEmpty_iff, List.any_eq_true, List.contains_iff_mem] at hy
      exact ⟨fun _ => ⟨hx', hy⟩, fun _ => rfl⟩
    · rw [if_neg hy]
      simp only [Bool.or_eq_true, List.isEmpty_iff, List.any_eq_true, List.contains_iff_mem] at hy
      constructor
      · simp
      · intro h; exact absurd h.2 hy

theorem C12_single (t : Tags) (tag : PStr) :
    t.containsStr tag = true ↔ tag ∉ t.excl ∧ (t.incl = [] ∨ tag ∈ t.incl) := by
  rw [Tags.containsStr, C12_contains_iff]; simp [Selected]

/-- A filter that is falsy (and only such a filter) lets through whatever tags something has. -/
theorem C12_falsy_iff_selects_all (t : Tags) : t.truthy = false ↔ ∀ tags, Selected t.incl t.excl tags := by
  constructor
  · intro h
    simp only [Tags.truthy, Bool.or_eq_false_iff, Bool.not_eq_false', List.isEmpty_iff] at h
    intro tags; rw [h.1, h.2]; simp [Selected]
  · intro h
    have h0 := (h []).2
    simp at h0
    have h1 : t.excl = [] := by
      cases hx : t.excl with
      | nil => rfl
      | cons a as => exact absurd (by rw [hx]; simp) ((h [a]).1 a (by simp))
    simp [Tags.truthy, h0, h1]

example : Selected [py "hello"] [py "world"] [py "hello", py "x"] ∧ ¬ Selected [py "hello"] [py "world"] [py "hello", py "world"] := by
  unfold Selected; decide

/-! ## C13, C14: parsing a filter -/

theorem isNegation_iff (c : Char) : isNegation c = true ↔ c ∈ negationMarks := by
  simp [isNegation, negationMarks, or_assoc]

theorem tagLoop_spec : ∀ (ts incl excl : List PStr), (∀ t ∈ ts, t ≠ []) → incl.Nodup → excl.Nodup →
    ∃ i e, tagLoop incl excl ts = .ok (i, e) ∧ i.Nodup ∧ e.Nodup ∧
      (∀ x, x ∈ i ↔ x ∈ incl ∨ Included ts x) ∧ (∀ x, x ∈ e ↔ x ∈ excl ∨ Excluded ts x) := by
  intro ts
  induction ts with
  | nil =>
    intro incl excl _ hi he
    exact ⟨incl, excl, rfl, hi, he, by simp [Included], by simp [Excluded]⟩
  | cons t ts ih =>
    intro incl excl hne hi he
    cases t with
    | nil => exact absurd rfl (hne [] (by simp))
    | cons c cs =>
      have hne' : ∀ t ∈ ts, t ≠ [] := fun t ht => hne t (List.mem_cons_of_mem _ ht)
      rw [tagLoop]
      by_cases hc : isNegation c = true
      · rw [if_pos hc]
        obtain ⟨i, e, h, hin, hen, hi', he'⟩ := ih incl (setAdd id cs excl) hne' hi (setAdd_id_nodup cs he)
        have hcm := (isNegation_iff c).1 hc
        refine ⟨i, e, h, hin, hen, ?_, ?_⟩
        · intro x
          rw [hi']
          constructor
          · rintro (h | ⟨h1, h2⟩)
            · exact Or.inl h
            · exact Or.inr ⟨List.mem_cons_of_mem _ h1, h2⟩
          · rintro (h | ⟨h1, h2⟩)
            · exact Or.inl h
            · rw [List.mem_cons] at h1
              rcases h1 with rfl | h1
              · exact absurd rfl (h2 c hcm)
              · exact Or.inr ⟨h1, h2⟩
        · intro x
          rw [he', setAdd_id_mem]
          constructor
          · rintro ((rfl | h) | ⟨d, hd, hm⟩)
            · exact Or.inr ⟨c, hcm, by simp⟩
            · exact Or.inl h
            · exact Or.inr ⟨d, hd, List.mem_cons_of_mem _ hm⟩
          · rintro (h | ⟨d, hd, hm⟩)
            · exact Or.inl (Or.inr h)
            · rw [List.mem_cons] at hm
              rcases hm with hm | hm
              · cases hm; exact Or.inl (Or.inl rfl)
              · exact Or.inr ⟨d, hd, hm⟩
      · rw [if_neg hc]
        obtain ⟨i, e, h, hin, hen, hi', he'⟩ := ih (setAdd id (c :: cs) incl) excl hne' (setAdd_id_nodup (c :: cs) hi) he
        have hcm : c ∉ negationMarks := fun hm => hc ((isNegation_iff c).2 hm)
        refine ⟨i, e, h, hin, hen, ?_, ?_⟩
        · intro x
          rw [hi', setAdd_id_mem]
          constructor
          · rintro ((rfl | h) | ⟨h1, h2⟩)
            · exact Or.inr ⟨by simp, fun d hd e => hcm (by simp at e; subst e; exact hd)⟩
            · exact Or.inl h
            · exact Or.inr ⟨List.mem_cons_of_mem _ h1, h2⟩
          · rintro (h | ⟨h1, h2⟩)
            · exact Or.inl (Or.inr h)
            · rw [List.mem_cons] at h1
              rcases h1 with rfl | h1
              · exact Or.inl (Or.inl rfl)
              · exact Or.inr ⟨h1, h2⟩
        · intro x
          rw [he']
          constructor
          · rintro (h | ⟨d, hd, hm⟩)
            · exact Or.inl h
            · exact Or.inr ⟨d, hd, List.mem_cons_of_mem _ hm⟩
          · rintro (h | ⟨d, hd, hm⟩)
            · exact Or.inl h
            · rw [List.mem_cons] at hm
              rcases hm with hm | hm
              · cases hm; exact absurd hd hcm
              · exact Or.inr ⟨d, hd, hm⟩

theorem tagLoop_error : ∀ (ts incl excl : List PStr), [] ∈ ts → tagLoop incl excl ts = .error .index := by
  intro ts
  induction ts with
  | nil => intro _ _ h; simp at h
  | cons t ts ih =>
    intro incl excl h
    cases t with
    | nil => rfl
    | cons c cs =>
      have h' : [] ∈ ts := by simpa using h
      rw [tagLoop]
      split
      · exact ih _ _ h'
      · exact ih _ _ h'

/-- Strictly increasing in Python's string order: sorted and free of duplicates. -/
def StrictlySorted (l : List PStr) : Prop := l.Pairwise (fun a b => strLt a b = true)

theorem sortStrs_strict {l : List PStr} (h : l.Nodup) : StrictlySorted (sortStrs l) := by
  have hs : SortedByKey id (sortStrs l) := sortBy_sorted id l
  have hn : (sortStrs l).Nodup := ((sortBy_perm strLt l).nodup_iff).2 h
  unfold StrictlySorted
  have := List.Pairwise.and hs hn
  refine this.imp ?_
  intro a b hab
  rcases strLt_total a b with h | h | h
  · exact h
  · exact absurd h hab.2
  · rw [show strLt b a = false from hab.1] at h; simp at h

theorem strict_ext {l₁ l₂ : List PStr} (h₁ : StrictlySorted l₁) (h₂ : StrictlySorted l₂) (h : ∀ x, x ∈ l₁ ↔ x ∈ l₂) : l₁ = l₂ := by
  have n1 : l₁.Nodup := h₁.imp (fun {a b} hab => by rintro rfl; rw [strLt_irrefl] at hab; simp at hab)
  have n2 : l₂.Nodup := h₂.imp (fun {a b} hab => by rintro rfl; rw [strLt_irrefl] at hab; simp at hab)
  exact eq_of_perm_sorted id (fun a _ b _ hab => hab) (perm_of_nodup_mem n1 n2 h)
    (h₁.imp (fun hab => strLt_asymm hab)) (h₂.imp (fun hab => strLt_asymm hab))

/-- Splitting what was joined. -/
theorem splitOn_join (c : Char) : ∀ (items : List PStr), items ≠ [] → (∀ i ∈ items, c ∉ i) → splitOn c (join [c] items) = items := by
  have hone : ∀ (x : PStr), c ∉ x → splitOn c x = [x] := by
    intro x; induction x with
    | nil => intro _; rfl
    | cons a as ih =>
      intro h
      have ha : a ≠ c := by intro e; subst e; simp at h
      rw [splitOn, if_neg ha, ih (fun hm => h (by simp [hm]))]
  have happ : ∀ (x : PStr) (r : PStr), c ∉ x → splitOn c (x ++ c :: r) = x :: splitOn c r := by
    intro x r; induction x with
    | nil => intro _; simp [splitOn]
    | cons a as ih =>
      intro h
      have ha : a ≠ c := by intro e; subst e; simp at h
      rw [List.cons_append, splitOn, if_neg ha, ih (fun hm => h (by simp [hm]))]
  intro items
  induction items with
  | nil => intro h; exact absurd rfl h
  | cons x xs ih =>
    intro _ hc
    cases xs with
    | nil => exact hone x (hc x (by simp))
    | cons y ys =>
      rw [join, List.append_assoc]
      rw [show [c] ++ join [c] (y :: ys) = c :: join [c] (y :: ys) from rfl]
      rw [happ x _ (hc x (by simp)), ih (by simp) (fun i hi => hc i (List.mem_cons_of_mem _ hi))]

variable (u : Unicode) (order : List PStr → List PStr)

/-- The filter is a comma-separated list `items` (after lower-casing) with no blank entry: the result includes and excludes
exactly what the entries ask for, sorted and without duplicates. `order` is Python's set iteration order. -/
theorem C13_parse_exact (horder : ∀ l, (order l).Perm l) (v : PStr) (hv : v ≠ []) (items : List PStr) (hitems : items ≠ [])
    (hlow : u.lower v = join [','] items) (hcomma : ∀ i ∈ items, ',' ∉ i) (hne : ∀ i ∈ items, strip i ≠ []) :
    ∃ t, Tags.parse u order (some v) = .ok t ∧
      (∀ x, x ∈ t.incl ↔ Included (items.map strip) x) ∧ (∀ x, x ∈ t.excl ↔ Excluded (items.map strip) x) ∧
      StrictlySorted t.incl ∧ StrictlySorted t.excl := by
  have hmem : ∀ x, x ∈ order (setOf id (items.map strip)) ↔ x ∈ items.map strip := by
    intro x; rw [(horder _).mem_iff, setOf_id_mem]
  obtain ⟨i, e, h, hin, hen, hi, he⟩ := tagLoop_spec (order (setOf id (items.map strip))) [] [] (by
    intro t ht
    rw [hmem, List.mem_map] at ht
    obtain ⟨a, ha, rfl⟩ := ht
    exact hne a ha) (by simp) (by simp)
  refine ⟨{ incl := sortStrs i, excl := sortStrs e }, ?_, ?_, ?_, sortStrs_strict hin, sortStrs_strict hen⟩
  · cases v with
    | nil => exact absurd rfl hv
    | cons c cs =>
      simp only [Tags.parse]
      rw [hlow, splitOn_join ',' items hitems hcomma, h]
      rfl
  · intro x
    show x ∈ sortBy strLt i ↔ _
    rw [mem_sortBy, hi]; simp only [List.not_mem_nil, false_or, Included, hmem]
  · intro x
    show x ∈ sortBy strLt e ↔ _
    rw [mem_sortBy, he]; simp only [List.not_mem_nil, false_or, Excluded, hmem]

/-- Permuting, repeating or re-spacing entries, and any change of set iteration order, leave the result unchanged. -/
theorem C13_parse_order_insensitive (order' : List PStr → List PStr) (horder : ∀ l, (order l).Perm l)
    (horder' : ∀ l, (order' l).Perm l) (v v' : PStr) (hv : v ≠ []) (hv' : v' ≠ [])
    (items items' : List PStr) (hitems : items ≠ []) (hitems' : items' ≠ [])
    (hlow : u.lower v = join [','] items) (hlow' : u.lower v' = join [','] items')
    (hcomma : ∀ i ∈ items, ',' ∉ i) (hcomma' : ∀ i ∈ items', ',' ∉ i) (hne : ∀ i ∈ items, strip i ≠ [])
    (hsame : ∀ x, x ∈ items.map strip ↔ x ∈ items'.map strip) :
    Tags.parse u order (some v) = Tags.parse u order' (some v') := by
  have hne' : ∀ i ∈ items', strip i ≠ [] := by
    intro i hi e
    have : strip i ∈ items.map strip := (hsame _).2 (List.mem_map_of_mem hi)
    rw [List.mem_map] at this
    obtain ⟨j, hj, hje⟩ := this
    exact hne j hj (hje.trans e)
  obtain ⟨t, ht, hi, he, hsi, hse⟩ := C13_parse_exact u order horder v hv items hitems hlow hcomma hne
  obtain ⟨t', ht', hi', he', hsi', hse'⟩ := C13_parse_exact u order' horder' v' hv' items' hitems' hlow' hcomma' hne'
  rw [ht, ht']
  congr 1
  have h1 : t.incl = t'.incl := strict_ext hsi hsi' (by
    intro x; rw [hi, hi']; unfold Included; rw [hsame])
  have h2 : t.excl = t'.excl := strict_ext hse hse' (by
    intro x; rw [he, he']; unfold Excluded; simp only [hsame])
  cases t; cases t'; simp_all

example : Tags.parse Unicode.ascii id (some (py "Hello, ^world ,-x,hello")) =
    .ok { incl := [py "hello"], excl := [py "world", py "x"] } := by decide

/-- `Tags.parse` fails exactly when some entry of a non-empty filter is blank, and then with IndexError. -/
theorem C14_parse_fails_iff_blank_entry (horder : ∀ l, (order l).Perm l) (v : PStr) (hv : v ≠ []) (items : List PStr)
    (hitems : items ≠ []) (hlow : u.lower v = join [','] items) (hcomma : ∀ i ∈ items, ',' ∉ i) :
    (∃ i ∈ items, strip i = []) ↔ Tags.parse u order (some v) = .error .index := by
  constructor
  · rintro ⟨i, hi, he⟩
    have hmem : [] ∈ order (setOf id (items.map strip)) := by
      rw [(horder _).mem_iff, setOf_id_mem, ← he]; exact List.mem_map_of_mem hi
    cases v with
    | nil => exact absurd rfl hv
    | cons c cs =>
      simp only [Tags.parse]
      rw [hlow, splitOn_join ',' items hitems hcomma, tagLoop_error _ _ _ hmem]
      rfl
  · intro h
    by_cases hb : ∃ i ∈ items, strip i = []
    · exact hb
    · obtain ⟨t, ht, -⟩ := C13_parse_exact u order horder v hv items hitems hlow hcomma (by
        intro i hi e; exact hb ⟨i, hi, e⟩)
      rw [ht] at h; simp at h

/-- No filter and the empty string are always fine, and select everything. -/
theorem C14_empty_ok (v : Option PStr) (h : v = none ∨ v = some []) :
    Tags.parse u order v = .ok { incl := [], excl := [] } := by
  rcases h with rfl | rfl <;> rfl

/-- A trailing comma is enough to crash. -/
theorem C14_trailing_comma_crashes : Tags.parse Unicode.ascii id (some (py "a,")) = .error .index := by decide

/-! ## C58: `--rules` -/

theorem parseAll_ok_iff (root : Path) : ∀ (l : List PStr) (qs : List QualifiedRule),
    parseAll root l = .ok qs ↔ l.map (fun s => parseRule s root) = qs.map Except.ok := by
  intro l
  induction l with
  | nil => intro qs; cases qs <;> simp [parseAll]
  | cons s ss ih =>
    intro qs
    simp only [parseAll]
    cases h1 : parseRule s root with
    | error e =>
      cases qs with
      | nil => simp [bind, Except.bind]
      | cons q qs => simp [bind, Except.bind, h1]
    | ok r =>
      cases h2 : parseAll root ss with
      | error e =>
        constructor
        · intro h; simp [bind, Except.bind] at h
        · intro h
          cases qs with
          | nil => simp at h
          | cons q qs =>
            simp only [List.map_cons, List.cons.injEq] at h
            have := (ih qs).2 h.2
            rw [h2] at this; simp at this
      | ok rs =>
        have hrs := (ih rs).1 h2
        cases qs with
        | nil => simp [bind, Except.bind, pure, Except.pure]
        | cons q qs =>
          simp only [bind, Except.bind, pure, Except.pure, List.map_cons, h1, List.cons.injEq, Except.ok.injEq]
          constructor
          · rintro ⟨rfl, rfl⟩; exact ⟨rfl, hrs⟩
          · rintro ⟨rfl, h⟩
            refine ⟨rfl, ?_⟩
            have := (ih qs).2 h
            rw [h2] at this; cases this; rfl

/-- The non-blank entries of a `--rules` value. -/
def ruleEntries (rules : PStr) (items : List PStr) : Prop :=
  ∃ fields : List PStr, fields ≠ [] ∧ (∀ f ∈ fields, ',' ∉ f) ∧ rules = join [','] fields ∧
    items = (fields.map strip).filter (fun r => !r.isEmpty)

/-- Parsing one entry from `cwd` determines the rule by its string. -/
theorem parse_str_inj {s₁ s₂ : PStr} {cwd : Path} {q₁ q₂ : QualifiedRule} (h₁ : parseRule s₁ cwd = .ok q₁)
    (h₂ : parseRule s₂ cwd = .ok q₂) (h : q₁.str = q₂.str) : q₁ = q₂ := by
  have hk := (C09_equal_string_equal_rule s₁ s₂ cwd cwd q₁ q₂ h₁ h₂).1 h
  obtain ⟨ha, ha'⟩ := C10_root_iff_dot s₁ cwd q₁ h₁
  obtain ⟨hb, hb'⟩ := C10_root_iff_dot s₂ cwd q₂ h₂
  have hdot : s₁.head? = some '.' ↔ s₂.head? = some '.' := by
    have e1 := C09_round_trip_newline s₁ cwd q₁ h₁
    have e2 := C09_round_trip_newline s₂ cwd q₂ h₂
    rw [h] at e1
    have hd : ∀ s, (s = q₂.str ∨ s = q₂.str ++ ['\n']) → (s.head? = some '.' ↔ q₂.str.head? = some '.') := by
      rintro s (rfl | rfl)
      · exact Iff.rfl
      · cases q₂.str <;> simp
    rw [hd s₁ e1, hd s₂ e2]
  have hroot : q₁.root = q₂.root := by
    by_cases hd : s₁.head? = some '.'
    · rw [ha.2 hd, hb.2 (hdot.1 hd)]
    · rw [ha'.2 hd, hb'.2 (fun h => hd (hdot.2 h))]
  simp only [QualifiedRule.key, Prod.mk.injEq] at hk
  obtain ⟨k1, k2, k3⟩ := hk
  cases q₁; cases q₂; simp_all

/-- `--rules` yields, in string order and each once, exactly the rules the non-blank entries name. -/
theorem C58_rules_option (order : List QualifiedRule → List QualifiedRule) (horder : ∀ l, (order l).Perm l)
    (cwd : Path) (rules : PStr) (items : List PStr) (hi : ruleEntries rules items)
    (hok : ∀ i ∈ items, ∃ q, parseRule i cwd = .ok q) :
    ∃ l, parseRulesOption order cwd rules = .ok l ∧
      (∀ q, q ∈ l ↔ ∃ i ∈ items, parseRule i cwd = .ok q) ∧
      l.Pairwise (fun a b => strLt a.str b.str = true) := by
  obtain ⟨fields, hf, hcomma, rfl, rfl⟩ := hi
  have hall : ∀ (l : List PStr), (∀ i ∈ l, ∃ q, parseRule i cwd = .ok q) → ∃ qs, parseAll cwd l = .ok qs := by
    intro l; induction l with
    | nil => intro _; exact ⟨[], rfl⟩
    | cons s ss ih =>
      intro h
      obtain ⟨q, hq⟩ := h s (by simp)
      obtain ⟨qs, hqs⟩ := ih (fun i hi => h i (List.mem_cons_of_mem _ hi))
      exact ⟨q :: qs, by simp [parseAll, hq, hqs, bind, Except.bind, pure, Except.pure]⟩
  obtain ⟨qs, hqs⟩ := hall _ hok
  have hmap := (parseAll_ok_iff cwd _ qs).1 hqs
  have hmemqs : ∀ q, q ∈ qs ↔ ∃ i ∈ (fields.map strip).filter (fun r => !r.isEmpty), parseRule i cwd = .ok q := by
    intro q
    have : q ∈ qs ↔ Except.ok q ∈ qs.map (Except.ok (ε := Err)) := by
      simp
    rw [this, ← hmap, List.mem_map]
  have hp : parseRulesOption order cwd (join [','] fields) = .ok (sortRules (order (setOf QualifiedRule.key qs))) := by
    unfold parseRulesOption
    rw [splitOn_join ',' fields hf hcomma, hqs]
    rfl
  have hmemset : ∀ q, q ∈ setOf QualifiedRule.key qs ↔ q ∈ qs := by
    intro q
    constructor
    · exact setOf_sub _ qs q
    · intro hq
      have : q.key ∈ (setOf QualifiedRule.key qs).map QualifiedRule.key :=
        (setOf_mem_key _ qs _).2 (List.mem_map_of_mem hq)
      rw [List.mem_map] at this
      obtain ⟨q', hq', hk⟩ := this
      have hq'm := setOf_sub _ qs q' hq'
      obtain ⟨i, -, hi⟩ := (hmemqs q).1 hq
      obtain ⟨i', -, hi'⟩ := (hmemqs q').1 hq'm
      have := parse_str_inj hi' hi ((C09_equal_string_equal_rule _ _ _ _ _ _ hi' hi).2 hk)
      rw [← this]; exact hq'
  refine ⟨_, hp, ?_, ?_⟩
  · intro q
    rw [sortRules, mem_sortBy, (horder _).mem_iff, hmemset, hmemqs]
  · have hs : SortedByKey QualifiedRule.str (sortRules (order (setOf QualifiedRule.key qs))) := sortBy_sorted _ _
    have hn : (sortRules (order (setOf QualifiedRule.key qs))).Nodup := by
      rw [sortRules, (sortBy_perm _ _).nodup_iff, (horder _).nodup_iff]
      exact nodup_of_keyNodup _ (setOf_nodup _ _)
    have := List.Pairwise.and hs hn
    refine List.Pairwise.imp_of_mem ?_ this
    intro a b ham hbm hab
    rcases strLt_total a.str b.str with h | h | h
    · exact h
    · exfalso
      have ha : a ∈ qs := by rw [sortRules, mem_sortBy, (horder _).mem_iff, hmemset] at ham; exact ham
      have hb : b ∈ qs := by rw [sortRules, mem_sortBy, (horder _).mem_iff, hmemset] at hbm; exact hbm
      obtain ⟨i, -, hi⟩ := (hmemqs a).1 ha
      obtain ⟨j, -, hj⟩ := (hmemqs b).1 hb
      exact hab.2 (parse_str_inj hi hj h)
    · rw [hab.1] at h; simp at h

/-- One invalid entry makes the option fail with ConfigError. -/
theorem C58_invalid_entry_fails (order : List QualifiedRule → List QualifiedRule)
    (cwd : Path) (rules : PStr) (items : List PStr) (hi : ruleEntries rules items)
    (hbad : ∃ i ∈ items, ¬ ∃ q, parseRule i cwd = .ok q) :
    ∃ msg, parseRulesOption order cwd rules = .error (.config msg) := by
  obtain ⟨fields, hf, hcomma, rfl, rfl⟩ := hi
  have hall : ∀ (l : List PStr), (∃ i ∈ l, ¬ ∃ q, parseRule i cwd = .ok q) → ∃ m, parseAll cwd l = .error (.config m) := by
    intro l; induction l with
    | nil => rintro ⟨i, hi, -⟩; simp at hi
    | cons s ss ih =>
      rintro ⟨i, hi, hb⟩
      by_cases hs : ∃ q, parseRule s cwd = .ok q
      · obtain ⟨q, hq⟩ := hs
        have hi' : i ∈ ss := by
          rw [List.mem_cons] at hi
          rcases hi with rfl | hi
          · exact absurd ⟨q, hq⟩ hb
          · exact hi
        obtain ⟨m, hm⟩ := ih ⟨i, hi', hb⟩
        exact ⟨m, by simp [parseAll, hq, hm, bind, Except.bind]⟩
      · obtain ⟨m, hm⟩ := C08_rejects_with_config_error s cwd (fun h => hs ((C08_accepts_iff_grammar s cwd).2 h))
        exact ⟨m, by simp [parseAll, hm, bind, Except.bind]⟩
  obtain ⟨m, hm⟩ := hall _ hbad
  refine ⟨m, ?_⟩
  unfold parseRulesOption
  rw [splitOn_join ',' fields hf hcomma, hm]
  rfl

example : ruleEntries (py " b.c ,, a:X,b.c") [py "b.c", py "a:X", py "b.c"] :=
  ⟨[py " b.c ", [], py " a:X", py "b.c"], by decide, by decide, by decide, by decide⟩
example : parseRulesOption id [] (py " b.c ,, a:X,b.c") =
    .ok [{ module := py "a", name := some (py "X") }, { module := py "b.c" }] := by decide

end Fixit
