import Verif.Model.TestModule
import Verif.Props.Suite

/-!
# C123: `add_lint_rule_tests_to_module`
-/

namespace Spec
open Py Fixit

/-- The value of an attribute. -/
def attrValue (attrs : List (PStr × AttrValue)) (n : PStr) : Option AttrValue := attrs.lookup n

/-- The rules among what was given: the instances of rule classes. -/
def rulesGiven (given : List Given) : List RuleClass := given.filterMap (fun g => match g with | .instance r => some r | .other => none)

/-- The class made for the `i`-th rule is the one found under the name `n`: it is the last of that name. -/
structure LastNamed (rules : List RuleClass) (n : PStr) (i : Nat) : Prop where
  named : ∃ r, rules[i]? = some r ∧ r.name = n
  last : ∀ j r, i < j → rules[j]? = some r → r.name ≠ n

end Spec

namespace Fixit
open Py Spec

theorem ruleInstances_eq : ∀ given : List Given, ruleInstances given = rulesGiven given
  | [] => rfl
  | .instance r :: gs => by rw [ruleInstances, ruleInstances_eq gs]; rfl
  | .other :: gs => by rw [ruleInstances, ruleInstances_eq gs]; rfl

theorem lookup_find {α : Type} (n : PStr) : ∀ d : List (PStr × α), (d.find? (fun e => e.1 = n)).map (·.2) = d.lookup n
  | [] => rfl
  | (k, v) :: d => by
    by_cases h : k = n
    · subst h; simp [List.lookup]
    · have h' : (n == k) = false := beq_eq_false_iff_ne.2 (fun e => h e.symm)
      simp only [List.find?, decide_eq_false h, List.lookup, h']
      exact lookup_find n d

theorem attrValue_dictSet (attrs : List (PStr × AttrValue)) (k n : PStr) (v : AttrValue) :
    attrValue (dictSet k v attrs) n = if k = n then some v else attrValue attrs n := by
  unfold attrValue
  rw [← lookup_find, ← lookup_find]
  rw [find_dictSet]

theorem addClasses_attr (n : PStr) : ∀ (cs : List TestClass) (i : Nat) (attrs : List (PStr × AttrValue)),
    ((∀ c ∈ cs, c.rule.name ≠ n) → attrValue (addClasses i cs attrs) n = attrValue attrs n) ∧
    (∀ j, LastNamed (cs.map (·.rule)) n j → attrValue (addClasses i cs attrs) n = some (.testClass (i + j)))
  | [], i, attrs => ⟨fun _ => rfl, fun j h => by obtain ⟨r, h1, _⟩ := h.named; simp at h1⟩
  | c :: cs, i, attrs => by
    obtain ⟨ih1, ih2⟩ := addClasses_attr n cs (i + 1) (dictSet c.rule.name (.testClass i) attrs)
    refine ⟨fun h => ?_, fun j h => ?_⟩
    · rw [addClasses, ih1 (fun c' hc' => h c' (List.mem_cons_of_mem _ hc')), attrValue_dictSet, if_neg (h c List.mem_cons_self)]
    · rw [addClasses]
      cases j with
      | zero =>
        obtain ⟨r, h1, h2⟩ := h.named
        simp only [List.map_cons, List.getElem?_cons_zero, Option.some.injEq] at h1
        rw [ih1, attrValue_dictSet, if_pos (by rw [h1, h2]), Nat.add_zero]
        intro c' hc' he
        obtain ⟨k, hk, hk'⟩ := List.getElem_of_mem hc'
        exact h.last (k + 1) c'.rule (by omega) (by simp [List.getElem?_eq_getElem hk, hk']) he
      | succ j =>
        rw [ih2 j ⟨by simpa using h.named, fun k r hk hr => h.last (k + 1) r (by omega) (by simpa using hr)⟩]
        congr 2
        omega

theorem addLintRuleTests_attrs (attrs : List (PStr × AttrValue)) (given : List Given) :
    (addLintRuleTests attrs given).attrs = addClasses 0 (generateClasses given) attrs := by
  unfold addLintRuleTests
  simp only []
  split <;> rfl

theorem generateClasses_rules (given : List Given) : (generateClasses given).map (·.rule) = rulesGiven given := by
  rw [generateClasses, List.map_map, ruleInstances_eq]
  exact List.map_id _

/-- C123: a name that is the name of a rule given leads to the test class of the last such rule afterwards. -/
theorem C123_added (attrs : List (PStr × AttrValue)) (given : List Given) (n : PStr) (i : Nat) (h : LastNamed (rulesGiven given) n i) :
    attrValue (addLintRuleTests attrs given).attrs n = some (.testClass i) := by
  rw [addLintRuleTests_attrs, (addClasses_attr n _ 0 attrs).2 i (by rw [generateClasses_rules]; exact h), Nat.zero_add]

/-- C123: every other attribute of the module is as it was. -/
theorem C123_others_kept (attrs : List (PStr × AttrValue)) (given : List Given) (n : PStr) (h : ∀ r ∈ rulesGiven given, r.name ≠ n) :
    attrValue (addLintRuleTests attrs given).attrs n = attrValue attrs n := by
  rw [addLintRuleTests_attrs, (addClasses_attr n _ 0 attrs).1]
  intro c hc
  exact h c.rule (by rw [← generateClasses_rules]; exact List.mem_map_of_mem hc)

/-- C123: a test class is made for each rule instance, in order (also for those whose name is used again), whatever happens. -/
theorem C123_one_class_each (attrs : List (PStr × AttrValue)) (given : List Given) :
    (addLintRuleTests attrs given).classes.map (·.rule) = rulesGiven given := by
  rw [← generateClasses_rules]
  unfold addLintRuleTests
  simp only []
  split
  · rfl
  · simp [List.map_map, Function.comp_def]
  · rfl

theorem packageOf_eq (attrs : List (PStr × AttrValue)) : packageOf attrs = attrValue attrs (py "__package__") := lookup_find _ _

theorem module_cases (attrs : List (PStr × AttrValue)) (given : List Given) :
    (attrValue (addLintRuleTests attrs given).attrs (py "__package__") = none ∧ (addLintRuleTests attrs given).result = .ok () ∧
      ∀ c ∈ (addLintRuleTests attrs given).classes, c.module = py "fixit.testing") ∨
    (∃ s, attrValue (addLintRuleTests attrs given).attrs (py "__package__") = some (.str s) ∧ (addLintRuleTests attrs given).result = .ok () ∧
      ∀ c ∈ (addLintRuleTests attrs given).classes, c.module = s) ∨
    (∃ v, attrValue (addLintRuleTests attrs given).attrs (py "__package__") = some v ∧ (∀ s, v ≠ .str s) ∧
      (addLintRuleTests attrs given).result = .error (.assertion .bare) ∧ ∀ c ∈ (addLintRuleTests attrs given).classes, c.module = py "fixit.testing") := by
  have hg : ∀ c ∈ generateClasses given, c.module = py "fixit.testing" := by
    intro c hc
    simp only [generateClasses, List.mem_map] at hc
    obtain ⟨_, _, rfl⟩ := hc
    rfl
  rw [addLintRuleTests_attrs]
  unfold addLintRuleTests
  simp only [packageOf_eq]
  cases h : attrValue (addClasses 0 (generateClasses given) attrs) (py "__package__") with
  | none => exact .inl ⟨rfl, rfl, hg⟩
  | some v =>
    cases v with
    | str s =>
      refine .inr (.inl ⟨s, rfl, rfl, ?_⟩)
      intro c hc
      simp only [List.mem_map] at hc
      obtain ⟨_, _, rfl⟩ := hc
      rfl
    | testClass i => exact .inr (.inr ⟨_, rfl, fun s => (by simp), rfl, hg⟩)
    | other => exact .inr (.inr ⟨_, rfl, fun s => (by simp), rfl, hg⟩)

/-- C123: when the module says which package it is in, each test class made claims to be in that package; the call returns. -/
theorem C123_package (attrs : List (PStr × AttrValue)) (given : List Given) (s : PStr) (hn : ∀ r ∈ rulesGiven given, r.name ≠ py "__package__")
    (h : attrValue attrs (py "__package__") = some (.str s)) :
    (addLintRuleTests attrs given).result = .ok () ∧ ∀ c ∈ (addLintRuleTests attrs given).classes, c.module = s := by
  rw [← C123_others_kept attrs given _ hn] at h
  rcases module_cases attrs given with ⟨h1, _⟩ | ⟨s', h1, h2, h3⟩ | ⟨v, h1, h2, _⟩
  · rw [h] at h1; cases h1
  · rw [h] at h1; cases h1; exact ⟨h2, h3⟩
  · rw [h] at h1; cases h1; exact absurd rfl (h2 s)

/-- C123: with no `__package__`, the call returns, and each test class claims to be in `fixit.testing`. -/
theorem C123_no_package (attrs : List (PStr × AttrValue)) (given : List Given) (hn : ∀ r ∈ rulesGiven given, r.name ≠ py "__package__")
    (h : attrValue attrs (py "__package__") = none) :
    (addLintRuleTests attrs given).result = .ok () ∧ ∀ c ∈ (addLintRuleTests attrs given).classes, c.module = py "fixit.testing" := by
  rw [← C123_others_kept attrs given _ hn] at h
  rcases module_cases attrs given with ⟨_, h2, h3⟩ | ⟨s', h1, _⟩ | ⟨v, h1, _⟩
  · exact ⟨h2, h3⟩
  · rw [h] at h1; cases h1
  · rw [h] at h1; cases h1

/-- C123: the call fails with an AssertionError exactly if `__package__` is there and is not a string. -/
theorem C123_fails_iff (attrs : List (PStr × AttrValue)) (given : List Given) (hn : ∀ r ∈ rulesGiven given, r.name ≠ py "__package__") :
    (addLintRuleTests attrs given).result = .error (.assertion .bare) ↔ ∃ v, attrValue attrs (py "__package__") = some v ∧ ∀ s, v ≠ .str s := by
  rw [← C123_others_kept attrs given _ hn]
  rcases module_cases attrs given with ⟨h1, h2, _⟩ | ⟨s', h1, h2, _⟩ | ⟨v, h1, h2, h3, _⟩
  · rw [h1, h2]; exact ⟨fun h => (by cases h), fun ⟨v, h, _⟩ => (by cases h)⟩
  · rw [h1, h2]; exact ⟨fun h => (by cases h), fun ⟨v, h, h'⟩ => (by cases h; exact absurd rfl (h' s'))⟩
  · rw [h1, h3]; exact ⟨fun _ => ⟨v, rfl, h2⟩, fun _ => rfl⟩

/-- C123, **finding**: in a module run as a script (`__package__` is `None`), the call fails, after all the test classes were added. -/
theorem C123_script (attrs : List (PStr × AttrValue)) (given : List Given) (hn : ∀ r ∈ rulesGiven given, r.name ≠ py "__package__")
    (h : attrValue attrs (py "__package__") = some .other) :
    (addLintRuleTests attrs given).result = .error (.assertion .bare) ∧
    ∀ n i, LastNamed (rulesGiven given) n i → attrValue (addLintRuleTests attrs given).attrs n = some (.testClass i) :=
  ⟨(C123_fails_iff attrs given hn).2 ⟨_, h, fun _ => (by simp)⟩, fun n i hi => C123_added attrs given n i hi⟩

/-- C123, **finding**: rule *classes*, which is what the documentation of the function asks for, are passed over: no test is added. -/
theorem C123_classes_ignored (attrs : List (PStr × AttrValue)) (given : List Given) (h : ∀ g ∈ given, g = .other) :
    (addLintRuleTests attrs given).classes = [] ∧ ∀ n, attrValue (addLintRuleTests attrs given).attrs n = attrValue attrs n := by
  have hr : rulesGiven given = [] := by
    apply List.filterMap_eq_nil_iff.2
    intro g hg
    rw [h g hg]
  refine ⟨?_, fun n => C123_others_kept attrs given n (fun r hr' => (by rw [hr] at hr'; cases hr'))⟩
  have := C123_one_class_each attrs given
  rw [hr] at this
  exact List.map_eq_nil_iff.1 this

/-- C123, corner: a rule called `__package__` makes the call fail, though the package was given. -/
theorem C123_rule_called_package (attrs : List (PStr × AttrValue)) (given : List Given) (i : Nat) (h : LastNamed (rulesGiven given) (py "__package__") i) :
    (addLintRuleTests attrs given).result = .error (.assertion .bare) := by
  have ha := C123_added attrs given _ i h
  rcases module_cases attrs given with ⟨h1, _⟩ | ⟨s', h1, _⟩ | ⟨v, h1, h2, h3, _⟩
  · rw [ha] at h1; cases h1
  · rw [ha] at h1; cases h1
  · exact h3

/-- Two rules of the same name, a class and another rule, in a package: three classes, the first not to be found. -/
def demoAttrs : List (PStr × AttrValue) := [(py "__name__", .str (py "p.t")), (py "__package__", .str (py "p")), (py "S", .other)]

def demoGiven : List Given := [.instance (demoRule (py "d\n")), .other, .instance ⟨py "S", [], [], .error .type⟩, .instance (demoRule (py "a\n"))]

example : LastNamed (rulesGiven demoGiven) (py "R") 2 where
  named := ⟨_, rfl, rfl⟩
  last := by
    intro j r hj h
    have : 3 ≤ j := hj
    rw [List.getElem?_eq_none (by exact this)] at h
    cases h

example : (addLintRuleTests demoAttrs demoGiven).attrs = [(py "__name__", .str (py "p.t")), (py "__package__", .str (py "p")), (py "S", .testClass 1), (py "R", .testClass 2)] := by
  decide +kernel

example : (addLintRuleTests demoAttrs demoGiven).classes.map (fun c => (c.rule.name, c.module)) = [(py "R", py "p"), (py "S", py "p"), (py "R", py "p")] := by decide +kernel

example : (∀ r ∈ rulesGiven demoGiven, r.name ≠ py "__package__") ∧ attrValue demoAttrs (py "__package__") = some (.str (py "p")) := by decide +kernel

end Fixit
