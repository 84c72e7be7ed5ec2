import Verif.Props.TestingFix
import Verif.Props.Collect
import Verif.Props.Loader
import Std.Data.String.ToNat

/-!
# C92: `fixit test` runs every case of every rule named
-/

namespace Fixit
open Py Spec Gen

theorem decimal_inj {m n : Nat} (h : decimal m = decimal n) : m = n := Nat.repr_injective (String.toList_inj.mp h)

theorem dictSet_new {κ α : Type} [DecidableEq κ] (k : κ) (v : α) : ∀ d : List (κ × α), k ∉ d.map (·.1) → dictSet k v d = d ++ [(k, v)]
  | [], _ => rfl
  | (k', v') :: d, h => by
    simp only [List.map_cons, List.mem_cons, not_or] at h
    rw [dictSet, if_neg (fun e => h.1 e.symm), dictSet_new k v d h.2]
    rfl

theorem dictUpdate_new {κ α : Type} [DecidableEq κ] : ∀ (o d : List (κ × α)), (o.map (·.1)).Nodup → (∀ e ∈ o, e.1 ∉ d.map (·.1)) → dictUpdate d o = d ++ o
  | [], d, _, _ => by simp [dictUpdate]
  | e :: o, d, hn, hd => by
    simp only [List.map_cons, List.nodup_cons] at hn
    rw [show dictUpdate d (e :: o) = dictUpdate (dictSet e.1 e.2 d) o from rfl, dictSet_new _ _ _ (hd e List.mem_cons_self), dictUpdate_new o _ hn.2]
    · simp
    · intro e' he' hm
      simp only [List.map_append, List.map_cons, List.map_nil, List.mem_append, List.mem_singleton] at hm
      rcases hm with hm | hm
      · exact hd e' (List.mem_cons_of_mem _ he') hm
      · exact hn.1 (by rw [← hm]; exact List.mem_map_of_mem he')

theorem enumerateCases_eq (stem : PStr) (conv : Entry → Case) : ∀ (es : List Entry) (n : Nat) (d : List (PStr × Case)),
    (∀ i, n ≤ i → stem ++ decimal i ∉ d.map (·.1)) →
    enumerateCases stem conv n es d = d ++ es.mapIdx (fun i e => (stem ++ decimal (n + i), conv e))
  | [], n, d, _ => by simp [enumerateCases]
  | e :: es, n, d, h => by
    rw [enumerateCases, dictSet_new _ _ _ (h n (Nat.le_refl _)), enumerateCases_eq stem conv es (n + 1)]
    · simp [List.mapIdx_cons, Nat.add_assoc, Nat.add_comm 1]
    · intro i hi hm
      simp only [List.map_append, List.map_cons, List.map_nil, List.mem_append, List.mem_singleton] at hm
      rcases hm with hm | hm
      · exact h i (by omega) hm
      · have := decimal_inj (List.append_cancel_left hm)
        omega

theorem mapIdx_keys_nodup (stem : PStr) (conv : Entry → Case) (es : List Entry) :
    ((es.mapIdx (fun i e => (stem ++ decimal i, conv e))).map (·.1)).Nodup := by
  rw [List.nodup_iff_pairwise_ne, List.pairwise_iff_getElem]
  intro i j hi hj hij he
  simp only [List.getElem_map, List.getElem_mapIdx] at he
  have := decimal_inj (List.append_cancel_left he)
  omega

theorem asValid_eq : Entry.asValid = validCase := by funext e; cases e <;> rfl
theorem asInvalid_eq : Entry.asInvalid = invalidCase := by funext e; cases e <;> rfl

/-- C92: the test methods of a rule are exactly its cases, numbered; none replaces another. -/
theorem C92_methods (r : RuleClass) : genTestMethods r = namedCases r ∧ ((namedCases r).map (·.1)).Nodup := by
  have hdisj : ∀ e ∈ r.invalid.mapIdx (fun i e => (py "test_INVALID_" ++ decimal i, invalidCase e)),
      e.1 ∉ (r.valid.mapIdx (fun i e => (py "test_VALID_" ++ decimal i, validCase e))).map (·.1) := by
    intro e he hm
    obtain ⟨i, hi, rfl⟩ := List.mem_mapIdx.mp he
    obtain ⟨e', he', h2⟩ := List.mem_map.mp hm
    obtain ⟨j, hj, rfl⟩ := List.mem_mapIdx.mp he'
    simp at h2
  constructor
  · unfold genTestMethods namedCases
    rw [asValid_eq, asInvalid_eq]
    rw [enumerateCases_eq _ _ _ _ _ (by simp), enumerateCases_eq _ _ _ _ _ (by simp)]
    simp only [List.nil_append, Nat.zero_add]
    exact dictUpdate_new _ _ (mapIdx_keys_nodup _ _ _) hdisj
  · unfold namedCases
    rw [List.map_append, List.nodup_append]
    refine ⟨mapIdx_keys_nodup _ _ _, mapIdx_keys_nodup _ _ _, ?_⟩
    intro a ha b hb hab
    subst hab
    obtain ⟨e, he, rfl⟩ := List.mem_map.mp hb
    exact hdisj e he ha

section
variable {C : Type} (env : Env C) (bench : Bench C)

theorem passed_iff (w : World) (r : RuleClass) (e : PStr × Case) : passed ⟨r.name, e.1, runCase env bench r e.2⟩ w = true ↔ CasePasses env bench w r e.2 := by
  unfold passed runCase CasePasses
  simp only
  cases hm : r.make with
  | error e => simp
  | ok rule =>
    simp only [Except.ok.injEq]
    cases ht : testMethod env bench w e.2 rule with
    | error f => simp [ht]
    | ok u => simp [ht]

/-- C92: the tests of one rule are its cases, each exactly once. -/
theorem C92_tests (r : RuleClass) : (testsOf env bench r).Perm (ruleTests env bench r) := by
  have h : ruleTests env bench r = (namedCases r).map (testOf env bench r) := by
    unfold ruleTests
    apply List.map_congr_left
    intro e _
    unfold testOf runCase
    congr 1
    funext w
    cases r.make <;> rfl
  unfold testsOf
  rw [(C92_methods r).1, h]
  exact (sortBy_perm _ _).map _

variable {K V M : Type} [DecidableEq K] (cenv : CollectEnv K V M) {order : List K → List K} (horder : ∀ l, (order l).Perm l) (describe : K → RuleClass)
include horder

/-- C92: `fixit test`, when its arguments are well-formed references and the rules can be made: it tests each class that one of the references resolves to, once,
and its exit code is 0 exactly when every case of every such class passes, otherwise 1. -/
theorem C92_exit (args : List PStr) (quals : List QualifiedRule) (sysPath : List PStr) (mods : M) (w : World) (c : Collected K M)
    (hargs : parseArguments bench.cwd args = .ok quals) (hc : (collectRules cenv order (testConfig bench.cwd quals) sysPath mods).1 = .ok c) :
    ∃ (classes : List K) (tests : List Test) (code : Nat), testCommand env bench cenv order describe args sysPath mods w = (tests, .exit code) ∧
      classes.Nodup ∧ (∀ k, k ∈ classes ↔ Resolved (outcomes (cenv.find sysPath) mods quals) k) ∧
      tests.Perm (classes.flatMap (fun k => ruleTests env bench (describe k))) ∧
      (code = 0 ∨ code = 1) ∧
      (code = 0 ↔ ∀ k, Resolved (outcomes (cenv.find sysPath) mods quals) k → ∀ e ∈ namedCases (describe k), CasePasses env bench w (describe k) e.2) := by
  obtain ⟨h1, h2⟩ := C28_collected_exact cenv horder (testConfig bench.cwd quals) sysPath mods c hc
  have hres : ∀ k, k ∈ c.rules ↔ Resolved (outcomes (cenv.find sysPath) mods quals) k := by
    intro k
    rw [h2 k]
    have e1 : enabled cenv (testConfig bench.cwd quals) sysPath mods = outcomes (cenv.find sysPath) mods quals := rfl
    have e2 : disabled cenv (testConfig bench.cwd quals) sysPath mods = [] := rfl
    rw [e1, e2]
    constructor
    · exact fun h => h.1
    · intro h
      refine ⟨h, ?_, ⟨?_, .inl rfl⟩, ?_⟩
      · rintro ⟨q, cs, hm, -⟩; cases hm
      · intro x _ hx; cases hx
      · intro v hv; cases hv
  have hperm : (c.rules.flatMap (fun k => testsOf env bench (describe k))).Perm
      (c.rules.flatMap (fun k => ruleTests env bench (describe k))) := by
    generalize c.rules = l
    induction l with
    | nil => exact .nil
    | cons k ks ih => simp only [List.flatMap_cons]; exact (C92_tests env bench (describe k)).append ih
  refine ⟨c.rules, c.rules.flatMap (fun k => testsOf env bench (describe k)),
    if (c.rules.flatMap (fun k => testsOf env bench (describe k))).all (fun t => passed t w) then 0 else 1, ?_, h1, hres, hperm, ?_, ?_⟩
  · unfold testCommand
    rw [hargs]
    simp only [hc, runSuite]
  · split <;> simp
  · have : (c.rules.flatMap (fun k => testsOf env bench (describe k))).all (fun t => passed t w) = true ↔
        ∀ k, Resolved (outcomes (cenv.find sysPath) mods quals) k → ∀ e ∈ namedCases (describe k), CasePasses env bench w (describe k) e.2 := by
      rw [List.all_eq_true]
      constructor
      · intro h k hk e he
        refine (passed_iff env bench w (describe k) e).mp (h _ ?_)
        exact hperm.mem_iff.mpr (List.mem_flatMap.mpr ⟨k, (hres k).mpr hk, List.mem_map_of_mem he⟩)
      · intro h t ht
        obtain ⟨k, hk, hkt⟩ := List.mem_flatMap.mp (hperm.mem_iff.mp ht)
        obtain ⟨e, he, rfl⟩ := List.mem_map.mp hkt
        exact (passed_iff env bench w (describe k) e).mpr (h k ((hres k).mp hk) e he)
    rw [← this]
    clear this hperm
    generalize (c.rules.flatMap (fun k => testsOf env bench (describe k))).all (fun t => passed t w) = b
    cases b <;> simp

omit horder in
/-- C92: a reference that is not well-formed, and what making the rules raises, ends the command with that error before any test is run. -/
theorem C92_raises (args : List PStr) (sysPath : List PStr) (mods : M) (w : World) (e : Err)
    (h : parseArguments bench.cwd args = .error e ∨ ∃ quals, parseArguments bench.cwd args = .ok quals ∧
      (collectRules cenv order (testConfig bench.cwd quals) sysPath mods).1 = .error e) :
    testCommand env bench cenv order describe args sysPath mods w = ([], .raised e) := by
  unfold testCommand
  rcases h with h | ⟨quals, h, hc⟩
  · rw [h]
  · rw [h]; simp only [hc]

/-- **Finding.** When no reference can be loaded – a misspelt module, an import error, a rule that does not exist – nothing is tested and the exit code is 0. -/
theorem C92_nothing_loads (args : List PStr) (quals : List QualifiedRule) (sysPath : List PStr) (mods : M) (w : World)
    (hargs : parseArguments bench.cwd args = .ok quals) (hfail : ∀ q ∈ quals, ∀ m, ∃ e, (cenv.find sysPath m q).1 = .error e) :
    testCommand env bench cenv order describe args sysPath mods w = ([], .exit 0) := by
  have hno : ∀ (qs : List QualifiedRule) (m : M), (∀ q ∈ qs, ∀ m, ∃ e, (cenv.find sysPath m q).1 = .error e) →
      ∀ k, ¬ Resolved (outcomes (cenv.find sysPath) m qs) k := by
    intro qs
    induction qs with
    | nil => rintro m _ k ⟨q, cs, hm, -⟩; cases hm
    | cons q qs ih =>
      rintro m h k ⟨q', cs, hm, hp, hk⟩
      simp only [outcomes, List.mem_cons, Prod.mk.injEq] at hm
      rcases hm with ⟨-, hm⟩ | hm
      · obtain ⟨e, he⟩ := h q List.mem_cons_self m
        rw [he] at hm; cases hm
      · exact ih _ (fun q hq => h q (List.mem_cons_of_mem _ hq)) k ⟨q', cs, hm, hp, hk⟩
  have hok : ∃ r, (collectRules cenv order (testConfig bench.cwd quals) sysPath mods).1 = .ok r := by
    rw [C28_succeeds_iff cenv horder]
    refine ⟨(by intro c v hv; cases hv), ?_⟩
    intro k hk
    exact absurd hk.1.1.1 (hno quals mods hfail k)
  obtain ⟨c, hc⟩ := hok
  obtain ⟨h1, h2⟩ := C28_collected_exact cenv horder (testConfig bench.cwd quals) sysPath mods c hc
  have hnil : c.rules = [] := by
    apply List.eq_nil_iff_forall_not_mem.mpr
    intro k hk
    exact hno quals mods hfail k ((h2 k).mp hk).1
  unfold testCommand
  rw [hargs]
  simp only [hc, hnil, List.flatMap_nil, runSuite, List.all_nil, if_true]

end

/-- C92: `add_lint_rule_tests_to_module`: the class found under a name afterwards is the last rule class with that name, if there is one. -/
theorem C92_module (attrs : List (PStr × RuleClass)) (rules : List RuleClass) (n : PStr) :
    ((addToModule attrs rules).find? (fun e => e.1 = n)).map (·.2) =
      match (rules.filter (fun r => r.name = n)).getLast? with
      | some r => some r
      | none => (attrs.find? (fun e => e.1 = n)).map (·.2) := by
  unfold addToModule
  induction rules generalizing attrs with
  | nil => simp [dictUpdate]
  | cons r rs ih =>
    rw [List.map_cons, show dictUpdate attrs ((r.name, r) :: rs.map (fun r => (r.name, r))) = dictUpdate (dictSet r.name r attrs) (rs.map (fun r => (r.name, r))) from rfl, ih,
      find_dictSet]
    by_cases h : r.name = n
    · rw [List.filter_cons_of_pos (by simp [h])]
      cases hl : (rs.filter (fun r => r.name = n)).getLast? with
      | none => rw [List.getLast?_eq_none_iff] at hl; simp [hl, h]
      | some x => simp [List.getLast?_cons, hl]
    · rw [List.filter_cons_of_neg (by simp [h])]
      cases (rs.filter (fun r => r.name = n)).getLast? <;> simp [h]

/-- **Finding.** Of two rule classes with the same name, from different modules, only the tests of the later are added. -/
theorem C92_same_name (r r' : RuleClass) (h : r.name = r'.name) : addToModule [] [r, r'] = [(r'.name, r')] := by
  simp [addToModule, dictUpdate, dictSet, h]

/-- A rule with eleven cases, one of them wrong: the exit code is 1; with the right ones, 0. -/
def demoRule (last : PStr) : RuleClass :=
  ⟨py "R", List.replicate 10 (.text (py "c\n")) ++ [.text last], [.full (.invalid { code := py "a\n", replacement := some (py "b\n") })], .ok ⟨0, py "R"⟩⟩

example : runSuite (testsOf benchEnv demoBench (demoRule (py "d\n"))) ⟨fun _ => none, []⟩ = .exit 0 ∧
    runSuite (testsOf benchEnv demoBench (demoRule (py "a\n"))) ⟨fun _ => none, []⟩ = .exit 1 := ⟨rfl, rfl⟩

example : (namedCases (demoRule (py "d\n"))).length = 12 := rfl

/-- An import system with one rule class, found under any reference that does not name a rule. -/
def demoCollect : CollectEnv Nat Unit Unit where
  find := fun _ m q => if q.name = none then (.ok [7], m) else (.error .collection, m)
  tags := fun _ => []
  supports := fun _ _ => .ok true
  make := fun _ => .ok ()

example : parseArguments [py "work"] [py "my.rules"] = .ok [{ module := py "my.rules" }] ∧ parseArguments [py "work"] [py "my.rules:Typo"] =
    .ok [{ module := py "my.rules", name := some (py "Typo") }] := ⟨by decide +kernel, by decide +kernel⟩

end Fixit
