import Verif.Props.TestingFix

/-!
# C128: a failing test says what is wrong first
-/

namespace Fixit
open Py Spec Gen

theorem doErr {α β : Type} (r : Except Failure α) (f : α → Except Failure β) (e : Failure) :
    (r >>= f) = .error e ↔ r = .error e ∨ ∃ a, r = .ok a ∧ f a = .error e := by
  cases r <;> simp [Bind.bind, Except.bind]

theorem attempt_assertion {α : Type} (r : Except Err α) (x : Mismatch) : ¬ attempt r = .error (.assertion x) := by cases r <;> simp [attempt]

theorem check_err (b : Bool) (x y : Mismatch) : check b x = .error (.assertion y) ↔ b = false ∧ x = y := by cases b <;> simp [check]

section
variable {C : Type} (env : Env C) (bench : Bench C)

theorem collectAll_assertion (path : Path) (m : Node) (rule : RuleInst) (w : World) (x : Mismatch) : ¬ collectAll env bench path m rule w = .error (.assertion x) := by
  rw [collectAll_eq]
  cases env.visit w.files (bench.config path) m [rule] with
  | error e => simp
  | ok rd =>
    obtain ⟨recorded, durs⟩ := rd
    simp only
    cases displayed env path m (recorded rule) with
    | mk good err => cases err <;> simp

theorem testMethod_err (w : World) (t : Case) (rule : RuleInst) (x : Mismatch) :
    testMethod env bench w t rule = .error (.assertion x) ↔ ∃ m vs good, Linted env bench w (t.path bench) t.code rule m vs ∧
      displayed env (t.path bench) m vs = (good, none) ∧
      (match t with | .valid _ => check good.isEmpty (.reports good) | .invalid i => (do
        check (!good.isEmpty) (.silent i.code); checkReports i good; checkReplacement env bench i (t.path bench) m good)) = .error (.assertion x) := by
  unfold testMethod
  simp only [doErr, attempt_ok, collectAll_ok, attempt_assertion, collectAll_assertion, false_or]
  constructor
  · rintro ⟨src, h1, m, h2, reports, ⟨recorded, durs, h3, h4⟩, h5⟩
    refine ⟨m, recorded rule, reports, ⟨⟨src, recorded, durs, h1, h2, h3, rfl⟩, (displayed_ok env _ m _ _ h4).2⟩, h4, ?_⟩
    cases t with
    | valid c => exact h5
    | invalid i => exact h5
  · rintro ⟨m, vs, good, ⟨⟨src, recorded, durs, h1, h2, h3, rfl⟩, _⟩, h4, h5⟩
    refine ⟨src, h1, m, h2, good, ⟨recorded, durs, h3, h4⟩, ?_⟩
    cases t with
    | valid c => exact h5
    | invalid i => exact h5

theorem displayed_map (path : Path) (m : Node) : ∀ (vs : List (Violation Nat Repl)) (good : List LintViolation),
    displayed env path m vs = (good, none) ↔ vs.map (display env path m) = good.map .ok
  | [], good => by cases good <;> simp [displayed]
  | v :: vs, good => by
    unfold displayed
    cases hd : display env path m v with
    | error e => cases good <;> simp [hd]
    | ok lv =>
      cases good with
      | nil => simp
      | cons g gs =>
        have ih := displayed_map path m vs gs
        simp only [List.map_cons, hd, List.cons.injEq, Except.ok.injEq, ← ih, Prod.mk.injEq]
        constructor
        · rintro ⟨⟨h1, h2⟩, h3⟩; exact ⟨h1, by rw [← h2, ← h3]⟩
        · rintro ⟨h1, h2⟩; rw [h2]; exact ⟨⟨h1, rfl⟩, rfl⟩

/-- C128: the assertion of a `VALID` case fails exactly when the rule reports something, and then it shows all the reports with their diffs. -/
theorem C128_valid (w : World) (code : PStr) (rule : RuleInst) (x : Mismatch) :
    testMethod env bench w (.valid code) rule = .error (.assertion x) ↔ ∃ m vs found, Linted env bench w (bench.cwd ++ [py "valid.py"]) code rule m vs ∧ vs ≠ [] ∧
      vs.map (display env (bench.cwd ++ [py "valid.py"]) m) = found.map .ok ∧ x = .reports found := by
  rw [testMethod_err]
  simp only [check_err, displayed_map]
  constructor
  · rintro ⟨m, vs, good, h1, h2, h3, rfl⟩
    refine ⟨m, vs, good, h1, ?_, h2, rfl⟩
    rintro rfl
    cases good <;> simp_all
  · rintro ⟨m, vs, good, h1, h2, h3, rfl⟩
    refine ⟨m, vs, good, h1, h3, ?_, rfl⟩
    cases good with
    | nil => simp at h3; exact absurd h3 h2
    | cons g gs => rfl

theorem checkReports_err (i : Invalid) (x : Mismatch) : ∀ good : List LintViolation, checkReports i good = .error (.assertion x) ↔
    ∃ before v after, good.map (·.base) = before ++ v :: after ∧ (∀ v' ∈ before, AsExpected i v') ∧
      ((∃ r, i.range = some r ∧ v.range ≠ r ∧ x = .range r v.range) ∨
        ((∀ r, i.range = some r → v.range = r) ∧ ∃ s, i.message = some s ∧ v.message ≠ s ∧ x = .message s v.message))
  | [] => by simp [checkReports]
  | g :: gs => by
    have ih := checkReports_err i x gs
    have hhead : ∀ P : Prop, ((∃ before v after, (g :: gs).map (·.base) = before ++ v :: after ∧ (∀ v' ∈ before, AsExpected i v') ∧
        ((∃ r, i.range = some r ∧ v.range ≠ r ∧ x = .range r v.range) ∨
        ((∀ r, i.range = some r → v.range = r) ∧ ∃ s, i.message = some s ∧ v.message ≠ s ∧ x = .message s v.message))) ↔
        (((∃ r, i.range = some r ∧ g.base.range ≠ r ∧ x = .range r g.base.range) ∨
        ((∀ r, i.range = some r → g.base.range = r) ∧ ∃ s, i.message = some s ∧ g.base.message ≠ s ∧ x = .message s g.base.message)) ∨
          (AsExpected i g.base ∧ checkReports i gs = .error (.assertion x)))) := by
      intro _
      rw [ih]
      constructor
      · rintro ⟨before, v, after, h1, h2, h3⟩
        cases before with
        | nil =>
          simp only [List.map_cons, List.nil_append, List.cons.injEq] at h1
          obtain ⟨rfl, rfl⟩ := h1
          exact .inl h3
        | cons b bs =>
          simp only [List.map_cons, List.cons_append, List.cons.injEq] at h1
          obtain ⟨rfl, h1⟩ := h1
          exact .inr ⟨h2 _ List.mem_cons_self, bs, v, after, h1, fun v' hv' => h2 v' (List.mem_cons_of_mem _ hv'), h3⟩
      · rintro (h | ⟨h, before, v, after, h1, h2, h3⟩)
        · exact ⟨[], g.base, gs.map (·.base), rfl, by simp, h⟩
        · refine ⟨g.base :: before, v, after, by simp [h1], ?_, h3⟩
          intro v' hv'
          rcases List.mem_cons.mp hv' with rfl | h'
          · exact h
          · exact h2 v' h'
    rw [hhead True]
    simp only [checkReports, doErr, AsExpected]
    cases hr : i.range with
    | none =>
      cases hm : i.message with
      | none => simp
      | some s =>
        simp only [check_err, check_ok, decide_eq_true_eq, decide_eq_false_iff_not, Option.some.injEq, reduceCtorEq, false_and, exists_false, false_or, forall_eq',
          false_implies, implies_true, true_and, exists_eq_left', exUnit]
        constructor
        · rintro (⟨h1, rfl⟩ | ⟨h1, h2⟩)
          · exact .inl ⟨fun h => h1 h.symm, rfl⟩
          · exact .inr ⟨h1.symm, h2⟩
        · rintro (⟨h1, rfl⟩ | ⟨h1, h2⟩)
          · exact .inl ⟨fun h => h1 h.symm, rfl⟩
          · exact .inr ⟨h1.symm, h2⟩
    | some r =>
      cases hm : i.message with
      | none =>
        simp only [check_err, check_ok, decide_eq_true_eq, decide_eq_false_iff_not, Option.some.injEq, reduceCtorEq, false_and, exists_false, false_or, forall_eq',
          false_implies, implies_true, and_true, exists_eq_left', exUnit, and_false, or_false, true_and]
        constructor
        · rintro (⟨h1, rfl⟩ | ⟨h1, h2⟩)
          · exact .inl ⟨fun h => h1 h.symm, rfl⟩
          · exact .inr ⟨h1.symm, h2⟩
        · rintro (⟨h1, rfl⟩ | ⟨h1, h2⟩)
          · exact .inl ⟨fun h => h1 h.symm, rfl⟩
          · exact .inr ⟨h1.symm, h2⟩
      | some s =>
        simp only [check_err, check_ok, decide_eq_true_eq, decide_eq_false_iff_not, Option.some.injEq, forall_eq', exists_eq_left', exUnit]
        constructor
        · rintro (⟨h1, rfl⟩ | ⟨h1, ⟨h2, rfl⟩ | ⟨h2, h3⟩⟩)
          · exact .inl (.inl ⟨fun h => h1 h.symm, rfl⟩)
          · exact .inl (.inr ⟨h1.symm, fun h => h2 h.symm, rfl⟩)
          · exact .inr ⟨⟨h1.symm, h2.symm⟩, h3⟩
        · rintro ((⟨h1, rfl⟩ | ⟨h1, h2, rfl⟩) | ⟨⟨h1, h2⟩, h3⟩)
          · exact .inl ⟨fun h => h1 h.symm, rfl⟩
          · exact .inr ⟨h1.symm, .inl ⟨fun h => h2 h.symm, rfl⟩⟩
          · exact .inr ⟨h1.symm, .inr ⟨h2.symm, h3⟩⟩

theorem fixedText_iff (m : Node) (vs : List (Violation Nat Repl)) (good : List LintViolation) (hb : good.map (·.base) = vs) (text : PStr) :
    fixedText env bench m good = .ok text ↔ FixedTo env bench m vs text := by
  unfold fixedText FixedTo
  rw [map_fix, hb]
  simp only [bindErr_ok]
  constructor
  · rintro ⟨m', h1, b, h2, h3⟩; exact ⟨m', b, h1, h2, h3⟩
  · rintro ⟨m', b, h1, h2, h3⟩; exact ⟨m', h1, b, h2, h3⟩

theorem checkDiff_err (path : Path) (m : Node) (vs : List (Violation Nat Repl)) (good : List LintViolation) (hd : displayed env path m vs = (good, none)) (x : Mismatch) :
    checkDiff env bench path m good = .error (.assertion x) ↔
      ∃ v r d d', vs = [v] ∧ v.replacement = some r ∧ diffViolation env path m v.node r = .ok d ∧ display env path m v = .ok ⟨v, d'⟩ ∧ d ≠ d' ∧ x = .diff d d' := by
  have hb := (displayed_ok env path m vs good hd).1
  rw [displayed_map] at hd
  match good, hb with
  | [], hb =>
    simp only [List.map_nil] at hb; subst hb; simp [checkDiff]
  | g :: g' :: gs, hb => simp only [List.map_cons] at hb; subst hb; simp [checkDiff]
  | [g], hb =>
    simp only [List.map_cons, List.map_nil] at hb
    subst hb
    simp only [List.map_cons, List.map_nil, List.cons.injEq, and_true] at hd
    simp only [checkDiff, doErr, attempt_assertion, attempt_ok, false_or, check_err, decide_eq_false_iff_not, diffAgain]
    constructor
    · rintro ⟨d, h1, h2, rfl⟩
      cases hr : g.base.replacement with
      | none => rw [hr] at h1; cases h1
      | some r => rw [hr] at h1; exact ⟨g.base, r, d, g.diff, rfl, hr, h1, hd, h2, rfl⟩
    · rintro ⟨v, r, d, d', hv, h1, h2, h3, h4, rfl⟩
      simp only [List.cons.injEq, and_true] at hv
      subst hv
      rw [hd] at h3
      simp only [Except.ok.injEq] at h3
      have : g.diff = d' := by rw [h3]
      refine ⟨d, by rw [h1]; exact h2, by rw [this]; exact h4, by rw [this]⟩

/-- C128: the assertion that fails in an `INVALID` case is about the first thing that is not as the case expects, and no assertion fails otherwise. -/
theorem C128_invalid (w : World) (i : Invalid) (rule : RuleInst) (x : Mismatch) :
    testMethod env bench w (.invalid i) rule = .error (.assertion x) ↔ ∃ m vs, Linted env bench w (bench.cwd ++ [py "invalid.py"]) i.code rule m vs ∧
      FirstMismatch env bench (bench.cwd ++ [py "invalid.py"]) m vs i x := by
  rw [testMethod_err]
  have hpath : Case.path bench (.invalid i) = bench.cwd ++ [py "invalid.py"] := rfl
  have hcode : Case.code (.invalid i) = i.code := rfl
  simp only [hpath, hcode]
  generalize bench.cwd ++ [py "invalid.py"] = path
  have key : ∀ m vs good, displayed env path m vs = (good, none) →
      ((do check (!good.isEmpty) (.silent i.code); checkReports i good; checkReplacement env bench i path m good) = .error (.assertion x) ↔
        FirstMismatch env bench path m vs i x) := by
    intro m vs good hd
    have hb := (displayed_ok env _ m vs good hd).1
    have hempty : good.isEmpty = true ↔ vs = [] := by rw [← hb]; cases good <;> simp
    have hall : checkReports i good = .ok () ↔ ∀ v ∈ vs, AsExpected i v := by
      rw [checkReports_ok, ← hb]
      simp only [List.mem_map]
      constructor
      · rintro h v ⟨g, hg, rfl⟩; exact h g hg
      · intro h g hg; exact h _ ⟨g, hg, rfl⟩
    have hrepl : checkReplacement env bench i path m good = .error (.assertion x) ↔ ∃ want, i.replacement = some want ∧ want ≠ [] ∧
        ((∃ t, FixedTo env bench m vs t ∧ t ≠ dedent want ∧ x = .text (dedent want) t) ∨
          (FixedTo env bench m vs (dedent want) ∧ checkDiff env bench path m good = .error (.assertion x))) := by
      unfold checkReplacement
      cases hr : i.replacement with
      | none => simp
      | some want =>
        cases want with
        | nil => simp
        | cons c cs =>
          simp only [doErr, attempt_assertion, attempt_ok, false_or, check_err, check_ok, decide_eq_false_iff_not, decide_eq_true_eq, exUnit,
            fixedText_iff env bench m vs good hb, Option.some.injEq]
          constructor
          · rintro ⟨t, h1, ⟨h2, rfl⟩ | ⟨h2, h3⟩⟩
            · exact ⟨_, rfl, by simp, .inl ⟨t, h1, fun h => h2 h.symm, rfl⟩⟩
            · exact ⟨_, rfl, by simp, .inr ⟨by rw [h2]; exact h1, h3⟩⟩
          · rintro ⟨_, rfl, -, ⟨t, h1, h2, rfl⟩ | ⟨h1, h2⟩⟩
            · exact ⟨t, h1, .inl ⟨fun h => h2 h.symm, rfl⟩⟩
            · exact ⟨_, h1, .inr ⟨rfl, h2⟩⟩
    simp only [doErr, check_err, check_ok, exUnit, Bool.not_eq_false', Bool.not_eq_true', hempty, hall, hrepl, checkDiff_err env bench path m vs good hd,
      checkReports_err]
    rw [hb]
    constructor
    · rintro (⟨h1, rfl⟩ | ⟨h1, ⟨before, v, after, h2, h3, ⟨r, h4, h5, rfl⟩ | ⟨h4, s, h5, h6, rfl⟩⟩ | ⟨h2, want, h3, h4, ⟨t, h5, h6, rfl⟩ | ⟨h5, v, r, d, d', h6, h7, h8, h9, h10, rfl⟩⟩⟩)
      · exact .silent h1
      · exact .range before after v r h2 h3 h4 h5
      · exact .message before after v s h2 h3 h4 h5 h6
      · exact .text want t (fun h => by simp [h] at hempty; simp [hempty] at h1) h2 h3 h4 h5 h6
      · exact .diff want v r d d' h6 (h2 v (by simp [h6])) h3 h4 h5 h7 h8 h9 h10
    · have hne : vs ≠ [] → good.isEmpty = false := by
        intro h
        cases hg : good.isEmpty with
        | false => rfl
        | true => exact absurd (hempty.mp hg) h
      intro h
      cases h with
      | silent h => exact .inl ⟨h, rfl⟩
      | range before after v r h1 h2 h3 h4 => exact .inr ⟨hne (by simp [h1]), .inl ⟨before, v, after, h1, h2, .inl ⟨r, h3, h4, rfl⟩⟩⟩
      | message before after v s h1 h2 h3 h4 h5 => exact .inr ⟨hne (by simp [h1]), .inl ⟨before, v, after, h1, h2, .inr ⟨h3, s, h4, h5, rfl⟩⟩⟩
      | text want t h1 h2 h3 h4 h5 h6 => exact .inr ⟨hne h1, .inr ⟨h2, want, h3, h4, .inl ⟨t, h5, h6, rfl⟩⟩⟩
      | diff want v r d d' h1 h2 h3 h4 h5 h6 h7 h8 h9 =>
        exact .inr ⟨hne (by simp [h1]), .inr ⟨by simpa [h1] using h2, want, h3, h4, .inr ⟨h5, v, r, d, d', h1, h6, h7, h8, h9, rfl⟩⟩⟩
  constructor
  · rintro ⟨m, vs, good, h1, h2, h3⟩
    exact ⟨m, vs, h1, (key m vs good h2).mp h3⟩
  · rintro ⟨m, vs, h1, h3⟩
    obtain ⟨good, hg⟩ := displayed_all env _ m vs h1.shown
    exact ⟨m, vs, good, h1, hg, (key m vs good hg).mpr h3⟩

/-- **Finding.** The comparison of diffs compares a diff with itself: it can fail only for a replacement that counts as false, an empty `FlattenSentinel`, which is
shown without a diff. -/
theorem C128_diff_vacuous (path : Path) (m : Node) (vs : List (Violation Nat Repl)) (i : Invalid) (d d' : PStr)
    (h : FirstMismatch env bench path m vs i (.diff d d')) : ∃ v, vs = [v] ∧ v.replacement = some (.flatten []) ∧ d' = [] := by
  cases h with
  | diff want v r _ _ h1 h2 h3 h4 h5 h6 h7 h8 h9 =>
    refine ⟨v, h1, ?_⟩
    by_cases ht : r.truthy = true
    · have hu : (⟨v.node, v.replacement⟩ : Fix).usable = some r := by simp [Fix.usable, h6, ht]
      rw [diffViolation_eq env path m v r hu, h7] at h8
      simp only [Except.map, Except.ok.injEq, LintViolation.mk.injEq, true_and] at h8
      exact absurd h8 h9
    · have hu : (⟨v.node, v.replacement⟩ : Fix).usable = none := by simp [Fix.usable, h6, ht]
      have hd : d' = [] := by
        unfold display at h8
        rw [hu] at h8
        simp at h8
        exact h8
      refine ⟨?_, hd⟩
      rw [h6]
      cases r with
      | node n => exact absurd rfl ht
      | remove => exact absurd rfl ht
      | flatten ns => cases ns with
        | nil => rfl
        | cons a b => exact absurd rfl ht

/-- C128: code that cannot be encoded or parsed, a rule that raises while visiting and a violation whose diff cannot be made are errors of their own, not failed
assertions. -/
theorem C128_error (w : World) (t : Case) (rule : RuleInst) (e : Err) :
    (bench.encode (dedent t.code) = .error e → testMethod env bench w t rule = .error (.raised e)) ∧
    (∀ src, bench.encode (dedent t.code) = .ok src → env.parse src = .error e → testMethod env bench w t rule = .error (.raised e)) ∧
    (∀ src m, bench.encode (dedent t.code) = .ok src → env.parse src = .ok m → env.visit w.files (bench.config (t.path bench)) m [rule] = .error e →
      testMethod env bench w t rule = .error (.raised e)) ∧
    (∀ src m recorded durs before v after, bench.encode (dedent t.code) = .ok src → env.parse src = .ok m →
      env.visit w.files (bench.config (t.path bench)) m [rule] = .ok (recorded, durs) → recorded rule = before ++ v :: after →
      (∀ v' ∈ before, ∃ lv, display env (t.path bench) m v' = .ok lv) → display env (t.path bench) m v = .error e →
      testMethod env bench w t rule = .error (.raised e)) := by
  unfold testMethod
  refine ⟨fun h => ?_, fun src h1 h2 => ?_, fun src m h1 h2 h3 => ?_, fun src m recorded durs before v after h1 h2 h3 h4 h5 h6 => ?_⟩
  · simp only [h, attempt, Bind.bind, Except.bind]
  · simp only [h1, h2, attempt, Bind.bind, Except.bind]
  · simp only [h1, h2, attempt, Bind.bind, Except.bind, collectAll_eq, h3]
  · have hd : ∃ good, displayed env (t.path bench) m (before ++ v :: after) = (good, some e) := by
      clear h4
      induction before with
      | nil => exact ⟨[], by simp [displayed, h6]⟩
      | cons b bs ih =>
        obtain ⟨lv, hlv⟩ := h5 b List.mem_cons_self
        obtain ⟨good, hg⟩ := ih (fun v' hv' => h5 v' (List.mem_cons_of_mem _ hv'))
        exact ⟨lv :: good, by simp [displayed, hlv, hg]⟩
    obtain ⟨good, hg⟩ := hd
    simp only [h1, h2, attempt, Bind.bind, Except.bind, collectAll_eq, h3, h4, hg]

end

/-! A rule with two reports on `ab`: the second has another range. -/

/-- Reports the whole of the file twice, with two messages; `boom` does not parse. -/
def twiceEnv : Env Unit := { benchEnv with
  parse := fun b => if b = benchEncode (py "boom") then .error (.other 1) else .ok (benchModule (benchDecode b))
  visit := fun _ _ _ _ => .ok ((fun _ => [⟨py "R", ⟨⟨1, 0⟩, ⟨1, 1⟩⟩, py "one", 1, none⟩, ⟨py "R", ⟨⟨1, 1⟩, ⟨1, 2⟩⟩, py "two", 1, none⟩]), []) }

/-- The hypotheses of C128 are met in each way. -/
example : testMethod twiceEnv demoBench ⟨fun _ => none, []⟩ (.invalid { code := py "ab", range := some ⟨⟨1, 0⟩, ⟨1, 1⟩⟩, message := some (py "one") }) ⟨0, py "R"⟩ =
    .error (.assertion (.range ⟨⟨1, 0⟩, ⟨1, 1⟩⟩ ⟨⟨1, 1⟩, ⟨1, 2⟩⟩)) := by rfl
example : testMethod twiceEnv demoBench ⟨fun _ => none, []⟩ (.invalid { code := py "ab", message := some (py "two") }) ⟨0, py "R"⟩ =
    .error (.assertion (.message (py "two") (py "one"))) := by rfl
example : testMethod benchEnv demoBench ⟨fun _ => none, []⟩ (.invalid { code := py "  c" }) ⟨0, py "R"⟩ = .error (.assertion (.silent (py "  c"))) := by rfl
example : testMethod twiceEnv demoBench ⟨fun _ => none, []⟩ (.invalid { code := py "boom" }) ⟨0, py "R"⟩ = .error (.raised (.other 1)) := by rfl
example : ∃ a b, testMethod twiceEnv demoBench ⟨fun _ => none, []⟩ (.valid (py "ab")) ⟨0, py "R"⟩ = .error (.assertion (.reports [a, b])) ∧
    a.base.message = py "one" ∧ b.base.message = py "two" := ⟨_, _, rfl, rfl, rfl⟩

end Fixit
