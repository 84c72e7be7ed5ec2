import Verif.Props.Dedent
import Verif.Props.Violations
import Verif.Proof.Pool

/-!
# C91: what it takes for a test case to pass
-/

namespace Fixit
open Py Spec Gen

section
variable {C : Type} (env : Env C) (bench : Bench C)

theorem collectAll_eq (path : Path) (m : Node) (rule : RuleInst) (w : World) :
    collectAll env bench path m rule w = match env.visit w.files (bench.config path) m [rule] with
      | .error e => .error (.raised e)
      | .ok (recorded, _) => match displayed env path m (recorded rule) with
        | (vs, none) => .ok vs
        | (_, some e) => .error (.raised e) := by
  unfold collectAll
  generalize hg : collectViolations env path m [rule] (bench.config path) false = g
  cases hv : env.visit w.files (bench.config path) m [rule] with
  | error e =>
    have h := run_replicate () g w (g.drain () w).1.length (Nat.le_refl _)
    rw [← hg, C39_visit_raises env path m [rule] _ false _ w e hv] at h
    rw [hg] at h
    rw [← h]
  | ok rd =>
    obtain ⟨recorded, durs⟩ := rd
    generalize hD : displayed env path m (recorded rule) = D
    obtain ⟨good, err⟩ := D
    have hD' : displayed env path m ([rule].flatMap recorded) = (good, err) := by simpa using hD
    have h := run_replicate () g w ((g.drain () w).1.length + good.length) (by omega)
    have hs := drain_not_suspended () g w
    have h1 : (g.run (List.replicate ((g.drain () w).1.length + good.length) ()) w).1 = good := by
      rw [← hg, C39_yields_recorded env path m [rule] _ false recorded durs _ w hv, hD', List.take_of_length_le (by simp; omega)]
    rw [← hg, run_collect env path m [rule] _ false recorded durs _ w hv, hD'] at h
    rw [hg] at h
    rw [← h]
    simp only [loopStatus, List.length_replicate, hD]
    rw [if_neg (by omega)]
    cases err with
    | some e => rfl
    | none => simp [hookStatus]

/-- What was shown, when everything could be shown. -/
theorem displayed_ok (path : Path) (m : Node) : ∀ (vs : List (Violation Nat Repl)) (good : List LintViolation), displayed env path m vs = (good, none) →
    good.map (·.base) = vs ∧ ∀ v ∈ vs, ∃ lv, display env path m v = .ok lv
  | [], good, h => by simp [displayed] at h; simp [← h]
  | v :: vs, good, h => by
    unfold displayed at h
    cases hd : display env path m v with
    | error e => rw [hd] at h; simp at h
    | ok lv =>
      rw [hd] at h
      simp only [Prod.mk.injEq] at h
      obtain ⟨h1, h2⟩ := h
      have hb : lv.base = v := by
        unfold display at hd
        split at hd
        · cases ha : applyReplacements m [⟨v.node, v.replacement⟩] with
          | error e => rw [ha] at hd; cases hd
          | ok m' =>
            rw [ha] at hd
            simp only [Bind.bind, Except.bind] at hd
            cases hu : env.unifiedDiff (moduleCode m) (moduleCode m') path with
            | error e => rw [hu] at hd; cases hd
            | ok d => rw [hu] at hd; cases hd; rfl
        · cases hd; rfl
      have ih := displayed_ok path m vs (displayed env path m vs).1 (by rw [← h2])
      rw [← h1]
      refine ⟨by simp [hb, ih.1], ?_⟩
      intro v' hv'
      rcases List.mem_cons.mp hv' with rfl | h'
      · exact ⟨lv, hd⟩
      · exact ih.2 v' h'

theorem displayed_all (path : Path) (m : Node) : ∀ (vs : List (Violation Nat Repl)), (∀ v ∈ vs, ∃ lv, display env path m v = .ok lv) →
    ∃ good, displayed env path m vs = (good, none)
  | [], _ => ⟨[], rfl⟩
  | v :: vs, h => by
    obtain ⟨lv, hlv⟩ := h v List.mem_cons_self
    obtain ⟨good, hg⟩ := displayed_all path m vs (fun v' hv' => h v' (List.mem_cons_of_mem _ hv'))
    exact ⟨lv :: good, by simp [displayed, hlv, hg]⟩

theorem attempt_ok {α : Type} (r : Except Err α) (a : α) : attempt r = .ok a ↔ r = .ok a := by cases r <;> simp [attempt]

theorem check_ok (b : Bool) (x : Mismatch) (u : Unit) : check b x = .ok u ↔ b = true := by cases b <;> simp [check]

theorem doOk {α β : Type} (r : Except Failure α) (f : α → Except Failure β) (b : β) : (r >>= f) = .ok b ↔ ∃ a, r = .ok a ∧ f a = .ok b := by
  cases r <;> simp [Bind.bind, Except.bind]

theorem exUnit (p : Unit → Prop) : (∃ u, p u) ↔ p () := ⟨fun ⟨_, h⟩ => h, fun h => ⟨(), h⟩⟩

theorem bindErr_ok {α β : Type} (r : Except Err α) (f : α → Except Err β) (b : β) : (r >>= f) = .ok b ↔ ∃ a, r = .ok a ∧ f a = .ok b := by
  cases r <;> simp [Bind.bind, Except.bind]

theorem collectAll_ok (path : Path) (m : Node) (rule : RuleInst) (w : World) (reports : List LintViolation) :
    collectAll env bench path m rule w = .ok reports ↔ ∃ recorded durs, env.visit w.files (bench.config path) m [rule] = .ok (recorded, durs) ∧
      displayed env path m (recorded rule) = (reports, none) := by
  rw [collectAll_eq]
  cases hv : env.visit w.files (bench.config path) m [rule] with
  | error e => simp
  | ok rd =>
    obtain ⟨recorded, durs⟩ := rd
    simp only [Except.ok.injEq, Prod.mk.injEq]
    cases hd : displayed env path m (recorded rule) with
    | mk good err =>
      cases err with
      | none =>
        simp only [Except.ok.injEq]
        constructor
        · rintro rfl; exact ⟨recorded, durs, ⟨rfl, rfl⟩, hd⟩
        · rintro ⟨_, _, ⟨rfl, rfl⟩, h⟩; rw [hd] at h; simpa using h
      | some e =>
        simp only [reduceCtorEq, false_iff]
        rintro ⟨_, _, ⟨rfl, rfl⟩, h⟩
        rw [hd] at h; simp at h

theorem testMethod_ok (w : World) (t : Case) (rule : RuleInst) (rest : List LintViolation → Node → Prop)
    (hrest : ∀ m reports, (match t with | .valid _ => check reports.isEmpty (.reports reports) | .invalid i => (do
      check (!reports.isEmpty) (.silent i.code); checkReports i reports; checkReplacement env bench i (t.path bench) m reports)) = .ok () ↔ rest reports m) :
    testMethod env bench w t rule = .ok () ↔ ∃ m vs good, Linted env bench w (t.path bench) t.code rule m vs ∧ displayed env (t.path bench) m vs = (good, none) ∧ rest good m := by
  unfold testMethod
  simp only [doOk, attempt_ok, collectAll_ok]
  constructor
  · rintro ⟨src, h1, m, h2, reports, ⟨recorded, durs, h3, h4⟩, h5⟩
    exact ⟨m, recorded rule, reports, ⟨⟨src, recorded, durs, h1, h2, h3, rfl⟩, (displayed_ok env _ m _ _ h4).2⟩, h4, (hrest m reports).mp h5⟩
  · rintro ⟨m, vs, good, ⟨⟨src, recorded, durs, h1, h2, h3, rfl⟩, _⟩, h4, h5⟩
    exact ⟨src, h1, m, h2, good, ⟨recorded, durs, h3, h4⟩, (hrest m good).mpr h5⟩

/-- C91: a `VALID` case passes exactly when its code is linted and the rule reports nothing. -/
theorem C91_valid (w : World) (code : PStr) (rule : RuleInst) :
    testMethod env bench w (.valid code) rule = .ok () ↔ ∃ m, Linted env bench w (bench.cwd ++ [py "valid.py"]) code rule m [] := by
  rw [testMethod_ok env bench w (.valid code) rule (fun good _ => good = []) (fun m reports => by simp [check_ok])]
  constructor
  · rintro ⟨m, vs, good, h1, h2, rfl⟩
    have := (displayed_ok env _ m _ _ h2).1
    simp only [List.map_nil] at this
    subst this
    exact ⟨m, h1⟩
  · rintro ⟨m, h⟩
    exact ⟨m, [], [], h, rfl, rfl⟩

theorem checkReports_ok (i : Invalid) : ∀ good : List LintViolation,
    checkReports i good = .ok () ↔ ∀ v ∈ good, (∀ r, i.range = some r → v.base.range = r) ∧ ∀ s, i.message = some s → v.base.message = s
  | [] => by simp [checkReports]
  | v :: vs => by
    simp only [checkReports, doOk, exUnit, checkReports_ok i vs, List.forall_mem_cons]
    cases hr : i.range <;> cases hm : i.message <;> simp only [check_ok, decide_eq_true_eq] <;> simp [eq_comm, and_assoc]

theorem checkDiff_ok (path : Path) (m : Node) (vs : List (Violation Nat Repl)) (good : List LintViolation) (hd : displayed env path m vs = (good, none)) :
    checkDiff env bench path m good = .ok () ↔
      ∀ v, vs = [v] → ∃ r d, v.replacement = some r ∧ diffViolation env path m v.node r = .ok d ∧ display env path m v = .ok ⟨v, d⟩ := by
  have hb := (displayed_ok env path m vs good hd).1
  match good, hb with
  | [], hb => simp only [List.map_nil] at hb; subst hb; simp [checkDiff]
  | [g], hb =>
    simp only [List.map_cons, List.map_nil] at hb
    subst hb
    have hg : display env path m g.base = .ok g := by
      unfold displayed at hd
      cases h : display env path m g.base with
      | error e => rw [h] at hd; simp at hd
      | ok lv => rw [h] at hd; simp [displayed] at hd; rw [hd]
    simp only [checkDiff, doOk, attempt_ok, check_ok, decide_eq_true_eq, List.cons.injEq, and_true, diffAgain]
    constructor
    · rintro ⟨d, h1, h2⟩ v rfl
      cases hr : g.base.replacement with
      | none => rw [hr] at h1; cases h1
      | some r => rw [hr] at h1; exact ⟨r, d, rfl, h1, by rw [hg, h2]⟩
    · intro h
      obtain ⟨r, d, h1, h2, h3⟩ := h g.base rfl
      rw [hg] at h3
      refine ⟨d, by rw [h1]; exact h2, ?_⟩
      simp only [Except.ok.injEq] at h3
      rw [h3]
  | g :: g' :: gs, hb => simp only [List.map_cons] at hb; subst hb; simp [checkDiff]

theorem map_fix (good : List LintViolation) : good.map LintViolation.fix = (good.map (·.base)).map (fun v => ⟨v.node, v.replacement⟩) := by
  rw [List.map_map]; rfl

/-- C91: an `INVALID` case passes exactly when its code is linted, the rule reports something, every report has the expected range and message (as far as the case
says), and, if the case has a replacement that is not empty, the fixes give that text. -/
theorem C91_invalid (w : World) (i : Invalid) (rule : RuleInst) :
    testMethod env bench w (.invalid i) rule = .ok () ↔ ∃ m vs, Linted env bench w (bench.cwd ++ [py "invalid.py"]) i.code rule m vs ∧ vs ≠ [] ∧
      (∀ v ∈ vs, (∀ r, i.range = some r → v.range = r) ∧ ∀ s, i.message = some s → v.message = s) ∧
      ∀ text, i.replacement = some text → text ≠ [] → FixExpected env bench (bench.cwd ++ [py "invalid.py"]) m vs text := by
  rw [testMethod_ok env bench w (.invalid i) rule
    (fun good m => good ≠ [] ∧ checkReports i good = .ok () ∧ checkReplacement env bench i (bench.cwd ++ [py "invalid.py"]) m good = .ok ())
    (fun m reports => by simp only [doOk, exUnit, check_ok]; simp [Case.path])]
  have hpath : Case.path bench (.invalid i) = bench.cwd ++ [py "invalid.py"] := rfl
  have hcode : Case.code (.invalid i) = i.code := rfl
  rw [hpath, hcode]
  have key : ∀ m vs good, displayed env (bench.cwd ++ [py "invalid.py"]) m vs = (good, none) →
      ((good ≠ [] ∧ checkReports i good = .ok () ∧ checkReplacement env bench i (bench.cwd ++ [py "invalid.py"]) m good = .ok ()) ↔
        (vs ≠ [] ∧ (∀ v ∈ vs, (∀ r, i.range = some r → v.range = r) ∧ ∀ s, i.message = some s → v.message = s) ∧
          ∀ text, i.replacement = some text → text ≠ [] → FixExpected env bench (bench.cwd ++ [py "invalid.py"]) m vs text)) := by
    intro m vs good hd
    have hb := (displayed_ok env _ m vs good hd).1
    have e1 : good ≠ [] ↔ vs ≠ [] := by rw [← hb]; simp
    have e2 : checkReports i good = .ok () ↔ ∀ v ∈ vs, (∀ r, i.range = some r → v.range = r) ∧ ∀ s, i.message = some s → v.message = s := by
      rw [checkReports_ok, ← hb]
      simp only [List.mem_map]
      constructor
      · rintro h v ⟨g, hg, rfl⟩; exact h g hg
      · intro h g hg; exact h _ ⟨g, hg, rfl⟩
    have e3 : checkReplacement env bench i (bench.cwd ++ [py "invalid.py"]) m good = .ok () ↔
        ∀ text, i.replacement = some text → text ≠ [] → FixExpected env bench (bench.cwd ++ [py "invalid.py"]) m vs text := by
      unfold checkReplacement
      cases hr : i.replacement with
      | none => simp
      | some text =>
        cases text with
        | nil => simp
        | cons c cs =>
          simp only [doOk, attempt_ok, check_ok, decide_eq_true_eq, checkDiff_ok env bench _ m vs good hd, Option.some.injEq]
          have e4 : ∀ text, fixedText env bench m good = .ok text ↔ ∃ m' b, applyReplacements m (vs.map (fun v => ⟨v.node, v.replacement⟩)) = .ok m' ∧
              env.bytes m' = .ok b ∧ bench.decode b = .ok text := by
            intro text
            unfold fixedText
            rw [map_fix, hb]
            simp only [bindErr_ok]
            constructor
            · rintro ⟨m', h1, b, h2, h3⟩; exact ⟨m', b, h1, h2, h3⟩
            · rintro ⟨m', b, h1, h2, h3⟩; exact ⟨m', h1, b, h2, h3⟩
          constructor
          · rintro ⟨text, h1, -, h2, h3⟩ text' rfl -
            subst h2
            exact ⟨(e4 _).mp h1, h3⟩
          · intro h
            obtain ⟨h1, h2⟩ := h _ rfl (by simp)
            exact ⟨_, (e4 _).mpr h1, (), rfl, h2⟩
    rw [e1, e2, e3]
  constructor
  · rintro ⟨m, vs, good, h1, h2, h3⟩
    exact ⟨m, vs, h1, (key m vs good h2).mp h3⟩
  · rintro ⟨m, vs, h1, h3⟩
    obtain ⟨good, hg⟩ := displayed_all env _ m vs h1.shown
    exact ⟨m, vs, good, h1, hg, (key m vs good hg).mpr h3⟩

/-- **Finding.** A replacement that is the empty string is not looked at: a case that says "the fix deletes everything" passes whatever the fix is. -/
theorem C91_empty_replacement (w : World) (i : Invalid) (rule : RuleInst) :
    testMethod env bench w (.invalid { i with replacement := some [] }) rule = testMethod env bench w (.invalid { i with replacement := none }) rule := by
  have h : ∀ good, checkReports { i with replacement := some [] } good = checkReports { i with replacement := none } good := by
    intro good
    induction good with
    | nil => rfl
    | cons g gs ih => simp only [checkReports, ih]
  unfold testMethod
  simp only [h]
  rfl

end
end Fixit
