import Verif.Spec.Cli
import Verif.Props.Paths
import Verif.Props.Refs

/-!
# C55, C56: `lint`; C79: `print_result`
-/

namespace Spec

theorem Lists.congr {A : Type} {l : List A} {P Q : A → Prop} (h : Lists l P) (e : ∀ a, P a ↔ Q a) : Lists l Q :=
  ⟨h.1, fun a => (h.mem a).trans (e a)⟩

end Spec

namespace Fixit
open Py Py.Gen Spec

variable {C : Type} (env : Env C) (con : Console) (walk : (Path → Option Bytes) → Path → Except Err (List Path))

/-! ## C79 -/

/-- **C79** `print_result` raises only where a custom template does. -/
theorem C79_raises (showDiff stderr : Bool) (fmt : OutputFormat) (template : Toml) (r : Result) (e : Err) :
    printResult con showDiff stderr fmt template r = .error e →
      fmt = .custom ∧ ∃ v args, r.violation = some v ∧ con.format template args = .error e := by
  unfold printResult
  cases hv : r.violation with
  | none => cases he : r.error <;> simp
  | some v =>
    cases fmt with
    | fixit => simp [violationLine]
    | vscode => simp [violationLine]
    | custom =>
      simp only [violationLine]
      intro h
      split at h
      · rename_i e' he
        cases h
        exact ⟨trivial, v, _, rfl, he⟩
      · cases h

/-- **C79** Otherwise it says whether there is a violation or an error, and prints something exactly then. -/
theorem C79_dirty (showDiff stderr : Bool) (fmt : OutputFormat) (template : Toml) (r : Result) (outs : List Out) (d : Bool)
    (h : printResult con showDiff stderr fmt template r = .ok (outs, d)) : (d = true ↔ Dirty r) ∧ (outs = [] ↔ ¬ Dirty r) := by
  unfold printResult at h
  unfold Dirty
  cases hv : r.violation with
  | none =>
    rw [hv] at h
    cases he : r.error with
    | none => simp [he] at h; obtain ⟨rfl, rfl⟩ := h; simp
    | some e => simp [he] at h; obtain ⟨rfl, rfl⟩ := h; simp
  | some v =>
    rw [hv] at h
    simp only at h
    split at h
    · cases h
    · simp at h; obtain ⟨rfl, rfl⟩ := h; simp

/-- **C79** A violation is printed as one line, on the stream asked for, then its diff if asked for and there is one; the diff always goes to standard output. -/
theorem C79_violation (showDiff stderr : Bool) (fmt : OutputFormat) (template : Toml) (r : Result) (v : LintViolation) (outs : List Out) (d : Bool)
    (hv : r.violation = some v) (h : printResult con showDiff stderr fmt template r = .ok (outs, d)) :
    ∃ line, outs = ⟨stderr, line ++ py "\n"⟩ :: (if showDiff = true ∧ v.diff ≠ [] then [⟨false, v.diff⟩] else []) ∧
      (fmt = .fixit → line = displayPath con.cwd r.path ++ py "@" ++ (toString v.base.range.start.line).toList ++ py ":" ++ (toString v.base.range.start.column).toList ++
        py " " ++ v.base.ruleName ++ py ": " ++ v.base.message ++ (if v.autofixable then py " (has autofix)" else [])) ∧
      (fmt = .vscode → line = displayPath con.cwd r.path ++ py ":" ++ (toString v.base.range.start.line).toList ++ py ":" ++ (toString v.base.range.start.column).toList ++
        py " " ++ v.base.ruleName ++ py ": " ++ v.base.message ++ (if v.autofixable then py " (has autofix)" else [])) ∧
      (fmt = .custom → con.format template ⟨v.base.message ++ (if v.autofixable then py " (has autofix)" else []), displayPath con.cwd r.path, r, v.base.ruleName,
        v.base.range.start.column, v.base.range.start.line⟩ = .ok line) := by
  unfold printResult at h
  rw [hv] at h
  simp only at h
  have hm : displayMessage v = v.base.message ++ (if v.autofixable then py " (has autofix)" else []) := by
    unfold displayMessage; split <;> simp
  have hd : printDiff showDiff v.diff = if showDiff = true ∧ v.diff ≠ [] then [⟨false, v.diff⟩] else [] := by
    unfold printDiff
    cases showDiff <;> cases v.diff <;> simp
  split at h
  · cases h
  · rename_i line hl
    simp only [Except.ok.injEq, Prod.mk.injEq] at h
    refine ⟨line, by rw [← h.1, hd]; rfl, ?_, ?_, ?_⟩
    · rintro rfl
      simp only [violationLine, hm, Except.ok.injEq] at hl
      rw [← hl]; simp [natStr, List.append_assoc]
    · rintro rfl
      simp only [violationLine, hm, Except.ok.injEq] at hl
      rw [← hl]; simp [natStr, List.append_assoc]
    · rintro rfl
      simpa only [violationLine, hm] using hl

/-- **C79** An error is printed with its text and traceback, on the stream asked for. -/
theorem C79_error (showDiff stderr : Bool) (fmt : OutputFormat) (template : Toml) (r : Result) (e : Err) (hv : r.violation = none) (he : r.error = some e) :
    printResult con showDiff stderr fmt template r = .ok ([⟨stderr, displayPath con.cwd r.path ++ py ": EXCEPTION: " ++ con.errorText e ++ py "\n"⟩,
      ⟨stderr, strip (con.traceback e) ++ py "\n"⟩], true) := by
  simp [printResult, hv, he, echoLine]

/-- A proper component of an absolute path. -/
def Component (c : PStr) : Prop := c ≠ [] ∧ c ≠ py "." ∧ c ≠ py ".." ∧ '/' ∉ c

theorem foldl_resolveStep (cs : List PStr) (hc : ∀ c ∈ cs, Component c) : ∀ acc : Path, cs.foldl resolveStep acc = acc ++ cs := by
  induction cs with
  | nil => intro acc; simp
  | cons c cs ih =>
    intro acc
    obtain ⟨h1, h2, h3, -⟩ := hc c (by simp)
    have : resolveStep acc c = acc ++ [c] := by
      unfold resolveStep
      rw [if_neg (by rintro (h | h); exact h1 h; exact h2 h), if_neg h3]
    rw [List.foldl_cons, this, ih (fun c hc' => hc c (by simp [hc']))]
    simp

/-- **C79** The path printed, seen from the current directory, is the path of the file. -/
theorem C79_path (cwd path : Path) (hp : ∀ c ∈ path, Component c) : resolveFrom cwd (displayPath cwd path) = path := by
  have hns : ∀ (cs : List PStr), (∀ c ∈ cs, Component c) → cs ≠ [] → splitOn '/' (join (py "/") cs) = cs ∧ startsWith (join (py "/") cs) ['/'] = false := by
    intro cs hcs hne
    refine ⟨splitOn_join '/' cs hne (fun c hc => (hcs c hc).2.2.2), ?_⟩
    cases cs with
    | nil => exact absurd rfl hne
    | cons c cs =>
      obtain ⟨h1, -, -, h4⟩ := hcs c (by simp)
      cases c with
      | nil => exact absurd rfl h1
      | cons x xs =>
        have hx : '/' ≠ x := fun h => h4 (by rw [h]; simp)
        cases cs <;> simp [join, startsWith, List.isPrefixOf, hx]
  unfold displayPath
  by_cases hu : path.under cwd = true
  · rw [if_pos hu]
    have hpre : cwd <+: path := by simpa [Path.under] using hu
    obtain ⟨rest, rfl⟩ := hpre
    rw [List.drop_left]
    unfold resolveFrom relStr
    cases hr : rest with
    | nil =>
      simp [splitOn, resolveStep, startsWith, List.isPrefixOf]
    | cons c cs =>
      rw [← hr]
      have hc : ∀ c ∈ rest, Component c := fun c hc => hp c (by simp [hc])
      obtain ⟨h1, h2⟩ := hns rest hc (by simp [hr])
      have hie : rest.isEmpty = false := by rw [hr]; rfl
      rw [hie]
      simp only [Bool.false_eq_true, if_false]
      rw [h1, h2]
      simp only [Bool.false_eq_true, if_false]
      rw [foldl_resolveStep rest hc]
  · rw [if_neg hu]
    unfold resolveFrom absStr
    have hstart : startsWith (py "/" ++ join (py "/") path) ['/'] = true := by simp [startsWith, List.isPrefixOf]
    have hsplit : splitOn '/' (py "/" ++ join (py "/") path) = [] :: splitOn '/' (join (py "/") path) := by simp [splitOn]
    rw [hstart, hsplit, if_pos rfl, List.foldl_cons]
    have h0 : resolveStep [] [] = [] := by simp [resolveStep]
    rw [h0]
    cases hq : path with
    | nil => simp [join, splitOn, resolveStep]
    | cons c cs =>
      rw [← hq, (hns path hp (by simp [hq])).1, foldl_resolveStep path hp]
      simp

/-! ## The summary -/

theorem splash_summary (visited dirty : List Path) (autofixes fixed : Nat) :
    splash visited dirty autofixes fixed = ⟨true, summary visited.length dirty.length autofixes fixed⟩ := by
  unfold splash summary echoLine counted fileWord fixWord natStr
  cases hd : dirty with
  | nil => simp
  | cons p ps =>
    by_cases h1 : autofixes = 0 <;> by_cases h2 : fixed = 0 <;> by_cases h3 : autofixes = 1 <;> by_cases h4 : fixed = 1 <;>
      simp_all [join]

theorem pathAdd_lists (x : Path) (s : List Path) (P : Path → Prop) (h : Lists s P) : Lists (pathAdd x s) (fun q => P q ∨ q = x) := by
  obtain ⟨h1, h2⟩ := h
  unfold pathAdd
  split
  · rename_i hm
    refine ⟨h1, fun a => ?_⟩
    rw [h2]
    constructor
    · exact Or.inl
    · rintro (h | rfl)
      · exact h
      · exact (h2 a).mp hm
  · rename_i hm
    refine ⟨?_, fun a => ?_⟩
    · rw [List.nodup_append]
      exact ⟨h1, by simp, by rintro a ha b hb rfl; simp at hb; subst hb; exact hm ha⟩
    · simp [h2]

/-! ## C55, C56 -/

theorem bits_or (a b c d : Prop) [Decidable a] [Decidable b] [Decidable c] [Decidable d] :
    ((if a then 1 else 0) ||| (if b then 2 else 0)) ||| ((if c then 1 else 0) ||| (if d then 2 else 0)) =
      ((if a ∨ c then 1 else 0) ||| (if b ∨ d then 2 else 0) : Nat) := by
  by_cases a <;> by_cases b <;> by_cases c <;> by_cases d <;> simp [*]

theorem bits_add (a b : Prop) [Decidable a] [Decidable b] : ((if a then 1 else 0) ||| (if b then 2 else 0) : Nat) = (if a then 1 else 0) + (if b then 2 else 0) := by
  by_cases a <;> by_cases b <;> simp [*]

theorem bits_read (a b : Prop) [Decidable a] [Decidable b] :
    (((if a then 1 else 0) + (if b then 2 else 0)) % 2 = 1 ↔ a) ∧ (((if a then 1 else 0) + (if b then 2 else 0)) / 2 = 1 ↔ b) ∧
    ((if a then 1 else 0) + (if b then 2 else 0) = 0 ↔ ¬ a ∧ ¬ b) ∧ ((if a then 1 else 0) + (if b then 2 else 0) : Nat) < 4 := by
  by_cases a <;> by_cases b <;> simp [*]

/-- The variables of the loop after the results `rs`. -/
structure Counted (t t' : Tally) (P Q : Path → Prop) (rs : List Result) : Prop where
  code : t'.exitCode = t.exitCode ||| ((if ∃ r ∈ rs, r.violation ≠ none then 1 else 0) ||| (if ∃ r ∈ rs, r.error ≠ none then 2 else 0))
  visited : Lists t'.visited (fun q => P q ∨ ∃ r ∈ rs, r.path = q)
  dirty : Lists t'.dirty (fun q => Q q ∨ ∃ r ∈ rs, r.path = q ∧ Dirty r)
  autofixes : t'.autofixes = t.autofixes + (rs.filter Result.fixable).length
  fixed : t'.fixed = t.fixed

theorem fixable_dirty (r : Result) (h : r.fixable = true) : Dirty r := by
  unfold Result.fixable at h
  cases hv : r.violation with
  | none => rw [hv] at h; cases h
  | some v => left; rw [hv]; simp

theorem lintLoop_counted (diff : Bool) (fmt : OutputFormat) (template : Toml) : ∀ (rs : List Result) (t t' : Tally) (P Q : Path → Prop),
    Lists t.visited P → Lists t.dirty Q → (lintLoop con diff fmt template rs t).2 = .ok t' → Counted t t' P Q rs
  | [], t, t', P, Q, hP, hQ, h => by
    simp only [lintLoop, Except.ok.injEq] at h
    subst h
    exact ⟨by simp, hP.congr (by simp), hQ.congr (by simp), by simp, rfl⟩
  | r :: rs, t, t', P, Q, hP, hQ, h => by
    simp only [lintLoop] at h
    split at h
    · cases h
    · rename_i outs d hpr
      have hd := (C79_dirty con diff false fmt template r outs d hpr).1
      have hP' : Lists (t.lint r d).visited (fun q => P q ∨ q = r.path) := by
        have : (t.lint r d).visited = pathAdd r.path t.visited := by
          unfold Tally.lint
          cases d <;> cases r.violation.isSome <;> cases r.error.isSome <;> rfl
        rw [this]; exact pathAdd_lists _ _ _ hP
      have hQ' : Lists (t.lint r d).dirty (fun q => Q q ∨ (q = r.path ∧ Dirty r)) := by
        by_cases hdt : d = true
        · have : (t.lint r d).dirty = pathAdd r.path t.dirty := by
            unfold Tally.lint
            rw [hdt]
            cases r.violation.isSome <;> cases r.error.isSome <;> rfl
          rw [this]
          exact (pathAdd_lists _ _ _ hQ).congr (fun a => by simp [hd.mp hdt])
        · have : (t.lint r d).dirty = t.dirty := by
            unfold Tally.lint
            simp [hdt]
          rw [this]
          exact hQ.congr (fun a => by simp [mt hd.mpr hdt])
      have ih := lintLoop_counted diff fmt template rs (t.lint r d) t' _ _ hP' hQ' h
      have hcode : (t.lint r d).exitCode = t.exitCode ||| ((if r.violation ≠ none then 1 else 0) ||| (if r.error ≠ none then 2 else 0)) := by
        unfold Tally.lint
        by_cases hdt : d = true
        · cases hv : r.violation <;> cases he : r.error <;> simp [hdt, Nat.or_assoc]
        · have := mt hd.mpr hdt
          simp only [Dirty, not_or, Decidable.not_not, ne_eq] at this
          simp [hdt, this.1, this.2]
      have hauto : (t.lint r d).autofixes = t.autofixes + (if r.fixable then 1 else 0) := by
        by_cases hf : r.fixable = true
        · have hdt : d = true := hd.mpr (fixable_dirty r hf)
          have hv : r.violation.isSome = true := by
            cases hv : r.violation with
            | none => simp [Result.fixable, hv] at hf
            | some v => rfl
          unfold Tally.lint
          cases r.error.isSome <;> simp [hdt, hf, hv]
        · unfold Tally.lint
          cases d <;> cases r.violation.isSome <;> cases r.error.isSome <;> simp [hf]
      have hfix : (t.lint r d).fixed = t.fixed := by
        unfold Tally.lint
        cases d <;> cases r.violation.isSome <;> cases r.error.isSome <;> rfl
      refine ⟨?_, ?_, ?_, ?_, by rw [ih.fixed, hfix]⟩
      · rw [ih.code, hcode, Nat.or_assoc]
        congr 1
        simp only [List.mem_cons, exists_eq_or_imp]
        exact bits_or _ _ _ _
      · refine ih.visited.congr (fun a => ?_)
        simp only [List.mem_cons, exists_eq_or_imp, or_assoc]
        rw [eq_comm (a := a)]
      · refine ih.dirty.congr (fun a => ?_)
        simp only [List.mem_cons, exists_eq_or_imp, or_assoc]
        rw [eq_comm (a := a)]
      · rw [ih.autofixes, hauto, List.filter_cons]
        split <;> simp <;> omega

theorem lintLoop_printed (diff : Bool) (fmt : OutputFormat) (template : Toml) : ∀ (rs : List Result) (t t' : Tally),
    (lintLoop con diff fmt template rs t).2 = .ok t' →
    ∃ blocks, rs.mapM (fun r => (printResult con diff false fmt template r).map (·.1)) = .ok blocks ∧ (lintLoop con diff fmt template rs t).1 = blocks.flatten
  | [], t, t', h => ⟨[], rfl, rfl⟩
  | r :: rs, t, t', h => by
    simp only [lintLoop] at h ⊢
    split at h
    · cases h
    · rename_i outs d hpr
      obtain ⟨blocks, h1, h2⟩ := lintLoop_printed diff fmt template rs _ t' h
      refine ⟨outs :: blocks, ?_, by rw [h2]; rfl⟩
      rw [List.mapM_cons, hpr, h1]
      rfl

/-- What a `fixit lint` that exits has seen. -/
theorem lint_exit (diff hook : Bool) (cfg : Except Err (OutputFormat × Toml)) (paths : List Path) (w w' : World) (outs : List Out) (code : Nat)
    (h : LintRun env con walk diff hook cfg paths w (outs, .exit code, w')) :
    ∃ n rs fmt template t printed, cfg = .ok (fmt, template) ∧
      PathsRun env walk false hook true (defaultPaths con paths) (List.replicate n none) w (rs, .returned (), w') ∧
      lintLoop con diff fmt template rs {} = (printed, .ok t) ∧ code = t.exitCode ∧ outs = printed ++ [splash t.visited t.dirty t.autofixes t.fixed] ∧
      Counted {} t (fun _ => False) (fun _ => False) rs := by
  generalize ho : (outs, Ending.exit code, w') = out at h
  cases h with
  | badConfig e _ => simp at ho
  | ran fmt template n rs st w'' hc hr _ =>
    simp only [Prod.mk.injEq] at ho
    obtain ⟨h1, h2, h3⟩ := ho
    subst h3 hc
    unfold lintCommand at h1 h2
    simp only at h1 h2
    cases hl : lintLoop con diff fmt template rs {} with
    | mk printed r =>
      cases r with
      | error e => rw [hl] at h2; simp at h2
      | ok t =>
        rw [hl] at h1 h2
        cases st with
        | raised e => simp at h2
        | suspended => simp at h2
        | returned u =>
          simp only [Ending.exit.injEq] at h1 h2
          exact ⟨n, rs, fmt, template, t, printed, rfl, hr, hl, h2, h1,
            lintLoop_counted con diff fmt template rs {} t _ _ ⟨List.nodup_nil, by simp⟩ ⟨List.nodup_nil, by simp⟩ (by rw [hl])⟩

/-- **C55** When `fixit lint` exits, its status is 1 if there was a violation, plus 2 if there was an error, among the results of `fixit_paths`. -/
theorem C55_exit_status (diff hook : Bool) (cfg : Except Err (OutputFormat × Toml)) (paths : List Path) (w w' : World) (outs : List Out) (code : Nat)
    (h : LintRun env con walk diff hook cfg paths w (outs, .exit code, w')) :
    ∃ n rs, PathsRun env walk false hook true (if paths = [] then [con.cwd] else paths) (List.replicate n none) w (rs, .returned (), w') ∧
      code = (if ∃ r ∈ rs, r.violation ≠ none then 1 else 0) + (if ∃ r ∈ rs, r.error ≠ none then 2 else 0) := by
  obtain ⟨n, rs, fmt, template, t, printed, -, hr, -, hc, -, ht⟩ := lint_exit env con walk diff hook cfg paths w w' outs code h
  refine ⟨n, rs, by simpa [defaultPaths] using hr, ?_⟩
  rw [hc, ht.code, bits_add]
  simp

/-- **C55** For files: whatever the pool's schedule, bit 1 is set exactly when some file has a violation, bit 2 exactly when linting some file has an error,
and the status is 0 exactly when every file is reported clean. -/
theorem C55_exit_status_files (diff hook : Bool) (cfg : Except Err (OutputFormat × Toml)) (paths : List Path) (w w' : World) (outs : List Out) (code : Nat)
    (fs : List Path) (hh : (if paths = [] then [con.cwd] else paths).head? ≠ some [py "-"])
    (hf : filesUnder (walk w.files) ((if paths = [] then [con.cwd] else paths).filter (· ≠ [py "-"])) = .ok fs)
    (h : LintRun env con walk diff hook cfg paths w (outs, .exit code, w')) :
    (code % 2 = 1 ↔ ∃ p ∈ fs, ∃ v, Spec.reporting (env.resolve p) v ∈ (alone env false hook w p).1) ∧
    (code / 2 = 1 ↔ ∃ p ∈ fs, ∃ e, Spec.errorResult (env.resolve p) e ∈ (alone env false hook w p).1) ∧
    (code = 0 ↔ ∀ p ∈ fs, (alone env false hook w p).1 = [Spec.cleanResult (env.resolve p)]) ∧ code < 4 := by
  obtain ⟨n, rs, hr, hc⟩ := C55_exit_status env con walk diff hook cfg paths w w' outs code h
  obtain ⟨⟨order, hperm, -, hrs⟩, -⟩ := C51_lint_any_schedule env walk hook true _ n w w' rs fs hh hf hr
  have hmem : ∀ r, r ∈ rs ↔ ∃ p ∈ fs, r ∈ (alone env false hook w p).1 := by
    intro r
    rw [hrs, List.mem_flatMap]
    exact ⟨fun ⟨p, hp, h⟩ => ⟨p, hperm.mem_iff.mp hp, h⟩, fun ⟨p, hp, h⟩ => ⟨p, hperm.mem_iff.mpr hp, h⟩⟩
  have hshape : ∀ p, (∃ k, (alone env false hook w p).1 = ((foundIn env w.files (env.resolve p)).take k).map (reporting (env.resolve p)) ∧ k ≤ (foundIn env w.files (env.resolve p)).length) ∨
      (alone env false hook w p).1 = [cleanResult (env.resolve p)] ∨
      ∃ e, (alone env false hook w p).1 = (foundIn env w.files (env.resolve p)).map (reporting (env.resolve p)) ++ [errorResult (env.resolve p) e] := by
    intro p
    have h1 := run_replicate none (fixitFile env p false hook) w _ (Nat.le_refl _)
    have h2 := C44_result_shape env p false hook (List.replicate (drain none (fixitFile env p false hook) w).1.length none) w
    simp only [h1] at h2
    rcases h2 with h2 | h2 | h2
    · exact Or.inl h2
    · exact Or.inr (Or.inl h2.2)
    · exact Or.inr (Or.inr h2)
  have hv : (∃ r ∈ rs, r.violation ≠ none) ↔ ∃ p ∈ fs, ∃ v, reporting (env.resolve p) v ∈ (alone env false hook w p).1 := by
    constructor
    · rintro ⟨r, hr, hne⟩
      obtain ⟨p, hp, hm⟩ := (hmem r).mp hr
      refine ⟨p, hp, ?_⟩
      rcases hshape p with ⟨k, hs, -⟩ | hs | ⟨e, hs⟩
      · rw [hs] at hm ⊢
        obtain ⟨v, hv, rfl⟩ := List.mem_map.mp hm
        exact ⟨v, hm⟩
      · rw [hs] at hm; simp at hm; subst hm; exact absurd rfl hne
      · rw [hs] at hm ⊢
        rcases List.mem_append.mp hm with hm' | hm'
        · obtain ⟨v, hv, rfl⟩ := List.mem_map.mp hm'
          exact ⟨v, hm⟩
        · simp at hm'; subst hm'; exact absurd rfl hne
    · rintro ⟨p, hp, v, hv⟩
      exact ⟨_, (hmem _).mpr ⟨p, hp, hv⟩, by simp [reporting]⟩
  have he : (∃ r ∈ rs, r.error ≠ none) ↔ ∃ p ∈ fs, ∃ e, errorResult (env.resolve p) e ∈ (alone env false hook w p).1 := by
    constructor
    · rintro ⟨r, hr, hne⟩
      obtain ⟨p, hp, hm⟩ := (hmem r).mp hr
      refine ⟨p, hp, ?_⟩
      rcases hshape p with ⟨k, hs, -⟩ | hs | ⟨e, hs⟩
      · rw [hs] at hm
        obtain ⟨v, hv, rfl⟩ := List.mem_map.mp hm
        exact absurd rfl hne
      · rw [hs] at hm; simp at hm; subst hm; exact absurd rfl hne
      · exact ⟨e, by rw [hs]; simp⟩
    · rintro ⟨p, hp, e, he⟩
      exact ⟨_, (hmem _).mpr ⟨p, hp, he⟩, by simp [errorResult]⟩
  have h0 : (¬ (∃ r ∈ rs, r.violation ≠ none) ∧ ¬ (∃ r ∈ rs, r.error ≠ none)) ↔ ∀ p ∈ fs, (alone env false hook w p).1 = [cleanResult (env.resolve p)] := by
    constructor
    · rintro ⟨n1, n2⟩ p hp
      rcases hshape p with ⟨k, hs, hk⟩ | hs | ⟨e, hs⟩
      · -- without a violation or an error, the single file run would be empty
        exfalso
        have hne : (alone env false hook w p).1 ≠ [] := by
          have h1 := run_replicate none (fixitFile env p false hook) w _ (Nat.le_refl _)
          have h2 := alone_returns env false hook w p
          have h3 := C44_clean_or_violations env p false hook (List.replicate (drain none (fixitFile env p false hook) w).1.length none) w
            (alone env false hook w p).2.2 (alone env false hook w p).1 (by rw [h1]; exact Prod.ext rfl (Prod.ext h2 rfl))
            (by
              intro r hr
              rw [hs] at hr
              obtain ⟨v, hv, rfl⟩ := List.mem_map.mp hr
              rfl)
          intro hnil
          by_cases hf0 : foundIn env w.files (env.resolve p) = []
          · have := h3.1 hf0; rw [hnil] at this; cases this
          · have := h3.2 hf0
            rw [hnil] at this
            exact hf0 (by simpa using this.symm)
        cases hl : (alone env false hook w p).1 with
        | nil => exact hne hl
        | cons r l =>
          have hr : r ∈ (alone env false hook w p).1 := by rw [hl]; simp
          refine n1 ⟨r, (hmem r).mpr ⟨p, hp, hr⟩, ?_⟩
          rw [hs] at hr
          obtain ⟨v, hv, rfl⟩ := List.mem_map.mp hr
          simp [reporting]
      · exact hs
      · exact absurd ⟨_, (hmem (errorResult (env.resolve p) e)).mpr ⟨p, hp, by rw [hs]; simp⟩, by simp [errorResult]⟩ n2
    · intro hall
      refine ⟨?_, ?_⟩
      · rintro ⟨r, hr, hne⟩
        obtain ⟨p, hp, hm⟩ := (hmem r).mp hr
        rw [hall p hp] at hm; simp at hm; subst hm; exact hne rfl
      · rintro ⟨r, hr, hne⟩
        obtain ⟨p, hp, hm⟩ := (hmem r).mp hr
        rw [hall p hp] at hm; simp at hm; subst hm; exact hne rfl
  rw [← hv, ← he, ← h0, hc]
  exact bits_read _ _

/-- **C56** The last thing `fixit lint` prints when it exits is the summary, on standard error: the numbers of distinct files visited and of distinct files with a
violation or an error, and of violations with a fix. Before it, every result was printed, in order. -/
theorem C56_summary (diff hook : Bool) (cfg : Except Err (OutputFormat × Toml)) (paths : List Path) (w w' : World) (outs : List Out) (code : Nat)
    (h : LintRun env con walk diff hook cfg paths w (outs, .exit code, w')) :
    ∃ n rs visited dirty printed, PathsRun env walk false hook true (if paths = [] then [con.cwd] else paths) (List.replicate n none) w (rs, .returned (), w') ∧
      Lists visited (fun p => ∃ r ∈ rs, r.path = p) ∧ Lists dirty (fun p => ∃ r ∈ rs, r.path = p ∧ Dirty r) ∧
      outs = printed ++ [⟨true, summary visited.length dirty.length (rs.filter Result.fixable).length 0⟩] ∧
      ∃ fmt template blocks, cfg = .ok (fmt, template) ∧ rs.mapM (fun r => (printResult con diff false fmt template r).map (·.1)) = .ok blocks ∧ printed = blocks.flatten := by
  obtain ⟨n, rs, fmt, template, t, printed, hcfg, hr, hl, -, ho, ht⟩ := lint_exit env con walk diff hook cfg paths w w' outs code h
  refine ⟨n, rs, t.visited, t.dirty, printed, by simpa [defaultPaths] using hr, ht.visited.congr (by simp), ht.dirty.congr (by simp), ?_, fmt, template, ?_⟩
  · rw [ho, splash_summary]
    simp [ht.autofixes, ht.fixed]
  · obtain ⟨blocks, h1, h2⟩ := lintLoop_printed con diff fmt template rs {} t (by rw [hl])
    exact ⟨blocks, hcfg, h1, by rw [← h2, hl]⟩

end Fixit
