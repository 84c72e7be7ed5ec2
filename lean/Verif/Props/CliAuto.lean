import Verif.Props.CliFiles

/-!
# C57: `fixit fix --automatic` on any number of files
-/

namespace Fixit
open Py Spec Gen

section
variable {C : Type} (env : Env C) (con : Console) (walk : (Path → Option Bytes) → Path → Except Err (List Path))

theorem run_short_drain {W Y S R : Type} (s : S) : ∀ (g : Gen W Y S R) (n : Nat) (w : W), (g.run (List.replicate n s) w).1.length ≤ n →
    g.run (List.replicate n s) w = g.drain s w
  | .ret r, n, w, _ => rfl
  | .raise e, n, w, _ => rfl
  | .yield y k, 0, w, h => by simp [Gen.run] at h
  | .yield y k, n + 1, w, h => by
    rw [List.replicate_succ] at h ⊢
    simp only [Gen.run, List.length_cons, Nat.add_le_add_iff_right] at h
    simp only [Gen.run, drain, run_short_drain s (k s) n w h]
  | .act a k, n, w, h => run_short_drain s (k w) n (a w) h

theorem answersTo_auto (pr : Result → Bool) (hpr : ∀ r, pr r = true) (replies : List Reply) : ∀ rs : List Result,
    answersTo pr false rs replies = List.replicate rs.length none
  | [] => rfl
  | r :: rs => by simp [answersTo, hpr, answersTo_auto pr hpr replies rs, List.replicate_succ]

theorem eachFile_returns (autofix hook : Bool) : ∀ (fs : List Path) (w : World), ((eachFile env autofix hook fs).drain none w).2.1 = .returned ()
  | [], w => rfl
  | p :: ps, w => by
    have h := alone_returns env autofix hook w p
    unfold alone at h
    show (((fixitFile env p autofix hook).bind (fun _ => eachFile env autofix hook ps)).drain none w).2.1 = _
    rw [drain_bind]
    rcases hd : (fixitFile env p autofix hook).drain none w with ⟨ys, st, w'⟩
    rw [hd] at h
    simp only at h
    subst h
    exact eachFile_returns autofix hook ps w'

/-- **C57** `fixit fix --automatic` on distinct files, none of which is part of the configuration or of a rule: it asks nothing and exits with 0; every file whose
linting gives no error gets all the fixes found in it, every other file of the world stays as it is, and fixing one file is not affected by the others. -/
theorem C57_automatic (diff hook : Bool) (fmt : OutputFormat) (template : Toml) (args fs : List Path) (replies : List Reply) (w : World) (c : List Out)
    (hh : (if args = [] then [con.cwd] else args).head? ≠ some [py "-"])
    (hf : filesUnder (walk w.files) ((if args = [] then [con.cwd] else args).filter (· ≠ [py "-"])) = .ok fs)
    (hfmt : fmt ≠ .custom) (hS : Stable env (fun q => q ∈ fs.map env.resolve)) (hd : (fs.map env.resolve).Nodup) :
    let out := (fixCommand env con walk false diff hook (.ok (fmt, template)) args).run replies (w, c)
    out.1 = [] ∧ out.2.1 = .returned 0 ∧
    (∀ p ∈ fs, out.2.2.1.files (env.resolve p) = (alone env true hook w p).2.2.files (env.resolve p)) ∧
    (∀ q, (∀ p ∈ fs, env.resolve p ≠ q) → out.2.2.1.files q = w.files q) ∧
    ∀ p ∈ fs, (∀ r ∈ (alone env true hook w p).1, r.error = none) → ∃ content cfg, loaded env w.files (env.resolve p) = .ok (content, cfg) ∧
      (found env w.files (env.resolve p) content cfg = [] → out.2.2.1.files (env.resolve p) = w.files (env.resolve p)) ∧
      (found env w.files (env.resolve p) content cfg ≠ [] → ∃ b,
        fixedContent env (env.resolve p) content cfg (found env w.files (env.resolve p) content cfg) = .ok b ∧
        out.2.2.1.files (env.resolve p) = some (if b = [] then content else b)) := by
  intro out
  have h := C57_session env con walk false diff hook fmt template args replies w c
  generalize (if args = [] then [con.cwd] else args) = paths at h hh hf
  have hb : (paths.head? == some [py "-"]) = false := by simpa using hh
  simp only [hb, Bool.not_false, Bool.false_and, Bool.false_or, Bool.false_eq_true, false_and, or_false, and_false] at h
  obtain ⟨ss, s1, s2, s3, s4⟩ := h
  have hpr : ∀ r, printable con fmt template r = true := C79_builtin_formats con fmt template hfmt
  rw [answersTo_auto _ hpr] at s1
  have hrun : (fixitPaths env walk true hook paths).run ss w = (fixitPaths env walk true hook paths).drain none w := by
    rw [s1]
    apply run_short_drain none _ _ w
    rw [← s1]
    exact Nat.le_refl _
  have hret : ((fixitPaths env walk true hook paths).run ss w).2.1 = .returned () := by
    have hn : ∀ n, (fixitPaths env walk true hook paths).run (List.replicate n none) w = _ := fun n => C50_files env walk true hook paths _ w fs hh hf
    have e := run_replicate none (eachFile env true hook fs) w _ (Nat.le_refl _)
    have e1 := eachFile_returns env true hook fs w
    rw [← e, ← hn] at e1
    have : ((fixitPaths env walk true hook paths).run (List.replicate ((eachFile env true hook fs).drain none w).1.length none) w) =
        (fixitPaths env walk true hook paths).drain none w := by
      apply run_short_drain
      rw [hn, e]
      exact Nat.le_refl _
    rw [hrun, ← this]
    exact e1
  have hout : (fixCommand env con walk false diff hook (.ok (fmt, template)) args).run replies (w, c) = out := rfl
  rw [hout] at s2 s3 s4
  have hret' : out.2.1 = .returned 0 := by
    cases hst : out.2.1 with
    | returned code => rw [hst] at s4; rw [s4.1]
    | raised e =>
      rw [hst] at s4
      rcases s4.2 with h1 | h1 | h1
      · rw [hret] at h1; cases h1
      · exact h1.elim
      · have h1 := h1.1
        rw [hret] at h1; cases h1
    | suspended => rw [hst] at s4; exact absurd s4 (by simp)
  have hP : PathsRun env walk true hook false paths (List.replicate ((fixitPaths env walk true hook paths).run ss w).1.length none) w
      (((fixitPaths env walk true hook paths).run ss w).1, .returned (), out.2.2.1) := by
    have := PathsRun.plain (env := env) (walk := walk) (autofix := true) (hook := hook) (parallel := false) (paths := paths) (ss := ss) (w := w) (by unfold usesPool; split <;> simp [sequential])
    rw [← s1, s3]
    have e : (fixitPaths env walk true hook paths).run ss w = (((fixitPaths env walk true hook paths).run ss w).1, .returned (), ((fixitPaths env walk true hook paths).run ss w).2.2) := by
      rw [← hret]
    exact e ▸ this
  obtain ⟨-, h2, h3⟩ := C51_fix_any_schedule env walk true hook false paths _ w _ _ fs hh hf hS hd hP
  refine ⟨by rw [s2]; simp, hret', h2, h3, ?_⟩
  intro p hp hne
  have hal := alone_returns env true hook w p
  have hrr := run_replicate none (fixitFile env p true hook) w _ (Nat.le_refl _)
  have hwhole : (fixitFile env p true hook).run (List.replicate (drain none (fixitFile env p true hook) w).1.length none) w =
      ((alone env true hook w p).1, .returned (), (alone env true hook w p).2.2) := by
    rw [hrr, ← hal]; rfl
  obtain ⟨content, cfg, hl, k1, k2⟩ := C46_autofix_applies_all env p hook _ w _ _ hwhole hne
  refine ⟨content, cfg, hl, ?_, ?_⟩
  · intro he; rw [h2 p hp, k1 he]
  · intro he; rw [h2 p hp]; exact k2 he

end
end Fixit
