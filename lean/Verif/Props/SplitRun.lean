import Verif.Props.Cli
import Verif.Props.StdinAsFile

/-!
# C147: a run over many files is the sum of runs over parts of them
-/

namespace Fixit
open Py Spec Gen

section
variable {C : Type} (env : Env C)

theorem filesUnder_append (walk : Path → Except Err (List Path)) : ∀ ps qs fs gs, filesUnder walk ps = .ok fs → filesUnder walk qs = .ok gs → filesUnder walk (ps ++ qs) = .ok (fs ++ gs)
  | [], qs, fs, gs, h, h' => by simp only [filesUnder, Except.ok.injEq] at h; subst h; exact h'
  | p :: ps, qs, fs, gs, h, h' => by
    simp only [List.cons_append, filesUnder] at h ⊢
    cases hw : walk p with
    | error e => rw [hw] at h; simp at h
    | ok l =>
      rw [hw] at h
      cases hr : filesUnder walk ps with
      | error e => rw [hr] at h; simp at h
      | ok l' =>
        rw [hr] at h
        simp only [Except.ok.injEq] at h
        subst h
        simp [filesUnder_append walk ps qs l' gs hr h']

theorem drain_eachFile_append (autofix hook : Bool) : ∀ (fs gs : List Path) (w : World),
    (eachFile env autofix hook (fs ++ gs)).drain none w =
      (((eachFile env autofix hook fs).drain none w).1 ++ ((eachFile env autofix hook gs).drain none ((eachFile env autofix hook fs).drain none w).2.2).1,
        ((eachFile env autofix hook gs).drain none ((eachFile env autofix hook fs).drain none w).2.2).2)
  | [], gs, w => by simp [eachFile, drain]
  | p :: fs, gs, w => by
    simp only [List.cons_append, eachFile]
    rw [drain_bind, drain_bind]
    have h := alone_returns env autofix hook w p
    unfold alone at h
    rcases hx : (fixitFile env p autofix hook).drain none w with ⟨ys, st, w'⟩
    rw [hx] at h
    simp only at h
    subst h
    simp only
    rw [drain_eachFile_append autofix hook fs gs w']
    simp

variable (con : Console) (walk : (Path → Option Bytes) → Path → Except Err (List Path))

/-- The runs of `fix --automatic` over files. -/
theorem fix_files (diff hook : Bool) (fmt : OutputFormat) (template : Toml) (args fs : List Path) (replies : List Reply) (w : World) (c : List Out)
    (hne : args ≠ []) (hh : args.head? ≠ some [py "-"]) (hfmt : fmt ≠ .custom) (hf : filesUnder (walk w.files) (args.filter (· ≠ [py "-"])) = .ok fs) :
    let out := (fixCommand env con walk false diff hook (.ok (fmt, template)) args).run replies (w, c)
    out.1 = [] ∧ out.2.1 = .returned 0 ∧ out.2.2.1 = ((eachFile env true hook fs).drain none w).2.2 ∧
    ∃ s, out.2.2.2 = c ++ printedFor con diff false fmt template ((eachFile env true hook fs).drain none w).1 ++ [s] := by
  intro out
  have hr := eachFile_returns env true hook fs w
  rcases hx : (eachFile env true hook fs).drain none w with ⟨ys, st, w'⟩
  rw [hx] at hr
  simp only at hr
  subst hr
  have hd : (fixitPaths env walk true hook args).drain none w = (ys, .returned (), w') := by
    have hrun := run_replicate none (eachFile env true hook fs) w _ (Nat.le_refl _)
    rw [← C50_files env walk true hook args _ w fs hh hf, hx] at hrun
    rw [run_returned_drain none () (fixitPaths env walk true hook args) _ w (by rw [hrun]), hrun]
  obtain ⟨f1, f2, f3, visited, dirty, -, -, f6⟩ := fix_asks_nothing env con walk false diff hook fmt template args replies w w' c ys hne (by simp) hfmt hd
  have hb : (args.head? == some [py "-"]) = false := by simpa using hh
  rw [hb] at f6
  exact ⟨f1, f2, f3, _, f6⟩

/-- **C147** `fixit fix --automatic A B` is `fixit fix --automatic A` followed by `fixit fix --automatic B` (when the files under B are the same then): both exit with 0, the world at the end is the
same in all respects - every file, every write in the same order, every call of the hook - and the reports printed are those of the one followed by those of the other, with one summary instead of two. -/
theorem C147_fix_split (diff hook : Bool) (fmt : OutputFormat) (template : Toml) (args args' fs fs' : List Path) (replies replies₁ replies₂ : List Reply) (w : World) (c c₁ c₂ : List Out)
    (hne : args ≠ []) (hne' : args' ≠ []) (hh : args.head? ≠ some [py "-"]) (hh' : args'.head? ≠ some [py "-"]) (hfmt : fmt ≠ .custom)
    (hf : filesUnder (walk w.files) (args.filter (· ≠ [py "-"])) = .ok fs) (hf' : filesUnder (walk w.files) (args'.filter (· ≠ [py "-"])) = .ok fs')
    (hlater : filesUnder (walk ((fixCommand env con walk false diff hook (.ok (fmt, template)) args).run replies₁ (w, c₁)).2.2.1.files) (args'.filter (· ≠ [py "-"])) = .ok fs') :
    let both := (fixCommand env con walk false diff hook (.ok (fmt, template)) (args ++ args')).run replies (w, c)
    let first := (fixCommand env con walk false diff hook (.ok (fmt, template)) args).run replies₁ (w, c₁)
    let second := (fixCommand env con walk false diff hook (.ok (fmt, template)) args').run replies₂ (first.2.2.1, c₂)
    both.2.1 = .returned 0 ∧ first.2.1 = .returned 0 ∧ second.2.1 = .returned 0 ∧ both.2.2.1 = second.2.2.1 ∧
    ∃ reports₁ reports₂ s₁ s₂ s, first.2.2.2 = c₁ ++ reports₁ ++ [s₁] ∧ second.2.2.2 = c₂ ++ reports₂ ++ [s₂] ∧ both.2.2.2 = c ++ (reports₁ ++ reports₂) ++ [s] := by
  intro both first second
  obtain ⟨-, a1, a2, s1, a3⟩ := fix_files env con walk diff hook fmt template args fs replies₁ w c₁ hne hh hfmt hf
  obtain ⟨-, b1, b2, s2, b3⟩ := fix_files env con walk diff hook fmt template args' fs' replies₂ first.2.2.1 c₂ hne' hh' hfmt hlater
  obtain ⟨-, d1, d2, s, d3⟩ := fix_files env con walk diff hook fmt template (args ++ args') (fs ++ fs') replies w c (by simp [hne])
    (by cases args with | nil => exact absurd rfl hne | cons x xs => simpa using hh) hfmt
    (by rw [List.filter_append]; exact filesUnder_append _ _ _ _ _ hf hf')
  rw [drain_eachFile_append] at d2 d3
  have a2' : first.2.2.1 = ((eachFile env true hook fs).drain none w).2.2 := a2
  rw [← a2'] at d2 d3
  refine ⟨d1, a1, b1, by show both.2.2.1 = second.2.2.1; exact d2.trans b2.symm, _, _, s1, s2, s, a3, b3, ?_⟩
  show both.2.2.2 = _
  rw [d3]
  simp [printedFor]

/-- **C147** The exit status of `fixit lint` over files is the union of those over parts of them, however they overlap and whatever the schedules: with `fs` made of the files of `fs₁` and `fs₂`, it is their
bitwise or. -/
theorem C147_lint_split (diff hook diff₁ hook₂ : Bool) (cfg₁ cfg₂ : Except Err (OutputFormat × Toml)) (cfg : Except Err (OutputFormat × Toml)) (args args₁ args₂ fs fs₁ fs₂ : List Path) (w w' w₁ w₂ : World) (outs outs₁ outs₂ : List Out)
    (code code₁ code₂ : Nat)
    (hh : (if args = [] then [con.cwd] else args).head? ≠ some [py "-"]) (hh₁ : (if args₁ = [] then [con.cwd] else args₁).head? ≠ some [py "-"])
    (hh₂ : (if args₂ = [] then [con.cwd] else args₂).head? ≠ some [py "-"])
    (hf : filesUnder (walk w.files) ((if args = [] then [con.cwd] else args).filter (· ≠ [py "-"])) = .ok fs)
    (hf₁ : filesUnder (walk w.files) ((if args₁ = [] then [con.cwd] else args₁).filter (· ≠ [py "-"])) = .ok fs₁)
    (hf₂ : filesUnder (walk w.files) ((if args₂ = [] then [con.cwd] else args₂).filter (· ≠ [py "-"])) = .ok fs₂)
    (hcover : ∀ p, p ∈ fs ↔ p ∈ fs₁ ∨ p ∈ fs₂)
    (h : LintRun env con walk diff hook cfg args w (outs, .exit code, w')) (h₁ : LintRun env con walk diff₁ hook cfg₁ args₁ w (outs₁, .exit code₁, w₁))
    (h₂ : LintRun env con walk diff hook cfg₂ args₂ w (outs₂, .exit code₂, w₂)) : code = code₁ ||| code₂ := by
  obtain ⟨a1, a2, -, a4⟩ := C55_exit_status_files env con walk diff hook cfg args w w' outs code fs hh hf h
  obtain ⟨b1, b2, -, b4⟩ := C55_exit_status_files env con walk diff₁ hook cfg₁ args₁ w w₁ outs₁ code₁ fs₁ hh₁ hf₁ h₁
  obtain ⟨d1, d2, -, d4⟩ := C55_exit_status_files env con walk diff hook cfg₂ args₂ w w₂ outs₂ code₂ fs₂ hh₂ hf₂ h₂
  have hex : ∀ P : Path → Prop, (∃ p ∈ fs, P p) ↔ (∃ p ∈ fs₁, P p) ∨ ∃ p ∈ fs₂, P p := by
    intro P
    constructor
    · rintro ⟨p, hp, hP⟩
      rcases (hcover p).mp hp with h | h
      · exact Or.inl ⟨p, h, hP⟩
      · exact Or.inr ⟨p, h, hP⟩
    · rintro (⟨p, hp, hP⟩ | ⟨p, hp, hP⟩)
      · exact ⟨p, (hcover p).mpr (Or.inl hp), hP⟩
      · exact ⟨p, (hcover p).mpr (Or.inr hp), hP⟩
  rw [hex, ← b1, ← d1] at a1
  rw [hex, ← b2, ← d2] at a2
  clear b1 b2 d1 d2
  have : ∀ a b c : Fin 4, (c.val % 2 = 1 ↔ a.val % 2 = 1 ∨ b.val % 2 = 1) → (c.val / 2 = 1 ↔ a.val / 2 = 1 ∨ b.val / 2 = 1) → c.val = a.val ||| b.val := by decide
  exact this ⟨code₁, b4⟩ ⟨code₂, d4⟩ ⟨code, a4⟩ a1 a2

/-- **C147** What `fixit lint` prints over files, split into two parts, is what it prints over the one and over the other, up to the order of the lines and the summaries. -/
theorem C147_lint_reports (diff hook : Bool) (fmt : OutputFormat) (template : Toml) (args args₁ args₂ fs fs₁ fs₂ : List Path) (w w' w₁ w₂ : World) (outs outs₁ outs₂ : List Out)
    (code code₁ code₂ : Nat)
    (hh : (if args = [] then [con.cwd] else args).head? ≠ some [py "-"]) (hh₁ : (if args₁ = [] then [con.cwd] else args₁).head? ≠ some [py "-"])
    (hh₂ : (if args₂ = [] then [con.cwd] else args₂).head? ≠ some [py "-"])
    (hf : filesUnder (walk w.files) ((if args = [] then [con.cwd] else args).filter (· ≠ [py "-"])) = .ok fs)
    (hf₁ : filesUnder (walk w.files) ((if args₁ = [] then [con.cwd] else args₁).filter (· ≠ [py "-"])) = .ok fs₁)
    (hf₂ : filesUnder (walk w.files) ((if args₂ = [] then [con.cwd] else args₂).filter (· ≠ [py "-"])) = .ok fs₂)
    (hparts : fs.Perm (fs₁ ++ fs₂))
    (h : LintRun env con walk diff hook (.ok (fmt, template)) args w (outs, .exit code, w')) (h₁ : LintRun env con walk diff hook (.ok (fmt, template)) args₁ w (outs₁, .exit code₁, w₁))
    (h₂ : LintRun env con walk diff hook (.ok (fmt, template)) args₂ w (outs₂, .exit code₂, w₂)) :
    ∃ reports reports₁ reports₂ s s₁ s₂, outs = reports ++ [s] ∧ outs₁ = reports₁ ++ [s₁] ∧ outs₂ = reports₂ ++ [s₂] ∧ reports.Perm (reports₁ ++ reports₂) := by
  have key : ∀ (args fs : List Path) (outs : List Out) (code : Nat) (w' : World), (if args = [] then [con.cwd] else args).head? ≠ some [py "-"] →
      filesUnder (walk w.files) ((if args = [] then [con.cwd] else args).filter (· ≠ [py "-"])) = .ok fs →
      LintRun env con walk diff hook (.ok (fmt, template)) args w (outs, .exit code, w') →
      ∃ reports s, outs = reports ++ [s] ∧ reports.Perm (printedFor con diff false fmt template (fs.flatMap (fun p => (alone env false hook w p).1))) := by
    intro args fs outs code w' hh hf h
    obtain ⟨n, rs, lv, ld, printed, hr, hl1, hl2, ho, fmt', template', blocks, hcfg, hb, hp⟩ := C56_summary env con walk diff hook _ args w w' outs code h
    cases hcfg
    obtain ⟨⟨order, hperm, -, hrs⟩, -⟩ := C51_lint_any_schedule env walk hook true _ n w w' rs fs hh hf hr
    refine ⟨printed, _, ho, ?_⟩
    have hpf : printed = printedFor con diff false fmt template rs := by
      rw [hp]
      clear hrs hr hp hl1 hl2 ho
      induction rs generalizing blocks with
      | nil => simp only [List.mapM_nil] at hb; cases hb; rfl
      | cons r rs ih =>
        simp only [List.mapM_cons] at hb
        cases hx : printResult con diff false fmt template r with
        | error e => rw [hx] at hb; cases hb
        | ok o =>
          rw [hx] at hb
          cases hy : rs.mapM (fun r => (printResult con diff false fmt template r).map (·.1)) with
          | error e => rw [hy] at hb; cases hb
          | ok bs =>
            rw [hy] at hb
            cases hb
            have := ih bs hy
            simp [printedFor, hx] at this ⊢
            rw [this]
    rw [hpf, hrs]
    unfold printedFor
    exact (hperm.flatMap_right _).flatMap_right _
  obtain ⟨r, s, e1, e2⟩ := key args fs outs code w' hh hf h
  obtain ⟨r1, s1, a1, a2⟩ := key args₁ fs₁ outs₁ code₁ w₁ hh₁ hf₁ h₁
  obtain ⟨r2, s2, b1, b2⟩ := key args₂ fs₂ outs₂ code₂ w₂ hh₂ hf₂ h₂
  refine ⟨r, r1, r2, s, s1, s2, e1, a1, b1, e2.trans (List.Perm.trans ?_ (a2.append b2).symm)⟩
  have : ∀ l l' : List Result, printedFor con diff false fmt template l ++ printedFor con diff false fmt template l' = printedFor con diff false fmt template (l ++ l') := by
    intro l l'; simp [printedFor]
  rw [this, ← List.flatMap_append]
  exact (hparts.flatMap_right _).flatMap_right _

end
end Fixit
