import Verif.Props.YesToAll

/-!
# C146: lint is clean exactly when there is nothing to fix and nothing to report
-/

namespace Fixit
open Py Spec Gen

section
variable {C : Type} (env : Env C)

/-- A file that linting finds clean: every other way to run over it, from any world with the same files, says so too, changes no file, and returns as soon as it gets an answer. -/
theorem clean_run (hook : Bool) (w v : World) (p : Path) (hc : (alone env false hook w p).1 = [cleanResult (env.resolve p)]) (hv : v.files = w.files)
    (a : Bool) (ss : List Answer) :
    ((fixitFile env p a hook).run ss v).1 = [cleanResult (env.resolve p)] ∧
    ((fixitFile env p a hook).run ss v).2.1 = (if ss.length = 0 then .suspended else .returned ()) ∧
    ((fixitFile env p a hook).run ss v).2.2.files = v.files := by
  obtain ⟨ss', -, h1⟩ := alone_lint env hook w p
  rw [hc] at h1
  have hf : foundIn env w.files (env.resolve p) = [] := by
    cases hl : foundIn env w.files (env.resolve p) with
    | nil => rfl
    | cons x l =>
      rw [hl] at h1
      simp only [List.map_cons, List.cons_append, List.cons.injEq] at h1
      have := congrArg Result.violation h1.1
      simp [cleanResult, reporting] at this
  have hfv : foundIn env v.files (env.resolve p) = [] := by rw [hv]; exact hf
  have hsame : ∀ a ss, fileFinish env v.files (env.resolve p) a hook ss = fileFinish env v.files (env.resolve p) false hook ss' := by
    intro a ss
    apply fileFinish_accepted
    · simp [hfv, accepted]
    · intro content cfg hx; simp [hfv, accepted] at hx
  have hlast : (fileFinish env v.files (env.resolve p) false hook ss').last = some (cleanResult (env.resolve p)) := by
    rw [hv]
    rw [hf] at h1
    simp only [List.map_nil, List.nil_append] at h1
    cases hl : (fileFinish env w.files (env.resolve p) false hook ss').last with
    | none => rw [hl] at h1; simp at h1
    | some r => rw [hl] at h1; simp only [Option.toList_some, List.cons.injEq, and_true] at h1; rw [← h1]
  have hrun : ∀ a ss, (fixitFile env p a hook).run ss v = ([cleanResult (env.resolve p)], if ss.length = 0 then .suspended else .returned (),
      (fileFinish env v.files (env.resolve p) false hook ss').upd v) := by
    intro a ss
    unfold fixitFile
    rw [run_lintFile, hsame a ss, hfv, script_some _ _ _ _ _ _ (by simp) hlast]
    simp
  have hlint := (C42_lint_never_writes env p hook [] v _ (fun s hs => by cases hs) (run_world_mem _ _ _)).1
  rw [hrun] at hlint ⊢
  exact ⟨rfl, rfl, hlint⟩

/-- Over clean files, whatever is answered. -/
theorem clean_eachFile (hook a : Bool) (w : World) : ∀ (fs : List Path) (ss : List Answer) (v : World), v.files = w.files →
    (∀ p ∈ fs, (alone env false hook w p).1 = [cleanResult (env.resolve p)]) →
    ((eachFile env a hook fs).run ss v).1 = (fs.map (fun p => cleanResult (env.resolve p))).take (ss.length + 1) ∧
    ((eachFile env a hook fs).run ss v).2.1 = (if ss.length < fs.length then .suspended else .returned ()) ∧
    ((eachFile env a hook fs).run ss v).2.2.files = v.files
  | [], ss, v, _, _ => by simp [eachFile, run]
  | p :: fs, ss, v, hv, hc => by
    obtain ⟨h1, h2, h3⟩ := clean_run env hook w v p (hc p (by simp)) hv a ss
    simp only [eachFile]
    cases ss with
    | nil =>
      have : (fixitFile env p a hook).run [] v = ([cleanResult (env.resolve p)], .suspended, ((fixitFile env p a hook).run [] v).2.2) := by
        rw [← h1]; simp only [List.length_nil, if_true] at h2; rw [← h2]
      rw [run_bind_suspended this]
      exact ⟨by simp, by simp, h3⟩
    | cons s ss =>
      have : (fixitFile env p a hook).run (s :: ss) v = ([cleanResult (env.resolve p)], .returned (), ((fixitFile env p a hook).run (s :: ss) v).2.2) := by
        rw [← h1]; simp only [List.length_cons, Nat.add_eq_zero_iff, Nat.succ_ne_self, and_false, if_false] at h2; rw [← h2]
      rw [run_bind_returned this]
      obtain ⟨i1, i2, i3⟩ := clean_eachFile hook a w fs ss ((fixitFile env p a hook).run (s :: ss) v).2.2 (by rw [h3, hv]) (fun q hq => hc q (by simp [hq]))
      simp only [List.length_singleton, List.drop_succ_cons, List.drop_zero]
      refine ⟨?_, ?_, ?_⟩
      · rw [i1]; simp
      · rw [i2]; simp
      · rw [i3, h3]

/-- If a run over several files came to its end with clean results only, linting finds all of them clean. -/
theorem eachFile_clean (hook a : Bool) (w : World) : ∀ (fs : List Path) (ss : List Answer) (v : World), v.files = w.files →
    ((eachFile env a hook fs).run ss v).2.1 = .returned () → (∀ r ∈ ((eachFile env a hook fs).run ss v).1, ¬ Dirty r) →
    ∀ p ∈ fs, (alone env false hook w p).1 = [cleanResult (env.resolve p)]
  | [], _, _, _, _, _ => by simp
  | p :: fs, ss, v, hv, hst, hall => by
    simp only [eachFile] at hst hall
    cases hr : (fixitFile env p a hook).run ss v with
    | mk ys b =>
      obtain ⟨st, v1⟩ := b
      cases st with
      | raised e => rw [run_bind_raised hr] at hst; cases hst
      | suspended => rw [run_bind_suspended hr] at hst; cases hst
      | returned r =>
        rw [run_bind_returned hr] at hst hall
        simp only at hst hall
        have hys : ys = (foundIn env v.files (env.resolve p)).map (reporting (env.resolve p)) ++ (fileFinish env v.files (env.resolve p) a hook ss).last.toList := by
          have := run_returned_results env a hook ss v p (by rw [hr])
          rw [hr] at this
          exact this
        have hf : foundIn env v.files (env.resolve p) = [] := by
          cases hl : foundIn env v.files (env.resolve p) with
          | nil => rfl
          | cons x l =>
            exfalso
            refine hall (reporting (env.resolve p) x) ?_ (Or.inl (by simp [reporting]))
            rw [hys, hl]; simp
        obtain ⟨ss', -, h1⟩ := alone_lint env hook w p
        have hff : fileFinish env w.files (env.resolve p) false hook ss' = fileFinish env v.files (env.resolve p) a hook ss := by
          rw [← hv]
          apply fileFinish_accepted
          · simp [hf, accepted]
          · intro content cfg hx; simp [hf, accepted] at hx
        have hcl : (alone env false hook w p).1 = [cleanResult (env.resolve p)] := by
          rw [hff, ← hv, ← hys] at h1
          rw [h1]
          exact (C44_clean_or_violations env p a hook ss v v1 ys hr (fun r hr => by
            cases he : r.error with
            | none => rfl
            | some e => exact absurd (Or.inr (by rw [he]; simp)) (hall r (by simp [hr])))).1 hf
        obtain ⟨-, -, h3⟩ := clean_run env hook w v p hcl hv a ss
        rw [hr] at h3
        intro q hq
        rcases List.mem_cons.mp hq with rfl | hq
        · exact hcl
        · exact eachFile_clean hook a w fs _ v1 (by rw [h3, hv]) hst (fun r hr => hall r (by simp [hr])) q hq

variable (con : Console) (walk : (Path → Option Bytes) → Path → Except Err (List Path))

/-- A clean result can be printed in every format, and prints nothing. -/
theorem print_clean (showDiff stderr : Bool) (fmt : OutputFormat) (template : Toml) (path : Path) :
    printResult con showDiff stderr fmt template (cleanResult path) = .ok ([], false) := rfl

theorem printedFor_clean (showDiff stderr : Bool) (fmt : OutputFormat) (template : Toml) (rs : List Result) (h : ∀ r ∈ rs, ∃ path, r = cleanResult path) :
    printedFor con showDiff stderr fmt template rs = [] := by
  unfold printedFor
  rw [List.flatMap_eq_nil_iff]
  intro r hr
  obtain ⟨path, rfl⟩ := h r hr
  rw [print_clean]

theorem mapM_clean (showDiff stderr : Bool) (fmt : OutputFormat) (template : Toml) (f : Path → Path) : ∀ ps : List Path,
    (ps.map (fun p => cleanResult (f p))).mapM (fun r => (printResult con showDiff stderr fmt template r).map (·.1)) = .ok (ps.map (fun _ => []))
  | [] => rfl
  | p :: ps => by
    simp only [List.map_cons, List.mapM_cons, print_clean, mapM_clean showDiff stderr fmt template f ps]
    rfl

theorem lists_length {A : Type} [DecidableEq A] {l l' : List A} {P : A → Prop} (h : Lists l P) (h' : Lists l' P) : l.length = l'.length := by
  have : l.Perm l' := by
    rw [List.perm_ext_iff_of_nodup h.nodup h'.nodup]
    intro a
    rw [h.mem, h'.mem]
  exact this.length_eq

/-- **C146** If `fixit lint` exits with 0, `fixit fix` on the same arguments, interactive or automatic, whatever the replies: asks nothing, changes no file, exits with 0 and prints
exactly what `lint` printed: the summary that all files are clean. -/
theorem C146_clean_lint_nothing_to_fix (flag ldiff diff hook : Bool) (fmt : OutputFormat) (template : Toml) (args fs : List Path) (replies : List Reply) (w w' : World)
    (outs c : List Out) (hh : (if args = [] then [con.cwd] else args).head? ≠ some [py "-"])
    (hf : filesUnder (walk w.files) ((if args = [] then [con.cwd] else args).filter (· ≠ [py "-"])) = .ok fs)
    (h : LintRun env con walk ldiff hook (.ok (fmt, template)) args w (outs, .exit 0, w')) :
    let out := (fixCommand env con walk flag diff hook (.ok (fmt, template)) args).run replies (w, c)
    out.1 = [] ∧ out.2.1 = .returned 0 ∧ out.2.2.1.files = w.files ∧ out.2.2.2 = c ++ outs := by
  intro out
  have hclean := (C55_exit_status_files env con walk ldiff hook _ args w w' outs 0 fs hh hf h).2.2.1.mp rfl
  obtain ⟨n, rs, lvisited, ldirty, printed, hr, hl1, hl2, hl3, fmt', template', blocks, hcfg, hb, hpr⟩ := C56_summary env con walk ldiff hook _ args w w' outs 0 h
  obtain ⟨⟨order, hperm, -, hrs⟩, -⟩ := C51_lint_any_schedule env walk hook true _ n w w' rs fs hh hf hr
  have hrs' : rs = order.map (fun p => cleanResult (env.resolve p)) := by
    rw [hrs, List.flatMap_def, List.map_congr_left (g := fun p => [cleanResult (env.resolve p)]) (fun p hp => hclean p (hperm.mem_iff.mp hp))]
    rw [← List.flatMap_def]
    exact (List.map_eq_flatMap ..).symm
  have hrmem : ∀ path, (∃ r ∈ rs, r.path = path) ↔ ∃ p ∈ fs, env.resolve p = path := by
    intro path
    rw [hrs']
    simp only [List.mem_map]
    constructor
    · rintro ⟨r, ⟨p, hp, rfl⟩, rfl⟩; exact ⟨p, hperm.mem_iff.mp hp, rfl⟩
    · rintro ⟨p, hp, rfl⟩; exact ⟨_, ⟨p, hperm.mem_iff.mpr hp, rfl⟩, rfl⟩
  have hnd : ∀ path, ¬ Dirty (cleanResult path) := by intro path hd; rcases hd with hd | hd <;> exact hd rfl
  have hld : ldirty = [] := by
    rw [List.eq_nil_iff_forall_not_mem]
    intro q hq
    obtain ⟨r, hr, -, hd⟩ := (hl2.mem q).mp hq
    rw [hrs'] at hr
    obtain ⟨p, -, rfl⟩ := List.mem_map.mp hr
    exact hnd _ hd
  have hlp : printed = [] := by
    cases hcfg
    rw [hpr]
    rw [hrs', mapM_clean] at hb
    cases hb
    simp
  have hsess := C57_session env con walk flag diff hook fmt template args replies w c
  generalize hpaths : (if args = [] then [con.cwd] else args) = paths at hsess hh hf
  have hbs : (paths.head? == some [py "-"]) = false := by simpa using hh
  simp only [hbs, Bool.not_false, Bool.and_true] at hsess
  obtain ⟨ss, s1, s2, s3, s4⟩ := hsess
  have hout : (fixCommand env con walk flag diff hook (.ok (fmt, template)) args).run replies (w, c) = out := rfl
  rw [hout] at s2 s3 s4
  rw [C50_files env walk (!flag) hook paths ss w fs hh hf] at s1 s2 s3 s4
  obtain ⟨e1, e2, e3⟩ := clean_eachFile env hook (!flag) w fs ss w rfl hclean
  rw [e1] at s1 s2 s4
  have hnf : ∀ (P : Result → Bool) (l : List Result), (∀ r ∈ l, ∃ path, r = cleanResult path) → l.filter (fun r => P r && r.fixable) = [] := by
    intro P l hl
    rw [List.filter_eq_nil_iff]
    intro r hr
    obtain ⟨path, rfl⟩ := hl r hr
    simp [cleanResult, Result.fixable]
  have hcl : ∀ r ∈ (fs.map (fun p => cleanResult (env.resolve p))).take (ss.length + 1), ∃ path, r = cleanResult path := by
    intro r hr
    obtain ⟨p, -, rfl⟩ := List.mem_map.mp (List.mem_of_mem_take hr)
    exact ⟨_, rfl⟩
  have hans : ∀ l : List Result, (∀ r ∈ l, ∃ path, r = cleanResult path) → (answersTo (printable con fmt template) flag l replies).length = l.length := by
    intro l
    induction l with
    | nil => intro _; rfl
    | cons r l ih =>
      intro hl
      obtain ⟨path, rfl⟩ := hl r (by simp)
      have hp : printable con fmt template (cleanResult path) = true := rfl
      have hfx : (cleanResult path).fixable = false := rfl
      simp only [answersTo, hp, hfx, Bool.and_false, if_true, Bool.false_eq_true, if_false, List.length_cons, ih (fun r hr => hl r (by simp [hr]))]
  have hlen : fs.length ≤ ss.length := by
    have := congrArg List.length s1
    rw [hans _ hcl, List.length_take, List.length_map] at this
    omega
  have hret : ((eachFile env (!flag) hook fs).run ss w).2.1 = .returned () := by rw [e2, if_neg (by omega)]
  have htake : (fs.map (fun p => cleanResult (env.resolve p))).take (ss.length + 1) = fs.map (fun p => cleanResult (env.resolve p)) :=
    List.take_of_length_le (by simp; omega)
  have hq1 : out.1 = [] := by
    rw [s2]
    exact hnf (fun r => flag && printable con fmt template r) _ hcl
  rw [hret, htake] at s4
  rw [htake] at hcl
  refine ⟨hq1, ?_⟩
  cases hst : out.2.1 with
  | raised e =>
    rw [hst] at s4
    rcases s4.2 with h | ⟨-, -, h, -⟩ | ⟨h, -⟩ <;> cases h
  | suspended =>
    rw [hst] at s4
    obtain ⟨-, -, h, -⟩ := s4
    cases h
  | returned code =>
    rw [hst] at s4
    obtain ⟨hcode, -, visited, dirty, v1, v2, v3⟩ := s4
    refine ⟨by rw [hcode], by rw [s3, e3], ?_⟩
    have hd : dirty = [] := by
      rw [List.eq_nil_iff_forall_not_mem]
      intro q hq
      obtain ⟨r, hr, -, hd⟩ := (v2.mem q).mp hq
      obtain ⟨path, rfl⟩ := hcl r hr
      exact hnd _ hd
    have hvis : visited.length = lvisited.length := by
      refine lists_length (P := fun path => ∃ p ∈ fs, env.resolve p = path) (v1.congr (fun path => ?_)) (hl1.congr hrmem)
      simp only [List.mem_map]
      constructor
      · rintro ⟨r, ⟨p, hp, rfl⟩, rfl⟩; exact ⟨p, hp, rfl⟩
      · rintro ⟨p, hp, rfl⟩; exact ⟨_, ⟨p, hp, rfl⟩, rfl⟩
    rw [v3, hl3, hlp, hd, hld, hvis, printedFor_clean con _ _ _ _ _ hcl]
    simp [summary]

/-- **C146** Conversely, with a built-in output format: if `fixit fix`, interactive or automatic, comes to its end and prints nothing but a summary, then `fixit lint` on the same arguments, from the same state, exits
with 0 if it exits; and `fix` has changed no file. -/
theorem C146_silent_fix_clean_lint (flag ldiff diff hook : Bool) (fmt : OutputFormat) (template : Toml) (args fs : List Path) (replies : List Reply) (w w' : World)
    (outs c : List Out) (code lcode : Nat) (only : Out) (hfmt : fmt ≠ .custom) (hh : (if args = [] then [con.cwd] else args).head? ≠ some [py "-"])
    (hf : filesUnder (walk w.files) ((if args = [] then [con.cwd] else args).filter (· ≠ [py "-"])) = .ok fs)
    (hend : ((fixCommand env con walk flag diff hook (.ok (fmt, template)) args).run replies (w, c)).2.1 = .returned code)
    (hout : ((fixCommand env con walk flag diff hook (.ok (fmt, template)) args).run replies (w, c)).2.2.2 = c ++ [only])
    (h : LintRun env con walk ldiff hook (.ok (fmt, template)) args w (outs, .exit lcode, w')) :
    lcode = 0 ∧ ((fixCommand env con walk flag diff hook (.ok (fmt, template)) args).run replies (w, c)).2.2.1.files = w.files := by
  suffices hclean : ∀ p ∈ fs, (alone env false hook w p).1 = [cleanResult (env.resolve p)] by
    have h0 : lcode = 0 := (C55_exit_status_files env con walk ldiff hook _ args w w' outs lcode fs hh hf h).2.2.1.mpr hclean
    subst h0
    exact ⟨rfl, (C146_clean_lint_nothing_to_fix env con walk flag ldiff diff hook fmt template args fs replies w w' outs c hh hf h).2.2.1⟩
  have hsess := C57_session env con walk flag diff hook fmt template args replies w c
  generalize hpaths : (if args = [] then [con.cwd] else args) = paths at hsess hh hf
  have hbs : (paths.head? == some [py "-"]) = false := by simpa using hh
  simp only [hbs, Bool.not_false, Bool.and_true] at hsess
  obtain ⟨ss, s1, s2, s3, s4⟩ := hsess
  rw [C50_files env walk (!flag) hook paths ss w fs hh hf] at s1 s2 s3 s4
  rw [hend, hout] at s4
  simp only at s4
  obtain ⟨-, hst, visited, dirty, v1, v2, v3⟩ := s4
  have hnone : printedFor con (flag || diff) false fmt template ((eachFile env (!flag) hook fs).run ss w).1 = [] := by
    rw [List.append_assoc] at v3
    have := List.append_cancel_left v3
    have := congrArg List.length this
    simp only [List.length_append, List.length_singleton] at this
    exact List.eq_nil_of_length_eq_zero (by omega)
  unfold printedFor at hnone
  rw [List.flatMap_eq_nil_iff] at hnone
  have hnd : ∀ r ∈ ((eachFile env (!flag) hook fs).run ss w).1, ¬ Dirty r := by
    intro r hr
    have := hnone r hr
    obtain ⟨o, d, hpr⟩ := (printable_spec con (flag || diff) false fmt template r).mp (C79_builtin_formats con fmt template hfmt r)
    rw [hpr] at this
    exact (C79_dirty con _ _ _ _ r o d hpr).2.mp this
  rcases hst with hst | ⟨-, -, r, before, hb, hfx, -⟩
  · exact eachFile_clean env hook (!flag) w fs ss w rfl hst hnd
  · exact absurd (fixable_dirty r hfx) (hnd r (by rw [hb]; simp))

end
end Fixit
