import Verif.Props.Agree
import Verif.Props.CliFiles
import Verif.Props.CliAuto

/-!
# C132: answering yes to everything is fixing automatically
-/

namespace Fixit
open Py Spec Gen

section
variable {C : Type} (env : Env C) (con : Console) (walk : (Path → Option Bytes) → Path → Except Err (List Path))

/-- Violations without fix play no part in applying fixes. -/
theorem replacements_usable (fs : List Fix) : replacements fs = replacements (fs.filter (fun f => f.usable.isSome)) := by
  induction fs with
  | nil => rfl
  | cons f fs ih =>
    funext i
    cases hu : f.usable with
    | some r =>
      rw [List.filter_cons_of_pos (by simp [hu])]
      simp only [replacements, ← ih]
    | none =>
      rw [List.filter_cons_of_neg (by simp [hu]), ← ih]
      simp only [replacements, hu, ite_self]
      cases replacements fs i <;> rfl

theorem fixedContent_fixable (path : Path) (content : Bytes) (cfg : C) (vs : List LintViolation) :
    fixedContent env path content cfg (vs.filter LintViolation.autofixable) = fixedContent env path content cfg vs := by
  have h : ∀ m, applyReplacements m ((vs.filter LintViolation.autofixable).map LintViolation.fix) = applyReplacements m (vs.map LintViolation.fix) := by
    intro m
    unfold applyReplacements
    rw [replacements_usable (vs.map LintViolation.fix), List.filter_map]
    rfl
  unfold fixedContent
  simp only [h]

/-- With a yes to each prompt, the fixable violations are chosen. -/
theorem chosen_yes (vs : List LintViolation) : ∀ replies : List Reply, (∀ j < prompts vs, replies[j]? = some .yes) → chosen vs replies = vs.filter LintViolation.autofixable := by
  induction vs with
  | nil => intro _ _; rfl
  | cons v vs ih =>
    intro replies h
    rw [prompts_cons] at h
    by_cases hv : v.autofixable = true
    · simp only [hv, if_true] at h
      cases replies with
      | nil => have := h 0 (by omega); simp at this
      | cons r more =>
        have h0 := h 0 (by omega)
        simp only [List.getElem?_cons_zero, Option.some.injEq] at h0
        subst h0
        rw [List.filter_cons_of_pos hv]
        simp only [chosen, hv, if_true]
        rw [ih more (fun j hj => by have := h (j + 1) (by omega); simpa using this)]
    · rw [List.filter_cons_of_neg hv]
      simp only [chosen, hv]
      exact ih replies (fun j hj => h j (by simp [hv]; omega))

/-- All that matters about answers: whether there is something to fix, and what comes of it. -/
theorem bytesFinish_accepted (files : Path → Option Bytes) (path : Path) (content : Bytes) (cfg : C) (a a' hook : Bool) (ss ss' : List Answer)
    (he : (accepted a (found env files path content cfg) ss).isEmpty = (accepted a' (found env files path content cfg) ss').isEmpty)
    (hf : (accepted a (found env files path content cfg) ss).isEmpty = false → fixedContent env path content cfg (accepted a (found env files path content cfg) ss) =
      fixedContent env path content cfg (accepted a' (found env files path content cfg) ss')) :
    bytesFinish env files path content cfg a hook ss = bytesFinish env files path content cfg a' hook ss' := by
  unfold bytesFinish
  unfold found at he hf
  cases hc : env.collect files cfg with
  | error e => rfl
  | ok rules =>
    cases rules with
    | nil => rfl
    | cons r rs =>
      cases hp : env.parse content with
      | error e => rfl
      | ok m =>
        cases hv : env.visit files cfg m (r :: rs) with
        | error e => simp only [hv]
        | ok rd =>
          obtain ⟨recorded, durs⟩ := rd
          simp only [hc, hp, hv] at he hf ⊢
          rw [he]
          cases ha : (accepted a' (displayed env path m ((r :: rs).flatMap recorded)).1 ss').isEmpty with
          | true => simp only [if_true]
          | false =>
            rw [hf (by rw [he]; exact ha)]

theorem fileFinish_accepted (files : Path → Option Bytes) (path : Path) (a a' hook : Bool) (ss ss' : List Answer)
    (he : (accepted a (foundIn env files path) ss).isEmpty = (accepted a' (foundIn env files path) ss').isEmpty)
    (hf : ∀ content cfg, (accepted a (foundIn env files path) ss).isEmpty = false → fixedContent env path content cfg (accepted a (foundIn env files path) ss) =
      fixedContent env path content cfg (accepted a' (foundIn env files path) ss')) :
    fileFinish env files path a hook ss = fileFinish env files path a' hook ss' := by
  unfold fileFinish
  unfold foundIn at he hf
  cases hl : loaded env files path with
  | error e => rfl
  | ok cc =>
    obtain ⟨content, cfg⟩ := cc
    simp only [hl] at he hf ⊢
    rw [bytesFinish_accepted env files path content cfg a a' hook ss ss' he (hf content cfg)]

/-- Two completed runs with the same end are the same. -/
theorem run_same (w : World) (p : Path) (a a' hook : Bool) (ss ss' : List Answer)
    (h : ((fixitFile env p a hook).run ss w).2.1 = .returned ()) (h' : ((fixitFile env p a' hook).run ss' w).2.1 = .returned ())
    (hF : fileFinish env w.files (env.resolve p) a hook ss = fileFinish env w.files (env.resolve p) a' hook ss') :
    (fixitFile env p a hook).run ss w = (fixitFile env p a' hook).run ss' w := by
  unfold fixitFile at h h' ⊢
  rw [run_lintFile] at h h' ⊢
  rw [run_lintFile]
  rw [hF] at h ⊢
  by_cases hk : ss.length < (foundIn env w.files (env.resolve p)).length
  · rw [script_lt _ _ _ _ _ hk] at h; cases h
  · by_cases hk' : ss'.length < (foundIn env w.files (env.resolve p)).length
    · rw [script_lt _ _ _ _ _ hk'] at h'; cases h'
    · cases hl : (fileFinish env w.files (env.resolve p) a' hook ss').last with
      | none => rw [script_none _ _ _ _ _ hk hl, script_none _ _ _ _ _ hk' hl]
      | some r =>
        rw [script_some _ _ _ r _ _ hk hl] at h ⊢
        rw [script_some _ _ _ r _ _ hk' hl] at h' ⊢
        simp only at h h'
        rw [h, h']

/-- A run that ended has seen an answer to every violation. -/
theorem returned_length (w : World) (p : Path) (a hook : Bool) (ss : List Answer) (h : ((fixitFile env p a hook).run ss w).2.1 = .returned ()) :
    (foundIn env w.files (env.resolve p)).length ≤ ss.length := by
  unfold fixitFile at h
  rw [run_lintFile] at h
  by_cases hk : ss.length < (foundIn env w.files (env.resolve p)).length
  · rw [script_lt _ _ _ _ _ hk] at h; cases h
  · omega

/-- There is something to fix in the file. -/
def _root_.Spec.toFix (w : World) (p : Path) : Bool := (foundIn env w.files (env.resolve p)).any LintViolation.autofixable

/-- A file, with a yes to everything: as when fixed automatically, if there is something to fix in it; otherwise as when linted. -/
theorem yes_one_file (hook : Bool) (w : World) (p : Path) (replies : List Reply) (run : List Result × Status Unit × World) (hF : Fixed env hook w p replies run)
    (hyes : ∀ j < prompts (foundIn env w.files (env.resolve p)), replies[j]? = some .yes) :
    run = alone env (toFix env w p) hook w p := by
  obtain ⟨ss, hrun, hlen, hacc⟩ := hF.answered
  have hret := hF.returned
  rw [chosen_yes _ _ hyes] at hacc
  have hrep : ∀ a, (fixitFile env p a hook).run (List.replicate (drain none (fixitFile env p a hook) w).1.length none) w = alone env a hook w p :=
    fun a => run_replicate none (fixitFile env p a hook) w _ (Nat.le_refl _)
  have hal : ∀ a, ((fixitFile env p a hook).run (List.replicate (drain none (fixitFile env p a hook) w).1.length none) w).2.1 = .returned () := by
    intro a; rw [hrep]; exact alone_returns env a hook w p
  subst hrun
  cases hfix : toFix env w p with
  | true =>
    rw [← hrep true]
    refine run_same env w p false true hook _ _ hret (hal true) ?_
    have hall := accepted_all _ _ (returned_length env w p true hook _ (hal true))
    obtain ⟨v, hv, hva⟩ := List.any_eq_true.mp hfix
    apply fileFinish_accepted
    · rw [hacc, hall]
      have h1 : ((foundIn env w.files (env.resolve p)).filter LintViolation.autofixable).isEmpty = false := by
        rw [List.isEmpty_eq_false_iff_exists_mem]; exact ⟨v, List.mem_filter.mpr ⟨hv, hva⟩⟩
      have h2 : (foundIn env w.files (env.resolve p)).isEmpty = false := by
        rw [List.isEmpty_eq_false_iff_exists_mem]; exact ⟨v, hv⟩
      rw [h1, h2]
    · intro content cfg _
      rw [hacc, hall, fixedContent_fixable]
  | false =>
    rw [← hrep false]
    refine run_same env w p false false hook _ _ hret (hal false) ?_
    have h0 : (foundIn env w.files (env.resolve p)).filter LintViolation.autofixable = [] :=
      List.filter_eq_nil_iff.mpr (fun v hv hva => by
        rw [show toFix env w p = true from List.any_eq_true.mpr ⟨v, hv, hva⟩] at hfix; cases hfix)
    have hnone := accepted_none (foundIn env w.files (env.resolve p)) (List.replicate (drain none (fixitFile env p false hook) w).1.length none)
      (fun s hs => by rw [(List.mem_replicate.mp hs).2]; simp)
    apply fileFinish_accepted
    · rw [hacc, h0, hnone]
    · intro content cfg h
      rw [hacc, h0] at h; cases h

/-- Nothing found: fixing and linting are the same. -/
theorem alone_clean (hook : Bool) (w : World) (p : Path) (h : foundIn env w.files (env.resolve p) = []) : alone env true hook w p = alone env false hook w p := by
  have hrep : ∀ a, (fixitFile env p a hook).run (List.replicate (drain none (fixitFile env p a hook) w).1.length none) w = alone env a hook w p :=
    fun a => run_replicate none (fixitFile env p a hook) w _ (Nat.le_refl _)
  have hal : ∀ a, ((fixitFile env p a hook).run (List.replicate (drain none (fixitFile env p a hook) w).1.length none) w).2.1 = .returned () := by
    intro a; rw [hrep]; exact alone_returns env a hook w p
  rw [← hrep true, ← hrep false]
  refine run_same env w p true false hook _ _ (hal true) (hal false) ?_
  apply fileFinish_accepted
  · simp [h, accepted]
  · intro content cfg hx; simp [h, accepted] at hx

/-- Linting changes no file. -/
theorem alone_lint_files (hook : Bool) (w : World) (p : Path) : (alone env false hook w p).2.2.files = w.files := by
  have hrep : (fixitFile env p false hook).run (List.replicate (drain none (fixitFile env p false hook) w).1.length none) w = alone env false hook w p :=
    run_replicate none (fixitFile env p false hook) w _ (Nat.le_refl _)
  rw [← hrep]
  exact (C42_lint_never_writes env p hook _ w _ (fun s hs => by rw [(List.mem_replicate.mp hs).2]; simp) (run_world_mem _ _ _)).1

theorem oneByOne_short (autofix hook : Bool) (w : World) : ∀ (ps : List Path) (ss : List Answer), (oneByOne env autofix hook w ps ss).length ≤ ps.length
  | [], _ => by simp [oneByOne]
  | p :: ps, ss => by
    simp only [oneByOne]
    split
    · have := oneByOne_short autofix hook w ps (ss.drop ((fixitFile env p autofix hook).run ss w).1.length)
      simp only [List.length_cons]; omega
    · simp

theorem sum_take_le (l : List Nat) : ∀ k, (l.take k).sum ≤ l.sum := by
  induction l with
  | nil => simp
  | cons a l ih =>
    intro k
    cases k with
    | zero => simp
    | succ k => simp only [List.take_succ_cons, List.sum_cons]; have := ih k; omega

/-- All the files, with the same reply to everything. -/
theorem all_files (reply : Reply) (hrep : Spec.Settled (some reply)) (g : Path → Bool) (hook : Bool) (w : World)
    (hone : ∀ (p : Path) (replies : List Reply) (run : List Result × Status Unit × World), Fixed env hook w p replies run →
      (∀ j < prompts (foundIn env w.files (env.resolve p)), replies[j]? = some reply) → run = alone env (g p) hook w p)
    (pr : Result → Bool) (hpr : ∀ r, pr r = true) (fs : List Path) (ss : List Answer) (replies : List Reply)
    (h : ss = answersTo pr true ((oneByOne env false hook w fs ss).flatMap (·.1)) replies)
    (hyes : ∀ j < (fs.map (fun q => prompts (foundIn env w.files (env.resolve q)))).sum, replies[j]? = some reply) :
    oneByOne env false hook w fs ss = fs.map (fun p => alone env (g p) hook w p) := by
  apply List.ext_getElem?
  intro i
  by_cases hi : i < fs.length
  · have hp : fs[i]? = some fs[i] := List.getElem?_eq_getElem hi
    have hsum : ((fs.take (i + 1)).map (fun q => prompts (foundIn env w.files (env.resolve q)))).sum =
        ((fs.take i).map (fun q => prompts (foundIn env w.files (env.resolve q)))).sum + prompts (foundIn env w.files (env.resolve fs[i])) := by
      rw [List.take_succ_eq_append_getElem hi]
      simp only [List.map_append, List.sum_append, List.map_cons, List.map_nil, List.sum_cons, List.sum_nil, Nat.add_zero]
    have hle : ((fs.take (i + 1)).map (fun q => prompts (foundIn env w.files (env.resolve q)))).sum ≤ (fs.map (fun q => prompts (foundIn env w.files (env.resolve q)))).sum := by
      rw [List.map_take]; exact sum_take_le _ _
    obtain ⟨run, hz, hF⟩ := (session_files env pr hpr hook w fs ss replies h i _ hp).1 (fun j hj => by rw [hyes j (by omega)]; exact hrep)
    have := hone fs[i] _ run hF (fun j hj => by
      rw [List.getElem?_drop]
      exact hyes _ (by omega))
    rw [List.getElem?_zip_eq_some] at hz
    rw [hz.2, List.getElem?_map, hp, this]
    rfl
  · rw [List.getElem?_eq_none (by have := oneByOne_short env false hook w fs ss; omega), List.getElem?_eq_none (by simpa using hi)]

theorem answersTo_same (reply : Reply) (hrep : Spec.Settled (some reply)) (pr : Result → Bool) (hpr : ∀ r, pr r = true) : ∀ (rs : List Result) (replies : List Reply),
    (∀ j < (rs.filter Result.fixable).length, replies[j]? = some reply) →
    (answersTo pr true rs replies).count (some true) = if reply = .yes then (rs.filter Result.fixable).length else 0
  | [], _, _ => by simp [answersTo]
  | r :: rs, replies, h => by
    simp only [answersTo, hpr, if_true, Bool.true_and]
    by_cases hr : r.fixable = true
    · rw [List.filter_cons_of_pos hr] at h ⊢
      simp only [hr, if_true]
      cases replies with
      | nil => have := h 0 (by simp); simp at this
      | cons x more =>
        have h0 := h 0 (by simp)
        simp only [List.getElem?_cons_zero, Option.some.injEq] at h0
        subst h0
        have ih := answersTo_same x hrep pr hpr rs more (fun j hj => by have := h (j + 1) (by simpa using hj); simpa using this)
        rcases hrep with hx | hx <;> (cases hx; simp at ih ⊢; exact ih)
    · rw [List.filter_cons_of_neg hr] at h ⊢
      simp only [hr, Bool.false_eq_true, if_false]
      rw [List.count_cons_of_ne (by simp), answersTo_same reply hrep pr hpr rs replies h]

/-- The fixable results of a file are its fixable violations. -/
theorem alone_fixable (a hook : Bool) (w : World) (p : Path) : ((alone env a hook w p).1.filter Result.fixable).length = prompts (foundIn env w.files (env.resolve p)) := by
  have hrep : (fixitFile env p a hook).run (List.replicate (drain none (fixitFile env p a hook) w).1.length none) w = alone env a hook w p :=
    run_replicate none (fixitFile env p a hook) w _ (Nat.le_refl _)
  have hr := run_returned_results env a hook _ w p (by rw [hrep]; exact alone_returns env a hook w p)
  have hl := fileFinish_last env w.files (env.resolve p) a hook (List.replicate (drain none (fixitFile env p a hook) w).1.length none)
  rw [hrep] at hr
  rw [hr, List.filter_append]
  have h1 : (((foundIn env w.files (env.resolve p)).map (reporting (env.resolve p))).filter Result.fixable).length = prompts (foundIn env w.files (env.resolve p)) := by
    rw [List.filter_map, List.length_map]; rfl
  have h2 : (fileFinish env w.files (env.resolve p) a hook (List.replicate (drain none (fixitFile env p a hook) w).1.length none)).last.toList.filter Result.fixable = [] := by
    cases hx : (fileFinish env w.files (env.resolve p) a hook (List.replicate (drain none (fixitFile env p a hook) w).1.length none)).last with
    | none => rfl
    | some r =>
      rw [hx] at hl
      rcases hl with ⟨rfl, -⟩ | ⟨e, rfl⟩ <;> rfl
  rw [h2, List.append_nil, h1]

theorem filter_flatMap_length (f : Path → List Result) (g : Path → Nat) (P : Result → Bool) (fs : List Path) (h : ∀ p, ((f p).filter P).length = g p) :
    ((fs.flatMap f).filter P).length = (fs.map g).sum := by
  induction fs with
  | nil => rfl
  | cons p fs ih => simp [List.filter_append, h, ih]

/-- A session in which every question is answered with the same reply, yes or no. -/
theorem same_reply (reply : Reply) (hrep : Spec.Settled (some reply)) (g : Path → Bool) (diff hook : Bool) (fmt : OutputFormat) (template : Toml) (args fs : List Path) (replies : List Reply) (w : World) (c : List Out)
    (hh : (if args = [] then [con.cwd] else args).head? ≠ some [py "-"])
    (hf : filesUnder (walk w.files) ((if args = [] then [con.cwd] else args).filter (· ≠ [py "-"])) = .ok fs)
    (hfmt : fmt ≠ .custom) (hS : Stable env (fun q => q ∈ fs.map env.resolve)) (hd : (fs.map env.resolve).Nodup)
    (hyes : ∀ j < (fs.map (fun q => prompts (foundIn env w.files (env.resolve q)))).sum, replies[j]? = some reply)
    (hone : ∀ (p : Path) (replies : List Reply) (run : List Result × Status Unit × World), Fixed env hook w p replies run →
      (∀ j < prompts (foundIn env w.files (env.resolve p)), replies[j]? = some reply) → run = alone env (g p) hook w p) :
    let out := (fixCommand env con walk true diff hook (.ok (fmt, template)) args).run replies (w, c)
    let results := fs.flatMap (fun p => (alone env (g p) hook w p).1)
    out.1 = results.filter Result.fixable ∧ out.2.1 = .returned 0 ∧
    (∀ p ∈ fs, out.2.2.1.files (env.resolve p) = (alone env (g p) hook w p).2.2.files (env.resolve p)) ∧
    (∀ q, (∀ p ∈ fs, env.resolve p ≠ q) → out.2.2.1.files q = w.files q) ∧
    ∃ visited dirty, Lists visited (fun q => ∃ r ∈ results, r.path = q) ∧ Lists dirty (fun q => ∃ r ∈ results, r.path = q ∧ Dirty r) ∧
      out.2.2.2 = c ++ printedFor con true false fmt template results ++
        [⟨true, summary visited.length dirty.length (results.filter Result.fixable).length (if reply = .yes then (results.filter Result.fixable).length else 0)⟩] := by
  intro out results
  have h := C57_session env con walk true diff hook fmt template args replies w c
  generalize (if args = [] then [con.cwd] else args) = paths at h hh hf
  have hb : (paths.head? == some [py "-"]) = false := by simpa using hh
  have hpr : ∀ r, printable con fmt template r = true := C79_builtin_formats con fmt template hfmt
  simp only [hb, Bool.not_false, Bool.and_self, Bool.not_true, Bool.true_or, Bool.true_and, hpr] at h
  obtain ⟨ss, s1, s2, s3, s4⟩ := h
  rw [C50_files env walk false hook paths ss w fs hh hf] at s1 s2 s3 s4
  obtain ⟨e1, e2, e3, e4, -⟩ := eachFile_run env hS false hook w fs ss w (fun p hp => Or.inl (List.mem_map_of_mem hp)) (hd.imp (fun h e => absurd e h)) (fun q _ => rfl)
  rw [e1] at s1
  have hall := all_files env reply hrep g hook w hone (printable con fmt template) hpr fs ss replies s1 hyes
  rw [hall] at e1 e2 e3 e4
  have hres : ((eachFile env false hook fs).run ss w).1 = results := by rw [e1, List.flatMap_map]
  rw [hres] at s2 s4
  have hret : ((eachFile env false hook fs).run ss w).2.1 = .returned () := by
    rw [e2, List.getLast?_map]
    cases fs.getLast? with
    | none => rfl
    | some p => exact alone_returns env _ hook w p
  have hn : (results.filter Result.fixable).length = (fs.map (fun q => prompts (foundIn env w.files (env.resolve q)))).sum :=
    filter_flatMap_length _ _ _ fs (fun p => alone_fixable env _ hook w p)
  have hcount : ss.count (some true) = (if reply = .yes then (results.filter Result.fixable).length else 0) := by
    rw [s1, hall, List.flatMap_map]
    exact answersTo_same reply hrep _ hpr results replies (fun j hj => hyes j (by rw [← hn]; exact hj))
  have hout : (fixCommand env con walk true diff hook (.ok (fmt, template)) args).run replies (w, c) = out := rfl
  rw [hout] at s2 s3 s4
  refine ⟨s2, ?_⟩
  have hzip : ∀ p ∈ fs, (p, alone env (g p) hook w p) ∈ fs.zip (fs.map (fun p => alone env (g p) hook w p)) := by
    intro p hp
    obtain ⟨i, hi⟩ := List.mem_iff_getElem?.mp hp
    refine List.mem_of_getElem? (i := i) ?_
    rw [List.getElem?_zip_eq_some]
    exact ⟨hi, by simp [hi]⟩
  cases hst : out.2.1 with
  | returned code =>
    rw [hst] at s4
    obtain ⟨rfl, -, visited, dirty, hv, hdy, ho⟩ := s4
    refine ⟨rfl, ?_, ?_, visited, dirty, hv, hdy, ?_⟩
    · intro p hp
      rw [s3]
      exact e3 _ (hzip p hp)
    · intro q hq
      rw [s3]
      refine e4 q (.inl (fun x hx => hq x.1 (List.of_mem_zip hx).1))
    · rw [ho, hcount]; simp
  | raised e =>
    rw [hst] at s4
    rcases s4.2 with h1 | ⟨-, -, h1, -⟩ | ⟨h1, -⟩ <;> (rw [hret] at h1; cases h1)
  | suspended =>
    rw [hst] at s4
    have h1 := s4.2.2.1
    rw [hret] at h1; cases h1

/-- **C132** Interactive fixing of distinct files (none of which is a configuration file, a local rule or read by one), with a built-in output format, when every question is
answered with yes: it asks about each fixable violation once and exits with 0. Each file in which there is something to fix becomes what `--automatic` makes of it; each
other file is what linting leaves: unchanged. The output is that of the results of these runs, with diffs, and the number of fixes applied is that of the fixes available. -/
theorem C132_yes_to_all (diff hook : Bool) (fmt : OutputFormat) (template : Toml) (args fs : List Path) (replies : List Reply) (w : World) (c : List Out)
    (hh : (if args = [] then [con.cwd] else args).head? ≠ some [py "-"])
    (hf : filesUnder (walk w.files) ((if args = [] then [con.cwd] else args).filter (· ≠ [py "-"])) = .ok fs)
    (hfmt : fmt ≠ .custom) (hS : Stable env (fun q => q ∈ fs.map env.resolve)) (hd : (fs.map env.resolve).Nodup)
    (hyes : ∀ j < (fs.map (fun q => prompts (foundIn env w.files (env.resolve q)))).sum, replies[j]? = some .yes) :
    let out := (fixCommand env con walk true diff hook (.ok (fmt, template)) args).run replies (w, c)
    let results := fs.flatMap (fun p => (alone env (toFix env w p) hook w p).1)
    out.1 = results.filter Result.fixable ∧ out.2.1 = .returned 0 ∧
    (∀ p ∈ fs, out.2.2.1.files (env.resolve p) = (alone env (toFix env w p) hook w p).2.2.files (env.resolve p)) ∧
    (∀ q, (∀ p ∈ fs, env.resolve p ≠ q) → out.2.2.1.files q = w.files q) ∧
    ∃ visited dirty, Lists visited (fun q => ∃ r ∈ results, r.path = q) ∧ Lists dirty (fun q => ∃ r ∈ results, r.path = q ∧ Dirty r) ∧
      out.2.2.2 = c ++ printedFor con true false fmt template results ++
        [⟨true, summary visited.length dirty.length (results.filter Result.fixable).length (results.filter Result.fixable).length⟩] := by
  have h := same_reply env con walk .yes (.inl rfl) (toFix env w) diff hook fmt template args fs replies w c hh hf hfmt hS hd hyes
    (fun p replies' run hF hy => yes_one_file env hook w p replies' run hF hy)
  simpa only [if_true] using h

/-- With a no to each prompt, nothing is chosen. -/
theorem chosen_no (vs : List LintViolation) : ∀ replies : List Reply, (∀ j < prompts vs, replies[j]? = some .no) → chosen vs replies = [] := by
  induction vs with
  | nil => intro _ _; rfl
  | cons v vs ih =>
    intro replies h
    rw [prompts_cons] at h
    by_cases hv : v.autofixable = true
    · simp only [hv, if_true] at h
      cases replies with
      | nil => have := h 0 (by omega); simp at this
      | cons r more =>
        have h0 := h 0 (by omega)
        simp only [List.getElem?_cons_zero, Option.some.injEq] at h0
        subst h0
        simp only [chosen, hv, if_true]
        exact ih more (fun j hj => by have := h (j + 1) (by omega); simpa using this)
    · simp only [chosen, hv]
      exact ih replies (fun j hj => h j (by simp [hv]; omega))

/-- A file, with a no to everything. -/
theorem no_one_file (hook : Bool) (w : World) (p : Path) (replies : List Reply) (run : List Result × Status Unit × World) (hF : Fixed env hook w p replies run)
    (hno : ∀ j < prompts (foundIn env w.files (env.resolve p)), replies[j]? = some .no) : run = alone env false hook w p := by
  obtain ⟨ss, hrun, hlen, hacc⟩ := hF.answered
  have hret := hF.returned
  rw [chosen_no _ _ hno] at hacc
  have hrep : (fixitFile env p false hook).run (List.replicate (drain none (fixitFile env p false hook) w).1.length none) w = alone env false hook w p :=
    run_replicate none (fixitFile env p false hook) w _ (Nat.le_refl _)
  have hal : ((fixitFile env p false hook).run (List.replicate (drain none (fixitFile env p false hook) w).1.length none) w).2.1 = .returned () := by
    rw [hrep]; exact alone_returns env false hook w p
  subst hrun
  rw [← hrep]
  refine run_same env w p false false hook _ _ hret hal ?_
  have hnone := accepted_none (foundIn env w.files (env.resolve p)) (List.replicate (drain none (fixitFile env p false hook) w).1.length none)
    (fun s hs => by rw [(List.mem_replicate.mp hs).2]; simp)
  apply fileFinish_accepted
  · rw [hacc, hnone]
  · intro content cfg h
    rw [hacc] at h; cases h

/-- **C132** When every question is answered with no, interactive fixing is linting: the same results (with diffs), no file changes, no fix is applied; but the exit status is 0. -/
theorem C132_no_to_all (diff hook : Bool) (fmt : OutputFormat) (template : Toml) (args fs : List Path) (replies : List Reply) (w : World) (c : List Out)
    (hh : (if args = [] then [con.cwd] else args).head? ≠ some [py "-"])
    (hf : filesUnder (walk w.files) ((if args = [] then [con.cwd] else args).filter (· ≠ [py "-"])) = .ok fs)
    (hfmt : fmt ≠ .custom) (hS : Stable env (fun q => q ∈ fs.map env.resolve)) (hd : (fs.map env.resolve).Nodup)
    (hyes : ∀ j < (fs.map (fun q => prompts (foundIn env w.files (env.resolve q)))).sum, replies[j]? = some .no) :
    let out := (fixCommand env con walk true diff hook (.ok (fmt, template)) args).run replies (w, c)
    let results := fs.flatMap (fun p => (alone env false hook w p).1)
    out.1 = results.filter Result.fixable ∧ out.2.1 = .returned 0 ∧
    out.2.2.1.files = w.files ∧
    ∃ visited dirty, Lists visited (fun q => ∃ r ∈ results, r.path = q) ∧ Lists dirty (fun q => ∃ r ∈ results, r.path = q ∧ Dirty r) ∧
      out.2.2.2 = c ++ printedFor con true false fmt template results ++
        [⟨true, summary visited.length dirty.length (results.filter Result.fixable).length 0⟩] := by
  obtain ⟨h1, h2, h3, h4, h5⟩ := same_reply env con walk .no (.inr rfl) (fun _ => false) diff hook fmt template args fs replies w c hh hf hfmt hS hd hyes
    (fun p replies' run hF hy => no_one_file env hook w p replies' run hF hy)
  refine ⟨h1, h2, ?_, by simpa using h5⟩
  funext q
  by_cases hq : ∃ p ∈ fs, env.resolve p = q
  · obtain ⟨p, hp, rfl⟩ := hq
    rw [h3 p hp, alone_lint_files env hook w p]
  · exact h4 q (fun p hp e => hq ⟨p, hp, e⟩)

/-- What `fix --automatic` prints. -/
theorem auto_output (diff hook : Bool) (fmt : OutputFormat) (template : Toml) (args fs : List Path) (replies : List Reply) (w : World) (c : List Out)
    (hh : (if args = [] then [con.cwd] else args).head? ≠ some [py "-"])
    (hf : filesUnder (walk w.files) ((if args = [] then [con.cwd] else args).filter (· ≠ [py "-"])) = .ok fs)
    (hfmt : fmt ≠ .custom) (hS : Stable env (fun q => q ∈ fs.map env.resolve)) (hd : (fs.map env.resolve).Nodup) :
    let results := fs.flatMap (fun p => (alone env true hook w p).1)
    ∃ visited dirty, Lists visited (fun q => ∃ r ∈ results, r.path = q) ∧ Lists dirty (fun q => ∃ r ∈ results, r.path = q ∧ Dirty r) ∧
      ((fixCommand env con walk false diff hook (.ok (fmt, template)) args).run replies (w, c)).2.2.2 = c ++ printedFor con diff false fmt template results ++
        [⟨true, summary visited.length dirty.length (results.filter Result.fixable).length (results.filter Result.fixable).length⟩] := by
  have hauto := C57_automatic env con walk diff hook fmt template args fs replies w c hh hf hfmt hS hd
  have h := C57_session env con walk false diff hook fmt template args replies w c
  generalize (if args = [] then [con.cwd] else args) = paths at h hh hf
  have hb : (paths.head? == some [py "-"]) = false := by simpa using hh
  simp only [hb, Bool.not_false, Bool.false_and, Bool.false_or, Bool.false_eq_true, false_and, or_false, and_false] at h
  obtain ⟨ss, s1, s2, s3, s4⟩ := h
  have hpr : ∀ r, printable con fmt template r = true := C79_builtin_formats con _ _ hfmt
  rw [answersTo_auto _ hpr] at s1
  rw [hauto.2.1] at s4
  obtain ⟨-, hret, visited, dirty, hv, hdy, htext⟩ := s4
  have hP : PathsRun env walk true hook false paths (List.replicate ((fixitPaths env walk true hook paths).run ss w).1.length none) w
      (((fixitPaths env walk true hook paths).run ss w).1, .returned (), ((fixitPaths env walk true hook paths).run ss w).2.2) := by
    have := PathsRun.plain (env := env) (walk := walk) (autofix := true) (hook := hook) (parallel := false) (paths := paths) (ss := ss) (w := w)
      (by unfold usesPool; split <;> simp [sequential])
    rw [← s1]
    have e : (fixitPaths env walk true hook paths).run ss w = (((fixitPaths env walk true hook paths).run ss w).1, .returned (), ((fixitPaths env walk true hook paths).run ss w).2.2) := by
      rw [← hret]
    exact e ▸ this
  obtain ⟨⟨order, -, hord, hrs⟩, -⟩ := C51_fix_any_schedule env walk true hook false paths _ w _ _ fs hh hf hS hd hP
  obtain rfl := hord rfl
  rw [hrs] at hv hdy htext
  exact ⟨visited, dirty, hv, hdy, by simpa using htext⟩

/-- **C132** If moreover no file has only violations without fix, answering yes to everything is in all respects what `fix --automatic --diff` does: the same exit status, the same
output and the same files. -/
theorem C132_yes_is_automatic (diff hook : Bool) (fmt : OutputFormat) (template : Toml) (args fs : List Path) (replies replies' : List Reply) (w : World) (c : List Out)
    (hh : (if args = [] then [con.cwd] else args).head? ≠ some [py "-"])
    (hf : filesUnder (walk w.files) ((if args = [] then [con.cwd] else args).filter (· ≠ [py "-"])) = .ok fs)
    (hfmt : fmt ≠ .custom) (hS : Stable env (fun q => q ∈ fs.map env.resolve)) (hd : (fs.map env.resolve).Nodup)
    (hyes : ∀ j < (fs.map (fun q => prompts (foundIn env w.files (env.resolve q)))).sum, replies[j]? = some .yes)
    (hfix : ∀ p ∈ fs, foundIn env w.files (env.resolve p) = [] ∨ ∃ v ∈ foundIn env w.files (env.resolve p), v.autofixable = true) :
    let asked := (fixCommand env con walk true diff hook (.ok (fmt, template)) args).run replies (w, c)
    let automatic := (fixCommand env con walk false true hook (.ok (fmt, template)) args).run replies' (w, c)
    asked.2.1 = .returned 0 ∧ automatic.2.1 = .returned 0 ∧ asked.2.2.2 = automatic.2.2.2 ∧ asked.2.2.1.files = automatic.2.2.1.files := by
  intro asked automatic
  obtain ⟨-, h2, h3, h4, visited, dirty, hv, hdy, ho⟩ := C132_yes_to_all env con walk diff hook fmt template args fs replies w c hh hf hfmt hS hd hyes
  obtain ⟨-, a2, a3, a4, -⟩ := C57_automatic env con walk true hook fmt template args fs replies' w c hh hf hfmt hS hd
  obtain ⟨visited', dirty', hv', hdy', ho'⟩ := auto_output env con walk true hook fmt template args fs replies' w c hh hf hfmt hS hd
  have hsame : ∀ p ∈ fs, alone env (toFix env w p) hook w p = alone env true hook w p := by
    intro p hp
    rcases hfix p hp with h | ⟨v, hv, hva⟩
    · have : toFix env w p = false := by simp [toFix, h]
      rw [this, alone_clean env hook w p h]
    · rw [show toFix env w p = true from List.any_eq_true.mpr ⟨v, hv, hva⟩]
  have hres : fs.flatMap (fun p => (alone env (toFix env w p) hook w p).1) = fs.flatMap (fun p => (alone env true hook w p).1) := by
    have : ∀ l : List Path, (∀ p ∈ l, p ∈ fs) → l.flatMap (fun p => (alone env (toFix env w p) hook w p).1) = l.flatMap (fun p => (alone env true hook w p).1) := by
      intro l
      induction l with
      | nil => intro _; rfl
      | cons p l ih =>
        intro hl
        simp only [List.flatMap_cons]
        rw [hsame p (hl p (by simp)), ih (fun q hq => hl q (List.mem_cons_of_mem _ hq))]
    exact this fs (fun _ h => h)
  rw [hres] at hv hdy ho
  refine ⟨h2, a2, ?_, ?_⟩
  · show asked.2.2.2 = automatic.2.2.2
    have ho : asked.2.2.2 = _ := ho
    have ho' : automatic.2.2.2 = _ := ho'
    rw [ho, ho', Lists_length hv hv', Lists_length hdy hdy']
  · funext q
    by_cases hq : ∃ p ∈ fs, env.resolve p = q
    · obtain ⟨p, hp, rfl⟩ := hq
      have h3 : asked.2.2.1.files (env.resolve p) = _ := h3 p hp
      have a3 : automatic.2.2.1.files (env.resolve p) = _ := a3 p hp
      rw [h3, a3, hsame p hp]
    · have hq : ∀ p ∈ fs, env.resolve p ≠ q := fun p hp e => hq ⟨p, hp, e⟩
      have h4 : asked.2.2.1.files q = _ := h4 q hq
      have a4 : automatic.2.2.1.files q = _ := a4 q hq
      rw [h4, a4]

end

end Fixit
