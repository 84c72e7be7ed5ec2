import Verif.Props.CliFix

/-!
# C57: interactive fixing of several files
-/

namespace Spec
open Py Fixit

/-- The user has replied yes or no. -/
def Settled (r : Option Reply) : Prop := r = some .yes ∨ r = some .no

/-- How many prompts these violations make. -/
def prompts (vs : List LintViolation) : Nat := (vs.filter LintViolation.autofixable).length

end Spec

namespace Fixit
open Py Py.Gen Spec

variable {C : Type} (env : Env C) (con : Console) (walk : (Path → Option Bytes) → Path → Except Err (List Path))

theorem prompts_cons (v : LintViolation) (vs : List LintViolation) : prompts (v :: vs) = (if v.autofixable then 1 else 0) + prompts vs := by
  unfold prompts
  rw [List.filter_cons]; split <;> simp <;> omega

/-- All settled: the answers to a file's violations, then those to the rest. -/
theorem answersTo_append (pr : Result → Bool) (p : Path) (hpr : ∀ r, pr r = true) : ∀ (vs : List LintViolation) (l : List Result) (replies : List Reply),
    (∀ j < prompts vs, Settled replies[j]?) →
    answersTo pr true (vs.map (reporting p) ++ l) replies = answersTo pr true (vs.map (reporting p)) replies ++ answersTo pr true l (replies.drop (prompts vs)) ∧
    (answersTo pr true (vs.map (reporting p)) replies).length = vs.length
  | [], l, replies, _ => by simp [answersTo, prompts]
  | v :: vs, l, replies, h => by
    have hfx : (reporting p v).fixable = v.autofixable := rfl
    simp only [List.map_cons, List.cons_append, answersTo, hpr, if_true, Bool.true_and, hfx]
    rw [prompts_cons] at h ⊢
    by_cases hv : v.autofixable = true
    · simp only [hv, if_true] at h ⊢
      have h0 := h 0 (by omega)
      cases replies with
      | nil => simp [Settled] at h0
      | cons r more =>
        have ih := answersTo_append pr p hpr vs l more (fun j hj => by have := h (j + 1) (by omega); simpa using this)
        have hd : (r :: more).drop (1 + prompts vs) = more.drop (prompts vs) := by rw [Nat.add_comm]; rfl
        rw [hd]
        cases r with
        | yes => simp only [List.cons_append, ih.1, List.length_cons, ih.2, and_self]
        | no => simp only [List.cons_append, ih.1, List.length_cons, ih.2, and_self]
        | quit => simp [Settled] at h0
        | abort => simp [Settled] at h0
    · have ih := answersTo_append pr p hpr vs l replies (fun j hj => h j (by simp [hv]; omega))
      simp only [hv, Bool.false_eq_true, if_false, Nat.zero_add]
      simp only [List.cons_append, ih.1, List.length_cons, ih.2, and_self]

/-- Not all settled: the answers stop among a file's violations. -/
theorem answersTo_stops (pr : Result → Bool) (p : Path) (hpr : ∀ r, pr r = true) : ∀ (vs : List LintViolation) (l : List Result) (replies : List Reply) (j : Nat),
    j < prompts vs → ¬ Settled replies[j]? → (answersTo pr true (vs.map (reporting p) ++ l) replies).length < vs.length
  | [], l, replies, j, hj, _ => by simp [prompts] at hj
  | v :: vs, l, replies, j, hj, hs => by
    have hfx : (reporting p v).fixable = v.autofixable := rfl
    simp only [List.map_cons, List.cons_append, answersTo, hpr, if_true, Bool.true_and, hfx]
    rw [prompts_cons] at hj
    by_cases hv : v.autofixable = true
    · simp only [hv, if_true] at hj ⊢
      cases replies with
      | nil => simp
      | cons r more =>
        have go : r = .yes ∨ r = .no → (answersTo pr true (vs.map (reporting p) ++ l) more).length < vs.length := by
          intro hr
          cases j with
          | zero => exfalso; apply hs; rcases hr with rfl | rfl <;> simp [Settled]
          | succ j => exact answersTo_stops pr p hpr vs l more j (by omega) (by simpa using hs)
        cases r with
        | yes => have := go (Or.inl rfl); simp; omega
        | no => have := go (Or.inr rfl); simp; omega
        | quit => simp
        | abort => simp
    · simp only [hv, Bool.false_eq_true, if_false, Nat.zero_add] at hj ⊢
      have := answersTo_stops pr p hpr vs l replies j hj hs
      simp; omega

theorem answersTo_short (pr : Result → Bool) (i : Bool) : ∀ (rs : List Result) (replies : List Reply), (answersTo pr i rs replies).length ≤ rs.length
  | [], _ => by simp [answersTo]
  | r :: rs, replies => by
    have ih := fun x => answersTo_short pr i rs x
    simp only [answersTo]
    split
    · split
      · split <;> simp [ih]
      · simp [ih]
    · simp

/-- What fixing a file does, to be compared with the world after a session: the content is the original with the accepted fixes, if there was no error. -/
structure Fixed (hook : Bool) (w : World) (p : Path) (replies : List Reply) (run : List Result × Status Unit × World) : Prop where
  returned : run.2.1 = .returned ()
  answered : ∃ ss, run = (fixitFile env p false hook).run ss w ∧ (foundIn env w.files (env.resolve p)).length ≤ ss.length ∧
    accepted false (foundIn env w.files (env.resolve p)) ss = chosen (foundIn env w.files (env.resolve p)) replies
  content : (∀ r ∈ run.1, r.error = none) → ∃ content cfg, loaded env w.files (env.resolve p) = .ok (content, cfg) ∧
    (chosen (found env w.files (env.resolve p) content cfg) replies = [] → run.2.2.files = w.files) ∧
    (chosen (found env w.files (env.resolve p) content cfg) replies ≠ [] → ∃ b,
      fixedContent env (env.resolve p) content cfg (chosen (found env w.files (env.resolve p) content cfg) replies) = .ok b ∧
      run.2.2.files (env.resolve p) = some (if b = [] then content else b))

/-- One file of a session. `rest` are the results of the files after it. -/
theorem session_step (pr : Result → Bool) (hpr : ∀ r, pr r = true) (hook : Bool) (w : World) (p : Path) (ss : List Answer) (replies : List Reply) (rest : List Result)
    (hrest : (∀ u, ((fixitFile env p false hook).run ss w).2.1 ≠ .returned u) → rest = [])
    (h : ss = answersTo pr true (((fixitFile env p false hook).run ss w).1 ++ rest) replies) :
    ((∀ j < prompts (foundIn env w.files (env.resolve p)), Settled replies[j]?) →
      Fixed env hook w p replies ((fixitFile env p false hook).run ss w) ∧
      ss.drop ((fixitFile env p false hook).run ss w).1.length = answersTo pr true rest (replies.drop (prompts (foundIn env w.files (env.resolve p))))) ∧
    ((∃ j, j < prompts (foundIn env w.files (env.resolve p)) ∧ ¬ Settled replies[j]?) →
      ((fixitFile env p false hook).run ss w).2.1 = .suspended ∧ ((fixitFile env p false hook).run ss w).2.2 = w) := by
  have ho : (fixitFile env p false hook).run ss w = _ := run_lintFile env (env.resolve p) false hook ss w
  have hfl := fileFinish_last env w.files (env.resolve p) false hook ss
  generalize hvs : foundIn env w.files (env.resolve p) = vs at *
  generalize hrun : (fixitFile env p false hook).run ss w = run at *
  by_cases hk : ss.length < vs.length
  · rw [script_lt _ _ _ _ _ hk] at ho
    have hr0 : rest = [] := hrest (by intro u; rw [ho]; simp)
    refine ⟨fun hall => ?_, fun _ => by rw [ho]; exact ⟨rfl, rfl⟩⟩
    exfalso
    rw [hr0, List.append_nil] at h
    have h1 : run.1 = (vs.take (ss.length + 1)).map (reporting (env.resolve p)) := by rw [ho]
    rw [h1] at h
    have hle : prompts (vs.take (ss.length + 1)) ≤ prompts vs := by
      unfold prompts
      exact ((List.take_sublist _ _).filter _).length_le
    have := (answersTo_append pr (env.resolve p) hpr (vs.take (ss.length + 1)) [] replies (fun j hj => hall j (by omega))).2
    rw [← h, List.length_take] at this
    omega
  · -- everything was shown
    obtain ⟨tail, st, u, hrun', htail, hst⟩ : ∃ (tail : List Result) (st : Status Unit) (u : World), run = (vs.map (reporting (env.resolve p)) ++ tail, st, u) ∧
        (∀ l reps, answersTo pr true (tail ++ l) reps = List.replicate tail.length none ++ answersTo pr true l reps) ∧
        (st = .returned () ∨ (st = .suspended ∧ ss.length = vs.length ∧ tail.length = 1)) := by
      cases hl : (fileFinish env w.files (env.resolve p) false hook ss).last with
      | none =>
        rw [script_none _ _ _ _ _ hk hl] at ho
        exact ⟨[], _, _, by rw [ho, List.append_nil], by simp, Or.inl rfl⟩
      | some r =>
        rw [script_some _ _ _ r _ _ hk hl] at ho
        rw [hl] at hfl
        have hrf : r.fixable = false := by
          rcases hfl with ⟨rfl, -⟩ | ⟨e, rfl⟩ <;> rfl
        refine ⟨[r], _, _, ho, ?_, ?_⟩
        · intro l reps
          simp [answersTo, hpr, hrf]
        · split
          · exact Or.inr ⟨rfl, by assumption, rfl⟩
          · exact Or.inl rfl
    rw [hrun'] at h ⊢
    simp only at h ⊢
    rw [List.append_assoc] at h
    constructor
    · intro hall
      obtain ⟨ha, hb⟩ := answersTo_append pr (env.resolve p) hpr vs (tail ++ rest) replies hall
      rw [ha, htail] at h
      have hret : st = .returned () := by
        rcases hst with h' | ⟨-, h2, h3⟩
        · exact h'
        · exfalso
          have := congrArg List.length h
          simp only [List.length_append, List.length_replicate, hb] at this
          omega
      subst hret
      have hac : accepted false vs ss = chosen vs replies := by
        rw [h]
        have hz : ∀ (A B : List Answer), A.length = vs.length → accepted false vs (A ++ B) = accepted false vs A := by
          intro A B hA
          unfold accepted
          rw [← List.append_nil vs, List.zip_append hA.symm]
          simp
        rw [hz _ _ hb]
        exact accepted_chosen pr _ hpr vs replies
      refine ⟨⟨rfl, ⟨ss, (hrun.trans hrun').symm, by rw [hvs]; omega, by rw [hvs]; exact hac⟩, fun hne => ?_⟩, ?_⟩
      · obtain ⟨content, cfg, hl, h1, h2, -⟩ := final_content env p false hook ss w u _ (hrun.trans hrun') hne
        have hfi : found env w.files (env.resolve p) content cfg = vs := by rw [← hvs]; unfold foundIn; rw [hl]
        rw [hfi, hac] at h1 h2
        exact ⟨content, cfg, hl, by rw [hfi]; exact h1, by rw [hfi]; exact h2⟩
      · have hlen : (vs.map (reporting (env.resolve p)) ++ tail).length =
            (answersTo pr true (vs.map (reporting (env.resolve p))) replies ++ List.replicate tail.length (none : Answer)).length := by
          simp [hb]
        rw [hlen]
        conv => lhs; rw [h]
        rw [← List.append_assoc, List.drop_left]
    · rintro ⟨j, hj, hs⟩
      exfalso
      have := answersTo_stops pr (env.resolve p) hpr vs (tail ++ rest) replies j hj hs
      rw [← h] at this
      omega

/-- All files of a session, one by one: `Past i` says that the replies go beyond the file `i`. -/
theorem session_files (pr : Result → Bool) (hpr : ∀ r, pr r = true) (hook : Bool) (w : World) : ∀ (ps : List Path) (ss : List Answer) (replies : List Reply),
    ss = answersTo pr true ((oneByOne env false hook w ps ss).flatMap (·.1)) replies →
    ∀ (i : Nat) (p : Path), ps[i]? = some p →
      ((∀ j < ((ps.take (i + 1)).map (fun q => prompts (foundIn env w.files (env.resolve q)))).sum, Settled replies[j]?) →
        ∃ run, (ps.zip (oneByOne env false hook w ps ss))[i]? = some (p, run) ∧
          Fixed env hook w p (replies.drop ((ps.take i).map (fun q => prompts (foundIn env w.files (env.resolve q)))).sum) run) ∧
      ((∃ j, j < ((ps.take (i + 1)).map (fun q => prompts (foundIn env w.files (env.resolve q)))).sum ∧ ¬ Settled replies[j]?) →
        ∀ run, (ps.zip (oneByOne env false hook w ps ss))[i]? = some (p, run) → run.2.2 = w)
  | [], _, _, _, i, p, hi => by simp at hi
  | q :: ps, ss, replies, h, i, p, hi => by
    -- the results of the later files
    rcases hrun : (fixitFile env q false hook).run ss w with ⟨ys, st, u⟩
    have hone : oneByOne env false hook w (q :: ps) ss = match st with
        | .returned _ => (ys, st, u) :: oneByOne env false hook w ps (ss.drop ys.length)
        | _ => [(ys, st, u)] := by
      simp only [oneByOne, hrun]
      cases st <;> rfl
    have hstep : ∀ rest, (∀ u', st ≠ .returned u') ∧ rest = [] ∨ (∃ u', st = .returned u') → ss = answersTo pr true (ys ++ rest) replies →
        ((∀ j < prompts (foundIn env w.files (env.resolve q)), Settled replies[j]?) →
          Fixed env hook w q replies (ys, st, u) ∧ ss.drop ys.length = answersTo pr true rest (replies.drop (prompts (foundIn env w.files (env.resolve q))))) ∧
        ((∃ j, j < prompts (foundIn env w.files (env.resolve q)) ∧ ¬ Settled replies[j]?) → st = .suspended ∧ u = w) := by
      intro rest hr hss
      have := session_step env pr hpr hook w q ss replies rest (by
        rw [hrun]; intro hno
        rcases hr with ⟨-, h⟩ | ⟨u', h⟩
        · exact h
        · exact absurd h (hno u')) (by rw [hrun]; exact hss)
      rw [hrun] at this
      exact this
    rw [List.take_succ_cons, List.map_cons, List.sum_cons]
    rw [hone] at h ⊢
    by_cases hset : ∀ j < prompts (foundIn env w.files (env.resolve q)), Settled replies[j]?
    · -- the user got past the first file
      have hret : ∃ u', st = .returned u' := by
        cases st with
        | returned u' => exact ⟨u', rfl⟩
        | raised e => exact absurd (by rw [hrun]) (C45_never_raises env q false hook ss w e)
        | suspended =>
          simp only [List.flatMap_cons, List.flatMap_nil, List.append_nil] at h
          have := ((hstep [] (Or.inl ⟨by simp, rfl⟩) (by rw [List.append_nil]; exact h)).1 hset).1.returned
          simp at this
      obtain ⟨u', rfl⟩ := hret
      simp only [List.flatMap_cons] at h
      obtain ⟨hfix, hdrop⟩ := (hstep _ (Or.inr ⟨u', rfl⟩) h).1 hset
      cases i with
      | zero =>
        simp only [List.getElem?_cons_zero, Option.some.injEq] at hi
        subst hi
        refine ⟨fun _ => ⟨_, rfl, by simpa using hfix⟩, ?_⟩
        rintro ⟨j, hj, hs⟩
        exact absurd (hset j (by simpa using hj)) hs
      | succ i =>
        simp only [List.getElem?_cons_succ] at hi
        have ih := session_files pr hpr hook w ps (ss.drop ys.length) (replies.drop (prompts (foundIn env w.files (env.resolve q)))) hdrop i p hi
        simp only [List.zip_cons_cons, List.getElem?_cons_succ, List.take_succ_cons, List.map_cons, List.sum_cons]
        refine ⟨fun hall => ?_, ?_⟩
        · obtain ⟨run, h1, h2⟩ := ih.1 (fun j hj => by
            rw [List.getElem?_drop]
            exact hall _ (by omega))
          rw [List.drop_drop] at h2
          exact ⟨run, h1, h2⟩
        · rintro ⟨j, hj, hs⟩
          apply ih.2
          have hge : ¬ j < prompts (foundIn env w.files (env.resolve q)) := fun hlt => hs (hset j hlt)
          refine ⟨j - prompts (foundIn env w.files (env.resolve q)), by omega, ?_⟩
          rw [List.getElem?_drop, show prompts (foundIn env w.files (env.resolve q)) + (j - prompts (foundIn env w.files (env.resolve q))) = j by omega]
          exact hs
    · -- the session stops in the first file
      have hex : ∃ j, j < prompts (foundIn env w.files (env.resolve q)) ∧ ¬ Settled replies[j]? := by
        simpa using hset
      have hsus : st = .suspended ∧ u = w := by
        cases st with
        | returned u' =>
          simp only [List.flatMap_cons] at h
          exact (hstep _ (Or.inr ⟨u', rfl⟩) h).2 hex
        | raised e => exact absurd (by rw [hrun]) (C45_never_raises env q false hook ss w e)
        | suspended =>
          simp only [List.flatMap_cons, List.flatMap_nil, List.append_nil] at h
          exact (hstep [] (Or.inl ⟨by simp, rfl⟩) (by rw [List.append_nil]; exact h)).2 hex
      obtain ⟨rfl, rfl⟩ := hsus
      obtain ⟨j, hj, hs⟩ := hex
      refine ⟨fun hall => absurd (hall j (by omega)) hs, fun _ run hr => ?_⟩
      cases i with
      | zero =>
        simp only [List.zip_cons_cons, List.getElem?_cons_zero, Option.some.injEq, Prod.mk.injEq] at hr
        rw [← hr.2]
      | succ i => simp at hr

theorem oneByOne_run (autofix hook : Bool) (w : World) : ∀ (ps : List Path) (ss : List Answer), ∀ x ∈ ps.zip (oneByOne env autofix hook w ps ss),
    ∃ ss', x.2 = (fixitFile env x.1 autofix hook).run ss' w
  | [], _, x, hx => by simp [oneByOne] at hx
  | p :: ps, ss, x, hx => by
    simp only [oneByOne] at hx
    split at hx
    · rw [List.zip_cons_cons, List.mem_cons] at hx
      rcases hx with rfl | hx
      · exact ⟨ss, rfl⟩
      · exact oneByOne_run autofix hook w ps _ x hx
    · rw [List.zip_cons_cons, List.zip_nil_right, List.mem_singleton] at hx
      subst hx
      exact ⟨ss, rfl⟩

/-- **C57** Interactive fixing of several distinct files (none of which is a configuration file, a local rule or read by one), with a built-in output format, at
any point of the session: the replies are used up by the fixable violations of the files in turn. A file all of whose prompts have been replied to with yes or no
has -- unless an error was reported for it -- the original content with exactly the accepted fixes (untouched if none, and never emptied). Every other file,
in particular the one at which the user quit, is untouched. -/
theorem C57_files (diff hook : Bool) (fmt : OutputFormat) (template : Toml) (args fs : List Path) (replies : List Reply) (w : World) (c : List Out)
    (hh : (if args = [] then [con.cwd] else args).head? ≠ some [py "-"])
    (hf : filesUnder (walk w.files) ((if args = [] then [con.cwd] else args).filter (· ≠ [py "-"])) = .ok fs)
    (hfmt : fmt ≠ .custom) (hS : Stable env (fun q => q ∈ fs.map env.resolve)) (hd : (fs.map env.resolve).Nodup) (i : Nat) (p : Path) (hi : fs[i]? = some p) :
    let out := (fixCommand env con walk true diff hook (.ok (fmt, template)) args).run replies (w, c)
    let before := ((fs.take i).map (fun q => prompts (foundIn env w.files (env.resolve q)))).sum
    let mine := prompts (foundIn env w.files (env.resolve p))
    ∃ (ys : List Result) (tail : List Out), out.2.2.2 = c ++ printedFor con true false fmt template ys ++ tail ∧
      ((∀ j < before + mine, Settled replies[j]?) → (∀ r ∈ ys, r.path = env.resolve p → r.error = none) →
        ∃ content cfg, loaded env w.files (env.resolve p) = .ok (content, cfg) ∧
          let yes := chosen (found env w.files (env.resolve p) content cfg) (replies.drop before)
          (yes = [] → out.2.2.1.files (env.resolve p) = w.files (env.resolve p)) ∧
          (yes ≠ [] → ∃ b, fixedContent env (env.resolve p) content cfg yes = .ok b ∧ out.2.2.1.files (env.resolve p) = some (if b = [] then content else b))) ∧
      ((∃ j, j < before + mine ∧ ¬ Settled replies[j]?) → out.2.2.1.files (env.resolve p) = w.files (env.resolve p)) := by
  intro out before mine
  have h := C57_session env con walk true diff hook fmt template args replies w c
  generalize (if args = [] then [con.cwd] else args) = paths at h hh hf
  have hb : (paths.head? == some [py "-"]) = false := by simpa using hh
  simp only [hb, Bool.not_false, Bool.and_self, Bool.not_true, Bool.true_or, Bool.true_and] at h
  obtain ⟨ss, s1, -, s3, s4⟩ := h
  rw [C50_files env walk false hook paths ss w fs hh hf] at s1 s3 s4
  have hpr : ∀ r, printable con fmt template r = true := C79_builtin_formats con fmt template hfmt
  obtain ⟨e1, e2, e3⟩ := C52_each_on_its_own env false hook fs ss w hS hd
  rw [e1] at s1 s4
  have hs := session_files env (printable con fmt template) hpr hook w fs ss replies s1 i p hi
  have hsum : ((fs.take (i + 1)).map (fun q => prompts (foundIn env w.files (env.resolve q)))).sum = before + mine := by
    have hlt : i < fs.length := (List.getElem?_eq_some_iff.mp hi).1
    have hg : fs[i] = p := (List.getElem?_eq_some_iff.mp hi).2
    rw [List.take_succ_eq_append_getElem hlt, hg]
    simp [before, mine]
  rw [hsum] at hs
  have hout : (fixCommand env con walk true diff hook (.ok (fmt, template)) args).run replies (w, c) = out := rfl
  rw [hout] at s3 s4
  have hprint : ∃ tail, out.2.2.2 = c ++ printedFor con true false fmt template ((oneByOne env false hook w fs ss).flatMap (·.1)) ++ tail := by
    cases hst : out.2.1 with
    | returned code => rw [hst] at s4; obtain ⟨-, -, v, d, -, -, h⟩ := s4; exact ⟨_, h⟩
    | raised e => rw [hst] at s4; exact ⟨[], by rw [s4.1, List.append_nil]⟩
    | suspended => rw [hst] at s4; exact ⟨[], by rw [s4.1, List.append_nil]⟩
  obtain ⟨tail, htail⟩ := hprint
  refine ⟨_, tail, htail, fun hall hne => ?_, fun hex => ?_⟩
  · obtain ⟨run, hz, hfix⟩ := hs.1 hall
    have hmem : (p, run) ∈ fs.zip (oneByOne env false hook w fs ss) := List.mem_of_getElem? hz
    have hrm : run ∈ oneByOne env false hook w fs ss := (List.of_mem_zip hmem).2
    have hpaths : ∀ r ∈ run.1, r.path = env.resolve p := by
      intro r hr
      obtain ⟨ss', hrun⟩ := oneByOne_run env false hook w fs ss (p, run) hmem
      have hrun' : run = _ := hrun
      rw [hrun'] at hr
      exact C54_results_name_the_file env p false hook ss' w r hr
    obtain ⟨content, cfg, hl, h1, h2⟩ := hfix.content (fun r hr => hne r (List.mem_flatMap.mpr ⟨run, hrm, hr⟩) (hpaths r hr))
    have hfile := e2 (p, run) hmem
    rw [s3]
    refine ⟨content, cfg, hl, fun hy => ?_, fun hy => ?_⟩
    · rw [hfile]; simp only; rw [h1 hy]
    · obtain ⟨b, hb1, hb2⟩ := h2 hy
      exact ⟨b, hb1, by rw [hfile]; exact hb2⟩
  · rw [s3]
    by_cases hin : ∃ run, (p, run) ∈ fs.zip (oneByOne env false hook w fs ss)
    · obtain ⟨run, hmem⟩ := hin
      have hfile := e2 (p, run) hmem
      rw [hfile]
      obtain ⟨k, hk⟩ := List.mem_iff_getElem?.mp hmem
      have hki : k = i := by
        have hfk : fs[k]? = some p := by
          rw [List.getElem?_zip_eq_some] at hk
          exact hk.1
        have hlt : i < fs.length := (List.getElem?_eq_some_iff.mp hi).1
        have hm : (fs.map env.resolve)[i]? = (fs.map env.resolve)[k]? := by simp [hi, hfk]
        exact ((List.getElem?_inj (by simpa using hlt) hd).mp hm).symm
      subst hki
      simp only
      rw [hs.2 hex run hk]
    · refine e3 _ (fun x hx he => ?_)
      obtain ⟨q, run⟩ := x
      have hq : q ∈ fs := (List.of_mem_zip hx).1
      have : q = p := by
        have hpm : p ∈ fs := List.mem_of_getElem? hi
        have hinj : ∀ a ∈ fs, ∀ b ∈ fs, env.resolve a = env.resolve b → a = b := by
          intro a ha b hb' hab
          obtain ⟨ka, hka⟩ := List.mem_iff_getElem?.mp ha
          obtain ⟨kb, hkb⟩ := List.mem_iff_getElem?.mp hb'
          have hlt : ka < fs.length := (List.getElem?_eq_some_iff.mp hka).1
          have hm : (fs.map env.resolve)[ka]? = (fs.map env.resolve)[kb]? := by simp [hka, hkb, hab]
          have := (List.getElem?_inj (by simpa using hlt) hd).mp hm
          subst this
          rw [hka] at hkb; cases hkb; rfl
        exact hinj q hq p hpm he
      subst this
      exact hin ⟨run, hx⟩

end Fixit
