import Verif.Proof.Pool
import Verif.Props.ApiCases

/-!
# C50, C51, C52: several paths
-/

namespace Fixit
open Py Spec Gen

variable {C : Type} (env : Env C)

/-! ## C50 -/

theorem scanFrom_stdin (walk : Path → Except Err (List Path)) : ∀ (ps : List Path) (i : Nat) (st : Scan), st.isStdin = true → 2 ≤ i →
    scanFrom walk ps i st = if ∀ p ∈ ps, p = [py "-"] then .ok st else .error .value
  | [], i, st, _, _ => by simp [scanFrom]
  | p :: ps, i, st, hs, hi => by
    have h0 : i ≠ 0 := by omega
    have h1 : i ≠ 1 := by omega
    by_cases hp : p = [py "-"]
    · simp only [scanFrom, stdinArg, hp, h0, if_true, if_false, List.forall_mem_cons, true_and]
      exact scanFrom_stdin walk ps (i + 1) st hs (by omega)
    · simp only [scanFrom, stdinArg, hp, hs, h1, if_true, if_false, List.forall_mem_cons, false_and]

theorem scanFrom_files (walk : Path → Except Err (List Path)) : ∀ (ps : List Path) (i : Nat) (st : Scan), st.isStdin = false → (1 ≤ i ∨ ps.head? ≠ some [py "-"]) →
    scanFrom walk ps i st = match filesUnder walk (ps.filter (· ≠ [py "-"])) with
      | .error e => .error e
      | .ok fs => .ok { st with expanded := st.expanded ++ fs }
  | [], i, st, _, _ => by simp [scanFrom, filesUnder]
  | p :: ps, i, st, hs, hi => by
    by_cases hp : p = [py "-"]
    · have h0 : i ≠ 0 := by
        rcases hi with h | h
        · omega
        · simp [hp] at h
      have hf : (p :: ps).filter (· ≠ [py "-"]) = ps.filter (· ≠ [py "-"]) := by simp [hp]
      rw [hf]
      simp only [scanFrom, stdinArg, hp, h0, if_true, if_false]
      exact scanFrom_files walk ps (i + 1) st hs (Or.inl (by omega))
    · have hf : (p :: ps).filter (· ≠ [py "-"]) = p :: ps.filter (· ≠ [py "-"]) := by simp [hp]
      rw [hf]
      simp only [scanFrom, stdinArg, hp, hs, if_false, filesUnder, Bool.false_eq_true]
      cases hw : walk p with
      | error e => rfl
      | ok fs =>
        simp only
        rw [scanFrom_files walk ps (i + 1) _ rfl (Or.inl (by omega))]
        simp only
        cases filesUnder walk (ps.filter (· ≠ [py "-"])) with
        | error e => rfl
        | ok gs => simp [List.append_assoc]

variable (walk : (Path → Option Bytes) → Path → Except Err (List Path))

theorem run_fixitPaths (autofix hook : Bool) (p : Path) (ps : List Path) (ss : List Answer) (w : World) :
    (fixitPaths env walk autofix hook (p :: ps)).run ss w = match scan (walk w.files) (p :: ps) with
      | .error e => ([], .raised e, w)
      | .ok st => (if st.isStdin then fixitStdin env st.name autofix hook else eachFile env autofix hook st.expanded).run ss w := by
  unfold fixitPaths
  simp only [List.isEmpty_cons, Bool.false_eq_true, if_false, look, run, id]
  cases scan (walk w.files) (p :: ps) <;> rfl

/-- **C50** If the first path is `-` and so are all others, standard input is linted under the name `stdin`, and no file is looked for. -/
theorem C50_stdin_unnamed (autofix hook : Bool) (rest : List Path) (ss : List Answer) (w : World) (h : ∀ p ∈ rest, p = [py "-"]) :
    (fixitPaths env walk autofix hook ([py "-"] :: rest)).run ss w = (fixitStdin env [py "stdin"] autofix hook).run ss w := by
  rw [run_fixitPaths]
  have : scan (walk w.files) ([py "-"] :: rest) = .ok ⟨[], true, [py "stdin"]⟩ := by
    unfold scan
    simp only [scanFrom, stdinArg, if_true, stdinName]
    cases rest with
    | nil => rfl
    | cons q qs =>
      have hq := h q (by simp)
      simp only [scanFrom, stdinArg, hq, if_true]
      rw [if_neg (by decide), scanFrom_stdin _ _ _ _ rfl (by omega), if_pos (fun p hp => h p (by simp [hp]))]
  rw [this]
  rfl

/-- **C50** If the first path is `-`, the second is another and all further ones are `-`, standard input is linted under the name of the second. -/
theorem C50_stdin_named (autofix hook : Bool) (name : Path) (rest : List Path) (ss : List Answer) (w : World) (hn : name ≠ [py "-"])
    (h : ∀ p ∈ rest, p = [py "-"]) :
    (fixitPaths env walk autofix hook ([py "-"] :: name :: rest)).run ss w = (fixitStdin env name autofix hook).run ss w := by
  rw [run_fixitPaths]
  have : scan (walk w.files) ([py "-"] :: name :: rest) = .ok ⟨[], true, name⟩ := by
    unfold scan
    simp only [scanFrom, stdinArg, if_true, stdinName, hn, if_false]
    rw [scanFrom_stdin _ _ _ _ rfl (by omega), if_pos h]
  rw [this]
  rfl

/-- **C50** If the first path is `-` and a path other than `-` comes after the second, iterating raises ValueError and nothing was linted. (A `-` in second
place does not make room for the name: `- - name` raises, too.) -/
theorem C50_too_many (autofix hook : Bool) (second p : Path) (rest : List Path) (ss : List Answer) (w : World) (hp : p ∈ rest) (hne : p ≠ [py "-"]) :
    (fixitPaths env walk autofix hook ([py "-"] :: second :: rest)).run ss w = ([], .raised .value, w) := by
  rw [run_fixitPaths]
  have : scan (walk w.files) ([py "-"] :: second :: rest) = .error .value := by
    unfold scan
    by_cases hs : second = [py "-"]
    · simp only [scanFrom, stdinArg, if_true, stdinName, hs]
      rw [if_neg (by decide), scanFrom_stdin _ _ _ _ rfl (by omega), if_neg (fun h => hne (h p hp))]
    · simp only [scanFrom, stdinArg, if_true, stdinName, hs, if_false]
      rw [scanFrom_stdin _ _ _ _ rfl (by omega), if_neg (fun h => hne (h p hp))]
  rw [this]

/-- **C50** Otherwise the files found under the paths other than `-` are linted one after the other, in order, each as often as it is found. -/
theorem C50_files (autofix hook : Bool) (paths : List Path) (ss : List Answer) (w : World) (fs : List Path) (hh : paths.head? ≠ some [py "-"])
    (hf : filesUnder (walk w.files) (paths.filter (· ≠ [py "-"])) = .ok fs) :
    (fixitPaths env walk autofix hook paths).run ss w = (eachFile env autofix hook fs).run ss w := by
  cases paths with
  | nil => simp [filesUnder] at hf; subst hf; rfl
  | cons p ps =>
    rw [run_fixitPaths]
    unfold scan
    rw [scanFrom_files _ _ _ _ rfl (Or.inr hh), hf]
    rfl

/-- **C50** When the walk of a path raises, nothing was linted. -/
theorem C50_walk_raises (autofix hook : Bool) (paths : List Path) (ss : List Answer) (w : World) (e : Err) (hh : paths.head? ≠ some [py "-"])
    (hf : filesUnder (walk w.files) (paths.filter (· ≠ [py "-"])) = .error e) :
    (fixitPaths env walk autofix hook paths).run ss w = ([], .raised e, w) := by
  cases paths with
  | nil => simp [filesUnder] at hf
  | cons p ps =>
    rw [run_fixitPaths]
    unfold scan
    rw [scanFrom_files _ _ _ _ rfl (Or.inr hh), hf]

/-- **C50** The pool is used exactly when asked for, for files, and unless there is exactly one. -/
theorem C50_pool_iff (parallel : Bool) (paths : List Path) (files : Path → Option Bytes) (fs : List Path) :
    usesPool (walk files) parallel paths = some fs ↔
      parallel = true ∧ fs.length ≠ 1 ∧ paths.head? ≠ some [py "-"] ∧ filesUnder (walk files) (paths.filter (· ≠ [py "-"])) = .ok fs := by
  by_cases hh : paths.head? = some [py "-"]
  · cases paths with
    | nil => simp at hh
    | cons p ps =>
      have hp : p = [py "-"] := by simpa using hh
      subst hp
      have key : ∀ st, scan (walk files) ([py "-"] :: ps) = .ok st → st.isStdin = true := by
        intro st hst
        unfold scan at hst
        simp only [scanFrom, stdinArg, if_true] at hst
        cases ps with
        | nil => simp [scanFrom] at hst; rw [← hst]
        | cons q qs =>
          by_cases hq : q = [py "-"]
          · simp only [scanFrom, stdinArg, hq, if_true] at hst
            rw [if_neg (by decide), scanFrom_stdin _ _ _ _ rfl (by omega)] at hst
            split at hst
            · simp at hst; rw [← hst]
            · simp at hst
          · simp only [scanFrom, stdinArg, hq, if_true, if_false] at hst
            rw [scanFrom_stdin _ _ _ _ rfl (by omega)] at hst
            split at hst
            · simp at hst; rw [← hst]
            · simp at hst
      unfold usesPool
      cases hs : scan (walk files) ([py "-"] :: ps) with
      | error e => simp
      | ok st => simp [key st hs]
  · unfold usesPool scan
    rw [scanFrom_files _ _ _ _ rfl (Or.inr hh)]
    cases hf : filesUnder (walk files) (paths.filter (· ≠ [py "-"])) with
    | error e => simp
    | ok gs =>
      show (if sequential parallel gs = true then none else some gs) = some fs ↔ _
      by_cases hs : sequential parallel gs = true
      · rw [if_pos hs]
        simp only [sequential, Bool.or_eq_true, beq_iff_eq, Bool.not_eq_true'] at hs
        constructor
        · intro h; cases h
        · rintro ⟨h1, h2, h3, h4⟩
          cases h4
          rcases hs with hs | hs
          · exact absurd hs h2
          · rw [h1] at hs; cases hs
      · rw [if_neg hs]
        simp only [sequential, Bool.or_eq_true, beq_iff_eq, Bool.not_eq_true', not_or, Bool.not_eq_false] at hs
        constructor
        · intro h; cases h; exact ⟨hs.2, hs.1, hh, rfl⟩
        · rintro ⟨-, -, -, h4⟩; cases h4; rfl

/-! ## C52 -/

/-- The general form of C52: `S` is the set of files that may be written. -/
theorem eachFile_run {S : Path → Prop} (hS : Stable env S) (autofix hook : Bool) (w : World) :
    ∀ (ps : List Path) (ss : List Answer) (w' : World),
      (∀ p ∈ ps, S (env.resolve p) ∨ (autofix = false ∧ ∀ s ∈ ss, s.yes = false)) →
      (ps.map env.resolve).Pairwise (fun a b => a = b → ¬ S a) →
      (∀ q, ¬ S q ∨ q ∈ ps.map env.resolve → w'.files q = w.files q) →
      ((eachFile env autofix hook ps).run ss w').1 = (oneByOne env autofix hook w ps ss).flatMap (·.1) ∧
      ((eachFile env autofix hook ps).run ss w').2.1 = ((oneByOne env autofix hook w ps ss).getLast?.map (·.2.1)).getD (.returned ()) ∧
      (∀ x ∈ ps.zip (oneByOne env autofix hook w ps ss), ((eachFile env autofix hook ps).run ss w').2.2.files (env.resolve x.1) = x.2.2.2.files (env.resolve x.1)) ∧
      (∀ q, (∀ x ∈ ps.zip (oneByOne env autofix hook w ps ss), env.resolve x.1 ≠ q) ∨ ¬ S q → ((eachFile env autofix hook ps).run ss w').2.2.files q = w'.files q) ∧
      ∃ evs, ((eachFile env autofix hook ps).run ss w').2.2.log = w'.log ++ evs ∧
        ∃ δ : List (List Event), evs = δ.flatten ∧ δ.length = (oneByOne env autofix hook w ps ss).length ∧
          ∀ x ∈ δ.zip (oneByOne env autofix hook w ps ss), x.2.2.2.log = w.log ++ x.1 := by
  intro ps
  induction ps with
  | nil => intro ss w' _ _ _; exact ⟨rfl, rfl, by simp, by simp [eachFile, run], [], by simp [eachFile, run], [], rfl, rfl, by simp [oneByOne]⟩
  | cons p ps ih =>
    intro ss w' hp hd hw
    have hc : Confined (fun s => s ∈ ss) S (env.resolve p) (fun _ => True) (fixitFile env p autofix hook) := confined_lintFile env hS _ autofix hook (hp p (by simp))
    have hag : Agree S (env.resolve p) w w' := ⟨(hw _ (Or.inr (by simp))).symm, fun q hq => (hw q (Or.inl hq)).symm⟩
    obtain ⟨r1, r2, r3, evs0, r4, r5⟩ := hc.run ss w w' (fun s h => h) hag
    have rf := hc.run_files ss w' (fun s h => h)
    rw [List.map_cons, List.pairwise_cons] at hd
    have hold : ∀ q, (∀ x ∈ [env.resolve p], x ≠ q) ∨ ¬ S q → ((fixitFile env p autofix hook).run ss w').2.2.files q = w'.files q := by
      intro q hq
      apply rf
      rcases hq with hq | hq
      · exact Or.inl (fun h => hq _ (by simp) h.symm)
      · exact Or.inr hq
    simp only [eachFile, oneByOne]
    rcases ho : (fixitFile env p autofix hook).run ss w with ⟨ys, st, u⟩
    rcases ho' : (fixitFile env p autofix hook).run ss w' with ⟨ys', st', u'⟩
    rw [ho] at r1 r2 r3 r4
    rw [ho'] at r1 r2 r3 r5 rf hold
    simp only at r1 r2 r3 r4 r5 rf hold
    subst r1 r2
    have single : ∀ st0, st = st0 → (∀ r, st0 ≠ .returned r) →
        ((fixitFile env p autofix hook).bind (fun _ => eachFile env autofix hook ps)).run ss w' = (ys, st, u') := by
      intro st0 h0 hn
      rw [run_bind, ho']
      cases st with
      | returned r => exact absurd h0.symm (hn r)
      | raised e => rfl
      | suspended => rfl
    have finish : ((fixitFile env p autofix hook).bind (fun _ => eachFile env autofix hook ps)).run ss w' = (ys, st, u') →
        (((fixitFile env p autofix hook).bind (fun _ => eachFile env autofix hook ps)).run ss w').1 = ([(ys, st, u)] : List (List Result × Status Unit × World)).flatMap (·.1) ∧
        (((fixitFile env p autofix hook).bind (fun _ => eachFile env autofix hook ps)).run ss w').2.1 =
          (([(ys, st, u)] : List (List Result × Status Unit × World)).getLast?.map (·.2.1)).getD (.returned ()) ∧
        (∀ x ∈ (p :: ps).zip ([(ys, st, u)] : List (List Result × Status Unit × World)),
          (((fixitFile env p autofix hook).bind (fun _ => eachFile env autofix hook ps)).run ss w').2.2.files (env.resolve x.1) = x.2.2.2.files (env.resolve x.1)) ∧
        (∀ q, (∀ x ∈ (p :: ps).zip ([(ys, st, u)] : List (List Result × Status Unit × World)), env.resolve x.1 ≠ q) ∨ ¬ S q →
          (((fixitFile env p autofix hook).bind (fun _ => eachFile env autofix hook ps)).run ss w').2.2.files q = w'.files q) ∧
        ∃ evs, (((fixitFile env p autofix hook).bind (fun _ => eachFile env autofix hook ps)).run ss w').2.2.log = w'.log ++ evs ∧
          ∃ δ : List (List Event), evs = δ.flatten ∧ δ.length = ([(ys, st, u)] : List (List Result × Status Unit × World)).length ∧
            ∀ x ∈ δ.zip ([(ys, st, u)] : List (List Result × Status Unit × World)), x.2.2.2.log = w.log ++ x.1 := by
      intro hr
      rw [hr]
      refine ⟨by simp, rfl, ?_, ?_, evs0, r5, [evs0], by simp, rfl, by simpa using r4⟩
      · simpa using r3.1.symm
      · intro q hq
        apply hold
        simpa using hq
    cases hst : st with
    | raised e =>
      rw [hst] at finish
      simp only
      exact finish (by rw [single _ hst (by simp), hst])
    | suspended =>
      rw [hst] at finish
      simp only
      exact finish (by rw [single _ hst (by simp), hst])
    | returned r =>
      subst hst
      simp only
      have hrun : ((fixitFile env p autofix hook).bind (fun _ => eachFile env autofix hook ps)).run ss w' =
          (ys ++ ((eachFile env autofix hook ps).run (ss.drop ys.length) u').1, ((eachFile env autofix hook ps).run (ss.drop ys.length) u').2) := by
        rw [run_bind, ho']
      obtain ⟨i1, i2, i3, i4, evs1, i5, δ, i6, i7, i8⟩ := ih (ss.drop ys.length) u'
        (fun p' hp' => (hp p' (by simp [hp'])).imp id (fun h => ⟨h.1, fun s hs => h.2 s (List.mem_of_mem_drop hs)⟩)) hd.2
        (by
          intro q hq
          rw [hold q]
          · exact hw q (hq.imp id (fun h => by simp only [List.map_cons, List.mem_cons]; exact Or.inr h))
          · by_cases hSq : S q
            · left
              intro x hx hxq
              rw [List.mem_singleton] at hx
              subst hx
              have hq' : q ∈ ps.map env.resolve := hq.resolve_left (fun h => h hSq)
              exact hd.1 q hq' hxq (hxq ▸ hSq)
            · exact Or.inr hSq)
      rw [hrun]
      refine ⟨by simp only [i1, List.flatMap_cons], ?_, ?_, ?_, evs0 ++ evs1, ?_, evs0 :: δ, ?_, ?_, ?_⟩
      · rw [i2]
        cases hob : oneByOne env autofix hook w ps (ss.drop ys.length) with
        | nil => cases r; rfl
        | cons a l => rw [List.getLast?_cons_cons]
      · intro x hx
        rw [List.zip_cons_cons, List.mem_cons] at hx
        rcases hx with rfl | hx
        · simp only
          by_cases hSp : S (env.resolve p)
          · rw [i4 (env.resolve p)]
            · exact r3.1.symm
            · left
              intro x hx hxp
              have hxm : env.resolve x.1 ∈ ps.map env.resolve := List.mem_map_of_mem (List.of_mem_zip hx).1
              exact hd.1 _ hxm hxp.symm hSp
          · rw [i4 _ (Or.inr hSp)]
            exact r3.1.symm
        · exact i3 x hx
      · intro q hq
        rw [List.zip_cons_cons, List.forall_mem_cons] at hq
        rw [i4 q (hq.imp (fun h => h.2) id)]
        apply hold
        rcases hq with hq | hq
        · left; intro x hx; rw [List.mem_singleton] at hx; subst hx; exact hq.1
        · exact Or.inr hq
      · rw [i5, r5, List.append_assoc]
      · rw [i6]; simp
      · simp [i7]
      · intro x hx
        rw [List.zip_cons_cons, List.mem_cons] at hx
        rcases hx with rfl | hx
        · exact r4
        · exact i8 x hx

/-- Nothing is written while linting without fixes, so nothing has to be assumed about the files. -/
theorem stable_none : Stable env (fun _ => False) := by
  intro f f' h
  have : f = f' := funext (fun q => h q (by simp))
  subst this
  exact ⟨rfl, rfl, rfl⟩

/-- **C52** Fixing several distinct files one after the other, none of which is part of the configuration or of a rule: the results are those of each file
fixed alone, from the same starting point; each file ends as it does alone, and no other file changes. The answers are used up in order; if the consumer
stops, the files not reached have their content. -/
theorem C52_each_on_its_own (autofix hook : Bool) (ps : List Path) (ss : List Answer) (w : World) (hS : Stable env (fun q => q ∈ ps.map env.resolve))
    (hd : (ps.map env.resolve).Nodup) :
    let out := (eachFile env autofix hook ps).run ss w
    let each := oneByOne env autofix hook w ps ss
    out.1 = each.flatMap (·.1) ∧
    (∀ x ∈ ps.zip each, out.2.2.files (env.resolve x.1) = x.2.2.2.files (env.resolve x.1)) ∧
    ∀ q, (∀ x ∈ ps.zip each, env.resolve x.1 ≠ q) → out.2.2.files q = w.files q := by
  obtain ⟨h1, -, h3, h4, -⟩ := eachFile_run env hS autofix hook w ps ss w (fun p hp => Or.inl (List.mem_map_of_mem hp))
    (hd.imp (fun h e => absurd e h)) (fun q _ => rfl)
  exact ⟨h1, h3, fun q hq => h4 q (Or.inl hq)⟩

/-- **C52** Linting several files, distinct or not, without positive answers: the results are those of each file alone, and no file changes. -/
theorem C52_lint_each_on_its_own (hook : Bool) (ps : List Path) (ss : List Answer) (w : World) (hno : ∀ s ∈ ss, s ≠ some true) :
    let out := (eachFile env false hook ps).run ss w
    out.1 = (oneByOne env false hook w ps ss).flatMap (·.1) ∧ out.2.2.files = w.files := by
  have hno' : ∀ s ∈ ss, Answer.yes s = false := by
    intro s hs
    have := hno s hs
    rcases s with _ | _ | _
    · rfl
    · rfl
    · exact absurd rfl this
  obtain ⟨h1, -, -, h4, -⟩ := eachFile_run env (stable_none env) false hook w ps ss w (fun p hp => Or.inr ⟨rfl, hno'⟩)
    (List.pairwise_iff_forall_sublist.mpr (fun _ _ h => h)) (fun q _ => rfl)
  exact ⟨h1, funext (fun q => h4 q (Or.inr (by simp)))⟩

/-- **C52** What other linted files contain (even if they are missing or cannot be parsed) changes nothing about the results for a file, nor about what
becomes of it. -/
theorem C52_contents_of_others_irrelevant (autofix hook : Bool) (p : Path) (S : Path → Prop) (hS : Stable env S) (hp : S (env.resolve p)) (ss : List Answer)
    (w w' : World) (h : ∀ q, q = env.resolve p ∨ ¬ S q → w.files q = w'.files q) :
    ((fixitFile env p autofix hook).run ss w).1 = ((fixitFile env p autofix hook).run ss w').1 ∧
    ((fixitFile env p autofix hook).run ss w).2.2.files (env.resolve p) = ((fixitFile env p autofix hook).run ss w').2.2.files (env.resolve p) := by
  have hc : Confined (fun _ => True) S (env.resolve p) (fun _ => True) (fixitFile env p autofix hook) := confined_lintFile env hS _ autofix hook (Or.inl hp)
  obtain ⟨h1, -, h3, -⟩ := hc.run ss w w' (fun _ _ => trivial) ⟨h _ (Or.inl rfl), fun q hq => h q (Or.inr hq)⟩
  exact ⟨h1, h3.1⟩

/-! ## C51 -/

theorem run_returned_drain {W Y Q R : Type} (s : Q) (r : R) : ∀ (g : Gen W Y Q R) (n : Nat) (w : W), (g.run (List.replicate n s) w).2.1 = .returned r →
    g.drain s w = g.run (List.replicate n s) w
  | .ret x, n, w, _ => rfl
  | .raise e, n, w, _ => rfl
  | .yield y k, 0, w, h => by simp [run] at h
  | .yield y k, n + 1, w, h => by
    simp only [List.replicate_succ, run] at h ⊢
    simp only [drain, run_returned_drain s r (k s) n w h]
  | .act a k, n, w, h => by simp only [run] at h ⊢; exact run_returned_drain s r (k w) n (a w) h

theorem oneByOne_alone (autofix hook : Bool) (w : World) : ∀ (ps : List Path) (n : Nat),
    ((oneByOne env autofix hook w ps (List.replicate n none)).getLast?.map (·.2.1)).getD (.returned ()) = .returned () →
    oneByOne env autofix hook w ps (List.replicate n none) = ps.map (alone env autofix hook w)
  | [], n, _ => rfl
  | p :: ps, n, h => by
    simp only [oneByOne] at h ⊢
    cases hst : ((fixitFile env p autofix hook).run (List.replicate n none) w).2.1 with
    | raised e => rw [hst] at h; simp [hst] at h
    | suspended => rw [hst] at h; simp [hst] at h
    | returned r =>
      rw [hst] at h
      simp only [List.map_cons, List.drop_replicate] at h ⊢
      have h1 := run_returned_drain none r _ n w hst
      rw [← h1] at h ⊢
      rw [oneByOne_alone autofix hook w ps]
      · rfl
      · cases hob : oneByOne env autofix hook w ps (List.replicate (n - (drain none (fixitFile env p autofix hook) w).1.length) none) with
        | nil => rfl
        | cons a l => rw [hob, List.getLast?_cons_cons] at h; exact h

/-- Iterating over one file alone always returns. -/
theorem alone_returns (autofix hook : Bool) (w : World) (p : Path) : (alone env autofix hook w p).2.1 = .returned () := by
  unfold alone
  have h := run_replicate none (fixitFile env p autofix hook) w _ (Nat.le_refl _)
  cases hs : (drain none (fixitFile env p autofix hook) w).2.1 with
  | returned r => rfl
  | raised e => rw [← h] at hs; exact absurd hs (C45_never_raises env p autofix hook _ w e)
  | suspended => exact absurd hs (drain_not_suspended none _ w)

/-- Where the pool is after any schedule. -/
theorem pool_state {S : Path → Prop} (hS : Stable env S) (autofix hook : Bool) (fs : List Path) (w : World) (hp : ∀ p ∈ fs, S (env.resolve p) ∨ autofix = false)
    (hd : (fs.map env.resolve).Pairwise (fun a b => a = b → ¬ S a)) (sched : List Nat) :
    (runPool sched (startWorkers env autofix hook fs) w).1.length = fs.length ∧
    (∀ i p, fs[i]? = some p →
      (runPool sched (startWorkers env autofix hook fs) w).1[i]? = some (stepsOf (sched.count i) (⟨fixitFile env p autofix hook, []⟩, w)).1 ∧
      (runPool sched (startWorkers env autofix hook fs) w).2.files (env.resolve p) =
        (stepsOf (sched.count i) (⟨fixitFile env p autofix hook, []⟩, w)).2.files (env.resolve p)) ∧
    (∀ q, (∀ p ∈ fs, env.resolve p ≠ q) ∨ ¬ S q → (runPool sched (startWorkers env autofix hook fs) w).2.files q = w.files q) ∧
    ∃ (δ : Nat → List Event) (evs : List Event), (runPool sched (startWorkers env autofix hook fs) w).2.log = w.log ++ evs ∧
      evs.Perm ((List.range fs.length).flatMap δ) ∧
      ∀ i p, fs[i]? = some p → (stepsOf (sched.count i) (⟨fixitFile env p autofix hook, []⟩, w)).2.log = w.log ++ δ i := by
  have hlen : (startWorkers env autofix hook fs).length = fs.length := by simp [startWorkers]
  have hks : ∀ (i : Nat) p, fs[i]? = some p → (startWorkers env autofix hook fs)[i]? = some ⟨fixitFile env p autofix hook, []⟩ := by
    intro i p h; simp [startWorkers, h]
  have hlt : ∀ (i : Nat) p, fs[i]? = some p → i < fs.length := by
    intro i p h
    by_cases hl : i < fs.length
    · exact hl
    · rw [List.getElem?_eq_none (by omega)] at h; simp at h
  obtain ⟨⟨h1, h2, δ, evs, h3, h4, h5⟩, h6⟩ := poolInv_run S (fun i => (fs[i]?.map env.resolve).getD []) fs.length
    (by
      intro i j hi hj hij he
      simp only [List.getElem?_eq_getElem hi, List.getElem?_eq_getElem hj, Option.map_some, Option.getD_some] at he ⊢
      rw [List.pairwise_iff_getElem] at hd
      rcases Nat.lt_or_gt_of_ne hij with h | h
      · have := hd i j (by simpa using hi) (by simpa using hj) h
        simp only [List.getElem_map] at this
        exact this he
      · have := hd j i (by simpa using hj) (by simpa using hi) h
        simp only [List.getElem_map] at this
        rw [he]
        exact this he.symm)
    w sched (startWorkers env autofix hook fs) w (fun i => (((fs[i]?).map (fun p => (⟨fixitFile env p autofix hook, []⟩ : Worker))).getD ⟨.ret (), []⟩, w)) hlen
    (by
      refine ⟨?_, fun q _ => rfl, fun _ => [], [], by simp, by simp, by simp⟩
      intro i k hk
      simp only [startWorkers, List.getElem?_map] at hk
      cases hf : fs[i]? with
      | none => simp [hf] at hk
      | some p =>
        simp only [hf, Option.map_some, Option.some.injEq] at hk
        subst hk
        refine ⟨by simp [hf], ?_, rfl, fun _ _ => rfl⟩
        have hm : p ∈ fs := List.mem_of_getElem? hf
        have he : (fun i : Nat => (fs[i]?.map env.resolve).getD []) i = env.resolve p := by simp [hf]
        rw [he]
        exact confined_lintFile (A := fun s => s = none) env hS (env.resolve p) autofix hook ((hp p hm).imp id (fun h => ⟨h, fun s hs => by rw [hs]; rfl⟩)))
  rw [hlen] at h6 h1 h5
  refine ⟨h6, ?_, ?_, δ, evs, h3, by rw [h6] at h4; exact h4, ?_⟩
  · intro i p hf
    have hl := hlt i p hf
    have hi : i < (runPool sched (startWorkers env autofix hook fs) w).1.length := by omega
    obtain ⟨g1, -, g2⟩ := h1 i _ (List.getElem?_eq_getElem hi)
    simp only [hf, hl, if_true, Option.map_some, Option.getD_some] at g1 g2
    refine ⟨by rw [List.getElem?_eq_getElem hi, g1], g2.1⟩
  · intro q hq
    apply h2
    rcases hq with hq | hq
    · left
      intro i k hk
      have hi : i < fs.length := by
        by_cases hl : i < (runPool sched (startWorkers env autofix hook fs) w).1.length
        · omega
        · rw [List.getElem?_eq_none (by omega)] at hk; simp at hk
      simp only [List.getElem?_eq_getElem hi, Option.map_some, Option.getD_some]
      exact hq _ (List.getElem_mem hi)
    · exact Or.inr hq
  · intro i p hf
    have := h5 i
    simp only [hf, hlt i p hf, if_true, Option.map_some, Option.getD_some] at this
    exact this

theorem run_yieldList (rs : List Result) (n : Nat) (w : World) : (yieldList rs).run (List.replicate n none) w =
    if n < rs.length then (rs.take (n + 1), .suspended, w) else (rs, .returned (), w) := by
  induction rs generalizing n with
  | nil => simp [yieldList, run]
  | cons r rs ih =>
    cases n with
    | zero => simp [yieldList, run]
    | succ n =>
      simp only [List.replicate_succ, yieldList, run, ih n, List.length_cons, Nat.add_lt_add_iff_right, List.take_succ_cons]
      split <;> rfl

/-- The lists are handed out one after the other. -/
theorem run_yieldLists : ∀ (rss : List (List Result)) (n : Nat) (w : World), (yieldLists rss).run (List.replicate n none) w =
    if n < rss.flatten.length then (rss.flatten.take (n + 1), .suspended, w) else (rss.flatten, .returned (), w)
  | [], n, w => by simp [yieldLists, run]
  | rs :: rss, n, w => by
    simp only [yieldLists]
    rw [run_bind, run_yieldList]
    by_cases h : n < rs.length
    · simp only [h, if_true, List.flatten_cons, List.length_append]
      rw [if_pos (by omega), List.take_append_of_le_length (by omega)]
    · simp only [h, if_false, List.flatten_cons, List.length_append, List.drop_replicate]
      rw [run_yieldLists rss (n - rs.length) w]
      by_cases h2 : n - rs.length < rss.flatten.length
      · rw [if_pos h2, if_pos (by omega), List.take_append]
        have : (n + 1 - rs.length) = n - rs.length + 1 := by omega
        rw [this, List.take_of_length_le (l := rs) (by omega)]
      · rw [if_neg h2, if_neg (by omega)]

/-- The general form of C51. -/
theorem paths_run {S : Path → Prop} (hS : Stable env S) (autofix hook parallel : Bool) (paths : List Path) (n : Nat) (w w' : World) (ys : List Result) (fs : List Path)
    (hh : paths.head? ≠ some [py "-"]) (hf : filesUnder (walk w.files) (paths.filter (· ≠ [py "-"])) = .ok fs)
    (hp : ∀ p ∈ fs, S (env.resolve p) ∨ autofix = false) (hd : (fs.map env.resolve).Pairwise (fun a b => a = b → ¬ S a))
    (hr : PathsRun env walk autofix hook parallel paths (List.replicate n none) w (ys, .returned (), w')) :
    (∃ order : List Path, order.Perm fs ∧ (parallel = false → order = fs) ∧ ys = order.flatMap (fun p => (alone env autofix hook w p).1)) ∧
    (∀ p ∈ fs, w'.files (env.resolve p) = (alone env autofix hook w p).2.2.files (env.resolve p)) ∧
    (∀ q, (∀ p ∈ fs, env.resolve p ≠ q) ∨ ¬ S q → w'.files q = w.files q) ∧
    ∃ evs : List Event, w'.log = w.log ++ evs ∧ evs.Perm (fs.flatMap (fun p => newEvents w (alone env autofix hook w p).2.2)) := by
  generalize hq : (ys, Status.returned (), w') = out at hr
  cases hr with
  | plain hu =>
    rw [C50_files env walk autofix hook paths _ w fs hh hf] at hq
    obtain ⟨h1, h2, h3, h4, evs, h5, δ, h6, h7, h8⟩ := eachFile_run env hS autofix hook w fs (List.replicate n none) w
      (fun p hp' => (hp p hp').imp id (fun h => ⟨h, fun s hs => by rw [List.eq_of_mem_replicate hs]; rfl⟩)) hd (fun q _ => rfl)
    rw [← hq] at h1 h2 h3 h4 h5
    have ho := oneByOne_alone env autofix hook w fs n h2.symm
    rw [ho] at h1 h3 h4 h7 h8
    have hz : ∀ p ∈ fs, (p, alone env autofix hook w p) ∈ fs.zip (fs.map (alone env autofix hook w)) := by
      intro p hp'
      rw [List.mem_iff_getElem] at hp'
      obtain ⟨i, hi, rfl⟩ := hp'
      rw [List.mem_iff_getElem]
      exact ⟨i, by simpa using hi, by simp⟩
    refine ⟨⟨fs, .refl _, fun _ => rfl, ?_⟩, fun p hp' => h3 _ (hz p hp'), fun q hq' => h4 q ?_, evs, h5, ?_⟩
    · simp only at h1
      rw [h1, List.flatMap_map]
    · refine hq'.imp (fun h x hx => ?_) id
      exact h _ (List.of_mem_zip hx).1
    · have : δ = fs.map (fun p => newEvents w (alone env autofix hook w p).2.2) := by
        apply List.ext_getElem
        · simpa using h7
        · intro i hi hi'
          have hi2 : i < fs.length := by simpa using hi'
          have := h8 (δ[i], alone env autofix hook w fs[i]) (by
            rw [List.mem_iff_getElem]
            exact ⟨i, by simp; omega, by simp⟩)
          simp only [List.getElem_map]
          rw [newEvents_append w _ _ this]
      rw [h6, this, ← List.flatMap_def]
  | pool fs' sched order hu hnd hdone hall =>
    rw [C50_pool_iff] at hu
    obtain ⟨hpar, -, -, hf'⟩ := hu
    rw [hf] at hf'
    cases hf'
    obtain ⟨p1, p2, p3, δ, evs, p4, p5, p6⟩ := pool_state env hS autofix hook fs w hp hd sched
    simp only [Prod.mk.injEq] at hq
    obtain ⟨q1, q2, q3⟩ := hq
    have hall := hall q2.symm
    have hltk : ∀ i ∈ order, i < fs.length := by
      intro i hi
      obtain ⟨k, hk, -⟩ := hdone i hi
      by_cases hl : i < (runPool sched (startWorkers env autofix hook fs) w).1.length
      · omega
      · rw [List.getElem?_eq_none (by omega)] at hk; simp at hk
    have hperm : order.Perm (List.range fs.length) := by
      rw [List.perm_ext_iff_of_nodup hnd List.nodup_range]
      intro i
      rw [List.mem_range]
      exact ⟨hltk i, hall i⟩
    have hk : ∀ (i : Nat) p, fs[i]? = some p →
        (runPool sched (startWorkers env autofix hook fs) w).1[i]?.map Worker.out = some (alone env autofix hook w p).1 ∧
        (stepsOf (sched.count i) (⟨fixitFile env p autofix hook, []⟩, w)).2 = (alone env autofix hook w p).2.2 := by
      intro i p hfi
      have hl : i < fs.length := by
        by_cases hl : i < fs.length
        · exact hl
        · rw [List.getElem?_eq_none (by omega)] at hfi; simp at hfi
      obtain ⟨k, hk, hkd⟩ := hdone i (hall i hl)
      obtain ⟨g1, -⟩ := p2 i p hfi
      rw [hk, Option.some.injEq] at g1
      rw [g1] at hkd
      have := stepsOf_drain _ _ _ _ hkd
      rw [hk, Option.map_some, g1, this.1]
      exact ⟨rfl, this.2⟩
    have hrange : (List.range fs.length).filterMap (fun i => fs[i]?) = fs := by
      have hgen : ∀ (l : List Nat) (hl : ∀ i ∈ l, i < fs.length), l.filterMap (fun i => fs[i]?) = l.pmap (fun i h => fs[i]'h) hl := by
        intro l
        induction l with
        | nil => intro _; rfl
        | cons a l ih =>
          intro hl
          have ha : a < fs.length := hl a (by simp)
          rw [List.filterMap_cons_some (f := fun i => fs[i]?) (List.getElem?_eq_getElem ha), List.pmap_cons, ih (fun i hi => hl i (by simp [hi]))]
      rw [hgen _ (fun i hi => List.mem_range.mp hi)]
      exact List.ext_getElem (by simp) (by simp)
    have harr : arrived (runPool sched (startWorkers env autofix hook fs) w).1 order = (order.filterMap (fun i => fs[i]?)).map (fun p => (alone env autofix hook w p).1) := by
      have hgen : ∀ l : List Nat, (∀ i ∈ l, i < fs.length) → arrived (runPool sched (startWorkers env autofix hook fs) w).1 l =
          (l.filterMap (fun i => fs[i]?)).map (fun p => (alone env autofix hook w p).1) := by
        intro l
        induction l with
        | nil => intro _; rfl
        | cons i l ih =>
          intro hl
          have hfi := List.getElem?_eq_getElem (hl i (by simp))
          rw [List.filterMap_cons_some (f := fun i => fs[i]?) hfi, List.map_cons, ← ih (fun j hj => hl j (by simp [hj]))]
          unfold arrived
          rw [List.filterMap_cons_some (f := fun i => (runPool sched (startWorkers env autofix hook fs) w).1[i]?.map Worker.out) (hk i _ hfi).1]
      exact hgen order hltk
    refine ⟨⟨order.filterMap (fun i => fs[i]?), ?_, (fun h => by rw [hpar] at h; cases h), ?_⟩, ?_, ?_, evs, by rw [q3, p4], ?_⟩
    · have := hperm.filterMap (fun i => fs[i]?)
      rwa [hrange] at this
    · rw [q1, harr]
      rw [harr, run_yieldLists] at q2
      rw [run_yieldLists, List.flatMap_def]
      split at q2
      · cases q2
      · rename_i h; rw [if_neg h]
    · intro p hp'
      obtain ⟨i, hi⟩ := List.getElem?_of_mem hp'
      rw [q3, (p2 i p hi).2, (hk i p hi).2]
    · intro q hq'
      rw [q3]
      exact p3 q hq'
    · refine p5.trans ?_
      have : (List.range fs.length).flatMap δ = fs.flatMap (fun p => newEvents w (alone env autofix hook w p).2.2) := by
        conv => rhs; rw [← hrange]
        have hgen : ∀ (l : List Nat), (∀ i ∈ l, i < fs.length) → l.flatMap δ = (l.filterMap (fun i => fs[i]?)).flatMap (fun p => newEvents w (alone env autofix hook w p).2.2) := by
          intro l
          induction l with
          | nil => intro _; rfl
          | cons a l ih =>
            intro hl
            have hfi := List.getElem?_eq_getElem (hl a (by simp))
            rw [List.filterMap_cons_some (f := fun i => fs[i]?) hfi, List.flatMap_cons, List.flatMap_cons, ih (fun i hi => hl i (by simp [hi]))]
            have := p6 a _ hfi
            rw [(hk a _ hfi).2] at this
            rw [newEvents_append w _ _ this]
        exact hgen _ (fun i hi => List.mem_range.mp hi)
      rw [this]

/-- **C51** Fixing distinct files, none of which is part of the configuration or of a rule, in either mode and under every schedule of the pool's workers:
a run that completes yields for each file what fixing it alone yields, contiguous and in order, the files in the given order if not parallel and in some
order otherwise; and it leaves each file as fixing it alone does, and no other file changed. -/
theorem C51_fix_any_schedule (autofix hook parallel : Bool) (paths : List Path) (n : Nat) (w w' : World) (ys : List Result) (fs : List Path)
    (hh : paths.head? ≠ some [py "-"]) (hf : filesUnder (walk w.files) (paths.filter (· ≠ [py "-"])) = .ok fs)
    (hS : Stable env (fun q => q ∈ fs.map env.resolve)) (hd : (fs.map env.resolve).Nodup)
    (hr : PathsRun env walk autofix hook parallel paths (List.replicate n none) w (ys, .returned (), w')) :
    (∃ order : List Path, order.Perm fs ∧ (parallel = false → order = fs) ∧ ys = order.flatMap (fun p => (alone env autofix hook w p).1)) ∧
    (∀ p ∈ fs, w'.files (env.resolve p) = (alone env autofix hook w p).2.2.files (env.resolve p)) ∧
    ∀ q, (∀ p ∈ fs, env.resolve p ≠ q) → w'.files q = w.files q := by
  obtain ⟨h1, h2, h3, -⟩ := paths_run env walk hS autofix hook parallel paths n w w' ys fs hh hf (fun p hp => Or.inl (List.mem_map_of_mem hp))
    (hd.imp (fun h e => absurd e h)) hr
  exact ⟨h1, h2, fun q hq => h3 q (Or.inl hq)⟩

/-- **C51** Linting files without fixing them, distinct or not, in either mode and under every schedule: the same, with nothing assumed; no file changes. -/
theorem C51_lint_any_schedule (hook parallel : Bool) (paths : List Path) (n : Nat) (w w' : World) (ys : List Result) (fs : List Path)
    (hh : paths.head? ≠ some [py "-"]) (hf : filesUnder (walk w.files) (paths.filter (· ≠ [py "-"])) = .ok fs)
    (hr : PathsRun env walk false hook parallel paths (List.replicate n none) w (ys, .returned (), w')) :
    (∃ order : List Path, order.Perm fs ∧ (parallel = false → order = fs) ∧ ys = order.flatMap (fun p => (alone env false hook w p).1)) ∧ w'.files = w.files := by
  obtain ⟨h1, -, h3, -⟩ := paths_run env walk (stable_none env) false hook parallel paths n w w' ys fs hh hf (fun p _ => Or.inr rfl)
    (List.pairwise_iff_forall_sublist.mpr (fun _ _ h => h)) hr
  exact ⟨h1, funext (fun q => h3 q (Or.inr (by simp)))⟩

/-- **C51** Two completed runs over the same distinct files, parallel or not, yield the same results up to order, leave the same files, and call the metrics
hook and write with the same arguments, up to order. -/
theorem C51_modes_agree (autofix hook parallel parallel' : Bool) (paths : List Path) (n n' : Nat) (w w₁ w₂ : World) (ys₁ ys₂ : List Result) (fs : List Path)
    (hh : paths.head? ≠ some [py "-"]) (hf : filesUnder (walk w.files) (paths.filter (· ≠ [py "-"])) = .ok fs)
    (hS : Stable env (fun q => q ∈ fs.map env.resolve)) (hd : (fs.map env.resolve).Nodup)
    (hr₁ : PathsRun env walk autofix hook parallel paths (List.replicate n none) w (ys₁, .returned (), w₁))
    (hr₂ : PathsRun env walk autofix hook parallel' paths (List.replicate n' none) w (ys₂, .returned (), w₂)) :
    ys₁.Perm ys₂ ∧ w₁.files = w₂.files ∧ w₁.log.Perm w₂.log := by
  obtain ⟨⟨o1, a1, -, b1⟩, a2, a3, e1, a4, a5⟩ := paths_run env walk hS autofix hook parallel paths n w w₁ ys₁ fs hh hf (fun p hp => Or.inl (List.mem_map_of_mem hp))
    (hd.imp (fun h e => absurd e h)) hr₁
  obtain ⟨⟨o2, c1, -, d1⟩, c2, c3, e2, c4, c5⟩ := paths_run env walk hS autofix hook parallel' paths n' w w₂ ys₂ fs hh hf (fun p hp => Or.inl (List.mem_map_of_mem hp))
    (hd.imp (fun h e => absurd e h)) hr₂
  refine ⟨?_, ?_, ?_⟩
  · rw [b1, d1]
    exact (a1.trans c1.symm).flatMap_right _
  · funext q
    by_cases hq : ∃ p ∈ fs, env.resolve p = q
    · obtain ⟨p, hp, rfl⟩ := hq
      rw [a2 p hp, c2 p hp]
    · rw [a3 q (Or.inl (fun p hp he => hq ⟨p, hp, he⟩)), c3 q (Or.inl (fun p hp he => hq ⟨p, hp, he⟩))]
  · rw [a4, c4]
    exact List.Perm.append_left _ (a5.trans c5.symm)

/-- **C51** The pool never gets stuck: from every schedule on, the workers can go on to where all have finished. -/
theorem C51_pool_completes (autofix hook : Bool) (fs : List Path) (w : World) (hS : Stable env (fun q => q ∈ fs.map env.resolve))
    (hd : (fs.map env.resolve).Nodup) (sched : List Nat) :
    ∃ more, ∀ i < fs.length, ∃ k, (runPool (sched ++ more) (startWorkers env autofix hook fs) w).1[i]? = some k ∧ k.done = true := by
  have hterm : ∀ i : Nat, ∃ m, ∀ p, fs[i]? = some p → (stepsOf m (⟨fixitFile env p autofix hook, []⟩, w)).1.done = true := by
    intro i
    cases hf : fs[i]? with
    | none => exact ⟨0, by simp⟩
    | some p =>
      obtain ⟨m, hm⟩ := stepsOf_terminates (fixitFile env p autofix hook) [] w (by
        intro e he
        have := alone_returns env autofix hook w p
        unfold alone at this
        rw [this] at he
        cases he)
      exact ⟨m, by simpa using hm⟩
  let m : Nat → Nat := fun i => (hterm i).choose
  have hm : ∀ i p, fs[i]? = some p → (stepsOf (m i) (⟨fixitFile env p autofix hook, []⟩, w)).1.done = true := fun i => (hterm i).choose_spec
  have hcount : ∀ n i, i < n → m i ≤ ((List.range n).flatMap (fun j => List.replicate (m j) j)).count i := by
    intro n
    induction n with
    | zero => intro i hi; omega
    | succ n ih =>
      intro i hi
      rw [List.range_succ, List.flatMap_append, List.count_append]
      by_cases h : i = n
      · subst h; simp
      · have := ih i (by omega); omega
  refine ⟨(List.range fs.length).flatMap (fun j => List.replicate (m j) j), fun i hi => ?_⟩
  have hf := List.getElem?_eq_getElem hi
  obtain ⟨-, p2, -⟩ := pool_state env hS autofix hook fs w (fun p hp => Or.inl (List.mem_map_of_mem hp)) (hd.imp (fun h e => absurd e h))
    (sched ++ (List.range fs.length).flatMap (fun j => List.replicate (m j) j))
  refine ⟨_, (p2 i _ hf).1, ?_⟩
  have hge : m i ≤ (sched ++ (List.range fs.length).flatMap (fun j => List.replicate (m j) j)).count i := by
    rw [List.count_append]
    have := hcount fs.length i hi
    omega
  obtain ⟨d, hd'⟩ := Nat.exists_eq_add_of_le hge
  rw [hd', stepsOf_add, stepsOf_done _ _ (hm i _ hf)]
  exact hm i _ hf

/-- **C77** The same under the pool: at any point of any schedule a file being fixed holds what it holds at some point of fixing it alone. -/
theorem C77_crash_states_parallel (autofix hook : Bool) (fs : List Path) (w : World) (hS : Stable env (fun q => q ∈ fs.map env.resolve))
    (hd : (fs.map env.resolve).Nodup) (sched : List Nat) (p : Path) (hp : p ∈ fs) :
    ∃ m, ∃ w' ∈ (fixitFile env p autofix hook).worlds (List.replicate m none) w,
      (runPool sched (startWorkers env autofix hook fs) w).2.files (env.resolve p) = w'.files (env.resolve p) := by
  obtain ⟨i, hi⟩ := List.getElem?_of_mem hp
  obtain ⟨-, p2, -⟩ := pool_state env hS autofix hook fs w (fun p hp => Or.inl (List.mem_map_of_mem hp)) (hd.imp (fun h e => absurd e h)) sched
  exact ⟨sched.count i, _, stepsOf_world _ _ _ _ _ (Nat.le_refl _), (p2 i p hi).2⟩

/-- **C51** (finding) With the pool, answering a result raises AttributeError instead of accepting or rejecting the fix. -/
theorem C51_answers_raise (rss : List (List Result)) (k : Nat) (b : Bool) (rest : List Answer) (w : World) (h : k < rss.flatten.length) :
    (yieldLists rss).run (List.replicate k none ++ some b :: rest) w = (rss.flatten.take (k + 1), .raised .attribute, w) := by
  have one : ∀ (rs : List Result) (k : Nat) (rest' : List Answer), k < rs.length →
      (yieldList rs).run (List.replicate k none ++ some b :: rest') w = (rs.take (k + 1), .raised .attribute, w) := by
    intro rs
    induction rs with
    | nil => intro k _ h; simp at h
    | cons r rs ih =>
      intro k rest' h
      cases k with
      | zero => simp [yieldList, run]
      | succ k =>
        simp only [List.replicate_succ, List.cons_append, yieldList, run, ih k rest' (by simpa using h), List.take_succ_cons]
  have all : ∀ (rs : List Result) (ss : List Answer) (k : Nat), rs.length ≤ k → (yieldList rs).run (List.replicate k none ++ ss) w = (rs, .returned (), w) := by
    intro rs
    induction rs with
    | nil => intro ss k _; simp [yieldList, run]
    | cons r rs ih =>
      intro ss k h
      cases k with
      | zero => simp at h
      | succ k => simp only [List.replicate_succ, List.cons_append, yieldList, run, ih ss k (by simpa using h)]
  induction rss generalizing k with
  | nil => simp at h
  | cons rs rss ih =>
    simp only [yieldLists]
    rw [run_bind]
    by_cases hk : k < rs.length
    · rw [one rs k rest hk]
      simp only [List.flatten_cons]
      rw [List.take_append_of_le_length (by omega)]
    · rw [all rs _ k (by omega)]
      simp only
      have hdrop : (List.replicate k (none : Answer) ++ some b :: rest).drop rs.length = List.replicate (k - rs.length) none ++ some b :: rest := by
        rw [List.drop_append_of_le_length (by simp; omega), List.drop_replicate]
      rw [hdrop, ih (k - rs.length) (by simp only [List.flatten_cons, List.length_append] at h; omega)]
      simp only [List.flatten_cons]
      rw [List.take_append, List.take_of_length_le (l := rs) (by omega)]
      have : k + 1 - rs.length = k - rs.length + 1 := by omega
      rw [this]

end Fixit
