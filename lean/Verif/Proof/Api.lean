import Verif.Spec.Api
import Verif.Props.Violations

/-!
# Closed forms of the runs of `fixit_bytes` and `fixit_file`
-/

namespace Fixit
open Py Spec Gen

variable {C : Type} (env : Env C)

/-- What happens after the violations are answered: effects, at most one more result, the return value. -/
structure Finish (R : Type) where
  upd : World → World
  last : Option Result
  ret : R

/-- A run that shows `vs` and then finishes. -/
def script {R : Type} (path : Path) (vs : List LintViolation) (fin : Finish R) (ss : List Answer) (w : World) : List Result × Status R × World :=
  if ss.length < vs.length then ((vs.take (ss.length + 1)).map (reporting path), .suspended, w)
  else match fin.last with
    | some r => (vs.map (reporting path) ++ [r], if ss.length = vs.length then .suspended else .returned fin.ret, fin.upd w)
    | none => (vs.map (reporting path), .returned fin.ret, fin.upd w)

/-- A script followed by something that runs only when no extra result was shown. -/
theorem script_lt {R : Type} (path : Path) (vs : List LintViolation) (fin : Finish R) (ss : List Answer) (w : World) (h : ss.length < vs.length) :
    script path vs fin ss w = ((vs.take (ss.length + 1)).map (reporting path), .suspended, w) := by simp [script, h]

theorem script_some {R : Type} (path : Path) (vs : List LintViolation) (fin : Finish R) (r : Result) (ss : List Answer) (w : World) (h : ¬ ss.length < vs.length)
    (hl : fin.last = some r) :
    script path vs fin ss w = (vs.map (reporting path) ++ [r], if ss.length = vs.length then .suspended else .returned fin.ret, fin.upd w) := by
  simp [script, h, hl]

theorem script_none {R : Type} (path : Path) (vs : List LintViolation) (fin : Finish R) (ss : List Answer) (w : World) (h : ¬ ss.length < vs.length)
    (hl : fin.last = none) : script path vs fin ss w = (vs.map (reporting path), .returned fin.ret, fin.upd w) := by
  simp [script, h, hl]

/-- `g` raises after showing `vs` and `upd`. -/
def raisesAfter {R : Type} (path : Path) (vs : List LintViolation) (upd : World → World) (e : Err) (ss : List Answer) (w : World) : List Result × Status R × World :=
  if ss.length < vs.length then ((vs.take (ss.length + 1)).map (reporting path), .suspended, w)
  else (vs.map (reporting path), .raised e, upd w)

theorem run_yieldError {R : Type} (path : Path) (e : Err) (x : R) (ss : List Answer) (w : World) :
    ((yieldError path e).bind (fun _ => .ret x)).run ss w = ([errorResult path e], if ss.length = 0 then .suspended else .returned x, w) := by
  cases ss <;> simp [yieldError, Gen.bind, run, errorResult]

theorem run_yieldError' (path : Path) (e : Err) (ss : List Answer) (w : World) :
    (yieldError path e).run ss w = ([errorResult path e], if ss.length = 0 then .suspended else .returned (), w) := by
  cases ss <;> simp [yieldError, run, errorResult]

theorem run_yieldClean {R : Type} (path : Path) (x : R) (ss : List Answer) (w : World) :
    ((yieldClean path).bind (fun _ => .ret x)).run ss w = ([cleanResult path], if ss.length = 0 then .suspended else .returned x, w) := by
  cases ss <;> simp [yieldClean, Gen.bind, run, cleanResult]

/-- Catching turns the exception into one more result. -/
theorem run_except_raises {R : Type} (path : Path) (vs : List LintViolation) (upd : World → World) (e : Err) (x : R) (g : Linting R) (ss : List Answer) (w : World)
    (h : g.run ss w = raisesAfter path vs upd e ss w) (hd : Err → Linting R)
    (hh : ∀ e ss w, (hd e).run ss w = ([errorResult path e], if ss.length = 0 then .suspended else .returned x, w)) :
    (g.except hd).run ss w = script path vs ⟨upd, some (errorResult path e), x⟩ ss w := by
  rw [run_except, h]
  unfold raisesAfter
  by_cases hk : ss.length < vs.length
  · rw [if_pos hk, script_lt _ _ _ _ _ hk]
  · rw [if_neg hk, script_some _ _ _ _ _ _ hk rfl]
    simp only [hh, List.length_map, List.length_drop]
    by_cases h0 : ss.length = vs.length
    · rw [if_pos (by omega), if_pos h0]
    · rw [if_neg (by omega), if_neg h0]

theorem run_except_script {R : Type} (path : Path) (vs : List LintViolation) (fin : Finish R) (g : Linting R) (ss : List Answer) (w : World)
    (h : g.run ss w = script path vs fin ss w) (hd : Err → Linting R) : (g.except hd).run ss w = script path vs fin ss w := by
  rw [run_except, h]
  unfold script
  by_cases hk : ss.length < vs.length
  · simp [hk]
  · simp only [hk, if_false]
    cases fin.last with
    | some r =>
      simp only
      by_cases h0 : ss.length = vs.length
      · simp [h0]
      · simp [h0]
    | none => rfl

/-- Followed by something that shows no more violations. -/
theorem run_bind_script {R Q : Type} (path : Path) (vs : List LintViolation) (fin : Finish R) (g : Linting R) (ss : List Answer) (w : World) (hl : fin.last = none)
    (h : g.run ss w = script path vs fin ss w) (f : R → Linting Q) (upd : World → World) (q : Q)
    (hf : ∀ ss w, (f fin.ret).run ss w = ([], .returned q, upd w)) :
    (g.bind f).run ss w = script path vs ⟨upd ∘ fin.upd, none, q⟩ ss w := by
  rw [run_bind, h]
  by_cases hk : ss.length < vs.length
  · rw [script_lt _ _ _ _ _ hk, script_lt _ _ _ _ _ hk]
  · rw [script_none _ _ _ _ _ hk hl, script_none _ _ _ _ _ hk rfl]
    simp [hf]

theorem run_bind_script_raises {R Q : Type} (path : Path) (vs : List LintViolation) (fin : Finish R) (g : Linting R) (ss : List Answer) (w : World) (hl : fin.last = none)
    (h : g.run ss w = script path vs fin ss w) (f : R → Linting Q) (upd : World → World) (e : Err)
    (hf : ∀ ss w, (f fin.ret).run ss w = ([], .raised e, upd w)) :
    (g.bind f).run ss w = raisesAfter path vs (upd ∘ fin.upd) e ss w := by
  rw [run_bind, h]
  unfold raisesAfter
  by_cases hk : ss.length < vs.length
  · rw [script_lt _ _ _ _ _ hk, if_pos hk]
  · rw [script_none _ _ _ _ _ hk hl, if_neg hk]
    simp [hf]

/-- Followed by something that does nothing for this return value. -/
theorem run_bind_script_done {R Q : Type} (path : Path) (vs : List LintViolation) (fin : Finish R) (g : Linting R) (ss : List Answer) (w : World)
    (h : g.run ss w = script path vs fin ss w) (f : R → Linting Q) (q : Q) (hf : f fin.ret = .ret q) :
    (g.bind f).run ss w = script path vs ⟨fin.upd, fin.last, q⟩ ss w := by
  rw [run_bind, h]
  by_cases hk : ss.length < vs.length
  · rw [script_lt _ _ _ _ _ hk, script_lt _ _ _ _ _ hk]
  · cases hl : fin.last with
    | none =>
      rw [script_none _ _ _ _ _ hk hl, script_none _ _ _ _ _ hk rfl]
      simp [hf, run]
    | some r =>
      rw [script_some _ _ _ r _ _ hk hl, script_some _ _ _ r _ _ hk rfl]
      by_cases h0 : ss.length = vs.length
      · simp [h0]
      · simp [h0, hf, run]

/-! ## fixit_bytes -/

/-- Effects of the hook. -/
def logged (evs : List Event) (w : World) : World := { w with log := w.log ++ evs }

theorem accepted_fold (autofix : Bool) (ps : List (LintViolation × Answer)) : ∀ st : Bool × List LintViolation,
    ps.foldl (fun t p => (false, if p.2.yes || autofix then t.2 ++ [p.1] else t.2)) st =
      (if ps = [] then st.1 else false, st.2 ++ ps.filterMap (fun p => if autofix || p.2 = some true then some p.1 else none)) := by
  induction ps with
  | nil => intro st; simp
  | cons p ps ih =>
    intro st
    obtain ⟨v, s⟩ := p
    rw [List.foldl_cons, ih]
    have hy : s.yes = decide (s = some true) := by rcases s with _ | _ | _ <;> rfl
    rw [hy]
    by_cases hc : (autofix || decide (s = some true)) = true
    · have hc' : (decide (s = some true) || autofix) = true := by rwa [Bool.or_comm]
      rw [List.filterMap_cons]
      simp only [hc, hc', if_true]
      simp
    · have hc' : ¬ (decide (s = some true) || autofix) = true := by rwa [Bool.or_comm]
      rw [List.filterMap_cons]
      simp only [hc, hc']
      simp

/-- How `fixit_bytes` ends. -/
def bytesFinish (files : Path → Option Bytes) (path : Path) (content : Bytes) (cfg : C) (autofix hook : Bool) (ss : List Answer) : Finish (Option Bytes) :=
  match env.collect files cfg with
  | .error e => ⟨id, some (errorResult path e), none⟩
  | .ok [] => ⟨id, some (cleanResult path), none⟩
  | .ok (r :: rs) => match env.parse content with
    | .error e => ⟨id, some (errorResult path e), none⟩
    | .ok m => match env.visit files cfg m (r :: rs) with
      | .error e => ⟨id, some (errorResult path e), none⟩
      | .ok (recorded, durs) => match (displayed env path m ((r :: rs).flatMap recorded)).2 with
        | some e => ⟨id, some (errorResult path e), none⟩
        | none =>
          let t := tally recorded (r :: rs) (0, durs)
          let μ := dictSet totalKey t.1 t.2
          match (if hook then env.hookRaises μ else none) with
          | some e => ⟨logged (hookEvents hook μ), some (errorResult path e), none⟩
          | none =>
            let vs := (displayed env path m ((r :: rs).flatMap recorded)).1
            if vs.isEmpty then ⟨logged (hookEvents hook μ), some (cleanResult path), none⟩
            else if (accepted autofix vs ss).isEmpty then ⟨logged (hookEvents hook μ), none, none⟩
            else match fixedContent env path content cfg (accepted autofix vs ss) with
              | .error e => ⟨logged (hookEvents hook μ), some (errorResult path e), none⟩
              | .ok b => ⟨logged (hookEvents hook μ), none, some b⟩

theorem run_handler (path : Path) (e : Err) (ss : List Answer) (w : World) :
    ((yieldError path e).bind (fun _ => .ret (none : Option Bytes))).run ss w = ([errorResult path e], if ss.length = 0 then .suspended else .returned none, w) :=
  run_yieldError path e none ss w

theorem raisesAfter_nil {R : Type} (path : Path) (e : Err) (ss : List Answer) (w : World) :
    (raisesAfter path [] id e ss w : List Result × Status R × World) = ([], .raised e, w) := by simp [raisesAfter]

theorem finishBytes_fix (path : Path) (cfg : C) (m : Node) (vs : List LintViolation) (h : ¬ vs.isEmpty = true) :
    finishBytes env path cfg m (false, vs) = Gen.ofExcept (do
      let updated ← applyReplacements m (vs.map LintViolation.fix)
      return some (← formatModule env updated path cfg)) := by
  unfold finishBytes
  simp only [Bool.false_eq_true, if_false, Gen.bind, h]

/-- The run of `fixit_bytes`, for every content, configuration and list of answers. -/
theorem run_fixitBytes (path : Path) (content : Bytes) (cfg : C) (autofix hook : Bool) (ss : List Answer) (w : World) (vs : List LintViolation)
    (hvs : vs = found env w.files path content cfg) :
    (fixitBytes env path content cfg autofix hook).run ss w = script path vs (bytesFinish env w.files path content cfg autofix hook ss) ss w := by
  have early : ∀ e, (bytesBody env path content cfg autofix hook).run ss w = ([], .raised e, w) → vs = [] →
      bytesFinish env w.files path content cfg autofix hook ss = ⟨id, some (errorResult path e), none⟩ →
      (fixitBytes env path content cfg autofix hook).run ss w = script path vs (bytesFinish env w.files path content cfg autofix hook ss) ss w := by
    intro e he hv hf
    rw [hf, hv]
    exact run_except_raises path [] id e none _ ss w (by rw [he, raisesAfter_nil]) _ (run_handler path)
  cases hc : env.collect w.files cfg with
  | error e =>
    refine early e ?_ ?_ ?_
    · simp [bytesBody, look, run, hc, Gen.ofExcept, Gen.bind]
    · simp [hvs, hc, found]
    · simp [bytesFinish, hc]
  | ok rules =>
    cases rules with
    | nil =>
      have hv : vs = [] := by simp [hvs, hc, found]
      rw [hv]
      apply run_except_script
      unfold bytesBody look
      simp only [run, id, hc, Gen.ofExcept, Gen.bind, List.isEmpty_nil, if_true]
      rw [run_yieldClean]
      simp [script, bytesFinish, hc]
    | cons r rs =>
      cases hp : env.parse content with
      | error e =>
        refine early e ?_ ?_ ?_
        · simp [bytesBody, look, run, hc, hp, Gen.ofExcept, Gen.bind]
        · simp [hvs, found, hc, hp]
        · simp [bytesFinish, hc, hp]
      | ok m =>
        cases hv : env.visit w.files cfg m (r :: rs) with
        | error e =>
          refine early e ?_ ?_ ?_
          · unfold bytesBody look
            simp only [run, id, hc, hp, Gen.ofExcept, Gen.bind, List.isEmpty_cons, Bool.false_eq_true, if_false]
            rw [run_bind]
            unfold onViolation
            rw [run_forIn_yield, C39_visit_raises env path m (r :: rs) cfg hook _ w e hv]
            rfl
          · simp [hvs, found, hc, hp, hv]
          · simp [bytesFinish, hc, hp, hv]
        | ok rd =>
          obtain ⟨recorded, durs⟩ := rd
          have hfound : vs = (displayed env path m ((r :: rs).flatMap recorded)).1 := by simp only [hvs, found, hc, hp, hv]
          have hbody : ∀ (q : List Result × Status (Option Bytes) × World),
              (match (match loopStatus (displayed env path m ((r :: rs).flatMap recorded)) ss.length (tally recorded (r :: rs) (0, durs)) with
                | .suspended => (vs.take (ss.length + 1), .suspended, w)
                | .raised e => (vs, .raised e, w)
                | .returned (n, μ) => (vs, hookStatus env hook (dictSet totalKey n μ) n, logged (hookEvents hook (dictSet totalKey n μ)) w) :
                  List LintViolation × Status Nat × World) with
              | (zs, .returned _, w') => (zs.map (reporting path) ++ ((finishBytes env path cfg m (if zs.zip ss = [] then true else false, accepted autofix zs ss)).run (ss.drop zs.length) w').1,
                  ((finishBytes env path cfg m (if zs.zip ss = [] then true else false, accepted autofix zs ss)).run (ss.drop zs.length) w').2)
              | (zs, .raised e, w') => (zs.map (reporting path), .raised e, w')
              | (zs, .suspended, w') => (zs.map (reporting path), .suspended, w')) = q →
              (bytesBody env path content cfg autofix hook).run ss w = q := by
            intro q hq
            rw [← hq]
            unfold bytesBody look
            simp only [run, id, hc, hp, Gen.ofExcept, Gen.bind, List.isEmpty_cons, Bool.false_eq_true, if_false]
            rw [run_bind]
            unfold onViolation
            rw [run_forIn_yield, run_collect env path m (r :: rs) cfg hook recorded durs _ w hv, List.length_map, ← hfound]
            cases loopStatus (displayed env path m ((r :: rs).flatMap recorded)) ss.length (tally recorded (r :: rs) (0, durs)) with
            | suspended => rfl
            | raised e => rfl
            | returned nm =>
              obtain ⟨n, μ⟩ := nm
              simp only [hookStatus]
              cases (if hook = true then env.hookRaises (dictSet totalKey n μ) else none) with
              | some e => rfl
              | none =>
                simp only [accepted_fold, List.length_map, List.nil_append, accepted]
                rfl
          cases hD : (displayed env path m ((r :: rs).flatMap recorded)).2 with
          | some e =>
            have hfin : bytesFinish env w.files path content cfg autofix hook ss = ⟨id, some (errorResult path e), none⟩ := by
              simp only [bytesFinish, hc, hp, hv, hD]
            rw [hfin]
            refine run_except_raises path vs id e none _ ss w ?_ _ (run_handler path)
            apply hbody
            unfold raisesAfter
            by_cases hk : ss.length < vs.length
            · simp only [loopStatus, ← hfound, hk, if_true]
            · simp only [loopStatus, ← hfound, hk, hD, if_false, id]
          | none =>
            by_cases hk : ss.length < vs.length
            · rw [script_lt _ _ _ _ _ hk]
              unfold fixitBytes
              rw [run_except, hbody ((vs.take (ss.length + 1)).map (reporting path), .suspended, w) (by simp only [loopStatus, ← hfound, hk, if_true])]
            · have hls : loopStatus (displayed env path m ((r :: rs).flatMap recorded)) ss.length (tally recorded (r :: rs) (0, durs)) =
                  .returned (tally recorded (r :: rs) (0, durs)) := by simp only [loopStatus, ← hfound, hk, hD, if_false]
              rw [hls] at hbody
              generalize ht : tally recorded (r :: rs) (0, durs) = t at hbody
              obtain ⟨n, μ⟩ := t
              simp only [hookStatus] at hbody
              cases hh : (if hook then env.hookRaises (dictSet totalKey n μ) else none) with
              | some e =>
                rw [hh] at hbody
                have hfin : bytesFinish env w.files path content cfg autofix hook ss =
                    ⟨logged (hookEvents hook (dictSet totalKey n μ)), some (errorResult path e), none⟩ := by
                  simp only [bytesFinish, hc, hp, hv, hD, ht, hh]
                rw [hfin]
                refine run_except_raises path vs _ e none _ ss w ?_ _ (run_handler path)
                apply hbody
                simp [raisesAfter, hk]
              | none =>
                rw [hh] at hbody
                simp only at hbody
                have hfin : bytesFinish env w.files path content cfg autofix hook ss =
                    (if vs.isEmpty then ⟨logged (hookEvents hook (dictSet totalKey n μ)), some (cleanResult path), none⟩
                    else if (accepted autofix vs ss).isEmpty then ⟨logged (hookEvents hook (dictSet totalKey n μ)), none, none⟩
                    else match fixedContent env path content cfg (accepted autofix vs ss) with
                      | .error e => ⟨logged (hookEvents hook (dictSet totalKey n μ)), some (errorResult path e), none⟩
                      | .ok b => ⟨logged (hookEvents hook (dictSet totalKey n μ)), none, some b⟩) := by
                  simp only [bytesFinish, hc, hp, hv, hD, ht, hh, ← hfound]
                rw [hfin]
                by_cases hv0 : vs = []
                · rw [hv0] at hbody ⊢
                  simp only [List.isEmpty_nil, if_true]
                  apply run_except_script
                  apply hbody
                  simp only [List.zip_nil_left, if_true, accepted, List.filterMap_nil, List.length_nil, List.drop_zero, List.map_nil, List.nil_append]
                  unfold finishBytes
                  simp only [if_true, List.isEmpty_nil]
                  rw [run_yieldClean]
                  simp [script]
                · have hz : ¬ vs.zip ss = [] := by
                    rw [List.zip_eq_nil_iff]
                    rintro (h | h)
                    · exact hv0 h
                    · subst h
                      simp only [List.length_nil, Nat.not_lt, Nat.le_zero] at hk
                      exact hv0 (List.length_eq_zero_iff.1 hk)
                  have hve : vs.isEmpty = false := by simpa using hv0
                  simp only [hz, if_false] at hbody
                  simp only [hve, Bool.false_eq_true, if_false]
                  by_cases ha : (accepted autofix vs ss).isEmpty = true
                  · simp only [ha, if_true]
                    apply run_except_script
                    apply hbody
                    simp [finishBytes, Gen.bind, ha, run, script, hk]
                  · simp only [ha]
                    simp only [Bool.false_eq_true, if_false]
                    have hfc : fixedContent env path content cfg (accepted autofix vs ss) =
                        (do let updated ← applyReplacements m ((accepted autofix vs ss).map LintViolation.fix); formatModule env updated path cfg) := by
                      simp only [fixedContent, hp, Bind.bind, Except.bind]
                    cases hfx : fixedContent env path content cfg (accepted autofix vs ss) with
                    | error e =>
                      refine run_except_raises path vs _ e none _ ss w ?_ _ (run_handler path)
                      apply hbody
                      rw [hfx] at hfc
                      have : (do let updated ← applyReplacements m ((accepted autofix vs ss).map LintViolation.fix); return some (← formatModule env updated path cfg)) = Except.error e := by
                        cases hap : applyReplacements m ((accepted autofix vs ss).map LintViolation.fix) with
                        | error e' => rw [hap] at hfc; simp only [Bind.bind, Except.bind] at hfc ⊢; injection hfc with h; rw [h]
                        | ok m' => rw [hap] at hfc; simp only [Bind.bind, Except.bind] at hfc ⊢; rw [← hfc]
                      rw [finishBytes_fix env path cfg m _ ha, this]
                      simp [run, raisesAfter, hk, Gen.ofExcept]
                    | ok b =>
                      apply run_except_script
                      apply hbody
                      rw [hfx] at hfc
                      have : (do let updated ← applyReplacements m ((accepted autofix vs ss).map LintViolation.fix); return some (← formatModule env updated path cfg)) = Except.ok (some b) := by
                        cases hap : applyReplacements m ((accepted autofix vs ss).map LintViolation.fix) with
                        | error e' => rw [hap] at hfc; simp [Bind.bind, Except.bind] at hfc
                        | ok m' => rw [hap] at hfc; simp only [Bind.bind, Except.bind] at hfc ⊢; rw [← hfc]; rfl
                      rw [finishBytes_fix env path cfg m _ ha, this]
                      simp [run, script, hk, Gen.ofExcept]

end Fixit
