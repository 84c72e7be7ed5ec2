import Verif.Props.PathsCases

/-!
# C49 for several files: stopping in the middle
-/

namespace Fixit
open Py Spec Gen

variable {C : Type} (env : Env C)

theorem run_suspended_ne {W Y Q R : Type} : ∀ (g : Gen W Y Q R) (ss : List Q) (w : W), (g.run ss w).2.1 = .suspended → (g.run ss w).1 ≠ []
  | .ret x, ss, w, h => by simp [run] at h
  | .raise e, ss, w, h => by simp [run] at h
  | .yield y k, [], w, h => by simp [run]
  | .yield y k, s :: ss, w, h => by simp [run]
  | .act a k, ss, w, h => by simp only [run] at h ⊢; exact run_suspended_ne (k w) ss (a w) h

/-- When the files one by one end in a suspension, it is in the last one looked at; each before it got the answers to its own results. -/
theorem oneByOne_suspended (autofix hook : Bool) (w : World) : ∀ (ps : List Path) (ss : List Answer),
    ((oneByOne env autofix hook w ps ss).getLast?.map (·.2.1)).getD (.returned ()) = .suspended →
    ∃ before cur after init last, ps = before ++ cur :: after ∧ oneByOne env autofix hook w ps ss = init ++ [last] ∧ init.length = before.length ∧
      (∀ (i : Nat) (f : Path) (x : List Result × Status Unit × World), before[i]? = some f → init[i]? = some x →
        x = (fixitFile env f autofix hook).run (ss.drop ((init.take i).flatMap (·.1)).length) w ∧ x.2.1 = .returned ()) ∧
      ∃ a, last = (fixitFile env cur autofix hook).run a w ∧ last.2.1 = .suspended
  | [], ss, h => by simp [oneByOne] at h
  | p :: ps, ss, h => by
    simp only [oneByOne] at h ⊢
    cases hst : ((fixitFile env p autofix hook).run ss w).2.1 with
    | raised e => rw [hst] at h; simp [hst] at h
    | suspended => exact ⟨[], p, ps, [], _, rfl, rfl, rfl, by simp, ss, rfl, hst⟩
    | returned r =>
      rw [hst] at h
      simp only at h ⊢
      have h' : ((oneByOne env autofix hook w ps (ss.drop ((fixitFile env p autofix hook).run ss w).1.length)).getLast?.map (·.2.1)).getD (.returned ()) = .suspended := by
        cases hob : oneByOne env autofix hook w ps (ss.drop ((fixitFile env p autofix hook).run ss w).1.length) with
        | nil => rw [hob] at h; simp [hst] at h
        | cons a l => rw [hob, List.getLast?_cons_cons] at h; exact h
      obtain ⟨before, cur, after, init, last, h1, h2, h3, h4, h5⟩ := oneByOne_suspended autofix hook w ps _ h'
      refine ⟨p :: before, cur, after, (fixitFile env p autofix hook).run ss w :: init, last, by rw [h1]; rfl, by rw [h2]; rfl, by simp [h3], ?_, h5⟩
      intro i f x hf hx
      cases i with
      | zero =>
        simp only [List.getElem?_cons_zero, Option.some.injEq] at hf hx
        subst hf; subst hx
        exact ⟨rfl, hst⟩
      | succ i =>
        simp only [List.getElem?_cons_succ] at hf hx
        have := h4 i f x hf hx
        rw [List.drop_drop] at this
        rw [List.take_succ_cons, List.flatMap_cons, List.length_append]
        exact this

/-- **C49** Several distinct files, none of which is part of the configuration or of a rule, and a consumer that stops after a violation `v`: the file `v` is
in and all files after it are as they were; each file before it is exactly as when it is run alone, from the beginning and to its end, with the answers
given to its own results (what that makes of it, see C46 and C47); and no other file has changed. -/
theorem C49_several_files (autofix hook : Bool) (ps : List Path) (ss : List Answer) (w w' : World) (ys : List Result) (p : Path) (v : LintViolation)
    (hS : Stable env (fun q => q ∈ ps.map env.resolve)) (hd : (ps.map env.resolve).Nodup)
    (hr : (eachFile env autofix hook ps).run ss w = (ys, .suspended, w')) (hy : ys.getLast? = some ⟨p, some v, none⟩) :
    ∃ before cur after, ps = before ++ cur :: after ∧ p = env.resolve cur ∧ w'.files p = w.files p ∧
      (∀ q, q ∉ before.map env.resolve → w'.files q = w.files q) ∧
      ∀ f ∈ before, ∃ earlier own later u, ys = earlier ++ own ++ later ∧
        (fixitFile env f autofix hook).run (ss.drop earlier.length) w = (own, .returned (), u) ∧
        w'.files (env.resolve f) = u.files (env.resolve f) := by
  obtain ⟨h1, h2, h3, h4, -⟩ := eachFile_run env hS autofix hook w ps ss w (fun p hp => Or.inl (List.mem_map_of_mem hp))
    (hd.imp (fun h e => absurd e h)) (fun q _ => rfl)
  rw [hr] at h1 h2 h3 h4
  simp only at h1 h2 h3 h4
  obtain ⟨before, cur, after, init, last, hp, hob, hlen, hin, a, hlast, hsus⟩ := oneByOne_suspended env autofix hook w ps ss h2.symm
  rw [hob] at h1 h3 h4
  have hzip : ps.zip (init ++ [last]) = before.zip init ++ [(cur, last)] := by
    rw [hp, List.zip_append hlen.symm]; simp
  have hne : last.1 ≠ [] := by rw [hlast]; exact run_suspended_ne _ _ _ (by rw [← hlast]; exact hsus)
  have hyl : last.1.getLast? = some ⟨p, some v, none⟩ := by
    rw [h1] at hy
    simp only [List.flatMap_append, List.flatMap_cons, List.flatMap_nil, List.append_nil] at hy
    rw [List.getLast?_append] at hy
    cases hl : last.1.getLast? with
    | none => rw [List.getLast?_eq_none_iff] at hl; exact absurd hl hne
    | some r => rw [hl] at hy; simpa using hy
  have hmem : (⟨p, some v, none⟩ : Result) ∈ last.1 := List.mem_of_getLast? hyl
  have hpath : p = env.resolve cur :=
    C54_results_name_the_file env cur autofix hook a w ⟨p, some v, none⟩ (by rw [← hlast]; exact hmem)
  have hu : last.2.2 = w := by
    refine C49_stopping_early env cur autofix hook a w last.2.2 last.1 v ?_ (by rw [hyl, hpath])
    rw [← hlast, ← hsus]
  have hcur : w'.files (env.resolve cur) = w.files (env.resolve cur) := by
    have := h3 (cur, last) (by rw [hzip]; simp)
    rw [this, hu]
  refine ⟨before, cur, after, hp, hpath, by rw [hpath]; exact hcur, ?_, ?_⟩
  · intro q hq
    by_cases hc : q = env.resolve cur
    · rw [hc]; exact hcur
    · refine h4 q (Or.inl ?_)
      intro x hx
      rw [hzip, List.mem_append, List.mem_singleton] at hx
      rcases hx with hx | rfl
      · intro he
        exact hq (he ▸ List.mem_map_of_mem (List.of_mem_zip hx).1)
      · exact fun he => hc he.symm
  · intro f hf
    obtain ⟨i, hi, hfi⟩ := List.getElem_of_mem hf
    have hi' : i < init.length := by omega
    have hfi' : before[i]? = some f := by rw [List.getElem?_eq_getElem hi, hfi]
    obtain ⟨x, hxi⟩ : ∃ x, init[i]? = some x := ⟨_, List.getElem?_eq_getElem hi'⟩
    obtain ⟨hrun, hret⟩ := hin i f x hfi' hxi
    have hx : (f, x) ∈ before.zip init := by
      rw [List.mem_iff_getElem?]
      exact ⟨i, by rw [List.getElem?_zip_eq_some]; exact ⟨hfi', hxi⟩⟩
    have hsplit : init = init.take i ++ x :: init.drop (i + 1) := by
      have hxe : x = init[i] := by rw [List.getElem?_eq_getElem hi'] at hxi; exact (Option.some.inj hxi).symm
      rw [hxe, List.getElem_cons_drop, List.take_append_drop]
    refine ⟨(init.take i).flatMap (·.1), x.1, (init.drop (i + 1) ++ [last]).flatMap (·.1), x.2.2, ?_, by rw [← hrun, ← hret], h3 (f, x) (by rw [hzip]; simp [hx])⟩
    rw [h1]
    conv => lhs; rw [hsplit]
    simp [List.flatMap_append, List.append_assoc]

/-- C49: `f` is fixed, then the consumer stops at the violation in `g`: `f` keeps its fix and `g` its content. -/
example :
    let out := (eachFile (toyEnv none none []) true false [[py "f"], [py "g"]]).run [none] (twoFiles [98] [97, 100])
    shown out.1 = [(some (py "b"), false), (some (py "d"), false)] ∧ (match out.2.1 with | .suspended => true | _ => false) = true ∧
    fContent out.2.2 = some [66] ∧ out.2.2.files [py "root", py "g"] = some [97, 100] := by decide

/-- … and the hypotheses of `C49_several_files` hold. -/
example : ([[py "f"], [py "g"]].map (toyEnv none none []).resolve).Nodup ∧ Stable (toyEnv none none []) (fun q => q ∈ [[py "f"], [py "g"]].map (toyEnv none none []).resolve) :=
  ⟨by decide, toyStable _ _ _ _⟩

end Fixit
