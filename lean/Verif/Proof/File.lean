import Verif.Proof.Api

/-!
# The run of `fixit_file`, and the worlds it goes through
-/

namespace Fixit
open Py Spec Gen

variable {C : Type} (env : Env C)

/-! ## Closed form -/

theorem bytesFinish_ret (files : Path → Option Bytes) (path : Path) (content : Bytes) (cfg : C) (autofix hook : Bool) (ss : List Answer) (r : Result)
    (h : (bytesFinish env files path content cfg autofix hook ss).last = some r) : (bytesFinish env files path content cfg autofix hook ss).ret = none := by
  unfold bytesFinish at h ⊢
  repeat' (first | rfl | split | (simp only at h ⊢; split))
  all_goals simp_all

theorem overwrite_opened (w : World) (p : Path) (b : Bytes) (e : Event) : ((w.put p []).note e).overwrite p b = ((w.put p []).note e).put p b := by
  simp [World.overwrite, World.put, World.note]

/-- What writing back does. -/
def writeFinish (path : Path) (content : Bytes) (updated : Option Bytes) : Finish Unit :=
  match updated with
  | none => ⟨id, none, ()⟩
  | some b => if b.isEmpty then ⟨id, none, ()⟩ else if b = content then ⟨id, none, ()⟩ else
    match env.openRaises path with
    | some e => ⟨id, some (errorResult path e), ()⟩
    | none => match env.writeRaises path b with
      | some (n, e) => ⟨fun w => (((w.put path []).note (.opened path)).put path (b.take n)).note (.wrote path (b.take n)), some (errorResult path e), ()⟩
      | none => ⟨fun w => (((w.put path []).note (.opened path)).put path b).note (.wrote path b), none, ()⟩

/-- How `fixit_file` ends. -/
def fileFinish (files : Path → Option Bytes) (path : Path) (autofix hook : Bool) (ss : List Answer) : Finish Unit :=
  match loaded env files path with
  | .error e => ⟨id, some (errorResult path e), ()⟩
  | .ok (content, cfg) =>
    let B := bytesFinish env files path content cfg autofix hook ss
    let W := writeFinish env path content B.ret
    ⟨W.upd ∘ B.upd, match B.last with | some r => some r | none => W.last, ()⟩

theorem run_lintFile (path : Path) (autofix hook : Bool) (ss : List Answer) (w : World) :
    (lintFile env path autofix hook).run ss w = script path (foundIn env w.files path) (fileFinish env w.files path autofix hook ss) ss w := by
  have hd : ∀ e ss w, (yieldError path e).run ss w = ([errorResult path e], if ss.length = 0 then .suspended else .returned (), w) := run_yieldError' path
  have early : ∀ e, loaded env w.files path = .error e →
      ((readBytes env path).bind (fun content => .look (fun w => (Gen.ofExcept (env.config w.files path)).bind (fun cfg =>
        (fixitBytes env path content cfg autofix hook).bind (writeBack env path content)))) : Linting Unit).run ss w = ([], .raised e, w) →
      (lintFile env path autofix hook).run ss w = script path (foundIn env w.files path) (fileFinish env w.files path autofix hook ss) ss w := by
    intro e hl he
    have h1 : foundIn env w.files path = [] := by simp [foundIn, hl]
    have h2 : fileFinish env w.files path autofix hook ss = ⟨id, some (errorResult path e), ()⟩ := by simp [fileFinish, hl]
    rw [h1, h2]
    exact run_except_raises path [] id e () _ ss w (by rw [he, raisesAfter_nil]) _ hd
  cases hf : w.files path with
  | none =>
    apply early (.other 1) (by simp [loaded, hf])
    simp [readBytes, look, Gen.bind, run, hf]
  | some content =>
    cases hr : env.readRaises path with
    | some e =>
      apply early e (by simp [loaded, hf, hr])
      simp [readBytes, look, Gen.bind, run, hf, hr]
    | none =>
      cases hc : env.config w.files path with
      | error e =>
        apply early e (by simp [loaded, hf, hr, hc])
        simp [readBytes, look, Gen.bind, run, hf, hr, hc, Gen.ofExcept]
      | ok cfg =>
        have hl : loaded env w.files path = .ok (content, cfg) := by simp [loaded, hf, hr, hc]
        have hvs : foundIn env w.files path = found env w.files path content cfg := by simp [foundIn, hl]
        have hfin : fileFinish env w.files path autofix hook ss =
            ⟨(writeFinish env path content (bytesFinish env w.files path content cfg autofix hook ss).ret).upd ∘ (bytesFinish env w.files path content cfg autofix hook ss).upd,
              match (bytesFinish env w.files path content cfg autofix hook ss).last with
              | some r => some r
              | none => (writeFinish env path content (bytesFinish env w.files path content cfg autofix hook ss).ret).last, ()⟩ := by
          simp only [fileFinish, hl]
        have hrun := run_fixitBytes env path content cfg autofix hook ss w _ rfl
        have hstart : ∀ (q : List Result × Status Unit × World),
            ((fixitBytes env path content cfg autofix hook).bind (writeBack env path content)).run ss w = q →
            ((readBytes env path).bind (fun content => .look (fun w => (Gen.ofExcept (env.config w.files path)).bind (fun cfg =>
              (fixitBytes env path content cfg autofix hook).bind (writeBack env path content)))) : Linting Unit).run ss w = q := by
          intro q hq
          simp only [readBytes, look, Gen.bind, run, hf, hr, hc, Gen.ofExcept, id]
          exact hq
        rw [hvs, hfin]
        have hB := bytesFinish_ret env w.files path content cfg autofix hook ss
        generalize bytesFinish env w.files path content cfg autofix hook ss = B at hrun hB
        -- cases of writing back
        have nothing : writeBack env path content B.ret = .ret () → writeFinish env path content B.ret = ⟨id, none, ()⟩ →
            (lintFile env path autofix hook).run ss w = script path (found env w.files path content cfg)
              ⟨(writeFinish env path content B.ret).upd ∘ B.upd, (match B.last with | some r => some r | none => (writeFinish env path content B.ret).last), ()⟩ ss w := by
          intro h1 h2
          apply run_except_script
          apply hstart
          rw [run_bind_script_done path _ B _ ss w hrun _ () h1, h2]
          have : (match B.last with | some r => some r | none => (none : Option Result)) = B.last := by cases B.last <;> rfl
          rw [this]
          rfl
        cases hret : B.ret with
        | none =>
          rw [hret] at nothing
          exact nothing rfl rfl
        | some b =>
          have hlast : B.last = none := by
            cases hbl : B.last with
            | none => rfl
            | some r => rw [hB r hbl] at hret; simp at hret
          rw [hret] at nothing
          by_cases he : b.isEmpty = true
          · exact nothing (by simp only [writeBack, he, if_true]) (by simp only [writeFinish, he, if_true])
          by_cases hsame : b = content
          · refine nothing ?_ ?_
            · simp only [writeBack, he, hsame, if_true]; split <;> rfl
            · simp only [writeFinish, he, hsame, if_true]; split <;> rfl
          rw [hlast]
          have hW : writeBack env path content (some b) = writeBytes env path b := by
            simp only [writeBack, he, hsame]; simp
          cases ho : env.openRaises path with
          | some e =>
            have h2 : writeFinish env path content (some b) = ⟨id, some (errorResult path e), ()⟩ := by
              simp only [writeFinish, ho, hsame, if_false]; rw [if_neg (by simpa using he)]
            rw [h2]
            refine run_except_raises path _ _ e () _ ss w ?_ _ hd
            apply hstart
            refine run_bind_script_raises path _ B _ ss w hlast hrun _ id e ?_
            intro ss w
            rw [hret, hW]
            simp [writeBytes, ho, run]
          | none =>
            cases hw : env.writeRaises path b with
            | some ne =>
              obtain ⟨n, e⟩ := ne
              have h2 : writeFinish env path content (some b) =
                  ⟨fun w => (((w.put path []).note (.opened path)).put path (b.take n)).note (.wrote path (b.take n)), some (errorResult path e), ()⟩ := by
                simp only [writeFinish, ho, hsame, hw, if_false]; rw [if_neg (by simpa using he)]
              rw [h2]
              refine run_except_raises path _ _ e () _ ss w ?_ _ hd
              apply hstart
              refine run_bind_script_raises path _ B _ ss w hlast hrun _ _ e ?_
              intro ss w
              rw [hret, hW]
              simp [writeBytes, ho, hw, run, overwrite_opened]
            | none =>
              have h2 : writeFinish env path content (some b) =
                  ⟨fun w => (((w.put path []).note (.opened path)).put path b).note (.wrote path b), none, ()⟩ := by
                simp only [writeFinish, ho, hsame, hw, if_false]; rw [if_neg (by simpa using he)]
              rw [h2]
              apply run_except_script
              apply hstart
              refine run_bind_script path _ B _ ss w hlast hrun _ _ () ?_
              intro ss w
              rw [hret, hW]
              simp [writeBytes, ho, hw, run, overwrite_opened]

/-! ## Every step on the world is recorded -/

/-- Files change only by recorded events. -/
inductive Honest {Y S R : Type} : Gen World Y S R → Prop
  | ret (r : R) : Honest (.ret r)
  | raise (e : Err) : Honest (.raise e)
  | yield (y : Y) (k : S → Gen World Y S R) : (∀ s, Honest (k s)) → Honest (.yield y k)
  | act (a : World → World) (k : World → Gen World Y S R) :
      (∀ w, ∃ evs, (a w).log = w.log ++ evs ∧ (a w).files = replay w.files evs) → (∀ w, Honest (k w)) → Honest (.act a k)

theorem replay_append (files : Path → Option Bytes) (a b : List Event) : replay files (a ++ b) = replay (replay files a) b := by
  simp [replay, List.foldl_append]

theorem honest_worlds {Y S R : Type} {g : Gen World Y S R} (h : Honest g) : ∀ (ss : List S) (w w' : World), w' ∈ g.worlds ss w →
    ∃ evs evs', w'.log = w.log ++ evs ∧ w'.files = replay w.files evs ∧ (g.run ss w).2.2.log = w.log ++ evs ++ evs' := by
  induction h with
  | ret r => intro ss w w' h; simp only [Gen.worlds, List.mem_singleton] at h; subst h; exact ⟨[], [], by simp, rfl, by simp [run]⟩
  | raise e => intro ss w w' h; simp only [Gen.worlds, List.mem_singleton] at h; subst h; exact ⟨[], [], by simp, rfl, by simp [run]⟩
  | yield y k hk ih =>
    intro ss w w' h
    cases ss with
    | nil => simp only [Gen.worlds, List.mem_singleton] at h; subst h; exact ⟨[], [], by simp, rfl, by simp [run]⟩
    | cons s ss =>
      simp only [Gen.worlds, List.mem_cons] at h
      rcases h with rfl | h
      · obtain ⟨evs, evs', h1, -, h3⟩ := ih s ss w' _ (run_world_mem (k s) ss w')
        refine ⟨[], evs, by simp, rfl, ?_⟩
        simp only [run, List.append_nil]
        exact h1
      · exact ih s ss w w' h
  | act a k ha hk ih =>
    intro ss w w' h
    obtain ⟨evs0, e1, e2⟩ := ha w
    simp only [Gen.worlds, List.mem_cons] at h
    rcases h with rfl | h
    · obtain ⟨evs, evs', h1, -, -⟩ := ih w' ss (a w') _ (run_world_mem (k w') ss (a w'))
      refine ⟨[], evs0 ++ evs, by simp, rfl, ?_⟩
      simp only [run, List.append_nil]
      rw [h1, e1, List.append_assoc]
    · obtain ⟨evs, evs', h1, h2, h3⟩ := ih w ss (a w) w' h
      refine ⟨evs0 ++ evs, evs', ?_, ?_, ?_⟩
      · rw [h1, e1, List.append_assoc]
      · rw [h2, e2, replay_append]
      · simp only [run]
        rw [h3, e1]
        simp [List.append_assoc]

theorem Honest.bind {Y S R Q : Type} {g : Gen World Y S R} (hg : Honest g) {f : R → Gen World Y S Q} (hf : ∀ r, Honest (f r)) : Honest (g.bind f) := by
  induction hg with
  | ret r => exact hf r
  | raise e => exact .raise e
  | yield y k _ ih => exact .yield y _ ih
  | act a k ha _ ih => exact .act a _ ha ih

theorem Honest.except {Y S R : Type} {g : Gen World Y S R} (hg : Honest g) {h : Err → Gen World Y S R} (hh : ∀ e, Honest (h e)) : Honest (g.except h) := by
  induction hg with
  | ret r => exact .ret r
  | raise e => exact hh e
  | yield y k _ ih => exact .yield y _ ih
  | act a k ha _ ih => exact .act a _ ha ih

theorem Honest.forIn {Y Z S R T : Type} {g : Gen World Z Unit R} (hg : Honest g) {body : Z → T → Gen World Y S T} (hb : ∀ z t, Honest (body z t)) :
    ∀ t, Honest (g.forIn body t) := by
  induction hg with
  | ret r => intro t; exact .ret t
  | raise e => intro t; exact .raise e
  | yield y k _ ih => intro t; exact (hb y t).bind (fun t' => ih () t')
  | act a k ha _ ih => intro t; exact .act a _ ha (fun w => ih w t)

theorem Honest.look {Y S R : Type} {k : World → Gen World Y S R} (h : ∀ w, Honest (k w)) : Honest (look k) :=
  .act _ _ (fun w => ⟨[], by simp, rfl⟩) h

theorem Honest.ofExcept {Y S R : Type} (r : Except Err R) : Honest (Gen.ofExcept r : Gen World Y S R) := by
  cases r <;> constructor

theorem honest_violationLoop (path : Path) (m : Node) (name : PStr) : ∀ (vs : List (Violation Nat Repl)) (st : Nat × Metrics),
    Honest (violationLoop env path m name vs st)
  | [], st => .ret st
  | v :: vs, (n, μ) => by
    unfold violationLoop
    split
    · split
      · exact .raise _
      · exact .yield _ _ (fun _ => honest_violationLoop path m name vs _)
    · exact .yield _ _ (fun _ => honest_violationLoop path m name vs _)

theorem honest_ruleLoop (path : Path) (m : Node) (recorded : RuleInst → List (Violation Nat Repl)) : ∀ (rs : List RuleInst) (st : Nat × Metrics),
    Honest (ruleLoop env path m recorded rs st)
  | [], st => .ret st
  | r :: rs, (n, μ) => by
    unfold ruleLoop
    exact (honest_violationLoop env path m _ _ _).bind (fun st => honest_ruleLoop path m recorded rs st)

theorem honest_callHook {Y S : Type} (hook : Bool) (μ : Metrics) : Honest (callHook env hook μ : Gen World Y S Unit) := by
  unfold callHook
  split
  · refine .act _ _ (fun w => ⟨[.hook μ], rfl, rfl⟩) (fun w => ?_)
    split <;> constructor
  · exact .ret _

theorem honest_collect (path : Path) (m : Node) (rules : List RuleInst) (cfg : C) (hook : Bool) : Honest (collectViolations env path m rules cfg hook) := by
  unfold collectViolations
  refine .look (fun w => (Honest.ofExcept _).bind (fun rd => ?_))
  exact (honest_ruleLoop env path m _ _ _).bind (fun nm => (honest_callHook env hook _).bind (fun _ => .ret _))

theorem honest_fixitBytes (path : Path) (content : Bytes) (cfg : C) (autofix hook : Bool) : Honest (fixitBytes env path content cfg autofix hook) := by
  unfold fixitBytes
  apply Honest.except
  · unfold bytesBody
    refine .look (fun w => (Honest.ofExcept _).bind (fun rules => ?_))
    split
    · exact Honest.bind (.yield _ _ (fun _ => .ret _)) (fun _ => .ret _)
    · refine (Honest.ofExcept _).bind (fun m => Honest.bind ?_ (fun st => ?_))
      · exact (honest_collect env path m rules cfg hook).forIn (fun z t => .yield _ _ (fun _ => .ret _)) _
      · unfold finishBytes
        refine Honest.bind ?_ (fun _ => ?_)
        · split
          · exact .yield _ _ (fun _ => .ret _)
          · exact .ret _
        · split
          · exact .ret _
          · exact Honest.ofExcept _
  · intro e
    exact Honest.bind (.yield _ _ (fun _ => .ret _)) (fun _ => .ret _)


theorem honest_writeBytes {Y S : Type} (path : Path) (b : Bytes) : Honest (writeBytes env path b : Gen World Y S Unit) := by
  unfold writeBytes
  split
  · exact .raise _
  · refine .act _ _ (fun w => ⟨[.opened path], rfl, rfl⟩) (fun w => ?_)
    split
    · rename_i n e _
      exact .act _ _ (fun w => ⟨[.wrote path (b.take n)], rfl, rfl⟩) (fun _ => .raise _)
    · exact .act _ _ (fun w => ⟨[.wrote path b], rfl, rfl⟩) (fun _ => .ret _)

theorem honest_lintFile (path : Path) (autofix hook : Bool) : Honest (lintFile env path autofix hook) := by
  unfold lintFile
  apply Honest.except
  · refine Honest.bind ?_ (fun content => .look (fun w => (Honest.ofExcept _).bind (fun cfg => (honest_fixitBytes env path content cfg autofix hook).bind (fun upd => ?_))))
    · unfold readBytes
      refine .look (fun w => ?_)
      split
      · exact .raise _
      · split
        · exact .raise _
        · exact .ret _
    · unfold writeBack
      split
      · exact .ret _
      · split
        · exact .ret _
        · split
          · exact .ret _
          · exact honest_writeBytes env path _
  · intro e
    exact .yield _ _ (fun _ => .ret _)

theorem honest_lintStdin (path : Path) (autofix hook : Bool) : Honest (lintStdin env path autofix hook) := by
  unfold lintStdin
  apply Honest.except
  · refine Honest.bind (Honest.ofExcept _) (fun content => .look (fun w => (Honest.ofExcept _).bind (fun cfg => (honest_fixitBytes env path content cfg autofix hook).bind (fun upd => ?_))))
    split
    · unfold writeStdout
      split
      · exact .raise _
      · exact .act _ _ (fun w => ⟨[.stdout _], rfl, rfl⟩) (fun _ => .ret _)
    · exact .ret _
  · intro e
    exact .yield _ _ (fun _ => .ret _)

end Fixit
