import Verif.Proof.File

/-!
# C42–C49, C53, C54, C69, C77, C78: linting and fixing one file
-/

namespace Fixit
open Py Spec Gen

variable {C : Type} (env : Env C)

/-- The events since `w`. -/
def newEvents (w w' : World) : List Event := w'.log.drop w.log.length

theorem newEvents_append (w w' : World) (evs : List Event) (h : w'.log = w.log ++ evs) : newEvents w w' = evs := by
  rw [newEvents, h, List.drop_left]

/-! ## What the closed form says about events -/

theorem fileEvents_append (a b : List Event) : fileEvents (a ++ b) = fileEvents a ++ fileEvents b := by simp [fileEvents]

theorem fileEvents_hook (hook : Bool) (μ : Metrics) : fileEvents (hookEvents hook μ) = [] := by cases hook <;> rfl

/-- `fixit_bytes` itself touches no file. -/
theorem bytesFinish_upd (files : Path → Option Bytes) (path : Path) (content : Bytes) (cfg : C) (autofix hook : Bool) (ss : List Answer) :
    ∃ evs, fileEvents evs = [] ∧ (bytesFinish env files path content cfg autofix hook ss).upd = logged evs := by
  have hid : ∃ evs : List Event, fileEvents evs = [] ∧ (id : World → World) = logged evs := ⟨[], rfl, by funext w; simp [logged]⟩
  unfold bytesFinish
  split
  · exact hid
  · exact hid
  · split
    · exact hid
    · split
      · exact hid
      · split
        · exact hid
        · simp only
          split
          · exact ⟨_, fileEvents_hook _ _, rfl⟩
          · split
            · exact ⟨_, fileEvents_hook _ _, rfl⟩
            · split
              · exact ⟨_, fileEvents_hook _ _, rfl⟩
              · split
                · exact ⟨_, fileEvents_hook _ _, rfl⟩
                · exact ⟨_, fileEvents_hook _ _, rfl⟩

/-- When `fixit_bytes` returns content, it is that of the accepted fixes. -/
theorem bytesFinish_some (files : Path → Option Bytes) (path : Path) (content : Bytes) (cfg : C) (autofix hook : Bool) (ss : List Answer) (b : Bytes)
    (h : (bytesFinish env files path content cfg autofix hook ss).ret = some b) :
    accepted autofix (found env files path content cfg) ss ≠ [] ∧ fixedContent env path content cfg (accepted autofix (found env files path content cfg) ss) = .ok b := by
  unfold bytesFinish at h
  cases hc : env.collect files cfg with
  | error e => simp [hc] at h
  | ok rules =>
    cases rules with
    | nil => simp [hc] at h
    | cons r rs =>
      cases hp : env.parse content with
      | error e => simp [hc, hp] at h
      | ok m =>
        cases hv : env.visit files cfg m (r :: rs) with
        | error e => simp [hc, hp, hv] at h
        | ok rd =>
          obtain ⟨recorded, durs⟩ := rd
          have hfound : found env files path content cfg = (displayed env path m ((r :: rs).flatMap recorded)).1 := by simp only [found, hc, hp, hv]
          simp only [hc, hp, hv, ← hfound] at h
          split at h
          · simp at h
          · split at h
            · simp at h
            · split at h
              · simp at h
              · split at h
                · simp at h
                · rename_i hne
                  split at h
                  · simp at h
                  · rename_i b' hb
                    simp only [Option.some.injEq] at h
                    subst h
                    refine ⟨?_, hb⟩
                    intro e
                    rw [e] at hne
                    simp at hne

/-- Everything a run of `fixit_file` may do to files. -/
theorem fileFinish_upd (files : Path → Option Bytes) (path : Path) (autofix hook : Bool) (ss : List Answer) :
    ∃ evs, (fileFinish env files path autofix hook ss).upd = (fun w => ⟨replay w.files evs, w.log ++ evs⟩) ∧
      (fileEvents evs = [] ∨ ∃ content cfg b c, loaded env files path = .ok (content, cfg) ∧ accepted autofix (foundIn env files path) ss ≠ [] ∧
        fixedContent env path content cfg (accepted autofix (foundIn env files path) ss) = .ok b ∧ b ≠ [] ∧ b ≠ content ∧
        fileEvents evs = [.opened path, .wrote path c] ∧
        (c = b ∧ (fileFinish env files path autofix hook ss).last = none ∨
          ∃ n e, env.writeRaises path b = some (n, e) ∧ c = b.take n ∧ (fileFinish env files path autofix hook ss).last = some (errorResult path e))) := by
  have replay_none : ∀ (evs : List Event) (f : Path → Option Bytes), fileEvents evs = [] → replay f evs = f := by
    intro evs
    induction evs with
    | nil => intro f _; rfl
    | cons e evs ih =>
      intro f h
      cases e with
      | opened p => simp [fileEvents] at h
      | wrote p b => simp [fileEvents] at h
      | stdout b => exact ih f h
      | hook μ => exact ih f h
  unfold fileFinish
  cases hl : loaded env files path with
  | error e => exact ⟨[], by funext w; simp [replay], Or.inl rfl⟩
  | ok cc =>
    obtain ⟨content, cfg⟩ := cc
    simp only
    have hfi : foundIn env files path = found env files path content cfg := by simp [foundIn, hl]
    obtain ⟨evs, he, hu⟩ := bytesFinish_upd env files path content cfg autofix hook ss
    have hsome := bytesFinish_some env files path content cfg autofix hook ss
    have hlast := bytesFinish_ret env files path content cfg autofix hook ss
    have nothing : ∃ evs', (id ∘ (bytesFinish env files path content cfg autofix hook ss).upd) = (fun w => (⟨replay w.files evs', w.log ++ evs'⟩ : World)) ∧ fileEvents evs' = [] :=
      ⟨evs, by rw [hu]; funext w; simp [logged, replay_none evs _ he], he⟩
    cases hret : (bytesFinish env files path content cfg autofix hook ss).ret with
    | none =>
      obtain ⟨evs', h1, h2⟩ := nothing
      exact ⟨evs', h1, Or.inl h2⟩
    | some b =>
      obtain ⟨ha, hb⟩ := hsome b hret
      have hln : (bytesFinish env files path content cfg autofix hook ss).last = none := by
        cases h : (bytesFinish env files path content cfg autofix hook ss).last with
        | none => rfl
        | some r => rw [hlast r h] at hret; simp at hret
      unfold writeFinish
      simp only [hln]
      by_cases hbe : b.isEmpty = true
      · simp only [hbe, if_true]
        obtain ⟨evs', h1, h2⟩ := nothing
        exact ⟨evs', h1, Or.inl h2⟩
      · by_cases hbc : b = content
        · obtain ⟨evs', h1, h2⟩ := nothing
          refine ⟨evs', ?_, Or.inl h2⟩
          rw [← h1]
          simp only [hbc, if_true]
          split <;> rfl
        · simp only [hbe, hbc]
          simp only [Bool.false_eq_true, if_false]
          cases ho : env.openRaises path with
          | some e =>
            obtain ⟨evs', h1, h2⟩ := nothing
            exact ⟨evs', h1, Or.inl h2⟩
          | none =>
            have key : ∀ c : Bytes, ((fun w => (((World.put w path []).note (.opened path)).put path c).note (.wrote path c)) ∘ logged evs) =
                (fun w => (⟨replay w.files (evs ++ [.opened path, .wrote path c]), w.log ++ (evs ++ [.opened path, .wrote path c])⟩ : World)) := by
              intro c
              funext w
              simp only [Function.comp, logged, World.put, World.note, replay_append, replay_none evs _ he]
              simp only [replay, List.foldl_cons, List.foldl_nil, Spec.Event.apply, World.mk.injEq]
              exact ⟨by simp, by simp⟩
            have hbne : b ≠ [] := fun e => hbe (by simp [e])
            have hevs : ∀ c, fileEvents (evs ++ [.opened path, .wrote path c]) = [.opened path, .wrote path c] := by
              intro c; rw [fileEvents_append, he]; rfl
            cases hw : env.writeRaises path b with
            | some ne =>
              obtain ⟨n, e⟩ := ne
              refine ⟨evs ++ [.opened path, .wrote path (b.take n)], ?_, Or.inr ⟨content, cfg, b, b.take n, rfl, ?_, ?_, hbne, hbc, hevs _, ?_⟩⟩
              · rw [hu]; exact key _
              · rwa [hfi]
              · rwa [hfi]
              · exact Or.inr ⟨n, e, hw, rfl, rfl⟩
            | none =>
              refine ⟨evs ++ [.opened path, .wrote path b], ?_, Or.inr ⟨content, cfg, b, b, rfl, ?_, ?_, hbne, hbc, hevs _, ?_⟩⟩
              · rw [hu]; exact key _
              · rwa [hfi]
              · rwa [hfi]
              · exact Or.inl ⟨rfl, rfl⟩

theorem replay_of_none (evs : List Event) : ∀ (f : Path → Option Bytes), fileEvents evs = [] → replay f evs = f := by
  induction evs with
  | nil => intro f _; rfl
  | cons e evs ih =>
    intro f h
    cases e with
    | opened p => simp [fileEvents] at h
    | wrote p b => simp [fileEvents] at h
    | stdout b => exact ih f h
    | hook μ => exact ih f h

/-- Only the events about files matter. -/
theorem replay_fileEvents (evs : List Event) : ∀ (f : Path → Option Bytes), replay f (fileEvents evs) = replay f evs := by
  induction evs with
  | nil => intro f; rfl
  | cons e evs ih =>
    intro f
    cases e with
    | opened p => exact ih _
    | wrote p b => exact ih _
    | stdout b => exact ih f
    | hook μ => exact ih f

/-- The world at the end of a run of `fixit_file` on a resolved path. -/
theorem lintFile_world (path : Path) (autofix hook : Bool) (ss : List Answer) (w : World) :
    ((lintFile env path autofix hook).run ss w).2.2 =
      if ss.length < (foundIn env w.files path).length then w else (fileFinish env w.files path autofix hook ss).upd w := by
  rw [run_lintFile]
  unfold script
  split
  · rfl
  · split <;> rfl

/-! ## C42 -/

theorem accepted_none (vs : List LintViolation) (ss : List Answer) (h : ∀ s ∈ ss, s ≠ some true) : accepted false vs ss = [] := by
  unfold accepted
  rw [List.filterMap_eq_nil_iff]
  intro p hp
  have := h p.2 (List.of_mem_zip hp).2
  simp [this]

theorem prefix_fileEvents_nil {a b : List Event} (h : fileEvents (a ++ b) = []) : fileEvents a = [] := by
  rw [fileEvents_append, List.append_eq_nil_iff] at h
  exact h.1

/-- **C42** Without autofix and without a positive answer no file is ever opened for writing or changed: at no point of the run, wherever the consumer
stops, whatever the rules find and whatever raises. -/
theorem C42_lint_never_writes (path : Path) (hook : Bool) (ss : List Answer) (w w' : World) (h : ∀ s ∈ ss, s ≠ some true)
    (hw : w' ∈ (fixitFile env path false hook).worlds ss w) : w'.files = w.files ∧ fileEvents (newEvents w w') = [] := by
  obtain ⟨evs, evs', h1, h2, h3⟩ := honest_worlds (honest_lintFile env (env.resolve path) false hook) ss w w' hw
  have hall : fileEvents (evs ++ evs') = [] := by
    rw [lintFile_world] at h3
    split at h3
    · have : evs ++ evs' = [] := by
        have h4 : w.log ++ [] = w.log ++ (evs ++ evs') := by rw [List.append_nil]; rw [List.append_assoc] at h3; exact h3
        exact (List.append_cancel_left h4).symm
      rw [this]; rfl
    · obtain ⟨evs0, hu, hcase⟩ := fileFinish_upd env w.files (env.resolve path) false hook ss
      rw [hu] at h3
      simp only [List.append_assoc, List.append_cancel_left_eq] at h3
      rw [← h3]
      rcases hcase with hc | ⟨_, _, _, _, _, ha, _⟩
      · exact hc
      · exact absurd (accepted_none _ ss h) ha
  have hn := prefix_fileEvents_nil hall
  rw [newEvents_append w w' evs h1, h2]
  exact ⟨replay_of_none evs _ hn, hn⟩

/-- **C42** Linting standard input never touches a file, even with autofix. -/
theorem C42_stdin_never_writes (path : Path) (autofix hook : Bool) (ss : List Answer) (w w' : World)
    (hw : w' ∈ (fixitStdin env path autofix hook).worlds ss w) : w'.files = w.files := by
  have keeps : Keeps (fun v : World => v.files = w.files) (fixitStdin env path autofix hook) := by
    have hk : ∀ (evs : List Event) (v : World), v.files = w.files → (⟨v.files, v.log ++ evs⟩ : World).files = w.files := fun _ _ h => h
    unfold fixitStdin lintStdin
    refine Keeps.except (Keeps.bind (Keeps.ofExcept _) (fun content => .look (fun _ _ => (Keeps.ofExcept _).bind (fun cfg => Keeps.bind ?_ (fun upd => ?_))))) (fun e => .yield _ _ (fun _ => .ret _))
    · unfold fixitBytes
      refine Keeps.except ?_ (fun e => Keeps.bind (.yield _ _ (fun _ => .ret _)) (fun _ => .ret _))
      unfold bytesBody
      refine .look (fun _ _ => (Keeps.ofExcept _).bind (fun rules => ?_))
      split
      · exact Keeps.bind (.yield _ _ (fun _ => .ret _)) (fun _ => .ret _)
      · refine (Keeps.ofExcept _).bind (fun m => Keeps.bind ?_ (fun st => ?_))
        · refine Keeps.forIn ?_ (fun z t => .yield _ _ (fun _ => .ret _)) _
          unfold collectViolations
          refine .look (fun _ _ => (Keeps.ofExcept _).bind (fun rd => ?_))
          have loop : ∀ (path : Path) (m : Node) (recorded : RuleInst → List (Violation Nat Repl)) (rs : List RuleInst) (st : Nat × Metrics),
              Keeps (fun v : World => v.files = w.files) (ruleLoop env path m recorded rs st) := by
            intro path m recorded rs
            have inner : ∀ (name : PStr) (vs : List (Violation Nat Repl)) (st : Nat × Metrics),
                Keeps (fun v : World => v.files = w.files) (violationLoop env path m name vs st) := by
              intro name vs
              induction vs with
              | nil => intro st; exact .ret st
              | cons v vs ih =>
                intro st
                obtain ⟨n, μ⟩ := st
                unfold violationLoop
                split
                · split
                  · exact .raise _
                  · exact .yield _ _ (fun _ => ih _)
                · exact .yield _ _ (fun _ => ih _)
            induction rs with
            | nil => intro st; exact .ret st
            | cons r rs ih =>
              intro st
              obtain ⟨n, μ⟩ := st
              exact (inner _ _ _).bind (fun st => ih st)
          refine (loop _ _ _ _ _).bind (fun nm => Keeps.bind ?_ (fun _ => .ret _))
          unfold callHook
          split
          · refine .act _ _ (fun v h => h) (fun v _ => ?_)
            split <;> constructor
          · exact .ret _
        · unfold finishBytes
          refine Keeps.bind ?_ (fun _ => ?_)
          · split
            · exact .yield _ _ (fun _ => .ret _)
            · exact .ret _
          · split
            · exact .ret _
            · exact Keeps.ofExcept _
    · split
      · unfold writeStdout
        split
        · exact .raise _
        · exact .act _ _ (fun v h => h) (fun _ _ => .ret _)
      · exact .ret _
  exact keeps.worlds ss w rfl w' hw

/-! ## C43 -/

/-- **C43** A run opens a file for writing at most once, only the linted file, only when the fixed and formatted content differs from what was read,
and writes exactly the formatted tree with the accepted fixes applied (a prefix of it if the write itself fails). -/
theorem C43_written_at_most_once (path : Path) (autofix hook : Bool) (ss : List Answer) (w : World) :
    let w' := ((fixitFile env path autofix hook).run ss w).2.2
    fileEvents (newEvents w w') = [] ∨
    ∃ content cfg b c, w.files (env.resolve path) = some content ∧ env.config w.files (env.resolve path) = .ok cfg ∧
      fixedContent env (env.resolve path) content cfg (accepted autofix (found env w.files (env.resolve path) content cfg) ss) = .ok b ∧ b ≠ content ∧
      fileEvents (newEvents w w') = [.opened (env.resolve path), .wrote (env.resolve path) c] ∧
      (c = b ∨ ∃ n e, env.writeRaises (env.resolve path) b = some (n, e) ∧ c = b.take n) := by
  intro w'
  have hw : w' = _ := lintFile_world env (env.resolve path) autofix hook ss w
  obtain ⟨evs0, hu, hcase⟩ := fileFinish_upd env w.files (env.resolve path) autofix hook ss
  split at hw
  · left; rw [hw]; simp [newEvents, fileEvents]
  · rw [hu] at hw
    have hne : newEvents w w' = evs0 := newEvents_append w w' evs0 (by rw [hw])
    rw [hne]
    rcases hcase with hc | ⟨content, cfg, b, c, hl, ha, hb, h1, h2, h3, h4⟩
    · exact Or.inl hc
    · right
      have hfi : foundIn env w.files (env.resolve path) = found env w.files (env.resolve path) content cfg := by simp [foundIn, hl]
      rw [hfi] at hb
      have hload : w.files (env.resolve path) = some content ∧ env.config w.files (env.resolve path) = .ok cfg := by
        unfold loaded at hl
        split at hl
        · simp at hl
        · rename_i b' hb'
          split at hl
          · simp at hl
          · split at hl
            · simp at hl
            · rename_i cfg' hcfg
              simp only [Except.ok.injEq, Prod.mk.injEq] at hl
              rw [hb', hcfg, hl.1, hl.2]
              exact ⟨rfl, rfl⟩
      refine ⟨content, cfg, b, c, hload.1, hload.2, hb, h2, h3, ?_⟩
      rcases h4 with ⟨h4, -⟩ | ⟨n, e, h4, h5, -⟩
      · exact Or.inl h4
      · exact Or.inr ⟨n, e, h4, h5⟩

/-- **C43** No other file is changed. -/
theorem C43_other_files_untouched (path : Path) (autofix hook : Bool) (ss : List Answer) (w w' : World) (q : Path) (hq : q ≠ env.resolve path)
    (hw : w' ∈ (fixitFile env path autofix hook).worlds ss w) : w'.files q = w.files q := by
  obtain ⟨evs, evs', h1, h2, h3⟩ := honest_worlds (honest_lintFile env (env.resolve path) autofix hook) ss w w' hw
  have hall : ∀ e ∈ fileEvents (evs ++ evs'), e = .opened (env.resolve path) ∨ ∃ c, e = .wrote (env.resolve path) c := by
    rw [lintFile_world] at h3
    split at h3
    · have : evs ++ evs' = [] := by
        have h4 : w.log ++ [] = w.log ++ (evs ++ evs') := by rw [List.append_nil]; rw [List.append_assoc] at h3; exact h3
        exact (List.append_cancel_left h4).symm
      rw [this]; simp [fileEvents]
    · obtain ⟨evs0, hu, hcase⟩ := fileFinish_upd env w.files (env.resolve path) autofix hook ss
      rw [hu] at h3
      simp only [List.append_assoc, List.append_cancel_left_eq] at h3
      rw [← h3]
      rcases hcase with hc | ⟨_, _, _, c, _, _, _, _, _, hc, _⟩
      · rw [hc]; simp
      · rw [hc]
        intro e he
        simp only [List.mem_cons, List.not_mem_nil, or_false] at he
        rcases he with rfl | rfl
        · exact Or.inl rfl
        · exact Or.inr ⟨c, rfl⟩
  rw [h2, ← replay_fileEvents]
  have hpre : ∀ e ∈ fileEvents evs, e = .opened (env.resolve path) ∨ ∃ c, e = .wrote (env.resolve path) c := by
    intro e he
    exact hall e (by rw [fileEvents_append]; exact List.mem_append_left _ he)
  clear hall h1 h2 h3 hw
  generalize fileEvents evs = l at hpre
  have : ∀ f : Path → Option Bytes, replay f l q = f q := by
    induction l with
    | nil => intro f; rfl
    | cons e l ih =>
      intro f
      rw [List.forall_mem_cons] at hpre
      show replay (Spec.Event.apply f e) l q = f q
      rw [ih hpre.2]
      rcases hpre.1 with rfl | ⟨c, rfl⟩ <;> simp [Spec.Event.apply, hq]
  exact this _

/-! ## C44, C45 -/

theorem bytesFinish_last (files : Path → Option Bytes) (path : Path) (content : Bytes) (cfg : C) (autofix hook : Bool) (ss : List Answer) :
    match (bytesFinish env files path content cfg autofix hook ss).last with
    | none => found env files path content cfg ≠ []
    | some r => (r = cleanResult path ∧ found env files path content cfg = []) ∨ ∃ e, r = errorResult path e := by
  cases hl : (bytesFinish env files path content cfg autofix hook ss).last with
  | none =>
    show found env files path content cfg ≠ []
    intro h0
    unfold bytesFinish at hl
    cases hc : env.collect files cfg with
    | error e => simp [hc] at hl
    | ok rules =>
      cases rules with
      | nil => simp [hc] at hl
      | cons r rs =>
        cases hp : env.parse content with
        | error e => simp [hc, hp] at hl
        | ok m =>
          cases hv : env.visit files cfg m (r :: rs) with
          | error e => simp [hc, hp, hv] at hl
          | ok rd =>
            obtain ⟨recorded, durs⟩ := rd
            have hfound : found env files path content cfg = (displayed env path m ((r :: rs).flatMap recorded)).1 := by simp only [found, hc, hp, hv]
            simp only [hc, hp, hv, ← hfound, h0, List.isEmpty_nil, if_true] at hl
            split at hl
            · simp at hl
            · split at hl <;> simp at hl
  | some x =>
    show (x = cleanResult path ∧ found env files path content cfg = []) ∨ ∃ e, x = errorResult path e
    have err : ∀ e, some (errorResult path e) = some x → (x = cleanResult path ∧ found env files path content cfg = []) ∨ ∃ e, x = errorResult path e := by
      intro e h
      injection h with h
      exact Or.inr ⟨e, h.symm⟩
    unfold bytesFinish at hl
    cases hc : env.collect files cfg with
    | error e => rw [hc] at hl; exact err e hl
    | ok rules =>
      cases rules with
      | nil =>
        rw [hc] at hl
        injection hl with hl
        exact Or.inl ⟨hl.symm, by simp [found, hc]⟩
      | cons r rs =>
        cases hp : env.parse content with
        | error e => rw [hc, hp] at hl; exact err e hl
        | ok m =>
          cases hv : env.visit files cfg m (r :: rs) with
          | error e => simp only [hc, hp, hv] at hl; exact err e hl
          | ok rd =>
            obtain ⟨recorded, durs⟩ := rd
            have hfound : found env files path content cfg = (displayed env path m ((r :: rs).flatMap recorded)).1 := by simp only [found, hc, hp, hv]
            simp only [hc, hp, hv, ← hfound] at hl
            split at hl
            · exact err _ hl
            · split at hl
              · exact err _ hl
              · split at hl
                · rename_i hv0
                  injection hl with hl
                  exact Or.inl ⟨hl.symm, by simpa using hv0⟩
                · split at hl
                  · simp at hl
                  · split at hl
                    · exact err _ hl
                    · simp at hl

theorem fileFinish_last (files : Path → Option Bytes) (path : Path) (autofix hook : Bool) (ss : List Answer) :
    match (fileFinish env files path autofix hook ss).last with
    | none => foundIn env files path ≠ []
    | some r => (r = cleanResult path ∧ foundIn env files path = []) ∨ ∃ e, r = errorResult path e := by
  unfold fileFinish foundIn
  cases hl : loaded env files path with
  | error e => simp only; exact Or.inr ⟨e, rfl⟩
  | ok cc =>
    obtain ⟨content, cfg⟩ := cc
    simp only
    have hb := bytesFinish_last env files path content cfg autofix hook ss
    cases hbl : (bytesFinish env files path content cfg autofix hook ss).last with
    | some r => rw [hbl] at hb; simpa using hb
    | none =>
      rw [hbl] at hb
      simp only
      unfold writeFinish
      cases (bytesFinish env files path content cfg autofix hook ss).ret with
      | none => simpa using hb
      | some b =>
        simp only
        by_cases h1 : b.isEmpty = true
        · simp only [h1, if_true]; exact hb
        · by_cases h2 : b = content
          · simp only [h2, if_true, ite_self]
            exact hb
          · simp only [h1, h2]
            simp only [Bool.false_eq_true, if_false]
            cases env.openRaises path with
            | some e => exact Or.inr ⟨e, rfl⟩
            | none =>
              cases env.writeRaises path b with
              | some ne => obtain ⟨n, e⟩ := ne; exact Or.inr ⟨e, rfl⟩
              | none => exact hb

/-- **C44/C45** The results of a run: the violations found, one result each, in order; then at most one more result, which says `clean` only when there
were no violations, or reports an exception. -/
theorem C44_result_shape (path : Path) (autofix hook : Bool) (ss : List Answer) (w : World) :
    let out := (fixitFile env path autofix hook).run ss w
    let vs := foundIn env w.files (env.resolve path)
    (∃ k, out.1 = (vs.take k).map (reporting (env.resolve path)) ∧ k ≤ vs.length) ∨
    (vs = [] ∧ out.1 = [cleanResult (env.resolve path)]) ∨
    ∃ e, out.1 = vs.map (reporting (env.resolve path)) ++ [errorResult (env.resolve path) e] := by
  intro out vs
  have ho : out = script (env.resolve path) vs (fileFinish env w.files (env.resolve path) autofix hook ss) ss w := run_lintFile env _ autofix hook ss w
  by_cases hk : ss.length < vs.length
  · rw [script_lt _ _ _ _ _ hk] at ho
    left
    exact ⟨ss.length + 1, by rw [ho], by omega⟩
  · have hl := fileFinish_last env w.files (env.resolve path) autofix hook ss
    cases hfl : (fileFinish env w.files (env.resolve path) autofix hook ss).last with
    | none =>
      rw [script_none _ _ _ _ _ hk hfl] at ho
      left
      exact ⟨vs.length, by rw [ho]; simp, Nat.le_refl _⟩
    | some r =>
      rw [hfl] at hl
      rw [script_some _ _ _ r _ _ hk hfl] at ho
      right
      rcases hl with ⟨h1, h2⟩ | ⟨e, h1⟩
      · left
        refine ⟨h2, ?_⟩
        rw [ho, h1, show vs = [] from h2]; rfl
      · right; exact ⟨e, by rw [ho, h1]⟩

/-- **C44** A run that completes without reporting an exception yields exactly one clean result when there are no violations, and otherwise exactly one
result per violation and no clean result. -/
theorem C44_clean_or_violations (path : Path) (autofix hook : Bool) (ss : List Answer) (w w' : World) (ys : List Result)
    (hr : (fixitFile env path autofix hook).run ss w = (ys, .returned (), w')) (hne : ∀ r ∈ ys, r.error = none) :
    (foundIn env w.files (env.resolve path) = [] → ys = [⟨env.resolve path, none, none⟩]) ∧
    (foundIn env w.files (env.resolve path) ≠ [] → ys = (foundIn env w.files (env.resolve path)).map (fun v => ⟨env.resolve path, some v, none⟩)) := by
  have ho : (ys, Status.returned (), w') = script (env.resolve path) (foundIn env w.files (env.resolve path)) (fileFinish env w.files (env.resolve path) autofix hook ss) ss w :=
    hr.symm.trans (run_lintFile env _ autofix hook ss w)
  by_cases hk : ss.length < (foundIn env w.files (env.resolve path)).length
  · rw [script_lt _ _ _ _ _ hk] at ho; simp at ho
  · have hl := fileFinish_last env w.files (env.resolve path) autofix hook ss
    cases hfl : (fileFinish env w.files (env.resolve path) autofix hook ss).last with
    | none =>
      rw [hfl] at hl
      rw [script_none _ _ _ _ _ hk hfl] at ho
      simp only [Prod.mk.injEq] at ho
      exact ⟨fun h => absurd h hl, fun _ => ho.1⟩
    | some r =>
      rw [hfl] at hl
      rw [script_some _ _ _ r _ _ hk hfl] at ho
      simp only [Prod.mk.injEq] at ho
      rcases hl with ⟨h1, h2⟩ | ⟨e, h1⟩
      · refine ⟨fun _ => ?_, fun h => absurd h2 h⟩
        rw [ho.1, h1, h2]; rfl
      · have := hne r (by rw [ho.1]; simp)
        rw [h1] at this
        simp [errorResult] at this

/-- **C45** Iterating never raises. -/
theorem C45_never_raises (path : Path) (autofix hook : Bool) (ss : List Answer) (w : World) (e : Err) :
    ((fixitFile env path autofix hook).run ss w).2.1 ≠ .raised e := by
  have ho : (fixitFile env path autofix hook).run ss w = _ := run_lintFile env (env.resolve path) autofix hook ss w
  rw [ho]
  unfold script
  split
  · simp
  · split
    · simp only; split <;> simp
    · simp

/-- **C45** Whatever raises before or while linting becomes the last result: reading, configuring, … -/
theorem C45_load_error (path : Path) (autofix hook : Bool) (ss : List Answer) (w : World) (e : Err) (h : loaded env w.files (env.resolve path) = .error e) :
    ((fixitFile env path autofix hook).run ss w).1 = [errorResult (env.resolve path) e] := by
  have ho : (fixitFile env path autofix hook).run ss w = _ := run_lintFile env (env.resolve path) autofix hook ss w
  rw [ho]
  simp [script, foundIn, fileFinish, h]

/-- … collecting rules, parsing, running the rules (which stops all of them) … -/
theorem C45_lint_error (path : Path) (autofix hook : Bool) (ss : List Answer) (w : World) (content : Bytes) (cfg : C) (e : Err)
    (h : loaded env w.files (env.resolve path) = .ok (content, cfg))
    (he : env.collect w.files cfg = .error e ∨
      ∃ rules, rules ≠ [] ∧ env.collect w.files cfg = .ok rules ∧ (env.parse content = .error e ∨ ∃ m, env.parse content = .ok m ∧ env.visit w.files cfg m rules = .error e)) :
    ((fixitFile env path autofix hook).run ss w).1 = [errorResult (env.resolve path) e] := by
  have ho : (fixitFile env path autofix hook).run ss w = _ := run_lintFile env (env.resolve path) autofix hook ss w
  rw [ho]
  rcases he with he | ⟨rules, hne, hc, he⟩
  · simp [script, foundIn, fileFinish, h, found, bytesFinish, he]
  · cases rules with
    | nil => exact absurd rfl hne
    | cons r rs =>
      rcases he with he | ⟨m, hp, he⟩
      · simp [script, foundIn, fileFinish, h, found, bytesFinish, hc, he]
      · simp [script, foundIn, fileFinish, h, found, bytesFinish, hc, hp, he]

/-- **C45** When a run reports an exception the file is untouched, unless writing it was what failed. -/
theorem C45_error_leaves_file (path : Path) (autofix hook : Bool) (ss : List Answer) (w : World) (r : Result)
    (hr : r ∈ ((fixitFile env path autofix hook).run ss w).1) (he : r.error ≠ none) :
    fileEvents (newEvents w ((fixitFile env path autofix hook).run ss w).2.2) = [] ∨
    ∃ b n e, env.writeRaises (env.resolve path) b = some (n, e) ∧ r.error = some e := by
  have ho : (fixitFile env path autofix hook).run ss w = _ := run_lintFile env (env.resolve path) autofix hook ss w
  have hw := lintFile_world env (env.resolve path) autofix hook ss w
  obtain ⟨evs0, hu, hcase⟩ := fileFinish_upd env w.files (env.resolve path) autofix hook ss
  by_cases hk : ss.length < (foundIn env w.files (env.resolve path)).length
  · rw [if_pos hk] at hw
    left
    show fileEvents (newEvents w ((lintFile env (env.resolve path) autofix hook).run ss w).2.2) = []
    rw [hw]; simp [newEvents, fileEvents]
  · rw [if_neg hk, hu] at hw
    have hne : newEvents w ((fixitFile env path autofix hook).run ss w).2.2 = evs0 := newEvents_append w _ evs0 (by show ((lintFile env (env.resolve path) autofix hook).run ss w).2.2.log = _; rw [hw])
    rw [hne]
    rcases hcase with hc | ⟨content, cfg, b, c, hl, ha, hb, h1, h2, h3, h4⟩
    · exact Or.inl hc
    · rcases h4 with ⟨h4, h5⟩ | ⟨n, e, h4, -, h5⟩
      · exfalso
        rw [ho, script_none _ _ _ _ _ hk h5] at hr
        simp only [List.mem_map] at hr
        obtain ⟨v, -, rfl⟩ := hr
        exact he rfl
      · right
        refine ⟨b, n, e, h4, ?_⟩
        rw [ho, script_some _ _ _ _ _ _ hk h5] at hr
        simp only [List.mem_append, List.mem_map, List.mem_singleton] at hr
        rcases hr with ⟨v, -, rfl⟩ | rfl
        · exact absurd rfl he
        · rfl

/-! ## C46, C47, C53 -/

theorem accepted_all (vs : List LintViolation) : ∀ (ss : List Answer), vs.length ≤ ss.length → accepted true vs ss = vs := by
  induction vs with
  | nil => intro ss _; rfl
  | cons v vs ih =>
    intro ss h
    cases ss with
    | nil => simp at h
    | cons s ss =>
      have : accepted true (v :: vs) (s :: ss) = v :: accepted true vs ss := by simp [accepted]
      rw [this, ih ss (by simpa using h)]

/-- Nothing failed and something was accepted: there is new content. -/
theorem bytesFinish_ret_some (files : Path → Option Bytes) (path : Path) (content : Bytes) (cfg : C) (autofix hook : Bool) (ss : List Answer)
    (hbl : (bytesFinish env files path content cfg autofix hook ss).last = none) (ha : accepted autofix (found env files path content cfg) ss ≠ []) :
    ∃ b, (bytesFinish env files path content cfg autofix hook ss).ret = some b := by
  unfold bytesFinish at hbl ⊢
  cases hc : env.collect files cfg with
  | error e => simp [hc] at hbl
  | ok rules =>
    cases rules with
    | nil => simp [hc] at hbl
    | cons r rs =>
      cases hpa : env.parse content with
      | error e => simp [hc, hpa] at hbl
      | ok m =>
        cases hv : env.visit files cfg m (r :: rs) with
        | error e => simp [hc, hpa, hv] at hbl
        | ok rd =>
          obtain ⟨recorded, durs⟩ := rd
          have hfound : found env files path content cfg = (displayed env path m ((r :: rs).flatMap recorded)).1 := by simp only [found, hc, hpa, hv]
          rw [hc, hpa] at hbl
          simp only [hv, ← hfound] at hbl
          simp only [hv, ← hfound]
          have hae : (accepted autofix (found env files path content cfg) ss).isEmpty = false := by simpa using ha
          have hfe : (found env files path content cfg).isEmpty = false := by
            rw [List.isEmpty_eq_false_iff]; intro e; rw [e] at ha; simp [accepted] at ha
          cases hD : (displayed env path m ((r :: rs).flatMap recorded)).2 with
          | some e => rw [hD] at hbl; simp at hbl
          | none =>
            rw [hD] at hbl
            simp only [hfe, hae, Bool.false_eq_true, if_false] at hbl ⊢
            cases hh : (if hook = true then env.hookRaises (dictSet totalKey (tally recorded (r :: rs) (0, durs)).1 (tally recorded (r :: rs) (0, durs)).2) else none) with
            | some e => rw [hh] at hbl; simp at hbl
            | none =>
              rw [hh] at hbl
              simp only at hbl ⊢
              cases hfx : fixedContent env path content cfg (accepted autofix (found env files path content cfg) ss) with
              | error e => rw [hfx] at hbl; simp at hbl
              | ok b => exact ⟨b, rfl⟩

/-- The content at the end of a completed run without errors: nothing accepted, nothing changed; otherwise the fixed content, unless it is empty. -/
theorem final_content (path : Path) (autofix hook : Bool) (ss : List Answer) (w w' : World) (ys : List Result)
    (hr : (fixitFile env path autofix hook).run ss w = (ys, .returned (), w')) (hne : ∀ r ∈ ys, r.error = none) :
    ∃ content cfg, loaded env w.files (env.resolve path) = .ok (content, cfg) ∧
      (accepted autofix (found env w.files (env.resolve path) content cfg) ss = [] → w'.files = w.files) ∧
      (accepted autofix (found env w.files (env.resolve path) content cfg) ss ≠ [] → ∃ b,
        fixedContent env (env.resolve path) content cfg (accepted autofix (found env w.files (env.resolve path) content cfg) ss) = .ok b ∧
        w'.files (env.resolve path) = some (if b = [] then content else b)) ∧
      (found env w.files (env.resolve path) content cfg).length ≤ ss.length := by
  generalize hp : env.resolve path = p at *
  have hrun := run_lintFile env p autofix hook ss w
  have hr' : (lintFile env p autofix hook).run ss w = (ys, .returned (), w') := by rw [← hp]; exact hr
  have hwd := lintFile_world env p autofix hook ss w
  rw [hr'] at hrun hwd
  cases hl : loaded env w.files p with
  | error e =>
    exfalso
    have : ys = [errorResult p e] := by
      have := C45_load_error env path autofix hook ss w e (by rw [hp]; exact hl)
      rw [hr, hp] at this; exact this
    have := hne (errorResult p e) (by rw [this]; simp)
    simp [errorResult] at this
  | ok cc =>
    obtain ⟨content, cfg⟩ := cc
    have hfi : foundIn env w.files p = found env w.files p content cfg := by simp [foundIn, hl]
    have hk : ¬ ss.length < (foundIn env w.files p).length := by
      intro hk; rw [script_lt _ _ _ _ _ hk] at hrun; simp at hrun
    rw [if_neg hk] at hwd
    refine ⟨content, cfg, rfl, ?_, ?_, ?_⟩
    · intro ha
      obtain ⟨evs0, hu, hcase⟩ := fileFinish_upd env w.files p autofix hook ss
      rw [hu] at hwd
      rcases hcase with hc | ⟨_, _, _, _, _, h2, _⟩
      · rw [show w' = _ from hwd]; exact replay_of_none evs0 _ hc
      · rw [hfi] at h2; exact absurd ha h2
    · intro ha
      -- no error result, so the end of `fixit_bytes` is the content
      have hfl := fileFinish_last env w.files p autofix hook ss
      have hln : (fileFinish env w.files p autofix hook ss).last = none := by
        cases hlast : (fileFinish env w.files p autofix hook ss).last with
        | none => rfl
        | some r =>
          exfalso
          rw [hlast] at hfl
          rw [script_some _ _ _ r _ _ hk hlast] at hrun
          simp only [Prod.mk.injEq] at hrun
          rcases hfl with ⟨h1, h2⟩ | ⟨e, h1⟩
          · rw [hfi] at h2
            rw [h2] at ha
            simp [accepted] at ha
          · have := hne r (by rw [hrun.1]; simp)
            rw [h1] at this; simp [errorResult] at this
      have hff : fileFinish env w.files p autofix hook ss =
          ⟨(writeFinish env p content (bytesFinish env w.files p content cfg autofix hook ss).ret).upd ∘ (bytesFinish env w.files p content cfg autofix hook ss).upd,
            match (bytesFinish env w.files p content cfg autofix hook ss).last with
            | some r => some r
            | none => (writeFinish env p content (bytesFinish env w.files p content cfg autofix hook ss).ret).last, ()⟩ := by
        simp only [fileFinish, hl]
        rfl
      rw [hff] at hln hwd
      simp only at hln
      have hbl : (bytesFinish env w.files p content cfg autofix hook ss).last = none := by
        cases h : (bytesFinish env w.files p content cfg autofix hook ss).last with
        | none => rfl
        | some r => rw [h] at hln; simp at hln
      have hret := bytesFinish_ret_some env w.files p content cfg autofix hook ss hbl ha
      obtain ⟨b, hb⟩ := hret
      obtain ⟨-, hfc⟩ := bytesFinish_some env w.files p content cfg autofix hook ss b hb
      refine ⟨b, hfc, ?_⟩
      obtain ⟨evs, he, hu⟩ := bytesFinish_upd env w.files p content cfg autofix hook ss
      have hcont : w.files p = some content := by
        unfold loaded at hl
        split at hl
        · simp at hl
        · rename_i b' hb'
          split at hl
          · simp at hl
          · split at hl
            · simp at hl
            · simp only [Except.ok.injEq, Prod.mk.injEq] at hl
              rw [hb', hl.1]
      rw [hb, hbl] at hln
      simp only [hb, hu] at hwd hln
      by_cases hbe : b = []
      · subst hbe
        simp only [if_true]
        rw [show w' = _ from hwd]
        simpa [writeFinish, logged] using hcont
      · rw [if_neg hbe]
        have hbe' : b.isEmpty = false := by simpa using hbe
        by_cases hbc : b = content
        · rw [show w' = _ from hwd]
          simp only [writeFinish, hbe', hbc]
          split <;> simp [logged, hcont]
        · unfold writeFinish at hwd hln
          simp only [hbe', hbc, Bool.false_eq_true, if_false] at hwd hln
          cases ho : env.openRaises p with
          | some e => rw [ho] at hln; simp at hln
          | none =>
            rw [ho] at hln hwd
            cases hwr : env.writeRaises p b with
            | some ne => rw [hwr] at hln; simp at hln
            | none =>
              rw [hwr] at hwd
              rw [show w' = _ from hwd]
              simp [World.put, World.note]
    · rw [← hfi]; omega

/-- **C46** With autofix, a completed run without errors leaves the file with every fix applied, formatted, whatever was answered. -/
theorem C46_autofix_applies_all (path : Path) (hook : Bool) (ss : List Answer) (w w' : World) (ys : List Result)
    (hr : (fixitFile env path true hook).run ss w = (ys, .returned (), w')) (hne : ∀ r ∈ ys, r.error = none) :
    ∃ content cfg, loaded env w.files (env.resolve path) = .ok (content, cfg) ∧
      (found env w.files (env.resolve path) content cfg = [] → w'.files = w.files) ∧
      (found env w.files (env.resolve path) content cfg ≠ [] → ∃ b,
        fixedContent env (env.resolve path) content cfg (found env w.files (env.resolve path) content cfg) = .ok b ∧
        w'.files (env.resolve path) = some (if b = [] then content else b)) := by
  obtain ⟨content, cfg, hl, h1, h2, h3⟩ := final_content env path true hook ss w w' ys hr hne
  rw [accepted_all _ ss h3] at h1 h2
  exact ⟨content, cfg, hl, h1, h2⟩

/-- **C47** Without autofix, a completed run without errors leaves the file with exactly the positively answered fixes applied (`answers` are matched with
the violations in order), formatted. -/
theorem C47_interactive_applies_accepted (path : Path) (hook : Bool) (ss : List Answer) (w w' : World) (ys : List Result)
    (hr : (fixitFile env path false hook).run ss w = (ys, .returned (), w')) (hne : ∀ r ∈ ys, r.error = none) :
    ∃ content cfg, loaded env w.files (env.resolve path) = .ok (content, cfg) ∧
      let yes := ((found env w.files (env.resolve path) content cfg).zip ss).filterMap (fun p => if p.2 = some true then some p.1 else none)
      (yes = [] → w'.files = w.files) ∧
      (yes ≠ [] → ∃ b, fixedContent env (env.resolve path) content cfg yes = .ok b ∧ w'.files (env.resolve path) = some (if b = [] then content else b)) := by
  obtain ⟨content, cfg, hl, h1, h2, -⟩ := final_content env path false hook ss w w' ys hr hne
  have : ∀ vs : List LintViolation, accepted false vs ss = (vs.zip ss).filterMap (fun p => if p.2 = some true then some p.1 else none) := by
    intro vs; simp [accepted]
  rw [this] at h1 h2
  exact ⟨content, cfg, hl, h1, h2⟩

/-! ## C49 -/

/-- **C49** If the consumer stops while violations are still being shown (the last value it got is a violation), nothing was written, whatever it answered before. -/
theorem C49_stopping_early (path : Path) (autofix hook : Bool) (ss : List Answer) (w w' : World) (ys : List Result) (v : LintViolation)
    (hr : (fixitFile env path autofix hook).run ss w = (ys, .suspended, w')) (hy : ys.getLast? = some ⟨env.resolve path, some v, none⟩) : w' = w := by
  have ho : (ys, Status.suspended, w') = script (env.resolve path) (foundIn env w.files (env.resolve path)) (fileFinish env w.files (env.resolve path) autofix hook ss) ss w :=
    hr.symm.trans (run_lintFile env _ autofix hook ss w)
  by_cases hk : ss.length < (foundIn env w.files (env.resolve path)).length
  · rw [script_lt _ _ _ _ _ hk] at ho
    simp only [Prod.mk.injEq] at ho
    exact ho.2.2
  · exfalso
    have hl := fileFinish_last env w.files (env.resolve path) autofix hook ss
    cases hfl : (fileFinish env w.files (env.resolve path) autofix hook ss).last with
    | none => rw [script_none _ _ _ _ _ hk hfl] at ho; simp at ho
    | some r =>
      rw [hfl] at hl
      rw [script_some _ _ _ r _ _ hk hfl] at ho
      simp only [Prod.mk.injEq] at ho
      rw [ho.1, List.getLast?_concat, Option.some.injEq] at hy
      rcases hl with ⟨h1, -⟩ | ⟨e, h1⟩
      · rw [h1] at hy; simp [cleanResult] at hy
      · rw [h1] at hy; simp [errorResult] at hy

/-! ## C54 -/

/-- **C54** Every result names the resolved path. -/
theorem C54_results_name_the_file (path : Path) (autofix hook : Bool) (ss : List Answer) (w : World) (r : Result)
    (hr : r ∈ ((fixitFile env path autofix hook).run ss w).1) : r.path = env.resolve path := by
  rcases C44_result_shape env path autofix hook ss w with ⟨k, h, -⟩ | ⟨-, h⟩ | ⟨e, h⟩
  · rw [h, List.mem_map] at hr
    obtain ⟨v, -, rfl⟩ := hr; rfl
  · rw [h, List.mem_singleton] at hr
    rw [hr]; rfl
  · rw [h, List.mem_append, List.mem_map, List.mem_singleton] at hr
    rcases hr with ⟨v, -, rfl⟩ | rfl <;> rfl

/-! ## C77: crash points -/

/-- **C77** Whenever the process dies during a run, the linted file holds its original content or a beginning of the new content (possibly nothing at all,
between opening and writing); the new content is that of the accepted fixes. -/
theorem C77_crash_states (path : Path) (autofix hook : Bool) (ss : List Answer) (w w' : World) (hw : w' ∈ (fixitFile env path autofix hook).worlds ss w) :
    w'.files (env.resolve path) = w.files (env.resolve path) ∨
    ∃ content cfg b n, loaded env w.files (env.resolve path) = .ok (content, cfg) ∧
      fixedContent env (env.resolve path) content cfg (accepted autofix (found env w.files (env.resolve path) content cfg) ss) = .ok b ∧ b ≠ content ∧
      w'.files (env.resolve path) = some (b.take n) := by
  obtain ⟨evs, evs', h1, h2, h3⟩ := honest_worlds (honest_lintFile env (env.resolve path) autofix hook) ss w w' hw
  rw [lintFile_world] at h3
  split at h3
  · left
    have : evs ++ evs' = [] := by
      have h4 : w.log ++ [] = w.log ++ (evs ++ evs') := by rw [List.append_nil]; rw [List.append_assoc] at h3; exact h3
      exact (List.append_cancel_left h4).symm
    rw [List.append_eq_nil_iff] at this
    rw [h2, this.1]; rfl
  · obtain ⟨evs0, hu, hcase⟩ := fileFinish_upd env w.files (env.resolve path) autofix hook ss
    rw [hu] at h3
    simp only [List.append_assoc, List.append_cancel_left_eq] at h3
    rw [h2, ← replay_fileEvents]
    rcases hcase with hc | ⟨content, cfg, b, c, hl, ha, hb, hb1, hb2, hc, hc2⟩
    · left
      rw [h3] at hc
      rw [prefix_fileEvents_nil hc]; rfl
    · have hfi : foundIn env w.files (env.resolve path) = found env w.files (env.resolve path) content cfg := by simp [foundIn, hl]
      rw [hfi] at hb
      rw [h3, fileEvents_append] at hc
      have hcn : ∃ n, c = b.take n := by
        rcases hc2 with ⟨h, -⟩ | ⟨n, e, -, h, -⟩
        · exact ⟨b.length, by rw [h, List.take_length]⟩
        · exact ⟨n, h⟩
      obtain ⟨n, rfl⟩ := hcn
      -- prefixes of a two-element list
      match hfe : fileEvents evs, hc with
      | [], _ => left; rfl
      | [e1], hc =>
        simp only [List.singleton_append, List.cons.injEq] at hc
        right
        refine ⟨content, cfg, b, 0, hl, hb, hb2, ?_⟩
        rw [hc.1]
        simp [replay, Spec.Event.apply]
      | [e1, e2], hc =>
        simp only [List.cons_append, List.nil_append, List.cons.injEq] at hc
        right
        refine ⟨content, cfg, b, n, hl, hb, hb2, ?_⟩
        rw [hc.1, hc.2.1]
        simp [replay, Spec.Event.apply]
      | e1 :: e2 :: e3 :: l, hc => simp at hc

/-! ## C69 -/

/-- **C69** Without a configured formatter the result is the module's own bytes; with one, the output of the last registered formatter of that name on the fixed module. -/
theorem C69_configured_formatter (m : Node) (path : Path) (cfg : C) :
    (env.formatter cfg = none → formatModule env m path cfg = env.bytes m) ∧
    (∀ name pre f post, env.formatter cfg = some name → env.styles = pre ++ (name, f) :: post → name ∉ post.map (·.1) →
      formatModule env m path cfg = f m path) ∧
    (∀ name, env.formatter cfg = some name → name ∉ env.styles.map (·.1) → ∃ e, formatModule env m path cfg = .error e) := by
  have hnone : ∀ (name : PStr) (l : List (PStr × (Node → Path → Except Err Bytes))), name ∉ l.map (·.1) → styleOf name l = none := by
    intro name l
    induction l with
    | nil => intro _; rfl
    | cons a l ih =>
      intro h
      obtain ⟨n, g⟩ := a
      simp only [List.map_cons, List.mem_cons, not_or] at h
      simp only [styleOf, ih h.2]
      rw [if_neg (fun e => h.1 e.symm)]
  have hsome : ∀ (name : PStr) (pre : List (PStr × (Node → Path → Except Err Bytes))) (f : Node → Path → Except Err Bytes) (post : List (PStr × (Node → Path → Except Err Bytes))),
      name ∉ post.map (·.1) → styleOf name (pre ++ (name, f) :: post) = some f := by
    intro name pre f post h
    induction pre with
    | nil => simp [styleOf, hnone name post h]
    | cons a l ih => obtain ⟨n, g⟩ := a; simp [styleOf, ih]
  refine ⟨fun h => by simp [formatModule, h], fun name pre f post h hs hn => ?_, fun name h hn => ?_⟩
  · simp only [formatModule, h, hs, hsome name pre f post hn]
  · exact ⟨.other 2, by simp only [formatModule, h, hnone name _ hn]⟩

/-! ## C78 -/

/-- **C78** When no accepted violation has a usable fix, the "fixed" content is just the file itself, run through the configured formatter. -/
theorem C78_formatter_runs_without_fix (path : Path) (content : Bytes) (cfg : C) (m : Node) (fixes : List LintViolation) (hp : env.parse content = .ok m)
    (h : ∀ v ∈ fixes, v.autofixable = false) : fixedContent env path content cfg fixes = formatModule env m path cfg := by
  unfold fixedContent
  have : applyReplacements m (fixes.map LintViolation.fix) = .ok m := by
    obtain ⟨m', h1, h2, -⟩ := C34_no_fixes_identity m (fixes.map LintViolation.fix) (by
      intro f hf
      rw [List.mem_map] at hf
      obtain ⟨v, hv, rfl⟩ := hf
      left
      have := h v hv
      simpa [LintViolation.autofixable] using this)
    rw [h1, h2]
  rw [hp]
  simp only [Bind.bind, Except.bind, this]

/-- When the content to write cannot be computed, is empty or is what was read, no world of the run differs from the first in its files. -/
theorem unwritten (path : Path) (autofix hook : Bool) (ss : List Answer) (w w' : World) (hw : w' ∈ (fixitFile env path autofix hook).worlds ss w)
    (h : ∀ content cfg b, loaded env w.files (env.resolve path) = .ok (content, cfg) →
      fixedContent env (env.resolve path) content cfg (accepted autofix (found env w.files (env.resolve path) content cfg) ss) = .ok b → b = [] ∨ b = content) :
    w'.files = w.files := by
  obtain ⟨evs, evs', h1, h2, h3⟩ := honest_worlds (honest_lintFile env (env.resolve path) autofix hook) ss w w' hw
  rw [lintFile_world] at h3
  split at h3
  · have : evs ++ evs' = [] := by
      have h4 : w.log ++ [] = w.log ++ (evs ++ evs') := by rw [List.append_nil]; rw [List.append_assoc] at h3; exact h3
      exact (List.append_cancel_left h4).symm
    rw [List.append_eq_nil_iff] at this
    rw [h2, this.1]; rfl
  · obtain ⟨evs0, hu, hcase⟩ := fileFinish_upd env w.files (env.resolve path) autofix hook ss
    rw [hu] at h3
    simp only [List.append_assoc, List.append_cancel_left_eq] at h3
    rcases hcase with hc | ⟨content, cfg, b, c, hl, ha, hb, hb1, hb2, hc, hc2⟩
    · rw [h3] at hc
      rw [h2]
      exact replay_of_none evs _ (prefix_fileEvents_nil hc)
    · have hfi : foundIn env w.files (env.resolve path) = found env w.files (env.resolve path) content cfg := by simp [foundIn, hl]
      rw [hfi] at hb
      rcases h content cfg b hl hb with h | h
      · exact absurd h hb1
      · exact absurd h hb2

/-- **C53** A fix that would empty the file is never applied: when the accepted fixes leave nothing, the file keeps its content throughout. -/
theorem C53_empty_content_never_written (path : Path) (autofix hook : Bool) (ss : List Answer) (w w' : World)
    (hw : w' ∈ (fixitFile env path autofix hook).worlds ss w) (content : Bytes) (cfg : C) (hl : loaded env w.files (env.resolve path) = .ok (content, cfg))
    (he : fixedContent env (env.resolve path) content cfg (accepted autofix (found env w.files (env.resolve path) content cfg) ss) = .ok []) :
    w'.files = w.files := by
  apply unwritten env path autofix hook ss w w' hw
  intro content' cfg' b hl' hb
  rw [hl] at hl'
  simp only [Except.ok.injEq, Prod.mk.injEq] at hl'
  obtain ⟨rfl, rfl⟩ := hl'
  rw [he] at hb
  simp only [Except.ok.injEq] at hb
  exact Or.inl hb.symm

/-- **C78** Without a configured formatter, and given that the parser keeps the source text, a file none of whose accepted violations has a fix is never written. -/
theorem C78_unwritten_without_formatter (path : Path) (autofix hook : Bool) (ss : List Answer) (w w' : World)
    (hw : w' ∈ (fixitFile env path autofix hook).worlds ss w)
    (hf : ∀ cfg, env.formatter cfg = none) (hround : ∀ src m, env.parse src = .ok m → env.bytes m = .ok src)
    (hno : ∀ v ∈ accepted autofix (foundIn env w.files (env.resolve path)) ss, v.autofixable = false) : w'.files = w.files := by
  apply unwritten env path autofix hook ss w w' hw
  intro content cfg b hl hb
  have hfi : foundIn env w.files (env.resolve path) = found env w.files (env.resolve path) content cfg := by simp [foundIn, hl]
  rw [hfi] at hno
  cases hp : env.parse content with
  | error e => simp [fixedContent, hp, Bind.bind, Except.bind] at hb
  | ok m =>
    rw [C78_formatter_runs_without_fix env (env.resolve path) content cfg m _ hp hno, formatModule, hf] at hb
    simp only [hround content m hp, Except.ok.injEq] at hb
    exact Or.inr hb.symm

end Fixit
