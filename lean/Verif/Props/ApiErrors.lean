import Verif.Props.Api
import Verif.Props.ApiCases

/-!
# C45, continued: exactly what is reported
-/

namespace Fixit
open Py Spec Gen

section
variable {C : Type} (env : Env C)

theorem displayed_error (path : Path) (m : Node) (e : Err) : ∀ vs : List (Violation Nat Repl), (displayed env path m vs).2 = some e ↔
    ∃ before v after, vs = before ++ v :: after ∧ (∀ v' ∈ before, ∃ lv, display env path m v' = .ok lv) ∧ display env path m v = .error e
  | [] => by simp [displayed]
  | v :: vs => by
    unfold displayed
    cases hd : display env path m v with
    | error e' =>
      simp only [Option.some.injEq]
      constructor
      · rintro rfl; exact ⟨[], v, vs, rfl, by simp, hd⟩
      · rintro ⟨before, v', after, h1, h2, h3⟩
        cases before with
        | nil => simp only [List.nil_append, List.cons.injEq] at h1; obtain ⟨rfl, rfl⟩ := h1; rw [hd] at h3; simpa using h3
        | cons b bs =>
          simp only [List.cons_append, List.cons.injEq] at h1
          obtain ⟨rfl, rfl⟩ := h1
          obtain ⟨lv, hlv⟩ := h2 _ List.mem_cons_self
          rw [hd] at hlv; cases hlv
    | ok lv =>
      simp only
      rw [displayed_error path m e vs]
      constructor
      · rintro ⟨before, v', after, rfl, h2, h3⟩
        refine ⟨v :: before, v', after, rfl, ?_, h3⟩
        intro v'' hv''
        rcases List.mem_cons.mp hv'' with rfl | h
        · exact ⟨lv, hd⟩
        · exact h2 _ h
      · rintro ⟨before, v', after, h1, h2, h3⟩
        cases before with
        | nil => simp only [List.nil_append, List.cons.injEq] at h1; obtain ⟨rfl, rfl⟩ := h1; rw [hd] at h3; cases h3
        | cons b bs =>
          simp only [List.cons_append, List.cons.injEq] at h1
          obtain ⟨rfl, rfl⟩ := h1
          exact ⟨bs, v', after, rfl, fun v'' h => h2 _ (List.mem_cons_of_mem _ h), h3⟩

theorem displayed_fine (path : Path) (m : Node) : ∀ vs : List (Violation Nat Repl), (displayed env path m vs).2 = none ↔ ∀ v ∈ vs, ∃ lv, display env path m v = .ok lv
  | [] => by simp [displayed]
  | v :: vs => by
    unfold displayed
    cases hd : display env path m v with
    | error e' => simp [hd]
    | ok lv => simp [hd, displayed_fine path m vs]

/-- The content after `Inspected` is determined. -/
theorem Inspected.same {files : Path → Option Bytes} {path : Path} {content content' : Bytes} {cfg cfg' : C} {m m' : Node} {vs vs' : List (Violation Nat Repl)}
    (h : Inspected env files path content cfg m vs) (h' : Inspected env files path content' cfg' m' vs') : content = content' ∧ cfg = cfg' ∧ m = m' ∧ vs = vs' := by
  obtain ⟨l, r, rec, d, hne, hc, hp, hv, rfl⟩ := h
  obtain ⟨l', r', rec', d', hne', hc', hp', hv', rfl⟩ := h'
  rw [l] at l'; simp only [Except.ok.injEq, Prod.mk.injEq] at l'
  obtain ⟨rfl, rfl⟩ := l'
  rw [hc] at hc'; simp only [Except.ok.injEq] at hc'; subst hc'
  rw [hp] at hp'; simp only [Except.ok.injEq] at hp'; subst hp'
  rw [hv] at hv'; simp only [Except.ok.injEq, Prod.mk.injEq] at hv'
  obtain ⟨rfl, rfl⟩ := hv'
  exact ⟨rfl, rfl, rfl, rfl⟩

variable {files : Path → Option Bytes} {path : Path} {autofix : Bool} {ss : List Answer} {evs : List Event} {e : Err}

/-- Something went wrong before the violations could be shown. -/
theorem breaks_early (hev : ∀ μ, .hook μ ∉ evs) (hno : ∀ content cfg m vs, ¬ Inspected env files path content cfg m vs) :
    Breaks env files path autofix ss evs e ↔ loaded env files path = .error e ∨
      ∃ content cfg, loaded env files path = .ok (content, cfg) ∧ (env.collect files cfg = .error e ∨ ∃ rules, env.collect files cfg = .ok rules ∧ rules ≠ [] ∧
        (env.parse content = .error e ∨ ∃ m, env.parse content = .ok m ∧ env.visit files cfg m rules = .error e)) := by
  constructor
  · intro h
    cases h with
    | load h => exact .inl h
    | collect h1 h2 => exact .inr ⟨_, _, h1, .inl h2⟩
    | parse h1 h2 h3 h4 => exact .inr ⟨_, _, h1, .inr ⟨_, h2, h3, .inl h4⟩⟩
    | visit h1 h2 h3 h4 h5 => exact .inr ⟨_, _, h1, .inr ⟨_, h2, h3, .inr ⟨_, h4, h5⟩⟩⟩
    | «show» h => exact absurd h (hno _ _ _ _)
    | hook h => exact absurd h (hev _)
    | fix h => obtain ⟨_, _, _, h, _⟩ := h.inspected; exact absurd h (hno _ _ _ _)
    | opening h => obtain ⟨_, _, _, h, _⟩ := h.inspected; exact absurd h (hno _ _ _ _)
    | writing h => obtain ⟨_, _, _, h, _⟩ := h.inspected; exact absurd h (hno _ _ _ _)
  · rintro (h | ⟨content, cfg, h1, h2 | ⟨rules, h2, h3, h4 | ⟨m, h4, h5⟩⟩⟩)
    · exact .load h
    · exact .collect h1 h2
    · exact .parse h1 h2 h3 h4
    · exact .visit h1 h2 h3 h4 h5

/-- Something goes wrong after the rules ran. -/
theorem breaks_late {content : Bytes} {cfg : C} {m : Node} {vs : List (Violation Nat Repl)} (hi : Inspected env files path content cfg m vs) :
    Breaks env files path autofix ss evs e ↔ (displayed env path m vs).2 = some e ∨ (∃ μ, .hook μ ∈ evs ∧ env.hookRaises μ = some e) ∨
      ((displayed env path m vs).2 = none ∧ (∀ μ, .hook μ ∈ evs → env.hookRaises μ = none) ∧ accepted autofix (foundIn env files path) ss ≠ [] ∧
        (fixedContent env path content cfg (accepted autofix (foundIn env files path) ss) = .error e ∨
          ∃ b, fixedContent env path content cfg (accepted autofix (foundIn env files path) ss) = .ok b ∧ b ≠ [] ∧ b ≠ content ∧
            (env.openRaises path = some e ∨ (env.openRaises path = none ∧ ∃ n, env.writeRaises path b = some (n, e))))) := by
  obtain ⟨hl, rules, recorded, durs, hne, hc, hp, hv, rfl⟩ := hi
  have hi : Inspected env files path content cfg m (rules.flatMap recorded) := ⟨hl, rules, recorded, durs, hne, hc, hp, hv, rfl⟩
  have hfix : ∀ c b, Fixing env files path autofix ss evs c b → c = content ∧ (displayed env path m (rules.flatMap recorded)).2 = none ∧
      (∀ μ, .hook μ ∈ evs → env.hookRaises μ = none) ∧ accepted autofix (foundIn env files path) ss ≠ [] ∧
      fixedContent env path content cfg (accepted autofix (foundIn env files path) ss) = b := by
    rintro c b ⟨⟨cfg', m', vs', h1, h2, h3⟩, h4, h5⟩
    obtain ⟨rfl, rfl, rfl, rfl⟩ := Inspected.same env hi h1
    exact ⟨rfl, (displayed_fine env path m _).mpr h2, h4, h5, h3.symm⟩
  have hfix' : ∀ b, (displayed env path m (rules.flatMap recorded)).2 = none → (∀ μ, .hook μ ∈ evs → env.hookRaises μ = none) →
      accepted autofix (foundIn env files path) ss ≠ [] → fixedContent env path content cfg (accepted autofix (foundIn env files path) ss) = b →
      Fixing env files path autofix ss evs content b :=
    fun b h1 h2 h3 h4 => ⟨⟨cfg, m, _, hi, (displayed_fine env path m _).mp h1, h4.symm⟩, h2, h3⟩
  constructor
  · intro h
    cases h with
    | load h => rw [hl] at h; cases h
    | collect h1 h2 => rw [hl] at h1; cases h1; rw [hc] at h2; cases h2
    | parse h1 h2 h3 h4 => rw [hl] at h1; cases h1; rw [hp] at h4; cases h4
    | visit h1 h2 h3 h4 h5 => rw [hl] at h1; cases h1; rw [hc] at h2; cases h2; rw [hp] at h4; cases h4; rw [hv] at h5; cases h5
    | «show» h1 h2 h3 =>
      obtain ⟨rfl, rfl, rfl, hvs⟩ := Inspected.same env hi h1
      exact .inl ((displayed_error env path m e _).mpr ⟨_, _, _, hvs, h2, h3⟩)
    | hook h1 h2 => exact .inr (.inl ⟨_, h1, h2⟩)
    | fix h => obtain ⟨-, h1, h2, h3, h4⟩ := hfix _ _ h; exact .inr (.inr ⟨h1, h2, h3, .inl h4⟩)
    | opening h h5 h6 h7 => obtain ⟨rfl, h1, h2, h3, h4⟩ := hfix _ _ h; exact .inr (.inr ⟨h1, h2, h3, .inr ⟨_, h4, h5, h6, .inl h7⟩⟩)
    | writing h h5 h6 h7 h8 => obtain ⟨rfl, h1, h2, h3, h4⟩ := hfix _ _ h; exact .inr (.inr ⟨h1, h2, h3, .inr ⟨_, h4, h5, h6, .inr ⟨h7, _, h8⟩⟩⟩)
  · rintro (h | ⟨μ, h1, h2⟩ | ⟨h1, h2, h3, h4 | ⟨b, h4, h5, h6, h7 | ⟨h7, n, h8⟩⟩⟩)
    · obtain ⟨before, v, after, hvs, h2, h3⟩ := (displayed_error env path m e _).mp h
      exact .show (hvs ▸ hi) h2 h3
    · exact .hook h1 h2
    · exact .fix (hfix' _ h1 h2 h3 h4)
    · exact .opening (hfix' _ h1 h2 h3 h4) h5 h6 h7
    · exact .writing (hfix' _ h1 h2 h3 h4) h5 h6 h7 h8

theorem errorResult_inj (p : Path) (e e' : Err) : (some (errorResult p e) = some (errorResult p e')) ↔ e = e' := by simp [errorResult]

theorem errorResult_inj' (p : Path) (e e' : Err) : (errorResult p e = errorResult p e') ↔ e = e' := by simp [errorResult]

theorem clean_not_error (p : Path) (e : Err) : ¬ some (cleanResult p) = some (errorResult p e) := by simp [errorResult, cleanResult]

theorem hook_mem (hook : Bool) (μ μ' : Metrics) (evs : List Event) (hf : ∀ ev ∈ evs, ∃ p, ev = .opened p ∨ ∃ b, ev = .wrote p b) :
    (.hook μ' ∈ hookEvents hook μ ++ evs) ↔ hook = true ∧ μ' = μ := by
  have : Event.hook μ' ∉ evs := by
    intro h
    obtain ⟨p, h | ⟨b, h⟩⟩ := hf _ h <;> cases h
  cases hook <;> simp [hookEvents, this]

theorem hook_mem' (hook : Bool) (μ μ' : Metrics) : (.hook μ' ∈ hookEvents hook μ) ↔ hook = true ∧ μ' = μ := by
  cases hook <;> simp [hookEvents]

theorem fileFinish_breaks (files : Path → Option Bytes) (path : Path) (autofix hook : Bool) (ss : List Answer) (e : Err) (w : World) (evs : List Event)
    (hupd : ((fileFinish env files path autofix hook ss).upd w).log = w.log ++ evs) :
    (fileFinish env files path autofix hook ss).last = some (errorResult path e) ↔ Breaks env files path autofix ss evs e := by
  unfold fileFinish at hupd ⊢
  cases hl : loaded env files path with
  | error e0 =>
    simp only [hl, id_eq, List.self_eq_append_right] at hupd
    subst hupd
    rw [breaks_early env (by simp) (fun _ _ _ _ h => by have := h.load; rw [hl] at this; cases this)]
    simp only [errorResult_inj, hl, Except.error.injEq, reduceCtorEq, false_and, exists_false, or_false]
  | ok cc =>
    obtain ⟨content, cfg⟩ := cc
    have hfi : foundIn env files path = found env files path content cfg := by simp [foundIn, hl]
    simp only [hl] at hupd ⊢
    unfold bytesFinish at hupd ⊢
    cases hc : env.collect files cfg with
    | error e0 =>
      simp only [hc, writeFinish, Function.comp_apply, id_eq, List.self_eq_append_right] at hupd ⊢
      subst hupd
      rw [breaks_early env (by simp) (fun _ _ _ _ h => by
        obtain ⟨h1, _, _, _, _, h2, _⟩ := h; rw [hl] at h1; cases h1; rw [hc] at h2; cases h2)]
      simp only [errorResult_inj, hl, Except.ok.injEq, Prod.mk.injEq, reduceCtorEq, false_or]
      constructor
      · rintro rfl; exact ⟨_, _, ⟨rfl, rfl⟩, .inl hc⟩
      · rintro ⟨_, _, ⟨rfl, rfl⟩, h | ⟨_, h, _⟩⟩
        · rw [hc] at h; cases h; rfl
        · rw [hc] at h; cases h
    | ok rules =>
      cases rules with
      | nil =>
        simp only [hc, writeFinish, Function.comp_apply, id_eq, List.self_eq_append_right] at hupd ⊢
        subst hupd
        rw [breaks_early env (by simp) (fun _ _ _ _ h => by
          obtain ⟨h1, _, _, _, h0, h2, _⟩ := h; rw [hl] at h1; cases h1; rw [hc] at h2; cases h2; exact h0 rfl)]
        simp only [clean_not_error, hl, Except.ok.injEq, Prod.mk.injEq, reduceCtorEq, false_or, false_iff]
        rintro ⟨_, _, ⟨rfl, rfl⟩, h | ⟨_, h, h0, _⟩⟩
        · rw [hc] at h; cases h
        · rw [hc] at h; cases h; exact h0 rfl
      | cons r rs =>
        cases hp : env.parse content with
        | error e0 =>
          simp only [hc, hp, writeFinish, Function.comp_apply, id_eq, List.self_eq_append_right] at hupd ⊢
          subst hupd
          rw [breaks_early env (by simp) (fun _ _ _ _ h => by
            obtain ⟨h1, _, _, _, _, _, h2, _⟩ := h; rw [hl] at h1; cases h1; rw [hp] at h2; cases h2)]
          simp only [errorResult_inj, hl, Except.ok.injEq, Prod.mk.injEq, reduceCtorEq, false_or]
          constructor
          · rintro rfl; exact ⟨_, _, ⟨rfl, rfl⟩, .inr ⟨_, hc, by simp, .inl hp⟩⟩
          · rintro ⟨_, _, ⟨rfl, rfl⟩, h | ⟨_, _, _, h | ⟨_, h, _⟩⟩⟩
            · rw [hc] at h; cases h
            · rw [hp] at h; cases h; rfl
            · rw [hp] at h; cases h
        | ok m =>
          cases hv : env.visit files cfg m (r :: rs) with
          | error e0 =>
            simp only [hc, hp, hv, writeFinish, Function.comp_apply, id_eq, List.self_eq_append_right] at hupd ⊢
            subst hupd
            rw [breaks_early env (by simp) (fun _ _ _ _ h => by
              obtain ⟨h1, _, _, _, _, h2, h3, h4, _⟩ := h; rw [hl] at h1; cases h1; rw [hc] at h2; cases h2; rw [hp] at h3; cases h3; rw [hv] at h4; cases h4)]
            simp only [errorResult_inj, hl, Except.ok.injEq, Prod.mk.injEq, reduceCtorEq, false_or]
            constructor
            · rintro rfl; exact ⟨_, _, ⟨rfl, rfl⟩, .inr ⟨_, hc, by simp, .inr ⟨_, hp, hv⟩⟩⟩
            · rintro ⟨_, _, ⟨rfl, rfl⟩, h | ⟨_, h, _, h' | ⟨_, h', h''⟩⟩⟩
              · rw [hc] at h; cases h
              · rw [hp] at h'; cases h'
              · rw [hc] at h; cases h; rw [hp] at h'; cases h'; rw [hv] at h''; cases h''; rfl
          | ok rd =>
            obtain ⟨recorded, durs⟩ := rd
            have hi : Inspected env files path content cfg m ((r :: rs).flatMap recorded) := ⟨hl, _, recorded, durs, by simp, hc, hp, hv, rfl⟩
            have hfound : found env files path content cfg = (displayed env path m ((r :: rs).flatMap recorded)).1 := by simp only [found, hc, hp, hv]
            rw [breaks_late env hi, hfi, hfound]
            simp only [hc, hp, hv] at hupd ⊢
            generalize hD : displayed env path m ((r :: rs).flatMap recorded) = D at hupd ⊢
            obtain ⟨good, err⟩ := D
            cases err with
            | some e0 =>
              simp only [writeFinish, Function.comp_apply, id_eq, List.self_eq_append_right] at hupd ⊢
              subst hupd
              simp only [Option.some.injEq, errorResult_inj', List.not_mem_nil, false_and, exists_false, reduceCtorEq, or_false]
            | none =>
              simp only at hupd ⊢
              generalize hμ : dictSet totalKey (tally recorded (r :: rs) (0, durs)).1 (tally recorded (r :: rs) (0, durs)).2 = μ at hupd ⊢
              cases hh : (if hook = true then env.hookRaises μ else none) with
              | some e0 =>
                simp only [hh, writeFinish, Function.comp_apply, id_eq, logged, List.append_cancel_left_eq] at hupd ⊢
                subst hupd
                have hk : hook = true := by cases hook <;> simp_all
                rw [if_pos hk] at hh
                simp only [errorResult_inj', hook_mem', hk, true_and, reduceCtorEq, false_or, exists_eq_left, forall_eq, hh, Option.some.injEq, false_and, or_false]
              | none =>
                have hh' : ∀ evs', (∀ ev ∈ evs', ∃ p, ev = Event.opened p ∨ ∃ b, ev = .wrote p b) → ∀ μ', .hook μ' ∈ hookEvents hook μ ++ evs' → env.hookRaises μ' = none := by
                  intro evs' hf μ' h
                  rw [hook_mem hook μ μ' evs' hf] at h
                  obtain ⟨h1, rfl⟩ := h
                  rw [if_pos h1] at hh
                  exact hh
                have hnone : ∀ evs', (∀ ev ∈ evs', ∃ p, ev = Event.opened p ∨ ∃ b, ev = .wrote p b) → ¬ ∃ μ', .hook μ' ∈ hookEvents hook μ ++ evs' ∧ env.hookRaises μ' = some e := by
                  rintro evs' hf ⟨μ', h1, h2⟩
                  rw [hh' evs' hf μ' h1] at h2; cases h2
                have hh0 := hh' [] (by simp)
                have hn0 := hnone [] (by simp)
                rw [List.append_nil] at hh0 hn0
                simp only [hh] at hupd ⊢
                by_cases hg : good.isEmpty = true
                · simp only [hg, if_true, writeFinish, Function.comp_apply, id_eq, logged, List.append_cancel_left_eq] at hupd ⊢
                  subst hupd
                  have hacc : accepted autofix good ss = [] := by
                    cases good with
                    | nil => simp [accepted]
                    | cons a b => simp at hg
                  simp only [clean_not_error, hn0, hacc, reduceCtorEq, ne_eq, not_true_eq_false, false_and, and_false, or_self]
                · have hg' : good.isEmpty = false := by simpa using hg
                  by_cases ha : (accepted autofix good ss).isEmpty = true
                  · simp only [hg', Bool.false_eq_true, if_false, ha, if_true, writeFinish, Function.comp_apply, id_eq, logged, List.append_cancel_left_eq] at hupd ⊢
                    subst hupd
                    simp only [List.isEmpty_iff] at ha
                    simp only [hn0, ha, reduceCtorEq, ne_eq, not_true_eq_false, false_and, and_false, or_self]
                  · have ha' : (accepted autofix good ss).isEmpty = false := by simpa using ha
                    have ha'' : accepted autofix good ss ≠ [] := by simpa using ha
                    simp only [hg', ha', Bool.false_eq_true, if_false] at hupd ⊢
                    cases hf : fixedContent env path content cfg (accepted autofix good ss) with
                    | error e0 =>
                      simp only [hf, writeFinish, Function.comp_apply, id_eq, logged, List.append_cancel_left_eq] at hupd ⊢
                      subst hupd
                      simp only [errorResult_inj, hn0, reduceCtorEq, false_or, true_and, ha'', ne_eq, not_false_eq_true, Except.error.injEq, false_and, exists_false, or_false]
                      exact ⟨fun h => ⟨hh0, h⟩, fun h => h.2⟩
                    | ok b =>
                      simp only [hf] at hupd ⊢
                      simp only [ha'', ne_eq, not_false_eq_true, reduceCtorEq, false_or, true_and, Except.ok.injEq]
                      unfold writeFinish at hupd ⊢
                      by_cases hb : b.isEmpty = true
                      · simp only [hb, if_true, Function.comp_apply, id_eq, logged, List.append_cancel_left_eq] at hupd ⊢
                        subst hupd
                        simp only [List.isEmpty_iff] at hb
                        subst hb
                        simp only [reduceCtorEq, hn0, false_or, false_iff]
                        rintro ⟨-, _, rfl, h, _⟩
                        exact h rfl
                      · have hb' : b.isEmpty = false := by simpa using hb
                        have hb'' : b ≠ [] := by simpa using hb
                        by_cases hbc : b = content
                        · simp only [hb', Bool.false_eq_true, if_false, hbc, if_true, ite_self, Function.comp_apply, id_eq, logged, List.append_cancel_left_eq] at hupd ⊢
                          subst hupd
                          simp only [reduceCtorEq, hn0, false_or, false_iff]
                          rintro ⟨-, _, h1, h, h2, _⟩
                          exact h2 h1.symm
                        · simp only [hb', hbc, Bool.false_eq_true, if_false] at hupd ⊢
                          cases ho : env.openRaises path with
                          | some e0 =>
                            simp only [ho, Function.comp_apply, id_eq, logged, List.append_cancel_left_eq] at hupd ⊢
                            subst hupd
                            simp only [errorResult_inj, hn0, false_or]
                            constructor
                            · rintro rfl; exact ⟨hh0, b, rfl, hb'', hbc, .inl rfl⟩
                            · rintro ⟨-, _, rfl, -, -, h | ⟨h, -⟩⟩
                              · exact Option.some.inj h
                              · cases h
                          | none =>
                            cases hw : env.writeRaises path b with
                            | some ne =>
                              obtain ⟨n, e0⟩ := ne
                              simp only [ho, hw, Function.comp_apply, logged, World.put, World.note, List.append_assoc, List.append_cancel_left_eq] at hupd ⊢
                              subst hupd
                              have hf : ∀ ev ∈ [Event.opened path] ++ [Event.wrote path (b.take n)], ∃ p, ev = Event.opened p ∨ ∃ b, ev = .wrote p b := by
                                intro ev hev
                                simp only [List.cons_append, List.nil_append, List.mem_cons, List.not_mem_nil, or_false] at hev
                                rcases hev with rfl | rfl
                                · exact ⟨_, .inl rfl⟩
                                · exact ⟨_, .inr ⟨_, rfl⟩⟩
                              simp only [errorResult_inj, hnone _ hf, false_or]
                              constructor
                              · rintro rfl; exact ⟨hh' _ hf, b, rfl, hb'', hbc, .inr ⟨trivial, n, hw⟩⟩
                              · rintro ⟨-, _, rfl, -, -, h | ⟨-, n', h⟩⟩
                                · cases h
                                · rw [hw] at h; cases h; rfl
                            | none =>
                              simp only [ho, hw, Function.comp_apply, logged, World.put, World.note, List.append_assoc, List.append_cancel_left_eq] at hupd ⊢
                              subst hupd
                              have hf : ∀ ev ∈ [Event.opened path] ++ [Event.wrote path b], ∃ p, ev = Event.opened p ∨ ∃ b, ev = .wrote p b := by
                                intro ev hev
                                simp only [List.cons_append, List.nil_append, List.mem_cons, List.not_mem_nil, or_false] at hev
                                rcases hev with rfl | rfl
                                · exact ⟨_, .inl rfl⟩
                                · exact ⟨_, .inr ⟨_, rfl⟩⟩
                              simp only [reduceCtorEq, hnone _ hf, false_or, false_iff]
                              rintro ⟨-, _, rfl, -, -, -, n', h⟩
                              rw [hw] at h; cases h

/-- **C45** A run in which every violation was answered ends with an error result for `e` exactly when `e` is what went wrong (reading, configuring, collecting
rules, parsing, a rule, showing a diff, the metrics hook, fixing or formatting, opening, writing): the violations shown before it stay, and it comes last. -/
theorem C45_exact (path : Path) (autofix hook : Bool) (ss : List Answer) (w : World) (e : Err) (hk : (foundIn env w.files (env.resolve path)).length ≤ ss.length) :
    ((fixitFile env path autofix hook).run ss w).1 = (foundIn env w.files (env.resolve path)).map (reporting (env.resolve path)) ++ [errorResult (env.resolve path) e] ↔
      Breaks env w.files (env.resolve path) autofix ss (newEvents w ((fixitFile env path autofix hook).run ss w).2.2) e := by
  have ho : (fixitFile env path autofix hook).run ss w = _ := run_lintFile env (env.resolve path) autofix hook ss w
  have hw : ((fixitFile env path autofix hook).run ss w).2.2 = _ := lintFile_world env (env.resolve path) autofix hook ss w
  rw [if_neg (by omega)] at hw
  obtain ⟨evs0, hu, -⟩ := fileFinish_upd env w.files (env.resolve path) autofix hook ss
  have hlog : ((fileFinish env w.files (env.resolve path) autofix hook ss).upd w).log = w.log ++ evs0 := by rw [hu]
  rw [newEvents_append w _ evs0 (by rw [hw, hlog]), ← fileFinish_breaks env w.files (env.resolve path) autofix hook ss e w evs0 hlog, ho]
  cases hfl : (fileFinish env w.files (env.resolve path) autofix hook ss).last with
  | none =>
    rw [script_none _ _ _ _ _ (by omega) hfl]
    simp
  | some r =>
    rw [script_some _ _ _ r _ _ (by omega) hfl]
    simp

end

/-- The exceptions among results. -/
def errorsIn (rs : List Result) : List (Option Err) := rs.map (·.error)

/-- C45_exact is not vacuous: the hook, the formatter, opening and writing, each failing after two violations were shown, give a third result with their exception. -/
example : errorsIn ((fixitFile { toyEnv none none [] with hookRaises := fun _ => some (.other 5) } [py "f"] true true).run [none, none] (toyWorld [97, 98, 100])).1 =
    [none, none, some (.other 5)] := by decide
example : errorsIn ((fixitFile { toyEnv none (some (py "up")) [] with styles := [(py "up", fun _ _ => .error (.other 6))] } [py "f"] true true).run [none, none]
    (toyWorld [97, 98, 100])).1 = [none, none, some (.other 6)] := by decide
example : errorsIn ((fixitFile { toyEnv none none [] with openRaises := fun _ => some (.other 7) } [py "f"] true true).run [none, none] (toyWorld [97, 98, 100])).1 =
    [none, none, some (.other 7)] := by decide
example : errorsIn ((fixitFile (toyEnv (some (1, .other 8)) none []) [py "f"] true true).run [none, none] (toyWorld [97, 98, 100])).1 =
    [none, none, some (.other 8)] := by decide
/-- The diff of the second violation cannot be made: one violation is shown, then the exception. -/
example : errorsIn ((fixitFile { toyEnv none none [] with unifiedDiff := fun _ b _ => if b = py "ab" then .error (.other 9) else .ok [] } [py "f"] true true).run [none, none]
    (toyWorld [97, 98, 100])).1 = [none, some (.other 9)] := by decide

end Fixit
