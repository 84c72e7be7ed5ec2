import Verif.Props.System

/-!
# C93: when linting fails, and what is written
-/

namespace Fixit
open Py Spec Gen

section
variable {V M : Type} (o : Outside V M)

theorem runCalls_error (m : Node) : ∀ (cs : List (RuleInst × ReportCall)) (st : RuleInst → List (Violation Nat Repl)) (e : Err), o.runCalls m cs st = .error e → e = .value
  | [], _, _, h => by cases h
  | (r, c) :: cs, st, e, h => by
    rw [Outside.runCalls] at h
    split at h
    · cases h; rfl
    · exact runCalls_error m cs _ e h

theorem resolveMessage_some (own cls : Option PStr) (h : ∃ s, s ≠ [] ∧ (own = some s ∨ cls = some s)) : ∃ msg, resolveMessage own cls = some msg := by
  obtain ⟨s, hs, hs'⟩ := h
  cases own with
  | none => rcases hs' with e | e
            · cases e
            · exact ⟨s, (C06_message _ _ _).mpr ⟨hs, .inr ⟨.inl rfl, e⟩⟩⟩
  | some t => cases t with
    | nil => rcases hs' with e | e
             · cases e; exact absurd rfl hs
             · exact ⟨s, (C06_message _ _ _).mpr ⟨hs, .inr ⟨.inr rfl, e⟩⟩⟩
    | cons a b => exact ⟨a :: b, rfl⟩

/-- C93: when linting the file fails, there is one result, the error, whatever the answers; no file is written. -/
theorem C93_fails (options : Option Options) (autofix hook : Bool) (ss : List Answer) (w : World) (p : Path) (content : Bytes) (e : Err)
    (hf : w.files (o.base.resolve p) = some content) (hr : o.base.readRaises (o.base.resolve p) = none)
    (h : Fails o options w.files (o.base.resolve p) content e) :
    ((fixitFile (o.env options) p autofix hook).run ss w).1 = [⟨o.base.resolve p, none, some e⟩] ∧
    (((fixitFile (o.env options) p autofix hook).run ss w).2.2).files = w.files := by
  have bad : ∀ e, o.config options w.files (o.base.resolve p) = .error e →
      ((fixitFile (o.env options) p autofix hook).run ss w).1 = [errorResult (o.base.resolve p) e] ∧ (((fixitFile (o.env options) p autofix hook).run ss w).2.2).files = w.files := by
    intro e he
    have hl : loaded (o.env options) w.files (o.base.resolve p) = .error e := by
      unfold loaded
      rw [hf]
      have h1 : (o.env options).readRaises (o.base.resolve p) = none := hr
      have h2 : (o.env options).config w.files (o.base.resolve p) = .error e := he
      simp only [h1, h2]
    have ho : (fixitFile (o.env options) p autofix hook).run ss w = _ := run_lintFile (o.env options) (o.base.resolve p) autofix hook ss w
    rw [ho]
    simp [script, foundIn, fileFinish, hl]
  have late : ∀ cfg, o.config options w.files (o.base.resolve p) = .ok cfg →
      (found (o.env options) w.files (o.base.resolve p) content cfg = [] ∧ ∀ ss, bytesFinish (o.env options) w.files (o.base.resolve p) content cfg autofix hook ss =
        ⟨id, some (errorResult (o.base.resolve p) e), none⟩) →
      ((fixitFile (o.env options) p autofix hook).run ss w).1 = [errorResult (o.base.resolve p) e] ∧ (((fixitFile (o.env options) p autofix hook).run ss w).2.2).files = w.files := by
    intro cfg hc ⟨h1, h2⟩
    have hl : loaded (o.env options) w.files (o.base.resolve p) = .ok (content, cfg) := by
      unfold loaded
      rw [hf]
      have h1 : (o.env options).readRaises (o.base.resolve p) = none := hr
      have h2 : (o.env options).config w.files (o.base.resolve p) = .ok cfg := hc
      simp only [h1, h2]
    have ho : (fixitFile (o.env options) p autofix hook).run ss w = _ := run_lintFile (o.env options) (o.base.resolve p) autofix hook ss w
    rw [ho]
    simp [script, foundIn, fileFinish, hl, h1, h2, writeFinish]
  have visited : ∀ cfg (c : Collected Nat M) m, (collectRules (o.rules w.files) o.ruleOrder cfg o.sysPath o.mods).1 = .ok c → c.rules ≠ [] → o.base.parse content = .ok m →
      o.visit w.files cfg m (c.rules.map o.inst) = .error e →
      found (o.env options) w.files (o.base.resolve p) content cfg = [] ∧ ∀ ss, bytesFinish (o.env options) w.files (o.base.resolve p) content cfg autofix hook ss =
        ⟨id, some (errorResult (o.base.resolve p) e), none⟩ := by
    intro cfg c m hc hne hp hv
    have hcol : (o.env options).collect w.files cfg = .ok (c.rules.map o.inst) := by
      show o.collect w.files cfg = _
      unfold Outside.collect; rw [hc]; rfl
    have hp' : (o.env options).parse content = .ok m := hp
    have hv' : (o.env options).visit w.files cfg m (c.rules.map o.inst) = .error e := hv
    cases hrs : c.rules.map o.inst with
    | nil => exact absurd (List.map_eq_nil_iff.mp hrs) hne
    | cons a b =>
      rw [hrs] at hcol hv'
      exact ⟨by simp [found, hcol, hp', hv'], fun ss => by simp [bytesFinish, hcol, hp', hv']⟩
  cases h with
  | noConfig oo f h hcf hm =>
    apply bad
    subst h
    unfold Outside.config generateConfig
    simp only [Option.bind_some, hcf, Bind.bind, pure, Except.pure, Except.bind, List.map_cons, List.map_nil, Outside.fs, readConfigs, readOne, Outside.load, hm]
  | badConfig oo f b _ h hcf hm ht =>
    apply bad
    subst h
    unfold Outside.config generateConfig
    simp only [Option.bind_some, hcf, Bind.bind, pure, Except.pure, Except.bind, List.map_cons, List.map_nil, Outside.fs, readConfigs, readOne, Outside.load, hm, ht]
  | noRules cfg _ hc he =>
    refine late cfg hc ?_
    have hcol : (o.env options).collect w.files cfg = .error e := by
      show o.collect w.files cfg = _
      unfold Outside.collect; rw [he]; rfl
    exact ⟨by simp [found, hcol], fun ss => by simp [bytesFinish, hcol]⟩
  | syntaxError cfg c _ hc hr hne he =>
    refine late cfg hc ?_
    have hcol : (o.env options).collect w.files cfg = .ok (c.rules.map o.inst) := by
      show o.collect w.files cfg = _
      unfold Outside.collect; rw [hr]; rfl
    have hp' : (o.env options).parse content = .error e := he
    cases hrs : c.rules.map o.inst with
    | nil => exact absurd (List.map_eq_nil_iff.mp hrs) hne
    | cons a b =>
      rw [hrs] at hcol
      exact ⟨by simp [found, hcol, hp'], fun ss => by simp [bytesFinish, hcol, hp']⟩
  | raises cfg c m _ hc hr hne hp hok he =>
    refine late cfg hc (visited cfg c m hr hne hp ?_)
    obtain ⟨st, hst⟩ := runCalls_total o m (o.visitors w.files cfg m (c.rules.map o.inst)).calls (fun _ => []) (fun r call hm hs => resolveMessage_some _ _ (hok r call hm hs))
    unfold Outside.visit
    rw [hst]
    simp only [he]
  | noMessage cfg c m r call hc hr hne hp hm hs hn =>
    refine late cfg hc (visited cfg c m hr hne hp ?_)
    unfold Outside.visit
    cases hst : o.runCalls m (o.visitors w.files cfg m (c.rules.map o.inst)).calls (fun _ => []) with
    | error e => rw [runCalls_error o m _ _ e hst]
    | ok st =>
      obtain ⟨msg, hmsg⟩ := (runCalls_ok o m _ _ st hst).2 r call hm hs
      obtain ⟨h1, h2 | ⟨-, h2⟩⟩ := (C06_message _ _ _).mp hmsg
      · exact absurd h2 (hn msg h1).1
      · exact absurd h2 (hn msg h1).2

theorem styleOf_some (name : PStr) (f : Node → Path → Except Err Bytes) : ∀ l : List (PStr × (Node → Path → Except Err Bytes)), styleOf name l = some f →
    ∃ before after, l = before ++ (name, f) :: after ∧ ∀ e ∈ after, e.1 ≠ name
  | [], h => by cases h
  | (n, g) :: rest, h => by
    rw [styleOf] at h
    cases hr : styleOf name rest with
    | some g' =>
      rw [hr] at h
      cases h
      obtain ⟨b, a, rfl, ha⟩ := styleOf_some name f rest hr
      exact ⟨(n, g) :: b, a, rfl, ha⟩
    | none =>
      rw [hr] at h
      simp only at h
      split at h
      · rename_i hn
        cases h
        subst hn
        exact ⟨[], rest, rfl, styleOf_none n rest hr⟩
      · cases h
where
  styleOf_none (name : PStr) : ∀ l : List (PStr × (Node → Path → Except Err Bytes)), styleOf name l = none → ∀ e ∈ l, e.1 ≠ name
    | [], _ => by simp
    | (n, g) :: rest, h => by
      rw [styleOf] at h
      cases hr : styleOf name rest with
      | some g' => rw [hr] at h; cases h
      | none =>
        rw [hr] at h
        simp only at h
        split at h
        · cases h
        · rename_i hn
          intro e he
          rcases List.mem_cons.mp he with rfl | he
          · exact hn
          · exact styleOf_none name rest hr e he

/-- C93: the fixed content is the module with the fixes applied, in the style the configuration names. -/
theorem C93_formatted (options : Option Options) (path : Path) (content : Bytes) (cfg : Config V) (m : Node) (vs : List LintViolation) (b : Bytes)
    (hp : o.base.parse content = .ok m) (h : fixedContent (o.env options) path content cfg vs = .ok b) :
    ∃ m', applyReplacements m (vs.map LintViolation.fix) = .ok m' ∧ Formatted o cfg m' path b := by
  have hp' : (o.env options).parse content = .ok m := hp
  unfold fixedContent at h
  rw [hp'] at h
  simp only [Bind.bind, Except.bind] at h
  cases ha : applyReplacements m (vs.map LintViolation.fix) with
  | error e => rw [ha] at h; cases h
  | ok m' =>
    rw [ha] at h
    simp only [formatModule] at h
    refine ⟨m', rfl, ?_⟩
    have h : (match cfg.formatter with | none => o.base.bytes m' | some s => match styleOf s o.base.styles with | some f => f m' path | none => .error (.other 2)) = .ok b := h
    cases hf : cfg.formatter with
    | none => rw [hf] at h; exact .plain hf h
    | some s =>
      rw [hf] at h
      simp only at h
      cases hs : styleOf s o.base.styles with
      | none => rw [hs] at h; cases h
      | some f =>
        rw [hs] at h
        obtain ⟨before, after, h1, h2⟩ := styleOf_some s f _ hs
        exact .styled s before after f hf h1 h2 h

end
end Fixit
