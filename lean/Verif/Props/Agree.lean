import Verif.Props.StdinAsFile
import Verif.Props.LspFormat

/-!
# C131: linting, fixing and the editor see the same violations
-/

namespace Fixit
open Py Spec Gen

section
variable {C : Type} (env : Env C)

/-- Answers make a difference only after all violations were shown: another error. -/
theorem bytesFinish_autofix (files : Path → Option Bytes) (path : Path) (content : Bytes) (cfg : C) (autofix hook : Bool) (ss ss' : List Answer) (hno : ∀ s ∈ ss', s ≠ some true) :
    (bytesFinish env files path content cfg false hook ss').ret = none ∧
    ((bytesFinish env files path content cfg autofix hook ss).last = (bytesFinish env files path content cfg false hook ss').last ∨
    ((bytesFinish env files path content cfg false hook ss').last = none ∧ ∃ e, (bytesFinish env files path content cfg autofix hook ss).last = some (errorResult path e))) ∧
    (bytesFinish env files path content cfg autofix hook ss).upd = (bytesFinish env files path content cfg false hook ss').upd := by
  unfold bytesFinish
  cases hc : env.collect files cfg with
  | error e => exact ⟨rfl, .inl rfl, rfl⟩
  | ok rules =>
    cases rules with
    | nil => exact ⟨rfl, .inl rfl, rfl⟩
    | cons r rs =>
      cases hp : env.parse content with
      | error e => simp only [hp]; exact ⟨trivial, .inl trivial, trivial⟩
      | ok m =>
        cases hv : env.visit files cfg m (r :: rs) with
        | error e => simp only [hp, hv]; exact ⟨trivial, .inl trivial, trivial⟩
        | ok rd =>
          obtain ⟨recorded, durs⟩ := rd
          simp only [hp, hv]
          cases (displayed env path m ((r :: rs).flatMap recorded)).2 with
          | some e => exact ⟨rfl, .inl rfl, rfl⟩
          | none =>
            simp only
            rw [accepted_none _ _ hno]
            cases (if hook then env.hookRaises (dictSet totalKey (tally recorded (r :: rs) (0, durs)).1 (tally recorded (r :: rs) (0, durs)).2) else none) with
            | some e => exact ⟨rfl, .inl rfl, rfl⟩
            | none =>
              simp only [List.isEmpty_nil, if_true]
              cases (displayed env path m ((r :: rs).flatMap recorded)).1.isEmpty with
              | true => simp
              | false =>
                simp only [Bool.false_eq_true, if_false]
                cases (accepted autofix (displayed env path m ((r :: rs).flatMap recorded)).1 ss).isEmpty with
                | true => simp
                | false =>
                  simp only [Bool.false_eq_true, if_false]
                  cases fixedContent env path content cfg (accepted autofix (displayed env path m ((r :: rs).flatMap recorded)).1 ss) with
                  | error e => exact ⟨trivial, .inr ⟨trivial, e, rfl⟩, rfl⟩
                  | ok b => exact ⟨trivial, .inl rfl, rfl⟩

theorem fileFinish_autofix (files : Path → Option Bytes) (path : Path) (autofix hook : Bool) (ss ss' : List Answer) (hno : ∀ s ∈ ss', s ≠ some true) :
    (fileFinish env files path autofix hook ss).last = (fileFinish env files path false hook ss').last ∨
    ((fileFinish env files path false hook ss').last = none ∧ ∃ e, (fileFinish env files path autofix hook ss).last = some (errorResult path e)) := by
  unfold fileFinish
  cases hl : loaded env files path with
  | error e => exact .inl rfl
  | ok cc =>
    obtain ⟨content, cfg⟩ := cc
    obtain ⟨h1, h2, -⟩ := bytesFinish_autofix env files path content cfg autofix hook ss ss' hno
    simp only
    rw [h1]
    cases hb : (bytesFinish env files path content cfg false hook ss').last with
    | some r =>
      rw [hb] at h2
      rcases h2 with h2 | ⟨h2, -⟩
      · rw [h2]; exact .inl rfl
      · cases h2
    | none =>
      rw [hb] at h2
      rcases h2 with h2 | ⟨-, e, h2⟩
      · rw [h2]
        simp only [writeFinish]
        cases (bytesFinish env files path content cfg autofix hook ss).ret with
        | none => exact .inl rfl
        | some b =>
          simp only
          split
          · exact .inl rfl
          · split
            · exact .inl rfl
            · cases env.openRaises path with
              | some e => exact .inr ⟨trivial, e, rfl⟩
              | none =>
                simp only
                cases env.writeRaises path b with
                | some ne => exact .inr ⟨trivial, _, rfl⟩
                | none => exact .inl rfl
      · rw [h2]; exact .inr ⟨rfl, e, rfl⟩

/-- The results of a run that ended. -/
theorem run_returned_results (autofix hook : Bool) (ss : List Answer) (w : World) (p : Path) (h : ((fixitFile env p autofix hook).run ss w).2.1 = .returned ()) :
    ((fixitFile env p autofix hook).run ss w).1 =
      (foundIn env w.files (env.resolve p)).map (reporting (env.resolve p)) ++ (fileFinish env w.files (env.resolve p) autofix hook ss).last.toList := by
  unfold fixitFile at h ⊢
  rw [run_lintFile] at h ⊢
  by_cases hk : ss.length < (foundIn env w.files (env.resolve p)).length
  · rw [script_lt _ _ _ _ _ hk] at h; cases h
  · cases hl : (fileFinish env w.files (env.resolve p) autofix hook ss).last with
    | none => rw [script_none _ _ _ _ _ hk hl]; simp
    | some r => rw [script_some _ _ _ r _ _ hk hl]; simp

/-- What linting a file says, in closed form. -/
theorem alone_lint (hook : Bool) (w : World) (p : Path) : ∃ ss' : List Answer, (∀ s ∈ ss', s ≠ some true) ∧
    (alone env false hook w p).1 = (foundIn env w.files (env.resolve p)).map (reporting (env.resolve p)) ++ (fileFinish env w.files (env.resolve p) false hook ss').last.toList := by
  have hrun := run_replicate none (fixitFile env p false hook) w _ (Nat.le_refl _)
  refine ⟨List.replicate (drain none (fixitFile env p false hook) w).1.length none, fun s hs => by rw [(List.mem_replicate.mp hs).2]; simp, ?_⟩
  have hret := alone_returns env false hook w p
  rw [← run_returned_results env false hook _ w p (by rw [hrun]; exact hret), hrun]
  rfl

/-- **C131** Fixing shows what linting shows. Whatever the answers, and wherever it is stopped: the results of fixing a file are those of linting it, or a first part of them if the
run was stopped; only if there are violations, and after all of them, there may be one more result: an error. -/
theorem C131_fix_shows_lint (autofix hook : Bool) (ss : List Answer) (w : World) (p : Path) :
    let fix := (fixitFile env p autofix hook).run ss w
    let lint := (alone env false hook w p).1
    (fix.1 = lint ∨ (fix.2.1 = .suspended ∧ fix.1 <+: lint) ∨ ∃ e, fix.1 = lint ++ [errorResult (env.resolve p) e] ∧ lint ≠ [] ∧ ∀ r ∈ lint, r.violation ≠ none) := by
  intro fix lint
  obtain ⟨ss', hno, hlint⟩ := alone_lint env hook w p
  have hlint : lint = _ := hlint
  have hfix : fix = script (env.resolve p) (foundIn env w.files (env.resolve p)) (fileFinish env w.files (env.resolve p) autofix hook ss) ss w := run_lintFile env _ autofix hook ss w
  have hF := fileFinish_autofix env w.files (env.resolve p) autofix hook ss ss' hno
  have hvs : (fileFinish env w.files (env.resolve p) false hook ss').last = none → foundIn env w.files (env.resolve p) ≠ [] := by
    unfold fileFinish foundIn
    cases hl : loaded env w.files (env.resolve p) with
    | error e => simp
    | ok cc =>
      obtain ⟨content, cfg⟩ := cc
      have hb := bytesFinish_last env w.files (env.resolve p) content cfg false hook ss'
      simp only
      cases h : (bytesFinish env w.files (env.resolve p) content cfg false hook ss').last with
      | none => rw [h] at hb; intro _; exact hb
      | some r => simp
  generalize fileFinish env w.files (env.resolve p) autofix hook ss = F at hfix hF
  generalize fileFinish env w.files (env.resolve p) false hook ss' = L at hlint hF hvs
  generalize foundIn env w.files (env.resolve p) = vs at hfix hlint hvs
  by_cases hk : ss.length < vs.length
  · rw [script_lt _ _ _ _ _ hk] at hfix
    right; left
    rw [hfix, hlint]
    refine ⟨rfl, ?_⟩
    simp only [List.map_take]
    exact (List.take_prefix _ _).trans (List.prefix_append _ _)
  · rcases hF with hF | ⟨hL, e, hF⟩
    · left
      rw [hlint, ← hF]
      cases hl : F.last with
      | none => rw [hfix, script_none _ _ _ _ _ hk hl]; simp
      | some r => rw [hfix, script_some _ _ _ r _ _ hk hl]; simp
    · right; right
      refine ⟨e, ?_, ?_, ?_⟩
      · rw [hfix, script_some _ _ _ _ _ _ hk hF, hlint, hL]; simp
      · rw [hlint, hL]; simpa using hvs hL
      · rw [hlint, hL]
        intro r hr
        simp only [Option.toList, List.append_nil, List.mem_map] at hr
        obtain ⟨v, -, rfl⟩ := hr
        simp [reporting]

variable (client : Client)

theorem reporting_violations (path : Path) (vs : List LintViolation) : (vs.map (reporting path)).filterMap Result.violation = vs := by
  induction vs with
  | nil => rfl
  | cons v vs ih => simp only [List.map_cons, List.filterMap_cons, reporting]; exact congrArg _ ih

/-- The violations among the results of linting a file. -/
theorem alone_violations (hook : Bool) (w : World) (p : Path) :
    (alone env false hook w p).1.filterMap Result.violation = foundIn env w.files (env.resolve p) := by
  obtain ⟨ss', -, h⟩ := alone_lint env hook w p
  rw [h, List.filterMap_append, reporting_violations]
  have hl := fileFinish_last env w.files (env.resolve p) false hook ss'
  cases hx : (fileFinish env w.files (env.resolve p) false hook ss').last with
  | none => simp
  | some r =>
    rw [hx] at hl
    rcases hl with ⟨rfl, -⟩ | ⟨e, rfl⟩ <;> simp [cleanResult, errorResult]

/-- **C131** The editor shows what linting shows. Every publication: there is a source the document had, such that if it were saved as the document's file, the diagnostics
would be the violations of linting that file, one for one, in order - provided no other file changed meanwhile. -/
theorem C131_editor_shows_lint (hook : Bool) (files : Path → Option Bytes) (es : List LspEvent) (p : Publication)
    (hp : p ∈ ((Server.start files).run env client es).sent) :
    ∃ path content, client.fsPath p.uri = some path ∧ SourceSeen client files [] es p.uri content ∧
      ∀ saved : World, saved.files path = some content → (∀ f, FilesSeen files [] es f → ∀ q, q ≠ path → saved.files q = f q) →
        env.readRaises path = none → env.resolve path = path → Stable env (fun q => q = path) →
        p.diagnostics = ((alone env false hook saved path).1.filterMap Result.violation).map shownAs := by
  obtain ⟨path, content, cfg, f, h1, h2, ⟨f', h3, h4⟩, h5, h6⟩ := C66_published env client files es p hp
  refine ⟨path, content, h1, h2, fun saved hs hothers hread hres hS => ?_⟩
  rw [alone_violations, hres, h6]
  obtain ⟨hc1, -, -⟩ := hS saved.files f' (fun q hq => hothers f' h3 q hq)
  obtain ⟨-, hc2, hc3⟩ := hS saved.files f (fun q hq => hothers f h5 q hq)
  have hl : loaded env saved.files path = .ok (content, cfg) := by
    simp only [loaded, hread, hs, hc1, h4]
    first | rfl | skip
  simp only [foundIn, hl]
  rw [(bytesFinish_congr env saved.files f path content cfg false false [] hc2 hc3).2]

/-- When everything is fixed, the answers make no difference, once there are enough. -/
theorem bytesFinish_all (files : Path → Option Bytes) (path : Path) (content : Bytes) (cfg : C) (hook : Bool) (ss ss' : List Answer)
    (h : (found env files path content cfg).length ≤ ss.length) (h' : (found env files path content cfg).length ≤ ss'.length) :
    bytesFinish env files path content cfg true hook ss = bytesFinish env files path content cfg true hook ss' := by
  unfold bytesFinish
  unfold found at h h'
  cases hc : env.collect files cfg with
  | error e => rfl
  | ok rules =>
    cases rules with
    | nil => rfl
    | cons r rs =>
      cases hp : env.parse content with
      | error e => rfl
      | ok m =>
        cases hv : env.visit files cfg m (r :: rs) with
        | error e => simp only [hv]
        | ok rd =>
          obtain ⟨recorded, durs⟩ := rd
          simp only [hc, hp, hv] at h h' ⊢
          rw [accepted_all _ ss h, accepted_all _ ss' h']

/-- Without errors in a file's own run, there are none in the run on its content. -/
theorem autofix_no_error (w : World) (p : Path) (content : Bytes) (cfg : C) (hl : loaded env w.files (env.resolve p) = .ok (content, cfg))
    (hne : ∀ r ∈ (alone env true false w p).1, r.error = none) :
    ∀ r ∈ (Gen.drain none (fixitBytes env (env.resolve p) content cfg true false) w).1, r.error = none := by
  obtain ⟨n, hn, h1, -⟩ := drain_fixitBytes env (env.resolve p) content cfg true false w
  have hrun := run_replicate none (fixitFile env p true false) w _ (Nat.le_refl _)
  have hret := alone_returns env true false w p
  have hres := run_returned_results env true false (List.replicate (drain none (fixitFile env p true false) w).1.length none) w p (by rw [hrun]; exact hret)
  rw [hrun] at hres
  have hlen : (foundIn env w.files (env.resolve p)).length ≤ (drain none (fixitFile env p true false) w).1.length := by
    rw [hres]; simp
  unfold alone at hne
  generalize (drain none (fixitFile env p true false) w).1.length = k at *
  rw [hres] at hne
  have hfi : foundIn env w.files (env.resolve p) = found env w.files (env.resolve p) content cfg := by simp only [foundIn, hl]
  rw [h1]
  intro r hr
  rcases List.mem_append.mp hr with hr | hr
  · obtain ⟨v, -, rfl⟩ := List.mem_map.mp hr; rfl
  · apply hne r
    refine List.mem_append.mpr (.inr ?_)
    rw [bytesFinish_all env w.files (env.resolve p) content cfg false _ (List.replicate k none) (by simpa using hn) (by rw [← hfi]; simpa using hlen)] at hr
    simp only [Option.mem_toList] at hr ⊢
    unfold fileFinish
    simp only [hl, hr]

/-- **C131** The editor's formatting does what fixing does. If fixing the document, saved as its file, reports no error and its configuration is the one the server uses, then
either there is no edit, and the file is as it was, or applying the edit gives the text of the fixed file, followed by the final line break of the old text. -/
theorem C131_editor_formats_fix (s : Server C) (u : Uri) (path : Path) (text : PStr) (content : Bytes) (cfg : C) (saved : World)
    (hp : client.fsPath u = some path) (ht : s.docs u = some text) (henc : client.encode text = .ok content) (hc : usesConfig env s path cfg) (hcfg : env.config s.files path = .ok cfg)
    (hs : saved.files path = some content) (hothers : ∀ q, q ≠ path → saved.files q = s.files q)
    (hread : env.readRaises path = none) (hres : env.resolve path = path) (hS : Stable env (fun q => q = path))
    (hne : ∀ r ∈ (alone env true false saved path).1, r.error = none) :
    let reply := (s.next env client (.format u)).edits
    ∃ b, (alone env true false saved path).2.2.files path = some b ∧
      ((reply = s.edits ++ [(u, .ok none)] ∧ b = content) ∨
        ∀ new, client.decode b = .ok new → text ≠ [] → PlainText text → ∃ e : TextEdit, reply = s.edits ++ [(u, .ok (some e))] ∧ applyEdit text e = new ++ finalBreak text) := by
  obtain ⟨hc1, hc2, hc3⟩ := hS saved.files s.files (fun q hq => hothers q hq)
  have hl : loaded env saved.files path = .ok (content, cfg) := by simp only [loaded, hread, hs, hc1, hcfg]
  have herr := autofix_no_error env saved path content cfg (by rw [hres]; exact hl) hne
  rw [hres] at herr
  have hfound := (bytesFinish_congr env saved.files s.files path content cfg true false [] hc2 hc3).2
  have herr' : ∀ r ∈ autofixResults env s path content cfg, r.error = none := by
    obtain ⟨n, hn, h1, -⟩ := drain_fixitBytes env path content cfg true false saved
    obtain ⟨n', hn', h1', -⟩ := drain_fixitBytes env path content cfg true false ⟨s.files, []⟩
    unfold autofixResults
    rw [h1']
    rw [h1] at herr
    simp only at hn' ⊢
    rw [← hfound] at hn' ⊢
    rw [← (bytesFinish_congr env saved.files s.files path content cfg true false (List.replicate n' none) hc2 hc3).1,
      bytesFinish_all env saved.files path content cfg false (List.replicate n' none) (List.replicate n none) (by simpa using hn') (by simpa using hn)]
    exact herr
  have hrun := run_replicate none (fixitFile env path true false) saved _ (Nat.le_refl _)
  have hret := alone_returns env true false saved path
  unfold alone at hne hret ⊢
  generalize hd : drain none (fixitFile env path true false) saved = d at *
  obtain ⟨ys, st, w'⟩ := d
  cases hret
  obtain ⟨content', cfg', hl', h1, h2⟩ := C46_autofix_applies_all env path false _ saved w' ys hrun hne
  rw [hres, hl] at hl'
  cases hl'
  rw [hres] at h1 h2
  by_cases hf : found env saved.files path content cfg = []
  · refine ⟨content, ?_, .inl ⟨C67_no_edit env client s u path text content cfg hp ht henc hc (.inl (hfound ▸ hf)), rfl⟩⟩
    show w'.files path = _
    rw [h1 hf]; exact hs
  · obtain ⟨b, hb, hw⟩ := h2 hf
    obtain ⟨b', hb', h3, h4⟩ := C67_edit env client s u path text content cfg hp ht henc hc (hfound ▸ hf) herr'
    rw [← hfound, hb] at hb'
    cases hb'
    refine ⟨_, hw, ?_⟩
    by_cases hbe : b = []
    · exact .inl ⟨h3 hbe, by rw [if_pos hbe]⟩
    · right
      rw [if_neg hbe]
      intro new hdec htext hplain
      obtain ⟨e, he, -, ha⟩ := h4 new hbe hdec htext hplain
      exact ⟨e, he, ha⟩

end

end Fixit
