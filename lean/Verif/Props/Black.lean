import Verif.Model.Formatters
import Verif.Spec.Paths
import Verif.Props.Api
import Verif.Props.Paths
import Verif.Props.ApiCases

/-!
# C118: fixing with the formatter `black`
-/

namespace Spec
open Py Fixit

/-- The text of the file after these fixes, before formatting. -/
def FixedText {C : Type} (env : Env C) (B : Black) (content : Bytes) (fixes : List LintViolation) (text : PStr) : Prop :=
  ∃ m m' b, env.parse content = .ok m ∧ applyReplacements m (fixes.map LintViolation.fix) = .ok m' ∧ env.bytes m' = .ok b ∧ B.decode b = .ok text

/-- The configuration of the file names the style `black`, and no other formatter has taken this name. -/
def UsesBlack {C : Type} (env : Env C) (B : Black) (cfg : C) : Prop :=
  env.formatter cfg = some (py "black") ∧ ∃ before after, env.styles = before ++ (py "black", B.format env.bytes) :: after ∧ py "black" ∉ after.map (·.1)

/-- Black cannot be run on the fixed code of the file, or does not accept it or its own result. -/
inductive BlackRefuses {C : Type} (env : Env C) (B : Black) (path : Path) (content : Bytes) (fixes : List LintViolation) : Err → Prop
  /-- its configuration cannot be read -/
  | config (m m' : Node) (e : Err) : env.parse content = .ok m → applyReplacements m (fixes.map LintViolation.fix) = .ok m' → B.config path = .error e →
      BlackRefuses env B path content fixes e
  /-- the fixed file is not UTF-8 -/
  | decode (m m' : Node) (b : Bytes) (mode : B.Mode) (e : Err) : env.parse content = .ok m → applyReplacements m (fixes.map LintViolation.fix) = .ok m' → B.config path = .ok mode →
      env.bytes m' = .ok b → B.decode b = .error e → BlackRefuses env B path content fixes e
  /-- it cannot format the code -/
  | format (mode : B.Mode) (text : PStr) (e : Err) : FixedText env B content fixes text → B.config path = .ok mode → B.formatStr mode text = .error e → BlackRefuses env B path content fixes e
  /-- its own checks of the result fail -/
  | check (mode : B.Mode) (text text' : PStr) (e : Err) : FixedText env B content fixes text → B.config path = .ok mode → B.formatStr mode text = .ok text' → text' ≠ text →
      B.check mode text text' = some e → BlackRefuses env B path content fixes e

end Spec

namespace Fixit
open Py Spec Gen

section
variable {C : Type} (env : Env C)

/-- How a file is fixed that is linted without an error. -/
theorem lint_then_fix (p : Path) (hook : Bool) (w : World) (vs : List LintViolation) (hne : vs ≠ [])
    (h : (alone env false hook w p).1 = vs.map (reporting (env.resolve p))) :
    foundIn env w.files (env.resolve p) = vs ∧ ∃ content cfg evs, loaded env w.files (env.resolve p) = .ok (content, cfg) ∧
      fileEvents evs = [] ∧ ∀ autofix ss, accepted autofix vs ss ≠ [] →
        bytesFinish env w.files (env.resolve p) content cfg autofix hook ss =
          match fixedContent env (env.resolve p) content cfg (accepted autofix vs ss) with
          | .error e => ⟨logged evs, some (errorResult (env.resolve p) e), none⟩
          | .ok b => ⟨logged evs, none, some b⟩ := by
  have h1 := run_replicate none (fixitFile env p false hook) w _ (Nat.le_refl _)
  have h2 := alone_returns env false hook w p
  have h3 : (fixitFile env p false hook).run (List.replicate (drain none (fixitFile env p false hook) w).1.length none) w = _ :=
    run_lintFile env (env.resolve p) false hook _ w
  rw [h1] at h3
  have h4 : (drain none (fixitFile env p false hook) w).1 = vs.map (reporting (env.resolve p)) := h
  have h2' : (drain none (fixitFile env p false hook) w).2.1 = .returned () := h2
  generalize hss : List.replicate (drain none (fixitFile env p false hook) w).1.length (none : Answer) = ss0 at h3
  have hlast : (fileFinish env w.files (env.resolve p) false hook ss0).last = none ∧ foundIn env w.files (env.resolve p) = vs := by
    rw [h3] at h2' h4
    unfold script at h2' h4
    split at h2'
    · cases h2'
    · rename_i hlt
      rw [if_neg hlt] at h4
      have hinj : ∀ (a b : List LintViolation), a.map (reporting (env.resolve p)) = b.map (reporting (env.resolve p)) → a = b := by
        intro a b hab
        exact List.map_inj_right (f := reporting (env.resolve p)) (fun x y hxy => by cases hxy; rfl) |>.mp hab
      cases hl : (fileFinish env w.files (env.resolve p) false hook ss0).last with
      | none => rw [hl] at h4; exact ⟨rfl, hinj _ _ h4⟩
      | some r =>
        exfalso
        rw [hl] at h4
        simp only at h4
        have hr : r ∈ vs.map (reporting (env.resolve p)) := h4 ▸ List.mem_append.mpr (.inr List.mem_cons_self)
        obtain ⟨v, -, rfl⟩ := List.mem_map.mp hr
        have hrv : ∀ path content cfg b, (∀ r, (bytesFinish env w.files path content cfg false hook b).last = some r → r.violation = none) := by
          intro path content cfg b r hb
          unfold bytesFinish at hb
          split at hb
          · cases hb; rfl
          · cases hb; rfl
          · split at hb
            · cases hb; rfl
            · split at hb
              · cases hb; rfl
              · split at hb
                · cases hb; rfl
                · simp only at hb
                  split at hb
                  · cases hb; rfl
                  · split at hb
                    · cases hb; rfl
                    · split at hb
                      · cases hb
                      · split at hb <;> cases hb <;> rfl
        have hwv : ∀ path content u r, (writeFinish env path content u).last = some r → r.violation = none := by
          intro path content u r hw
          unfold writeFinish at hw
          split at hw
          · cases hw
          · split at hw
            · cases hw
            · split at hw
              · cases hw
              · split at hw
                · cases hw; rfl
                · split at hw <;> cases hw <;> rfl
        unfold fileFinish at hl
        cases hld : loaded env w.files (env.resolve p) with
        | error e => rw [hld] at hl; cases hl
        | ok x =>
          rw [hld] at hl
          simp only at hl
          split at hl
          · rename_i hb
            cases hl
            have := hrv _ _ _ _ _ hb
            cases this
          · have := hwv _ _ _ _ hl
            cases this
  refine ⟨hlast.2, ?_⟩
  have hl := hlast.1
  have hfi := hlast.2
  unfold fileFinish at hl
  cases hld : loaded env w.files (env.resolve p) with
  | error e => rw [hld] at hl; cases hl
  | ok x =>
    obtain ⟨content, cfg⟩ := x
    rw [hld] at hl
    simp only at hl
    have hfound : found env w.files (env.resolve p) content cfg = vs := by
      rw [← hfi]; unfold foundIn; rw [hld]
    cases hb : (bytesFinish env w.files (env.resolve p) content cfg false hook ss0).last with
    | some r => rw [hb] at hl; cases hl
    | none =>
      unfold bytesFinish at hb
      unfold found at hfound
      cases hc : env.collect w.files cfg with
      | error e => rw [hc] at hb; cases hb
      | ok rules =>
        cases rules with
        | nil => rw [hc] at hb; cases hb
        | cons r rs =>
          cases hp : env.parse content with
          | error e => rw [hc, hp] at hb; cases hb
          | ok m =>
            cases hv : env.visit w.files cfg m (r :: rs) with
            | error e => rw [hc, hp] at hb; simp only [hv] at hb; cases hb
            | ok y =>
              obtain ⟨recorded, durs⟩ := y
              rw [hc, hp] at hb hfound
              simp only [hv] at hb hfound
              cases hd : (displayed env (env.resolve p) m ((r :: rs).flatMap recorded)).2 with
              | some e => rw [hd] at hb; cases hb
              | none =>
                rw [hd] at hb
                simp only at hb
                cases hhk : (if hook then env.hookRaises (dictSet totalKey (tally recorded (r :: rs) (0, durs)).1 (tally recorded (r :: rs) (0, durs)).2) else none) with
                | some e => rw [hhk] at hb; cases hb
                | none =>
                  refine ⟨content, cfg, hookEvents hook (dictSet totalKey (tally recorded (r :: rs) (0, durs)).1 (tally recorded (r :: rs) (0, durs)).2), rfl, ?_, ?_⟩
                  · cases hook <;> rfl
                  · intro autofix ss ha
                    unfold bytesFinish
                    simp only [hc, hp, hv, hd, hhk, hfound]
                    have e1 : vs.isEmpty = false := by cases vs <;> simp_all
                    have e2 : (accepted autofix vs ss).isEmpty = false := by cases hx : accepted autofix vs ss <;> simp_all
                    simp only [e1, e2, Bool.false_eq_true, if_false]
                    cases fixedContent env (env.resolve p) content cfg (accepted autofix vs ss) <;> rfl

/-- When the fixed content cannot be made, that is reported after the violations, and no file changes. -/
theorem fix_fails (p : Path) (autofix hook : Bool) (w : World) (vs : List LintViolation) (hne : vs ≠ [])
    (h : (alone env false hook w p).1 = vs.map (reporting (env.resolve p))) (ss : List Answer) (hss : vs.length ≤ ss.length) (hacc : accepted autofix vs ss ≠ []) (e : Err)
    (he : ∀ content cfg, loaded env w.files (env.resolve p) = .ok (content, cfg) → fixedContent env (env.resolve p) content cfg (accepted autofix vs ss) = .error e) :
    ((fixitFile env p autofix hook).run ss w).1 = vs.map (reporting (env.resolve p)) ++ [errorResult (env.resolve p) e] ∧
    (((fixitFile env p autofix hook).run ss w).2.2).files = w.files := by
  obtain ⟨hfi, content, cfg, evs, hld, hev, hfin⟩ := lint_then_fix env p hook w vs hne h
  have hfin := hfin autofix ss hacc
  rw [he content cfg hld] at hfin
  have ho : (fixitFile env p autofix hook).run ss w = _ := run_lintFile env (env.resolve p) autofix hook ss w
  rw [ho, hfi]
  have hff : fileFinish env w.files (env.resolve p) autofix hook ss = ⟨id ∘ logged evs, some (errorResult (env.resolve p) e), ()⟩ := by
    unfold fileFinish
    rw [hld]
    simp only [hfin, writeFinish]
  rw [hff, script_some _ _ _ _ _ _ (Nat.not_lt.mpr hss) rfl]
  exact ⟨rfl, rfl⟩

/-- When it can be made, and can be written, it is written. -/
theorem fix_writes (p : Path) (autofix hook : Bool) (w : World) (vs : List LintViolation) (hne : vs ≠ [])
    (h : (alone env false hook w p).1 = vs.map (reporting (env.resolve p))) (ss : List Answer) (hss : vs.length ≤ ss.length) (hacc : accepted autofix vs ss ≠ []) (b : Bytes)
    (hb : ∀ content cfg, loaded env w.files (env.resolve p) = .ok (content, cfg) → fixedContent env (env.resolve p) content cfg (accepted autofix vs ss) = .ok b)
    (hbne : b ≠ []) (hopen : env.openRaises (env.resolve p) = none) (hwrite : env.writeRaises (env.resolve p) b = none) :
    ((fixitFile env p autofix hook).run ss w).1 = vs.map (reporting (env.resolve p)) ∧
    (((fixitFile env p autofix hook).run ss w).2.2).files (env.resolve p) = some b := by
  obtain ⟨hfi, content, cfg, evs, hld, hev, hfin⟩ := lint_then_fix env p hook w vs hne h
  have hfin := hfin autofix ss hacc
  rw [hb content cfg hld] at hfin
  have ho : (fixitFile env p autofix hook).run ss w = _ := run_lintFile env (env.resolve p) autofix hook ss w
  have hsrc : w.files (env.resolve p) = some content := by
    unfold loaded at hld
    split at hld
    · cases hld
    · rename_i c hc
      split at hld
      · cases hld
      · split at hld
        · cases hld
        · cases hld; exact hc
  rw [ho, hfi]
  have e1 : b.isEmpty = false := by cases b <;> simp_all
  have hff : ∃ upd, fileFinish env w.files (env.resolve p) autofix hook ss = ⟨upd, none, ()⟩ ∧ (upd w).files (env.resolve p) = some b := by
    unfold fileFinish
    rw [hld]
    simp only [hfin, writeFinish, e1, Bool.false_eq_true, if_false, hopen, hwrite]
    by_cases hbc : b = content
    · exact ⟨_, by rw [if_pos hbc], by simp [logged, hbc, hsrc]⟩
    · exact ⟨_, by rw [if_neg hbc], by simp [World.put, World.note, logged]⟩
  obtain ⟨upd, hff, hupd⟩ := hff
  rw [hff]
  unfold script
  rw [if_neg (Nat.not_lt.mpr hss)]
  exact ⟨rfl, hupd⟩

variable (B : Black)

theorem black_fixed (cfg : C) (hblack : UsesBlack env B cfg) (path : Path) (content : Bytes) (fixes : List LintViolation) (text : PStr) (htext : FixedText env B content fixes text)
    (mode : B.Mode) (hmode : B.config path = .ok mode) :
    fixedContent env path content cfg fixes = match B.formatFileContents mode text with | .error e => .error e | .ok s => B.encode s := by
  obtain ⟨m, m', b, h1, h2, h3, h4⟩ := htext
  obtain ⟨hf, before, after, hst, hno⟩ := hblack
  unfold fixedContent
  simp only [h1, h2, Bind.bind, Except.bind]
  rw [(C69_configured_formatter env m' path cfg).2.1 (py "black") before (B.format env.bytes) after hf hst hno]
  simp only [Black.format, Bind.bind, Except.bind, hmode, h3, h4]
  cases B.formatFileContents mode text <;> rfl

/-- C118: with `formatter = "black"`, when black has nothing to change in the fixed code, the fix is not made: after the violations an error is reported, `NothingChanged`, and the file
stays as it was. -/
theorem C118_lost (p : Path) (autofix hook : Bool) (w : World) (vs : List LintViolation) (hne : vs ≠ [])
    (h : (alone env false hook w p).1 = vs.map (reporting (env.resolve p))) (ss : List Answer) (hss : vs.length ≤ ss.length) (hacc : accepted autofix vs ss ≠ [])
    (content : Bytes) (cfg : C) (hc : w.files (env.resolve p) = some content) (hcfg : env.config w.files (env.resolve p) = .ok cfg) (hblack : UsesBlack env B cfg)
    (text : PStr) (htext : FixedText env B content (accepted autofix vs ss) text) (mode : B.Mode) (hmode : B.config (env.resolve p) = .ok mode)
    (hstyle : B.formatStr mode text = .ok text) :
    ((fixitFile env p autofix hook).run ss w).1 = vs.map (reporting (env.resolve p)) ++ [errorResult (env.resolve p) B.nothingChanged] ∧
    (((fixitFile env p autofix hook).run ss w).2.2).files = w.files := by
  refine fix_fails env p autofix hook w vs hne h ss hss hacc B.nothingChanged ?_
  intro content' cfg' hld
  unfold loaded at hld
  rw [hc] at hld
  simp only at hld
  split at hld
  · cases hld
  · rw [hcfg] at hld
    cases hld
    rw [black_fixed env B cfg hblack _ content _ text htext mode hmode]
    simp [Black.formatFileContents, hstyle]

/-- C118: otherwise, if black can format the fixed code and what it makes passes its checks, that is written. -/
theorem C118_written (p : Path) (autofix hook : Bool) (w : World) (vs : List LintViolation) (hne : vs ≠ [])
    (h : (alone env false hook w p).1 = vs.map (reporting (env.resolve p))) (ss : List Answer) (hss : vs.length ≤ ss.length) (hacc : accepted autofix vs ss ≠ [])
    (content : Bytes) (cfg : C) (hc : w.files (env.resolve p) = some content) (hcfg : env.config w.files (env.resolve p) = .ok cfg) (hblack : UsesBlack env B cfg)
    (text : PStr) (htext : FixedText env B content (accepted autofix vs ss) text) (mode : B.Mode) (hmode : B.config (env.resolve p) = .ok mode)
    (text' : PStr) (hstyle : B.formatStr mode text = .ok text') (hdiff : text' ≠ text) (hcheck : B.check mode text text' = none)
    (b : Bytes) (henc : B.encode text' = .ok b) (hbne : b ≠ []) (hopen : env.openRaises (env.resolve p) = none) (hwrite : env.writeRaises (env.resolve p) b = none) :
    ((fixitFile env p autofix hook).run ss w).1 = vs.map (reporting (env.resolve p)) ∧
    (((fixitFile env p autofix hook).run ss w).2.2).files (env.resolve p) = some b := by
  refine fix_writes env p autofix hook w vs hne h ss hss hacc b ?_ hbne hopen hwrite
  intro content' cfg' hld
  unfold loaded at hld
  rw [hc] at hld
  simp only at hld
  split at hld
  · cases hld
  · rw [hcfg] at hld
    cases hld
    rw [black_fixed env B cfg hblack _ content _ text htext mode hmode]
    have hd : ¬ text = text' := fun e => hdiff e.symm
    simp [Black.formatFileContents, hstyle, hd, hcheck, henc]

/-- C118: when black refuses the fixed code, because it is not UTF-8 or for another reason, the fix is not made: after the violations that error is reported, and the file stays as it
was. -/
theorem C118_refused (p : Path) (autofix hook : Bool) (w : World) (vs : List LintViolation) (hne : vs ≠ [])
    (h : (alone env false hook w p).1 = vs.map (reporting (env.resolve p))) (ss : List Answer) (hss : vs.length ≤ ss.length) (hacc : accepted autofix vs ss ≠ [])
    (content : Bytes) (cfg : C) (hc : w.files (env.resolve p) = some content) (hcfg : env.config w.files (env.resolve p) = .ok cfg) (hblack : UsesBlack env B cfg)
    (e : Err) (he : BlackRefuses env B (env.resolve p) content (accepted autofix vs ss) e) :
    ((fixitFile env p autofix hook).run ss w).1 = vs.map (reporting (env.resolve p)) ++ [errorResult (env.resolve p) e] ∧
    (((fixitFile env p autofix hook).run ss w).2.2).files = w.files := by
  refine fix_fails env p autofix hook w vs hne h ss hss hacc e ?_
  intro content' cfg' hld
  unfold loaded at hld
  rw [hc] at hld
  simp only at hld
  split at hld
  · cases hld
  · rw [hcfg] at hld
    cases hld
    have hfmt : ∀ m m', env.parse content = .ok m → applyReplacements m ((accepted autofix vs ss).map LintViolation.fix) = .ok m' →
        fixedContent env (env.resolve p) content cfg (accepted autofix vs ss) = B.format env.bytes m' (env.resolve p) := by
      intro m m' h1 h2
      obtain ⟨hf, before, after, hst, hno⟩ := hblack
      unfold fixedContent
      simp only [h1, h2, Bind.bind, Except.bind]
      rw [(C69_configured_formatter env m' (env.resolve p) cfg).2.1 (py "black") before (B.format env.bytes) after hf hst hno]
    cases he with
    | config m m' _ h1 h2 h3 =>
      rw [hfmt m m' h1 h2]
      simp [Black.format, Bind.bind, Except.bind, h3]
    | decode m m' b mode _ h1 h2 h3 h4 h5 =>
      rw [hfmt m m' h1 h2]
      simp [Black.format, Bind.bind, Except.bind, h3, h4, h5]
    | format mode text _ htext hmode h3 =>
      rw [black_fixed env B cfg hblack _ content _ text htext mode hmode]
      simp [Black.formatFileContents, h3]
    | check mode text text' _ htext hmode h3 hd h4 =>
      rw [black_fixed env B cfg hblack _ content _ text htext mode hmode]
      have hd' : ¬ text = text' := fun e => hd e.symm
      simp [Black.formatFileContents, h3, hd', h4]

/-- C118: with `formatter = "black"`, fixing all violations of a file in black's style fails when none of them has a fix. -/
theorem C118_unfixable (p : Path) (hook : Bool) (w : World) (vs : List LintViolation) (hne : vs ≠ [])
    (h : (alone env false hook w p).1 = vs.map (reporting (env.resolve p))) (ss : List Answer) (hss : vs.length ≤ ss.length) (hun : ∀ v ∈ vs, v.autofixable = false)
    (content : Bytes) (cfg : C) (m : Node) (hc : w.files (env.resolve p) = some content) (hcfg : env.config w.files (env.resolve p) = .ok cfg) (hblack : UsesBlack env B cfg)
    (hp : env.parse content = .ok m) (hround : env.bytes m = .ok content) (text : PStr) (hdec : B.decode content = .ok text) (mode : B.Mode)
    (hmode : B.config (env.resolve p) = .ok mode) (hstyle : B.formatStr mode text = .ok text) :
    ((fixitFile env p true hook).run ss w).1 = vs.map (reporting (env.resolve p)) ++ [errorResult (env.resolve p) B.nothingChanged] ∧
    (((fixitFile env p true hook).run ss w).2.2).files = w.files := by
  have hall : accepted true vs ss = vs := accepted_all vs ss hss
  refine C118_lost env B p true hook w vs hne h ss hss (by rw [hall]; exact hne) content cfg hc hcfg hblack text ?_ mode hmode hstyle
  rw [hall]
  have hm : applyReplacements m (vs.map LintViolation.fix) = .ok m := by
    obtain ⟨m', h1, h2, -⟩ := C34_no_fixes_identity m (vs.map LintViolation.fix) (by
      intro f hf
      rw [List.mem_map] at hf
      obtain ⟨v, hv, rfl⟩ := hf
      left
      have := hun v hv
      simpa [LintViolation.autofixable] using this)
    rw [h1, h2]
  exact ⟨m, m, content, hp, hm, hround, hdec⟩

end

/-! ## Cases: the toy language; black ends a file with exactly one `!` -/

def toyBlack : Black where
  Mode := Unit
  config := fun _ => .ok ()
  formatStr := fun _ s => .ok (s.filter (· ≠ '!') ++ ['!'])
  check := fun _ _ _ => none
  decode := fun b => .ok (b.map (fun x => Char.ofNat x.toNat))
  encode := fun s => .ok (s.map (fun c => UInt8.ofNat c.toNat))
  nothingChanged := .other 9

def blackEnv : Env Unit := { toyEnv none (some (py "black")) [] with styles := [(py "black", toyBlack.format (fun m => .ok (toyBytes m)))] }

theorem blackEnv_uses : UsesBlack blackEnv toyBlack () := ⟨rfl, [], [], rfl, by simp⟩

/-- C118: the fix of `ab` is formatted and written; that of `ab!` is lost. -/
example : shown ((fixitFile blackEnv [py "f"] true false).run [none] (toyWorld [97, 98])).1 = [(some (py "b"), false)] ∧
    fContent ((fixitFile blackEnv [py "f"] true false).run [none] (toyWorld [97, 98])).2.2 = some [97, 66, 33] := by decide +kernel
example : shown ((fixitFile blackEnv [py "f"] true false).run [none] (toyWorld [97, 98, 33])).1 = [(some (py "b"), false), (none, true)] ∧
    fContent ((fixitFile blackEnv [py "f"] true false).run [none] (toyWorld [97, 98, 33])).2.2 = some [97, 98, 33] := by decide +kernel

/-- C118: the theorem about files without fixes applies to `an!`. -/
example (ss : List Answer) (hss : 1 ≤ ss.length) : (((fixitFile blackEnv [py "f"] true false).run ss (toyWorld [97, 110, 33])).2.2).files = (toyWorld [97, 110, 33]).files :=
  (C118_unfixable blackEnv toyBlack [py "f"] false (toyWorld [97, 110, 33]) (foundIn blackEnv (toyWorld [97, 110, 33]).files [py "root", py "f"])
    (by intro h; have := congrArg List.length h; revert this; decide +kernel) rfl ss hss
    (by intro v hv; have hv : v ∈ [(⟨⟨py "Toy", ⟨⟨1, 2⟩, ⟨1, 3⟩⟩, py "n", 2, none⟩, []⟩ : LintViolation)] := hv; simp at hv; subst hv; rfl)
    [97, 110, 33] () _ (by decide) rfl blackEnv_uses rfl rfl (py "an!") rfl () rfl rfl).2

/-- The same black, which takes only ASCII. -/
def asciiBlack : Black := { toyBlack with decode := fun b => if b.all (· < 128) then .ok (b.map (fun x => Char.ofNat x.toNat)) else .error (.other 6) }

def asciiEnv : Env Unit := { toyEnv none (some (py "black")) [] with styles := [(py "black", asciiBlack.format (fun m => .ok (toyBytes m)))] }

/-- C118: the fix in a file that is not in the encoding is not made. -/
example : shown ((fixitFile asciiEnv [py "f"] true false).run [none] (toyWorld [200, 98])).1 = [(some (py "b"), false), (none, true)] ∧
    fContent ((fixitFile asciiEnv [py "f"] true false).run [none] (toyWorld [200, 98])).2.2 = some [200, 98] := by decide +kernel
example : UsesBlack asciiEnv asciiBlack () := ⟨rfl, [], [], rfl, by simp⟩
example (fixes : List LintViolation) (m m' : Node) (h1 : toyParse [200, 98] = .ok m) (h2 : applyReplacements m (fixes.map LintViolation.fix) = .ok m') (h3 : toyBytes m' = [200, 66]) :
    BlackRefuses asciiEnv asciiBlack [py "root", py "f"] [200, 98] fixes (.other 6) :=
  .decode m m' [200, 66] () (.other 6) h1 h2 rfl (congrArg Except.ok h3) rfl

end Fixit
