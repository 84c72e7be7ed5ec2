import Verif.Props.Reordered
import Verif.Props.Testing

/-!
# C141: what a passing rule test says about linting files anywhere
-/

namespace Spec
open Py Fixit Cst

/-- On this module, what the rule does depends on the module only: not on the other files, nor on where the file or the root of its configuration is. -/
structure OnlyCode (v : Visits) (m : Node) (k : Nat) : Prop where
  rule : ∀ files files' root root' path path', v.rule files root path m k = v.rule files' root' path' m k
  names : ∀ files files' root root' path path', v.names files root path m = v.names files' root' path' m

/-- The file is `path`, with the code of the test case as its content, and linting it goes through; the rule of class `k` is one of those that are selected for it. -/
structure InProject {V M : Type} (o : Outside V M) (v : Visits) (bench : Bench (Config V)) (options : Option Options) (files : Path → Option Bytes) (path : Path) (code : PStr)
    (cfg : Config V) (m : Node) (k : Nat) : Prop where
  content : ∃ src, bench.encode (dedent code) = .ok src ∧ Lints (o.walking v) options files path src cfg m
  selected : Active o files cfg k
  reads : ∀ k', Active o files cfg k' → KeepsMetadata (v.rule files cfg.root cfg.path m k')

end Spec

namespace Fixit
open Py Spec Gen Cst

section
variable {V M : Type} (o : Outside V M) (v : Visits)

/-- What one rule records, visiting alone. -/
theorem tested_recorded (options : Option Options) (files : Path → Option Bytes) (cfg : Config V) (m : Node) (k : Nat) (hk : KeepsMetadata (v.rule files cfg.root cfg.path m k))
    (recorded : RuleInst → List (Violation Nat Repl)) (durs : Metrics) (hvis : ((o.walking v).env options).visit files cfg m [o.inst k] = .ok (recorded, durs)) :
    ∃ reps, (v.rule files cfg.root cfg.path m k).alone (v.names files cfg.root cfg.path m) (v.syn m) = .ok reps ∧
      Recorded (o.walking v) m k (reps.map (v.call m)) (recorded (o.inst k)) := by
  have hvis : (o.walking v).visit files cfg m ([k].map o.inst) = .ok (recorded, durs) := hvis
  unfold Outside.visit at hvis
  cases hrun : (o.walking v).runCalls m ((o.walking v).visitors files cfg m ([k].map o.inst)).calls (fun _ => []) with
  | error e => rw [hrun] at hvis; cases hvis
  | ok st' =>
    rw [hrun] at hvis
    cases hraised : ((o.walking v).visitors files cfg m ([k].map o.inst)).raised with
    | some e => simp only [hraised] at hvis; cases hvis
    | none =>
      simp only [hraised, Except.ok.injEq, Prod.mk.injEq] at hvis
      obtain ⟨rfl, -⟩ := hvis
      obtain ⟨vs, hrec, hst⟩ := runCalls_recorded (o.walking v) m k _ _ _ hrun
      have hst : st' (o.inst k) = [] ++ vs := hst
      rw [List.nil_append] at hst
      obtain ⟨reps, h1, h2⟩ := calls_alone o v files cfg m [k] (List.nodup_cons.mpr ⟨List.not_mem_nil, List.nodup_nil⟩) hraised
        (fun k' hm => by rw [List.mem_singleton.mp hm]; exact hk) k (List.mem_singleton.mpr rfl)
      have h2 : ((((o.walking v).visitors files cfg m ([k].map o.inst)).calls.filter (fun x => x.1 = (o.walking v).inst k)).map Prod.snd) = reps.map (v.call m) := h2
      refine ⟨reps, h1, ?_⟩
      rw [hst]
      exact h2 ▸ hrec

theorem shown_base {C : Type} {env : Env C} {path : Path} {m : Node} {vs : List (Violation Nat Repl)} {l : List LintViolation} (h : Shown env path m vs l) :
    l.map LintViolation.base = vs := by
  induction h with
  | nil => rfl
  | cons x xs lx lxs hd _ ih => rw [List.map_cons, ih, display_base hd]

variable (horder : ∀ l, (o.ruleOrder l).Perm l) (bench : Bench (Config V)) {topts options : Option Options} {w : World} {tpath : Path} {code : PStr} {k : Nat} {m tm : Node}
  {vs : List (Violation Nat Repl)} {files : Path → Option Bytes} {path : Path} {cfg : Config V}
include horder

/-- What the test saw is, rule by rule, what is found in the file. -/
theorem tested_block (hl : Linted ((o.walking v).env topts) bench w tpath code (o.inst k) tm vs) (hp : InProject o v bench options files path code cfg m k) (honly : OnlyCode v m k) :
    ∃ (c : Collected Nat M) (F : Nat → List LintViolation), tm = m ∧ (collectRules (o.rules files) o.ruleOrder cfg o.sysPath o.mods).1 = .ok c ∧
      foundIn ((o.walking v).env options) files path = c.rules.flatMap F ∧ k ∈ c.rules ∧ (F k).map LintViolation.base = vs ∧
      ∀ k' ∈ c.rules, ∀ lv ∈ F k', lv.base.ruleName = ruleName (o.className k') := by
  obtain ⟨⟨src, hsrc, hlints⟩, hsel, hreads⟩ := hp
  obtain ⟨⟨src', recorded, durs, h1, h2, h3, rfl⟩, -⟩ := hl
  rw [hsrc] at h1
  cases h1
  have hparse : ((o.walking v).env topts).parse src = .ok m := hlints.parse
  rw [hparse] at h2
  cases h2
  obtain ⟨c, F, hc, hf, hb⟩ := found_blocks o v horder options files path src cfg m hlints hreads
  obtain ⟨-, hact⟩ := selected_iff o horder files cfg c hc
  have hm := (hact k).mpr hsel
  refine ⟨c, F, rfl, hc, hf, hm, ?_, ?_⟩
  · obtain ⟨reps, vs, a1, a2, a3⟩ := hb k hm
    obtain ⟨reps', b1, b2⟩ := tested_recorded o v topts w.files (bench.config tpath) m k
      (by rw [honly.rule w.files files _ cfg.root _ cfg.path]; exact hreads k hsel) recorded durs h3
    rw [honly.rule w.files files _ cfg.root _ cfg.path, honly.names w.files files _ cfg.root _ cfg.path, a1] at b1
    cases b1
    rw [shown_base a3]
    exact Recorded.unique (o.walking v) a2 b2
  · intro k' hk' lv hlv
    obtain ⟨reps, vs, a1, a2, a3⟩ := hb k' hk'
    have hn := Recorded.names (o.walking v) a2
    have := shown_base a3
    exact hn lv.base (by rw [← this]; exact List.mem_map_of_mem hlv)

/-- What the test saw is what the rule reports in the file. -/
theorem tested_ofRule (hl : Linted ((o.walking v).env topts) bench w tpath code (o.inst k) tm vs) (hp : InProject o v bench options files path code cfg m k) (honly : OnlyCode v m k)
    (hapart : NamesApart o files cfg) : (ofRule o k (foundIn ((o.walking v).env options) files path)).map LintViolation.base = vs := by
  obtain ⟨c, F, -, hc, hf, hm, hb, hn⟩ := tested_block o v horder bench hl hp honly
  obtain ⟨hnd, hact⟩ := selected_iff o horder files cfg c hc
  rw [hf, ← hb]
  congr 1
  have hgen : ∀ ks : List Nat, (∀ k' ∈ ks, k' ∈ c.rules) → ks.Nodup → ofRule o k (ks.flatMap F) = if k ∈ ks then F k else [] := by
    intro ks
    induction ks with
    | nil => intro _ _; rfl
    | cons k' ks ih =>
      intro hin hnd'
      obtain ⟨hnot, hnd'⟩ := List.nodup_cons.mp hnd'
      have ih := ih (fun k'' h => hin k'' (List.mem_cons_of_mem _ h)) hnd'
      unfold ofRule at ih ⊢
      rw [List.flatMap_cons, List.filter_append, ih]
      by_cases hkk : k' = k
      · subst hkk
        rw [if_neg hnot, if_pos List.mem_cons_self, List.append_nil]
        exact List.filter_eq_self.mpr (fun lv hlv => by simpa using hn k' hm lv hlv)
      · have : (F k').filter (fun lv => decide (lv.base.ruleName = ruleName (o.className k))) = [] := by
          refine List.filter_eq_nil_iff.mpr (fun lv hlv => ?_)
          rw [decide_eq_true_eq, hn k' (hin k' List.mem_cons_self) lv hlv]
          intro he
          exact hkk (hapart k' k ((hact k').mp (hin k' List.mem_cons_self)) ((hact k).mp hm) he)
        rw [this, List.nil_append]
        have : (k ∈ k' :: ks) ↔ k ∈ ks := by
          rw [List.mem_cons]
          exact ⟨fun h => h.resolve_left (fun h => hkk h.symm), Or.inr⟩
        simp only [this]
  rw [hgen c.rules (fun _ h => h) hnd, if_pos hm]

/-- **C141** If a `VALID` case of a rule passes, then in every file, anywhere, with exactly that code, for which the rule is selected, the rule finds nothing; whatever other
rules are selected. -/
theorem C141_valid (hpass : testMethod ((o.walking v).env topts) bench w (.valid code) (o.inst k) = .ok ()) (hp : InProject o v bench options files path code cfg m k)
    (honly : OnlyCode v m k) (hapart : NamesApart o files cfg) : ofRule o k (foundIn ((o.walking v).env options) files path) = [] := by
  obtain ⟨tm, hl⟩ := (C91_valid _ bench w code (o.inst k)).mp hpass
  have := tested_ofRule o v horder bench hl hp honly hapart
  exact List.map_eq_nil_iff.mp this

/-- **C141** If an `INVALID` case passes, the rule finds something in every such file, and everything it finds has the range and the message the case says. -/
theorem C141_invalid {i : Invalid} (hcode : i.code = code) (hpass : testMethod ((o.walking v).env topts) bench w (.invalid i) (o.inst k) = .ok ())
    (hp : InProject o v bench options files path code cfg m k) (honly : OnlyCode v m k) (hapart : NamesApart o files cfg) :
    ofRule o k (foundIn ((o.walking v).env options) files path) ≠ [] ∧ ∀ lv ∈ ofRule o k (foundIn ((o.walking v).env options) files path), AsExpected i lv.base := by
  subst hcode
  obtain ⟨tm, vs, hl, hne, hall, -⟩ := (C91_invalid _ bench w i (o.inst k)).mp hpass
  have := tested_ofRule o v horder bench hl hp honly hapart
  subst this
  exact ⟨fun h => hne (by rw [h]; rfl), fun lv hlv => hall lv.base (List.mem_map_of_mem hlv)⟩

/-- **C141** If an `INVALID` case with a replacement passes, then fixing such a file, when this is the only rule that is selected for it and no formatter is configured, reports
the violations, and nothing else, and leaves the expected text in the file. -/
theorem C141_fix {i : Invalid} {text : PStr} {wp : World} {p : Path} {cfg : Config V} {m : Node} (hpass : testMethod ((o.walking v).env topts) bench w (.invalid i) (o.inst k) = .ok ())
    (htext : i.replacement = some text) (hne : text ≠ []) (hp : InProject o v bench options wp.files (o.base.resolve p) i.code cfg m k) (honly : OnlyCode v m k)
    (hone : ∀ k', Active o wp.files cfg k' → k' = k) (hfmt : cfg.formatter = none) (hopen : o.base.openRaises (o.base.resolve p) = none)
    (hwrite : ∀ b, o.base.writeRaises (o.base.resolve p) b = none) (hook : Bool) (hhook : hook = true → ∀ μ, o.base.hookRaises μ = none) :
    (alone ((o.walking v).env options) true hook wp p).1 = (foundIn ((o.walking v).env options) wp.files (o.base.resolve p)).map (reporting (o.base.resolve p)) ∧
    ∃ b, bench.decode b = .ok (dedent text) ∧ (b ≠ [] → (alone ((o.walking v).env options) true hook wp p).2.2.files = fun q => if q = o.base.resolve p then some b else wp.files q) ∧
      (b = [] → (alone ((o.walking v).env options) true hook wp p).2.2.files = wp.files) := by
  obtain ⟨tm, vs, hl, hvs, -, hfix⟩ := (C91_invalid _ bench w i (o.inst k)).mp hpass
  obtain ⟨⟨m', b, ha, hb, hdec⟩, -⟩ := hfix text htext hne
  obtain ⟨c, F, rfl, hc, hf, hm, hbase, -⟩ := tested_block o v horder bench hl hp honly
  obtain ⟨hnd, hact⟩ := selected_iff o horder wp.files cfg c hc
  have hrules : c.rules = [k] := by
    have hall : ∀ k' ∈ c.rules, k' = k := fun k' h => hone k' ((hact k').mp h)
    cases hcr : c.rules with
    | nil => rw [hcr] at hm; cases hm
    | cons a as =>
      rw [hcr] at hall hnd
      have h1 := hall a List.mem_cons_self
      cases as with
      | nil => rw [h1]
      | cons a' as =>
        have h2 := hall a' (List.mem_cons_of_mem _ List.mem_cons_self)
        exact absurd List.mem_cons_self (h1 ▸ h2 ▸ (List.nodup_cons.mp hnd).1)
  rw [hrules, List.flatMap_cons, List.flatMap_nil, List.append_nil] at hf
  obtain ⟨src, -, hlints⟩ := hp.content
  obtain ⟨w1, w2⟩ := lints_whole (o.walking v) horder options wp p src cfg tm hlints true hook hhook
  have hf' : foundIn ((o.walking v).env options) wp.files ((o.walking v).base.resolve p) = F k := hf
  have hgne : F k ≠ [] := by intro h; rw [h] at hbase; exact hvs hbase.symm
  have hfc : fixedContent ((o.walking v).env options) ((o.walking v).base.resolve p) src cfg (F k) = .ok b := by
    have h2 : ((o.walking v).env options).parse src = .ok tm := hlints.parse
    have hfmt' : ((o.walking v).env options).formatter cfg = none := hfmt
    have hb' : ((o.walking v).env options).bytes m' = .ok b := hb
    unfold fixedContent formatModule
    rw [h2, map_fix, hbase]
    simp only [Bind.bind, Except.bind, ha, hfmt', hb']
  have hwhole : wholeFinish ((o.walking v).env options) ((o.walking v).base.resolve p) src cfg true (F k) =
      writeFinish ((o.walking v).env options) ((o.walking v).base.resolve p) src (some b) := by
    unfold wholeFinish
    rw [if_neg hgne, if_pos rfl, hfc]
  rw [hf', hwhole] at w1 w2
  have hopen' : ((o.walking v).env options).openRaises ((o.walking v).base.resolve p) = none := hopen
  have hwrite' : ((o.walking v).env options).writeRaises ((o.walking v).base.resolve p) b = none := hwrite b
  have hsrc : wp.files (o.base.resolve p) = some src := hlints.source
  rw [hf, w1, w2]
  unfold writeFinish
  cases b with
  | nil => exact ⟨by simp [Outside.walking], [], hdec, fun h => absurd rfl h, fun _ => by simp⟩
  | cons x xs =>
    simp only [List.isEmpty_cons, Bool.false_eq_true, if_false]
    by_cases heq : (x :: xs) = src
    · rw [if_pos heq]
      refine ⟨by simp [Outside.walking], x :: xs, hdec, fun _ => ?_, fun h => by cases h⟩
      funext q
      by_cases hq : q = o.base.resolve p
      · rw [if_pos hq, hq, heq]; exact hsrc
      · rw [if_neg hq]; rfl
    · rw [if_neg heq]
      simp only [hopen', hwrite']
      refine ⟨by simp [Outside.walking], x :: xs, hdec, fun _ => ?_, fun h => by cases h⟩
      funext q
      simp only [World.note, World.put, Outside.walking]
      by_cases hq : q = o.base.resolve p
      · simp [hq]
      · simp [hq]

end
end Fixit
