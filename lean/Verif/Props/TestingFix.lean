import Verif.Props.Testing
import Verif.Props.Lsp

/-!
# C91, continued: a passing test case predicts linting and fixing
-/

namespace Fixit
open Py Spec Gen

section
variable {C : Type} (env : Env C) (bench : Bench C)

/-- C91: what a passing `INVALID` case with a replacement promises is what a user gets: linting that text with this rule alone, under the same configuration and
without a formatter, with autofix, reports the same violations and leaves exactly the expected text. -/
theorem C91_predicts_fix (w : World) (i : Invalid) (rule : RuleInst) (text : PStr) (src : Bytes) (cfg : C)
    (hpass : testMethod env bench w (.invalid i) rule = .ok ()) (htext : i.replacement = some text) (hne : text ≠ [])
    (hsrc : bench.encode (dedent i.code) = .ok src) (hcfg : cfg = bench.config (bench.cwd ++ [py "invalid.py"]))
    (hcollect : env.collect w.files cfg = .ok [rule]) (hfmt : env.formatter cfg = none) :
    ∃ b, ((fixitBytes env (bench.cwd ++ [py "invalid.py"]) src cfg true false).drain none w).2.1 = .returned (some b) ∧ bench.decode b = .ok (dedent text) ∧
      ∃ (m : Node) (vs : List (Violation Nat Repl)) (good : List LintViolation), Linted env bench w (bench.cwd ++ [py "invalid.py"]) i.code rule m vs ∧ good.map LintViolation.base = vs ∧
        ((fixitBytes env (bench.cwd ++ [py "invalid.py"]) src cfg true false).drain none w).1 = good.map (reporting (bench.cwd ++ [py "invalid.py"])) := by
  subst hcfg
  obtain ⟨m, vs, hlinted, hvs, -, hfix⟩ := (C91_invalid env bench w i rule).mp hpass
  have hlinted' := hlinted
  obtain ⟨⟨src', recorded, durs, h1, h2, h3, rfl⟩, hshown⟩ := hlinted
  rw [hsrc] at h1
  cases h1
  obtain ⟨⟨m', b, ha, hb, hdec⟩, -⟩ := hfix text htext hne
  generalize hpath : bench.cwd ++ [py "invalid.py"] = path at *
  obtain ⟨good, hgood⟩ := displayed_all env path m _ hshown
  have hbase := (displayed_ok env path m _ _ hgood).1
  have hflat : [rule].flatMap recorded = recorded rule := by simp
  have hfound : found env w.files path src (bench.config path) = good := by
    unfold found
    simp only [hcollect, h2, h3, hflat, hgood]
  have hgne : good ≠ [] := by intro h; rw [h] at hbase; exact hvs hbase.symm
  obtain ⟨n, hn, e1, e2⟩ := drain_fixitBytes env path src (bench.config path) true false w
  rw [hfound] at hn e1
  have hacc : accepted true good (List.replicate n none) = good := accepted_all _ _ (by simpa using hn)
  have hfc : fixedContent env path src (bench.config path) good = .ok b := by
    unfold fixedContent formatModule
    rw [h2, map_fix, hbase]
    simp only [Bind.bind, Except.bind, ha, hfmt, hb]
  have hfin : (bytesFinish env w.files path src (bench.config path) true false (List.replicate n none)).last = none ∧
      (bytesFinish env w.files path src (bench.config path) true false (List.replicate n none)).ret = some b := by
    unfold bytesFinish
    simp only [hcollect, h2, h3, hflat, hgood, Bool.false_eq_true, if_false, hacc, hfc]
    have : good.isEmpty = false := by cases good <;> simp_all
    simp [this]
  refine ⟨b, by rw [e2, hfin.2], hdec, m, _, good, hlinted', hbase, ?_⟩
  rw [e1, hfin.1]
  simp only [Option.toList_none, List.append_nil]

/-- C91: and a passing `VALID` case that linting that text with this rule reports nothing. -/
theorem C91_predicts_clean (w : World) (code : PStr) (rule : RuleInst) (src : Bytes) (cfg : C) (autofix : Bool)
    (hpass : testMethod env bench w (.valid code) rule = .ok ()) (hsrc : bench.encode (dedent code) = .ok src)
    (hcfg : cfg = bench.config (bench.cwd ++ [py "valid.py"])) (hcollect : env.collect w.files cfg = .ok [rule]) :
    ((fixitBytes env (bench.cwd ++ [py "valid.py"]) src cfg autofix false).drain none w).1 = [cleanResult (bench.cwd ++ [py "valid.py"])] ∧
    ((fixitBytes env (bench.cwd ++ [py "valid.py"]) src cfg autofix false).drain none w).2.1 = .returned none := by
  subst hcfg
  obtain ⟨m, ⟨src', recorded, durs, h1, h2, h3, hnil⟩, -⟩ := (C91_valid env bench w code rule).mp hpass
  rw [hsrc] at h1
  cases h1
  generalize hpath : bench.cwd ++ [py "valid.py"] = path at *
  have hflat : [rule].flatMap recorded = [] := by simp [← hnil]
  have hfound : found env w.files path src (bench.config path) = [] := by
    unfold found
    simp only [hcollect, h2, h3, hflat, displayed]
  obtain ⟨n, hn, e1, e2⟩ := drain_fixitBytes env path src (bench.config path) autofix false w
  rw [hfound] at e1
  have hfin : (bytesFinish env w.files path src (bench.config path) autofix false (List.replicate n none)).last = some (cleanResult path) ∧
      (bytesFinish env w.files path src (bench.config path) autofix false (List.replicate n none)).ret = none := by
    unfold bytesFinish
    simp only [hcollect, h2, h3, hflat, displayed, Bool.false_eq_true, if_false]
    simp
  rw [e1, e2, hfin.1, hfin.2]
  exact ⟨rfl, rfl⟩

end

/-! A rule that reports the first statement and replaces it, on a concrete file. -/

/-- A module `x` or whatever the text is: one node with one child whose text is the code. -/
def benchModule (code : PStr) : Node := .mk 0 false false (.seq [] true [] [] (.cons (.mk 1 false true (.tok code .nil)) .nil) .nil)

/-- Encode as code points below 256. -/
def benchEncode (s : PStr) : Bytes := s.map (fun c => UInt8.ofNat c.toNat)
def benchDecode (b : Bytes) : PStr := b.map (fun x => Char.ofNat x.toNat)

/-- A rule that replaces the whole file `a\n` by `b\n`. -/
def benchEnv : Env Unit where
  resolve := id
  config := fun _ _ => .ok ()
  collect := fun _ _ => .ok [⟨0, py "R"⟩]
  parse := fun b => .ok (benchModule (benchDecode b))
  visit := fun _ _ m _ => .ok ((fun _ => if moduleCode m = py "a\n" then
    [⟨py "R", ⟨⟨1, 0⟩, ⟨1, 1⟩⟩, py "no a", 1, some (.node (.mk 2 false true (.tok (py "b\n") .nil)))⟩] else []), [])
  unifiedDiff := fun _ _ _ => .ok (py "diff")
  hookRaises := fun _ => none
  formatter := fun _ => none
  styles := []
  bytes := fun m => .ok (benchEncode (moduleCode m))
  readRaises := fun _ => none
  openRaises := fun _ => none
  writeRaises := fun _ _ => none
  stdin := .ok []
  stdoutRaises := fun _ => none

def demoBench : Bench Unit := ⟨[py "work"], fun _ => (), fun s => .ok (benchEncode s), fun b => .ok (benchDecode b), .other 9⟩

/-- The hypotheses of C91_predicts_fix are met; a wrong expectation fails. -/
example : testMethod benchEnv demoBench ⟨fun _ => none, []⟩
    (.invalid { code := py "\n   a\n   ", range := some ⟨⟨1, 0⟩, ⟨1, 1⟩⟩, message := some (py "no a"), replacement := some (py "\n  b\n  ") }) ⟨0, py "R"⟩ = .ok () := by
  rfl

example : testMethod benchEnv demoBench ⟨fun _ => none, []⟩ (.invalid { code := py "a\n", replacement := some (py "c\n") }) ⟨0, py "R"⟩ =
    .error (.assertion (.text (py "c\n") (py "b\n"))) := by rfl

example : testMethod benchEnv demoBench ⟨fun _ => none, []⟩ (.invalid { code := py "a\n", message := some (py "x") }) ⟨0, py "R"⟩ =
    .error (.assertion (.message (py "x") (py "no a"))) := by rfl

example : testMethod benchEnv demoBench ⟨fun _ => none, []⟩ (.valid (py "c\n")) ⟨0, py "R"⟩ = .ok () ∧
    ∃ x, testMethod benchEnv demoBench ⟨fun _ => none, []⟩ (.valid (py "a\n")) ⟨0, py "R"⟩ = .error (.assertion (.reports [x])) ∧ x.base.message = py "no a" :=
  ⟨rfl, _, rfl, rfl⟩

/-- **Finding**, concretely: the case expects the empty file, the fix leaves `b`, the test passes. -/
example : testMethod benchEnv demoBench ⟨fun _ => none, []⟩ (.invalid { code := py "a\n", replacement := some [] }) ⟨0, py "R"⟩ = .ok () := by rfl

end Fixit
