import Verif.Model.Testing
import Verif.Spec.Engine

/-!
# What the test machinery should do
-/

namespace Spec
open Py Fixit

/-- A space or a tab. -/
def Pad (c : Char) : Prop := c = ' ' ∨ c = '\t'

/-- A line with nothing but spaces and tabs. -/
def PadLine (l : PStr) : Prop := ∀ c ∈ l, Pad c

/-- `new` is the line `old` moved to the left by the margin; a blank line becomes empty. -/
inductive Moved (margin : PStr) : PStr → PStr → Prop where
  | blank {old} : PadLine old → Moved margin old []
  | line {new} : ¬ PadLine (margin ++ new) → Moved margin (margin ++ new) new

/-- All the lines of a text, moved. -/
inductive MovedAll (margin : PStr) : List PStr → List PStr → Prop where
  | nil : MovedAll margin [] []
  | cons {o n os ns} : Moved margin o n → MovedAll margin os ns → MovedAll margin (o :: os) (n :: ns)

/-- The same text, `w` further to the right; how far blank lines go does not matter. -/
inductive Indented (w : PStr) : List PStr → List PStr → Prop where
  | nil : Indented w [] []
  | blank {o n os ns} : PadLine o → PadLine n → Indented w os ns → Indented w (o :: os) (n :: ns)
  | line {o os ns} : Indented w os ns → Indented w (o :: os) ((w ++ o) :: ns)

/-- What the rule recorded on the code of a test case: the module, and the violations. -/
structure Linted {C : Type} (env : Env C) (bench : Bench C) (w : World) (path : Path) (code : PStr) (rule : RuleInst) (m : Node)
    (vs : List (Violation Nat Repl)) : Prop where
  ok : ∃ src recorded durations, bench.encode (dedent code) = .ok src ∧ env.parse src = .ok m ∧
    env.visit w.files (bench.config path) m [rule] = .ok (recorded, durations) ∧ vs = recorded rule
  /-- the diffs could be made -/
  shown : ∀ v ∈ vs, ∃ lv, display env path m v = .ok lv

/-- What `Invalid` asks of the fix, when it has a replacement that is not empty. -/
structure FixExpected {C : Type} (env : Env C) (bench : Bench C) (path : Path) (m : Node) (vs : List (Violation Nat Repl)) (text : PStr) : Prop where
  /-- all the fixes together give that text -/
  result : ∃ m' b, applyReplacements m (vs.map (fun v => ⟨v.node, v.replacement⟩)) = .ok m' ∧ env.bytes m' = .ok b ∧ bench.decode b = .ok (dedent text)
  /-- a single report has a fix, and its diff is the one that fix gives -/
  single : ∀ v, vs = [v] → ∃ r d, v.replacement = some r ∧ diffViolation env path m v.node r = .ok d ∧ display env path m v = .ok ⟨v, d⟩

/-- A report is what the case expects, as far as the case says. -/
def AsExpected (i : Invalid) (v : Violation Nat Repl) : Prop :=
  (∀ r, i.range = some r → v.range = r) ∧ ∀ s, i.message = some s → v.message = s

/-- The text after all the fixes. -/
def FixedTo {C : Type} (env : Env C) (bench : Bench C) (m : Node) (vs : List (Violation Nat Repl)) (text : PStr) : Prop :=
  ∃ m' b, applyReplacements m (vs.map (fun v => ⟨v.node, v.replacement⟩)) = .ok m' ∧ env.bytes m' = .ok b ∧ bench.decode b = .ok text

/-- The first thing that is not as an `INVALID` case expects, given what was reported: no report at all; the first report, in order, with another range or
message (the range is looked at first); another text after the fixes; another diff. -/
inductive FirstMismatch {C : Type} (env : Env C) (bench : Bench C) (path : Path) (m : Node) (vs : List (Violation Nat Repl)) (i : Invalid) : Mismatch → Prop where
  | silent : vs = [] → FirstMismatch env bench path m vs i (.silent i.code)
  | range (before after : List (Violation Nat Repl)) (v : Violation Nat Repl) (r : CodeRange) : vs = before ++ v :: after → (∀ v' ∈ before, AsExpected i v') →
      i.range = some r → v.range ≠ r → FirstMismatch env bench path m vs i (.range r v.range)
  | message (before after : List (Violation Nat Repl)) (v : Violation Nat Repl) (s : PStr) : vs = before ++ v :: after → (∀ v' ∈ before, AsExpected i v') →
      (∀ r, i.range = some r → v.range = r) → i.message = some s → v.message ≠ s → FirstMismatch env bench path m vs i (.message s v.message)
  | text (want have_ : PStr) : vs ≠ [] → (∀ v ∈ vs, AsExpected i v) → i.replacement = some want → want ≠ [] → FixedTo env bench m vs have_ → have_ ≠ dedent want →
      FirstMismatch env bench path m vs i (.text (dedent want) have_)
  | diff (want : PStr) (v : Violation Nat Repl) (r : Repl) (d d' : PStr) : vs = [v] → AsExpected i v → i.replacement = some want → want ≠ [] →
      FixedTo env bench m vs (dedent want) → v.replacement = some r → diffViolation env path m v.node r = .ok d → display env path m v = .ok ⟨v, d'⟩ → d ≠ d' →
      FirstMismatch env bench path m vs i (.diff d d')

/-- What an entry of `VALID` means: a string is code to be valid. -/
def validCase : Entry → Case
  | .text code => .valid code
  | .full t => t

/-- What an entry of `INVALID` means: a string is code with at least one violation. -/
def invalidCase : Entry → Case
  | .text code => .invalid ⟨code, none, none, none⟩
  | .full t => t

/-- The cases of a rule with their names: `test_VALID_0`, `test_VALID_1`, …, `test_INVALID_0`, …. -/
def namedCases (r : RuleClass) : List (PStr × Case) :=
  r.valid.mapIdx (fun i e => (py "test_VALID_" ++ decimal i, validCase e)) ++ r.invalid.mapIdx (fun i e => (py "test_INVALID_" ++ decimal i, invalidCase e))

/-- Running a case: make a rule object, and test with it. -/
def runCase {C : Type} (env : Env C) (bench : Bench C) (r : RuleClass) (t : Case) (w : World) : Except Failure Unit :=
  match r.make with
  | .ok rule => testMethod env bench w t rule
  | .error e => .error (.raised e)

/-- The tests of a rule: each has the name of the rule, of the method, and runs its case. -/
def ruleTests {C : Type} (env : Env C) (bench : Bench C) (r : RuleClass) : List Test :=
  (namedCases r).map (fun e => ⟨r.name, e.1, runCase env bench r e.2⟩)

/-- A new object of the rule class can be made, and it passes the case. -/
def CasePasses {C : Type} (env : Env C) (bench : Bench C) (w : World) (r : RuleClass) (t : Case) : Prop :=
  ∃ rule, r.make = .ok rule ∧ testMethod env bench w t rule = .ok ()

end Spec
