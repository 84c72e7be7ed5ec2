import Verif.Proof.Tracked
import Verif.Spec.RulesStateful
import Verif.Props.Visit

/-!
# C97: NoRedundantArgumentsSuper
-/

namespace Cst
open Py Fixit Spec

/-- How the rule's stack changes. -/
def superTrack (s : List PStr) : Ev → List PStr
  | .visit _ (.classDef c _ _) => c :: s
  | .leave _ (.classDef _ _ _) => s.tail
  | _ => s

/-- What the rule reports. -/
def superOut (s : List PStr) : Ev → Except Err (List Rep)
  | .leave i (.call func args) => .ok (if isRedundantSuper s func args then [{ node := i, change := some (.args []) }] else [])
  | _ => .ok []

theorem superRule_tracked : Tracked superRule.methods superRule.on superTrack superOut where
  mem st s e _ := by
    cases e with
    | visit i l => cases l <;> rfl
    | leave i l => cases l <;> rfl
  other s e hm := by
    cases e with
    | visit i l => cases l <;> first | exact ⟨rfl, rfl⟩ | (exfalso; apply hm; simp [Ev.method, Label.typeName, superRule, VRule.simple])
    | leave i l => cases l <;> first | exact ⟨rfl, rfl⟩ | (exfalso; apply hm; simp [Ev.method, Label.typeName, superRule, VRule.simple])

theorem superTrack_balanced : Balanced superTrack := by
  intro s i l
  cases l <;> rfl

theorem superTrack_way : ∀ (way : List Frame) (s : List PStr), way.foldl (fun s f => superTrack s (.visit f.id f.label)) s = (classesAround way).reverse ++ s
  | [], s => rfl
  | ⟨i, l, b⟩ :: way, s => by
    rw [List.foldl_cons, superTrack_way way]
    cases l <;> simp [superTrack, classesAround]

theorem _root_.Spec.IsDotted.inv {e : Expr} {ns : List PStr} (h : IsDotted e ns) :
    (∃ s, ns = [s] ∧ e.core = .name s) ∨ ∃ v s names, ns = names ++ [s] ∧ e.core = .attr v s ∧ IsDotted v names := by
  cases h
  · rename_i s h; exact .inl ⟨s, rfl, h⟩
  · rename_i v s names hv h; exact .inr ⟨v, s, names, rfl, h, hv⟩

theorem _root_.Spec.IsDotted.ne_nil {e : Expr} {ns : List PStr} (h : IsDotted e ns) : ns ≠ [] := by
  rcases h.inv with ⟨s, rfl, -⟩ | ⟨v, s, names, rfl, -, -⟩ <;> simp

theorem matchesDotted_iff (e : Expr) : ∀ names : List PStr, matchesDotted e names = true ↔ IsDotted e names.reverse := by
  intro names
  induction names generalizing e with
  | nil =>
    simp only [matchesDotted, List.reverse_nil]
    exact ⟨fun h => by (cases h), fun h => absurd rfl h.ne_nil⟩
  | cons c cs ih =>
    cases cs with
    | nil =>
      simp only [matchesDotted, List.reverse_cons, List.reverse_nil, List.nil_append]
      constructor
      · intro h
        unfold Expr.isName at h
        cases hc : e.core with
        | name t => rw [hc] at h; simp only [beq_iff_eq] at h; subst h; exact .name e _ hc
        | _ => rw [hc] at h; cases h
      · intro h
        rcases h.inv with ⟨s, hn, h⟩ | ⟨v, s, names, hn, h, hv⟩
        · cases hn; unfold Expr.isName; rw [h]; simp
        · cases names with
          | nil => exact absurd rfl hv.ne_nil
          | cons a as => simp at hn
    | cons c' cs' =>
      simp only [matchesDotted]
      constructor
      · intro h
        cases hc : e.core with
        | attr v a =>
          rw [hc] at h
          simp only [Bool.and_eq_true, beq_iff_eq] at h
          obtain ⟨rfl, h⟩ := h
          rw [List.reverse_cons]
          exact .attr e v a _ hc ((ih v).mp h)
        | _ => rw [hc] at h; cases h
      · intro h
        rcases h.inv with ⟨s, hn, h⟩ | ⟨v, s, names, hn, h, hv⟩
        · have := congrArg List.length hn
          simp at this
        · rw [List.reverse_cons] at hn
          obtain ⟨h1, h2⟩ := List.append_inj' hn rfl
          cases h2
          rw [h]
          simp only [beq_self_eq_true, Bool.true_and]
          rw [ih v, h1]
          exact hv

/-- C97: the rule reports exactly the calls `super(C, x)` with two arguments inside a class, where `C` spells the names of all the class statements around the call,
from the outermost to the innermost, joined by dots; the fix leaves out both arguments. -/
theorem C97_super (meta_ : Store) (t : Syn) : ∃ reps, superRule.alone meta_ t = .ok reps ∧
    ∀ rep, rep ∈ reps ↔ ∃ way i func args kids, At way (.node i (.call func args) kids) t ∧
      rep = { node := i, message := none, change := some (.args []) } ∧
      func.core = .name (py "super") ∧ classesAround way ≠ [] ∧ ∃ a b, args = [a, b] ∧ IsDotted a.value (classesAround way) := by
  have hno : ¬ ∃ x, superRule.alone meta_ t = .error x := by
    intro hx
    obtain ⟨way, i, l, ks, -, ⟨x, hx⟩ | ⟨x, hx⟩⟩ := (superRule_tracked.error_alone meta_ t).mp hx
    · cases hx
    · cases l <;> cases hx
  cases ha : superRule.alone meta_ t with
  | error x => exact absurd ⟨x, ha⟩ hno
  | ok reps =>
  refine ⟨reps, rfl, fun rep => ?_⟩
  rw [superRule_tracked.mem_alone meta_ t reps ha rep]
  have hcond : ∀ (way : List Frame) (i : Nat) (func : Expr) (args : List Arg) (_ : List Syn), rep ∈ (if isRedundantSuper (classesAround way).reverse func args then [({ node := i, change := some (.args []) } : Rep)] else []) ↔
      rep = { node := i, message := none, change := some (.args []) } ∧
      func.core = .name (py "super") ∧ classesAround way ≠ [] ∧ ∃ a b, args = [a, b] ∧ IsDotted a.value (classesAround way) := by
    intro way i func args _
    have hiff : isRedundantSuper (classesAround way).reverse func args = true ↔
        func.core = .name (py "super") ∧ classesAround way ≠ [] ∧ ∃ a b, args = [a, b] ∧ IsDotted a.value (classesAround way) := by
      unfold isRedundantSuper
      have hname : func.isName (py "super") = true ↔ func.core = .name (py "super") := by
        unfold Expr.isName
        cases hc : func.core <;> simp
      simp only [Bool.and_eq_true, Bool.not_eq_true', hname, List.isEmpty_reverse]
      constructor
      · rintro ⟨⟨h1, h2⟩, h3⟩
        refine ⟨h2, by simpa using h1, ?_⟩
        match args, h3 with
        | [a, b], h3 => exact ⟨a, b, rfl, by simpa using (matchesDotted_iff a.value _).mp h3⟩
      · rintro ⟨h2, h1, a, b, rfl, h3⟩
        refine ⟨⟨by simpa using h1, h2⟩, ?_⟩
        simp only
        rw [matchesDotted_iff, List.reverse_reverse]
        exact h3
    by_cases hb : isRedundantSuper (classesAround way).reverse func args = true
    · rw [if_pos hb, List.mem_singleton]
      exact ⟨fun h => ⟨h, hiff.mp hb⟩, fun h => h.1⟩
    · rw [if_neg hb]
      exact ⟨fun h => by (cases h), fun h => absurd (hiff.mpr h.2) hb⟩
  have hs : ∀ way : List Frame, (wayEvents way).foldl superTrack [] = (classesAround way).reverse := by
    intro way
    rw [superTrack_balanced.way, superTrack_way, List.append_nil]
  constructor
  · rintro ⟨way, i, l, ks, hat, ⟨out, ho, hm⟩ | ⟨out, ho, hm⟩⟩
    · cases ho; cases hm
    · cases l with
      | call func args =>
        cases ho
        have hm : rep ∈ (if isRedundantSuper ((Syn.eventsAll ks).foldl superTrack ((wayEvents way).foldl superTrack [])) func args then
          [({ node := i, change := some (.args []) } : Rep)] else []) := hm
        rw [superTrack_balanced.eventsAll, hs] at hm
        exact ⟨way, i, func, args, ks, hat, (hcond way i func args ks).mp hm⟩
      | _ => cases ho; cases hm
  · rintro ⟨way, i, func, args, ks, hat, hc⟩
    refine ⟨way, i, _, ks, hat, .inr ⟨_, rfl, ?_⟩⟩
    show rep ∈ (if isRedundantSuper ((Syn.eventsAll ks).foldl superTrack ((wayEvents way).foldl superTrack [])) func args then
          [({ node := i, change := some (.args []) } : Rep)] else [])
    rw [superTrack_balanced.eventsAll, hs]
    exact (hcond way i func args ks).mpr hc

/-- C97: no call is reported twice. -/
theorem C97_once (meta_ : Store) (t : Syn) (reps : List Rep) (h : superRule.alone meta_ t = .ok reps) (hd : t.ids.Nodup) : (reps.map (·.node)).Nodup := by
  refine superRule_tracked.once' ?_ meta_ t reps h hd
  intro s e out ho
  cases e with
  | visit i l => cases ho; exact .slnil
  | leave i l =>
    cases l with
    | call func args =>
      cases ho
      split
      · exact .refl _
      · exact List.nil_sublist _
    | _ => cases ho; exact List.nil_sublist _

/-! ## Cases -/

/-- A call `super(first, second)`. -/
def superCall (i : Nat) (first second : Expr) : Syn :=
  .node i (.call (.name (py "super")) [.pos first, .pos second]) [.node (i + 1) (.name (py "super")) []]

def inClass (i : Nat) (name : PStr) (kids : List Syn) : Syn := .node i (.classDef name (i + 1) []) kids

def inDef (i : Nat) (kids : List Syn) : Syn := .node i (.funcDef false) kids

/-- `class Foo: class Bar: def f(self): super(Foo.Bar, self)` is reported. -/
example : (superRule.alone (fun _ => []) (inClass 0 (py "Foo") [inClass 10 (py "Bar") [inDef 20 [superCall 30 (.attr (.name (py "Foo")) (py "Bar")) (.name (py "self"))]]])).map
    (·.map (·.node)) = .ok [30] := by decide +kernel

/-- `class Foo: class Bar: def f(self): super(Bar, self)` is not. -/
example : (superRule.alone (fun _ => []) (inClass 0 (py "Foo") [inClass 10 (py "Bar") [inDef 20 [superCall 30 (.name (py "Bar")) (.name (py "self"))]]])).map
    (·.map (·.node)) = .ok [] := by decide +kernel

/-- Finding: the second argument is not looked at: `class Foo: def f(self, other): super(Foo, other)` is reported, and the fix makes it `super()`, which uses `self`. -/
theorem C97_second_argument : (superRule.alone (fun _ => []) (inClass 0 (py "Foo") [inDef 20 [superCall 30 (.name (py "Foo")) (.name (py "other"))]])).map
    (·.map (·.node)) = .ok [30] := by decide +kernel

/-- Finding: functions between the classes are not seen. In `class Foo: def f(self): class Bar: def g(self): super(Bar, self)`, where `Bar` is a local name, the call is not
reported. -/
theorem C97_local_class : (superRule.alone (fun _ => []) (inClass 0 (py "Foo") [inDef 5 [inClass 10 (py "Bar") [inDef 20 [superCall 30 (.name (py "Bar")) (.name (py "self"))]]]])).map
    (·.map (·.node)) = .ok [] := by decide +kernel

end Cst
