import Verif.Model.Subclass

/-!
# C117: what every rule class has
-/

namespace Spec
open Py Fixit

/-- The class has this attribute: the nearest class of the method resolution order that defines it gives it this value. -/
def HasAttr {α : Type} (f : ClassDict → Option α) (mro : List MroEntry) (x : α) : Prop :=
  ∃ before c after, mro = before ++ c :: after ∧ f c.dict = some x ∧ ∀ d ∈ before, f d.dict = none

/-- A case of `INVALID` says what the fixed code is. -/
def SaysFixed (invalid : List Entry) : Prop := ∃ i : Invalid, .full (.invalid i) ∈ invalid ∧ ∃ code, i.replacement = some code ∧ code ≠ []

end Spec

namespace Fixit
open Py Spec

theorem classAttr_iff {α : Type} (f : ClassDict → Option α) : ∀ (mro : List MroEntry) (x : α), classAttr f mro = some x ↔ HasAttr f mro x
  | [], x => ⟨fun h => (by cases h), fun ⟨b, c, a, h, _⟩ => (by cases b <;> cases h)⟩
  | c :: cs, x => by
    rw [classAttr]
    cases hf : f c.dict with
    | some y =>
      constructor
      · intro h; cases h; exact ⟨[], c, cs, rfl, hf, by simp⟩
      · rintro ⟨b, d, a, h, hx, hb⟩
        cases b with
        | nil => cases h; rw [hf] at hx; exact hx
        | cons e b => cases h; rw [hb c List.mem_cons_self] at hf; cases hf
    | none =>
      show classAttr f cs = some x ↔ _
      rw [classAttr_iff f cs x]
      constructor
      · rintro ⟨b, d, a, rfl, hx, hb⟩
        exact ⟨c :: b, d, a, rfl, hx, fun e he => (List.mem_cons.mp he).elim (fun h => h ▸ hf) (hb e)⟩
      · rintro ⟨b, d, a, h, hx, hb⟩
        cases b with
        | nil => cases h; rw [hf] at hx; cases hx
        | cons e b => cases h; exact ⟨b, d, a, rfl, hx, fun e he => hb e (List.mem_cons_of_mem _ he)⟩

theorem any_hasReplacement (l : List Entry) : l.any Entry.hasReplacement = true ↔ SaysFixed l := by
  rw [List.any_eq_true]
  constructor
  · rintro ⟨e, he, hr⟩
    cases e with
    | text s => cases hr
    | full t => cases t with
      | valid c => cases hr
      | invalid i =>
        refine ⟨i, he, ?_⟩
        cases h : i.replacement with
        | none => simp [Entry.hasReplacement, h] at hr
        | some code => cases code with
          | nil => simp [Entry.hasReplacement, h] at hr
          | cons a b => exact ⟨_, rfl, by simp⟩
  · rintro ⟨i, hi, code, hc, hne⟩
    refine ⟨_, hi, ?_⟩
    cases code with
    | nil => exact absurd rfl hne
    | cons a b => simp [Entry.hasReplacement, hc]

theorem setAutofix_metadata (b : ClassDict) (i : List Entry) : (setAutofix b i).metadata = b.metadata := by unfold setAutofix; split <;> rfl
theorem setAutofix_invalid (b : ClassDict) (i : List Entry) : (setAutofix b i).invalid = b.invalid := by unfold setAutofix; split <;> rfl
theorem addParent_invalid (b : ClassDict) (d : List Nat) : (addParent b d).invalid = b.invalid := by unfold addParent; split <;> rfl
theorem addParent_autofix (b : ClassDict) (d : List Nat) : (addParent b d).autofix = b.autofix := by unfold addParent; split <;> rfl

theorem classAttr_cons {α : Type} (f : ClassDict → Option α) (c : ClassDict) (b : Bool) (cs : List MroEntry) : classAttr f (⟨c, b⟩ :: cs) = (f c).or (classAttr f cs) := by
  rw [classAttr]; cases f c <;> rfl

theorem classAttr_invalid (body : ClassDict) (d : List Nat) (ancestors : List MroEntry) :
    classAttr ClassDict.invalid (⟨addParent body d, true⟩ :: ancestors) = classAttr ClassDict.invalid (⟨body, true⟩ :: ancestors) := by
  rw [classAttr_cons, classAttr_cons, addParent_invalid]

/-- C117: the class's `METADATA_DEPENDENCIES` are those its body declares, or else those it inherits, with `ParentNodeProvider` added at the end if it is not among them. -/
theorem C117_dependencies (body : ClassDict) (ancestors : List MroEntry) (deps : List Nat) (h : HasAttr ClassDict.metadata (⟨body, true⟩ :: ancestors) deps) :
    HasAttr ClassDict.metadata (subclass body ancestors) (if parentProvider ∈ deps then deps else deps ++ [parentProvider]) := by
  have hd := (classAttr_iff _ _ _).mpr h
  rw [← classAttr_iff]
  unfold subclass initSubclass
  rw [classAttr_cons, setAutofix_metadata, hd, Option.getD_some]
  unfold addParent
  split
  · rw [← classAttr_cons _ _ true]; exact hd
  · rfl

theorem lintRule_mem_metadata : ∀ (mro : List MroEntry), lintRuleClass ∈ mro → ∃ deps, HasAttr ClassDict.metadata mro deps
  | [], h => by cases h
  | c :: cs, h => by
    cases hc : c.dict.metadata with
    | some d => exact ⟨d, [], c, cs, rfl, hc, by simp⟩
    | none =>
      rcases List.mem_cons.mp h with rfl | h
      · cases hc
      · obtain ⟨d, hd⟩ := lintRule_mem_metadata cs h
        refine ⟨d, ?_⟩
        rw [← classAttr_iff, classAttr, hc]
        exact (classAttr_iff _ _ _).mpr hd

theorem lintRule_mem_inherited : ∀ (mro : List MroEntry), lintRuleClass ∈ mro → positionProvider ∈ inheritedDependencies mro
  | [], h => by cases h
  | c :: cs, h => by
    rw [inheritedDependencies]
    rcases List.mem_cons.mp h with rfl | h
    · simp [lintRuleClass, classAttr, positionProvider]
    · exact List.mem_append.mpr (.inr (lintRule_mem_inherited cs h))

/-- C117: whatever a rule class declares and however it is derived from `LintRule`, the metadata computed for it include positions and parents, which `report` and the search for
comments need, everything the class declares, and everything computed for its ancestors. -/
theorem C117_needed (body : ClassDict) (ancestors : List MroEntry) (h : lintRuleClass ∈ ancestors) :
    positionProvider ∈ inheritedDependencies (subclass body ancestors) ∧ parentProvider ∈ inheritedDependencies (subclass body ancestors) ∧
    (∀ deps, body.metadata = some deps → ∀ p ∈ deps, p ∈ inheritedDependencies (subclass body ancestors)) ∧
    ∀ p ∈ inheritedDependencies ancestors, p ∈ inheritedDependencies (subclass body ancestors) := by
  obtain ⟨deps, hdeps⟩ := lintRule_mem_metadata (⟨body, true⟩ :: ancestors) (List.mem_cons_of_mem _ h)
  have hd := (classAttr_iff _ _ _).mpr (C117_dependencies body ancestors deps hdeps)
  have hown : ∀ p, p ∈ (if parentProvider ∈ deps then deps else deps ++ [parentProvider]) → p ∈ inheritedDependencies (subclass body ancestors) := by
    intro p hp
    have e : inheritedDependencies (subclass body ancestors) = (classAttr ClassDict.metadata (subclass body ancestors)).getD [] ++ inheritedDependencies ancestors := rfl
    rw [e, hd]
    exact List.mem_append.mpr (.inl hp)
  have hanc : ∀ p ∈ inheritedDependencies ancestors, p ∈ inheritedDependencies (subclass body ancestors) := fun p hp => List.mem_append.mpr (.inr hp)
  refine ⟨hanc _ (lintRule_mem_inherited ancestors h), hown _ ?_, ?_, hanc⟩
  · split
    · assumption
    · simp
  · intro d hb p hp
    have : deps = d := by
      have := (classAttr_iff _ _ _).mpr hdeps
      simp only [classAttr, hb, Option.some.injEq] at this
      exact this.symm
    subst this
    apply hown
    split
    · exact hp
    · exact List.mem_append.mpr (.inl hp)

/-- C117: `AUTOFIX` of a class is true when a case of its `INVALID` (its own or else inherited) says what the fixed code is; otherwise it is what the body says, or else what is inherited. -/
theorem C117_autofix (body : ClassDict) (ancestors : List MroEntry) :
    (∀ invalid, HasAttr ClassDict.invalid (⟨body, true⟩ :: ancestors) invalid → SaysFixed invalid → HasAttr ClassDict.autofix (subclass body ancestors) true) ∧
    ((∀ invalid, HasAttr ClassDict.invalid (⟨body, true⟩ :: ancestors) invalid → ¬ SaysFixed invalid) → ∀ b,
      HasAttr ClassDict.autofix (subclass body ancestors) b ↔ HasAttr ClassDict.autofix (⟨body, true⟩ :: ancestors) b) := by
  constructor
  · intro invalid hi hs
    have h1 := (classAttr_iff _ _ _).mpr hi
    rw [← classAttr_iff]
    unfold subclass initSubclass
    rw [classAttr_invalid, h1, Option.getD_some, setAutofix, if_pos ((any_hasReplacement invalid).mpr hs)]
    rfl
  · intro hn b
    rw [← classAttr_iff, ← classAttr_iff]
    have h2 : ¬ ((classAttr ClassDict.invalid (⟨body, true⟩ :: ancestors)).getD []).any Entry.hasReplacement = true := by
      cases hc : classAttr ClassDict.invalid (⟨body, true⟩ :: ancestors) with
      | none => decide
      | some invalid =>
        have := hn invalid ((classAttr_iff _ _ _).mp hc)
        rw [← any_hasReplacement] at this
        exact this
    unfold subclass initSubclass
    rw [classAttr_invalid, setAutofix, if_neg h2, classAttr_cons, addParent_autofix, ← classAttr_cons _ _ true]

/-- A class derived from a class derived from … `LintRule`, by the bodies of the classes (the last is derived from `LintRule`). -/
def line : List ClassDict → List MroEntry
  | [] => [lintRuleClass]
  | body :: bodies => subclass body (line bodies)

theorem line_invalid : ∀ (bodies : List ClassDict) (invalid : List Entry), HasAttr ClassDict.invalid (line bodies) invalid ↔
    ∃ before body after, bodies = before ++ body :: after ∧ body.invalid = some invalid ∧ ∀ b ∈ before, b.invalid = none := by
  have own : ∀ body ancestors, (initSubclass body ancestors).invalid = body.invalid := by
    intro body ancestors
    unfold initSubclass
    rw [setAutofix_invalid, addParent_invalid]
  intro bodies invalid
  rw [← classAttr_iff]
  induction bodies with
  | nil =>
    constructor
    · intro h; cases h
    · rintro ⟨b, _, _, h, _⟩; cases b <;> cases h
  | cons body bodies ih =>
    simp only [line, subclass, classAttr, own]
    cases hb : body.invalid with
    | some i =>
      constructor
      · intro h; cases h; exact ⟨[], body, bodies, rfl, hb, by simp⟩
      · rintro ⟨before, b, after, h, h2, h3⟩
        cases before with
        | nil => cases h; rw [hb] at h2; exact h2
        | cons c cs => cases h; rw [h3 body List.mem_cons_self] at hb; cases hb
    | none =>
      show classAttr ClassDict.invalid (line bodies) = _ ↔ _
      rw [ih]
      constructor
      · rintro ⟨before, b, after, rfl, h2, h3⟩
        exact ⟨body :: before, b, after, rfl, h2, fun x hx => (List.mem_cons.mp hx).elim (fun h => h ▸ hb) (h3 x)⟩
      · rintro ⟨before, b, after, h, h2, h3⟩
        cases before with
        | nil => cases h; rw [hb] at h2; cases h2
        | cons c cs => cases h; exact ⟨cs, b, after, rfl, h2, fun x hx => h3 x (List.mem_cons_of_mem _ hx)⟩

/-- C117: when no body sets `AUTOFIX`, a class has `AUTOFIX` exactly when its own `INVALID`, or that of a class it is derived from, says what fixed code is; an `INVALID` in a derived
class does not take this back. -/
theorem C117_autofix_line (bodies : List ClassDict) (hno : ∀ b ∈ bodies, b.autofix = none) :
    HasAttr ClassDict.autofix (line bodies) true ↔ ∃ body ∈ bodies, ∃ invalid, body.invalid = some invalid ∧ SaysFixed invalid := by
  induction bodies with
  | nil =>
    constructor
    · intro h
      rw [← classAttr_iff] at h
      exact absurd h (by decide)
    · rintro ⟨_, h, _⟩; cases h
  | cons body bodies ih =>
    have ih := ih (fun b hb => hno b (List.mem_cons_of_mem _ hb))
    obtain ⟨h1, h2⟩ := C117_autofix body (line bodies)
    have heff : ∀ invalid, HasAttr ClassDict.invalid (⟨body, true⟩ :: line bodies) invalid → body.invalid = some invalid ∨ (body.invalid = none ∧ HasAttr ClassDict.invalid (line bodies) invalid) := by
      intro invalid hi
      rw [← classAttr_iff, classAttr] at hi
      cases hb : body.invalid with
      | some i => simp only [hb, Option.some.injEq] at hi; exact .inl (by rw [hi])
      | none => rw [hb] at hi; exact .inr ⟨rfl, (classAttr_iff _ _ _).mp hi⟩
    by_cases hs : ∃ invalid, HasAttr ClassDict.invalid (⟨body, true⟩ :: line bodies) invalid ∧ SaysFixed invalid
    · obtain ⟨invalid, hi, hs⟩ := hs
      refine ⟨fun _ => ?_, fun _ => h1 invalid hi hs⟩
      rcases heff invalid hi with hb | ⟨-, hl⟩
      · exact ⟨body, List.mem_cons_self, invalid, hb, hs⟩
      · obtain ⟨before, b, after, rfl, hb, -⟩ := (line_invalid bodies invalid).mp hl
        exact ⟨b, by simp, invalid, hb, hs⟩
    · have h3 := h2 (fun invalid hi hsf => hs ⟨invalid, hi, hsf⟩) true
      show HasAttr ClassDict.autofix (subclass body (line bodies)) true ↔ _
      rw [h3]
      have hb := hno body List.mem_cons_self
      have h4 : HasAttr ClassDict.autofix (⟨body, true⟩ :: line bodies) true ↔ HasAttr ClassDict.autofix (line bodies) true := by
        rw [← classAttr_iff, ← classAttr_iff, classAttr, hb]
      rw [h4, ih]
      constructor
      · rintro ⟨b, hb, h⟩; exact ⟨b, List.mem_cons_of_mem _ hb, h⟩
      · rintro ⟨b, hbm, invalid, hi, hsf⟩
        rcases List.mem_cons.mp hbm with rfl | hbm
        · exact absurd ⟨invalid, ⟨[], _, _, rfl, hi, by simp⟩, hsf⟩ hs
        · exact ⟨b, hbm, invalid, hi, hsf⟩

/-! ## Cases -/

/-- A rule with a fix, and one derived from it whose cases have none. -/
def fixingBody : ClassDict := { metadata := some [7], invalid := some [.text (py "x"), .full (.invalid { code := py "y", replacement := some (py "z") })] }
def plainBody : ClassDict := { metadata := some [1, 8], invalid := some [.text (py "x"), .full (.invalid { code := py "y", replacement := some [] })] }

example : (line [fixingBody]).map (fun c => (c.dict.metadata, c.dict.autofix)) = [(some [7, 1], some true), (some [0], some false)] := by decide
example : (line [plainBody]).map (fun c => (c.dict.metadata, c.dict.autofix)) = [(some [1, 8], none), (some [0], some false)] := by decide

/-- C117: `AUTOFIX` stays although the `INVALID` of the derived class has no fix, against the documentation. -/
theorem C117_kept : classAttr ClassDict.autofix (line [plainBody, fixingBody]) = some true ∧ classAttr ClassDict.autofix (line [plainBody]) = some false := by decide
example : inheritedDependencies (line [plainBody, fixingBody]) = [1, 8, 7, 1, 0] := by decide

end Fixit
