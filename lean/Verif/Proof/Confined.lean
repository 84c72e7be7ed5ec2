import Verif.Proof.File
import Verif.Spec.Paths

/-!
# Linting a file looks at and changes only that file
-/

namespace Fixit
open Py Spec Gen

variable {C : Type} (env : Env C)

/-- The worlds agree on `p` and on everything outside `S`. -/
def Agree (S : Path → Prop) (p : Path) (w w' : World) : Prop := w.files p = w'.files p ∧ ∀ q, ¬ S q → w.files q = w'.files q

/-- A generator that, given answers in `A`, changes no file but `p`, and that only if it is in `S`; whose steps depend only on `p` and files outside `S`; and
whose return value satisfies `Post`. -/
inductive Confined {Y Q R : Type} (A : Q → Prop) (S : Path → Prop) (p : Path) (Post : R → Prop) : Gen World Y Q R → Prop
  | ret (r : R) : Post r → Confined A S p Post (.ret r)
  | raise (e : Err) : Confined A S p Post (.raise e)
  | yield (y : Y) (k : Q → Gen World Y Q R) : (∀ s, A s → Confined A S p Post (k s)) → Confined A S p Post (.yield y k)
  | act (a : World → World) (k : World → Gen World Y Q R) :
      (∀ w q, q ≠ p ∨ ¬ S q → (a w).files q = w.files q) →
      (∀ w w', Agree S p w w' → (a w).files p = (a w').files p) →
      (∀ w w', Agree S p w w' → ∃ evs, (a w).log = w.log ++ evs ∧ (a w').log = w'.log ++ evs) →
      (∀ w w', Agree S p w w' → k w = k w') → (∀ w, Confined A S p Post (k w)) → Confined A S p Post (.act a k)

namespace Confined
variable {Y Q R : Type} {A : Q → Prop} {S : Path → Prop} {p : Path} {Post : R → Prop}

theorem weaken {Post' : R → Prop} {g : Gen World Y Q R} (h : Confined A S p Post g) (hp : ∀ r, Post r → Post' r) : Confined A S p Post' g := by
  induction h with
  | ret r h => exact .ret r (hp r h)
  | raise e => exact .raise e
  | yield y k _ ih => exact .yield y k ih
  | act a k h1 h2 h3 h4 _ ih => exact .act a k h1 h2 h3 h4 ih

theorem bind {T : Type} {Post' : T → Prop} {g : Gen World Y Q R} (hg : Confined A S p Post g) {f : R → Gen World Y Q T}
    (hf : ∀ r, Post r → Confined A S p Post' (f r)) : Confined A S p Post' (g.bind f) := by
  induction hg with
  | ret r h => exact hf r h
  | raise e => exact .raise e
  | yield y k _ ih => exact .yield y _ ih
  | act a k h1 h2 h3 h4 _ ih => exact .act a _ h1 h2 h3 (fun w w' h => by simp only [h4 w w' h]) ih

theorem except {g : Gen World Y Q R} (hg : Confined A S p Post g) {h : Err → Gen World Y Q R} (hh : ∀ e, Confined A S p Post (h e)) :
    Confined A S p Post (g.except h) := by
  induction hg with
  | ret r h => exact .ret r h
  | raise e => exact hh e
  | yield y k _ ih => exact .yield y _ ih
  | act a k h1 h2 h3 h4 _ ih => exact .act a _ h1 h2 h3 (fun w w' h => by simp only [h4 w w' h]) ih

theorem forIn {Z T : Type} {I : T → Prop} {g : Gen World Z Unit R} (hg : Confined (fun _ => True) S p Post g) {body : Z → T → Gen World Y Q T}
    (hb : ∀ z t, I t → Confined A S p I (body z t)) : ∀ t, I t → Confined A S p I (g.forIn body t) := by
  induction hg with
  | ret r h => intro t ht; exact .ret t ht
  | raise e => intro t ht; exact .raise e
  | yield y k _ ih => intro t ht; exact (hb y t ht).bind (fun t' ht' => ih () trivial t' ht')
  | act a k h1 h2 h3 h4 _ ih => intro t ht; exact .act a _ h1 h2 h3 (fun w w' h => by simp only [h4 w w' h]) (fun w => ih w t ht)

theorem look {k : World → Gen World Y Q R} (h1 : ∀ w w', Agree S p w w' → k w = k w') (h2 : ∀ w, Confined A S p Post (k w)) : Confined A S p Post (Gen.look k) :=
  .act _ _ (fun _ _ _ => rfl) (fun _ _ h => h.1) (fun w w' _ => ⟨[], by simp, by simp⟩) h1 h2

theorem ofExcept (r : Except Err R) (h : ∀ a, r = .ok a → Post a) : Confined A S p Post (Gen.ofExcept r : Gen World Y Q R) := by
  cases r with
  | error e => exact .raise e
  | ok a => exact .ret a (h a rfl)

/-- Running in worlds that agree gives the same, and leaves worlds that agree. -/
theorem run {g : Gen World Y Q R} (h : Confined A S p Post g) : ∀ (ss : List Q) (w w' : World), (∀ s ∈ ss, A s) → Agree S p w w' →
    (g.run ss w).1 = (g.run ss w').1 ∧ (g.run ss w).2.1 = (g.run ss w').2.1 ∧ Agree S p (g.run ss w).2.2 (g.run ss w').2.2 ∧
    ∃ evs, (g.run ss w).2.2.log = w.log ++ evs ∧ (g.run ss w').2.2.log = w'.log ++ evs := by
  induction h with
  | ret r h => intro ss w w' _ hw; exact ⟨rfl, rfl, hw, [], by simp [Gen.run], by simp [Gen.run]⟩
  | raise e => intro ss w w' _ hw; exact ⟨rfl, rfl, hw, [], by simp [Gen.run], by simp [Gen.run]⟩
  | yield y k _ ih =>
    intro ss w w' hs hw
    cases ss with
    | nil => exact ⟨rfl, rfl, hw, [], by simp [Gen.run], by simp [Gen.run]⟩
    | cons s ss =>
      obtain ⟨h1, h2, h3⟩ := ih s (hs s (by simp)) ss w w' (fun t ht => hs t (by simp [ht])) hw
      exact ⟨by simp only [Gen.run, h1], h2, h3⟩
  | act a k h1 h2 h3 h4 _ ih =>
    intro ss w w' hs hw
    have hw' : Agree S p (a w) (a w') := by
      refine ⟨h2 w w' hw, fun q hq => ?_⟩
      rw [h1 w q (Or.inr hq), h1 w' q (Or.inr hq)]
      exact hw.2 q hq
    obtain ⟨r1, r2, r3, evs, r4, r5⟩ := ih w ss (a w) (a w') hs hw'
    obtain ⟨evs0, e1, e2⟩ := h3 w w' hw
    simp only [Gen.run]
    rw [← h4 w w' hw]
    exact ⟨r1, r2, r3, evs0 ++ evs, by rw [r4, e1, List.append_assoc], by rw [r5, e2, List.append_assoc]⟩

/-- Files other than `p` and files outside `S` stay as they are. -/
theorem run_files {g : Gen World Y Q R} (h : Confined A S p Post g) : ∀ (ss : List Q) (w : World), (∀ s ∈ ss, A s) → ∀ q, q ≠ p ∨ ¬ S q →
    (g.run ss w).2.2.files q = w.files q := by
  induction h with
  | ret r h => intro ss w _ q _; rfl
  | raise e => intro ss w _ q _; rfl
  | yield y k _ ih =>
    intro ss w hs q hq
    cases ss with
    | nil => rfl
    | cons s ss => exact ih s (hs s (by simp)) ss w (fun t ht => hs t (by simp [ht])) q hq
  | act a k h1 h2 h3 h4 _ ih =>
    intro ss w hs q hq
    simp only [Gen.run]
    rw [ih w ss (a w) hs q hq, h1 w q hq]

end Confined

/-! ## `fixit_file` is confined to its file -/

theorem confined_violationLoop {A : Unit → Prop} {S : Path → Prop} {p : Path} (path : Path) (m : Node) (name : PStr) :
    ∀ (vs : List (Violation Nat Repl)) (st : Nat × Metrics), Confined A S p (fun _ => True) (violationLoop env path m name vs st)
  | [], st => .ret st trivial
  | v :: vs, (n, μ) => by
    unfold violationLoop
    split
    · split
      · exact .raise _
      · exact .yield _ _ (fun _ _ => confined_violationLoop path m name vs _)
    · exact .yield _ _ (fun _ _ => confined_violationLoop path m name vs _)

theorem confined_ruleLoop {A : Unit → Prop} {S : Path → Prop} {p : Path} (path : Path) (m : Node) (recorded : RuleInst → List (Violation Nat Repl)) :
    ∀ (rs : List RuleInst) (st : Nat × Metrics), Confined A S p (fun _ => True) (ruleLoop env path m recorded rs st)
  | [], st => .ret st trivial
  | r :: rs, (n, μ) => by
    unfold ruleLoop
    exact (confined_violationLoop env path m _ _ _).bind (fun st _ => confined_ruleLoop path m recorded rs st)

theorem confined_callHook {Y Q : Type} {A : Q → Prop} {S : Path → Prop} {p : Path} (hook : Bool) (μ : Metrics) :
    Confined A S p (fun _ => True) (callHook env hook μ : Gen World Y Q Unit) := by
  unfold callHook
  split
  · refine .act _ _ (fun w q _ => rfl) (fun w w' h => h.1) (fun w w' _ => ⟨[.hook μ], rfl, rfl⟩) (fun w w' _ => rfl) (fun w => ?_)
    split
    · exact .raise _
    · exact .ret _ trivial
  · exact .ret _ trivial

theorem confined_collect {S : Path → Prop} {p : Path} (hS : Stable env S) (path : Path) (m : Node) (rules : List RuleInst) (cfg : C) (hook : Bool) :
    Confined (fun _ => True) S p (fun _ => True) (collectViolations env path m rules cfg hook) := by
  unfold collectViolations
  refine .look (fun w w' h => ?_) (fun w => ?_)
  · rw [(hS w.files w'.files h.2).2.2]
  · exact (Confined.ofExcept (Post := fun _ => True) _ (fun _ _ => trivial)).bind (fun rd _ =>
      (confined_ruleLoop env path m _ _ _).bind (fun nm _ => (confined_callHook env hook _).bind (fun _ _ => .ret _ trivial)))

theorem confined_fixitBytes {A : Answer → Prop} {S : Path → Prop} {p : Path} (hS : Stable env S) (path : Path) (content : Bytes) (cfg : C) (autofix hook : Bool)
    (hp : S p ∨ (autofix = false ∧ ∀ s, A s → s.yes = false)) :
    Confined A S p (fun u => S p ∨ u = none) (fixitBytes env path content cfg autofix hook) := by
  unfold fixitBytes
  apply Confined.except
  · unfold bytesBody
    refine .look (fun w w' h => ?_) (fun w => ?_)
    · rw [(hS w.files w'.files h.2).2.1]
    · refine (Confined.ofExcept (Post := fun _ => True) _ (fun _ _ => trivial)).bind (fun rules _ => ?_)
      split
      · exact Confined.bind (Post := fun _ => True) (.yield _ _ (fun _ _ => .ret _ trivial)) (fun _ _ => .ret _ (Or.inr rfl))
      · refine (Confined.ofExcept (Post := fun _ => True) _ (fun _ _ => trivial)).bind (fun m _ => ?_)
        refine Confined.bind (Post := fun st : Bool × List LintViolation => S p ∨ st.2 = []) ?_ (fun st hst => ?_)
        · refine Confined.forIn (confined_collect env hS path m rules cfg hook) (fun z t ht => ?_) _ (Or.inr rfl)
          unfold onViolation
          refine .yield _ _ (fun s hs => .ret _ ?_)
          rcases hp with hp | ⟨h1, h2⟩
          · exact Or.inl hp
          · rcases ht with ht | ht
            · exact Or.inl ht
            · right; simp [h1, h2 s hs, ht]
        · unfold finishBytes
          refine Confined.bind (Post := fun _ => True) ?_ (fun _ _ => ?_)
          · split
            · exact .yield _ _ (fun _ _ => .ret _ trivial)
            · exact .ret _ trivial
          · split
            · exact .ret _ (Or.inr rfl)
            · rename_i hne
              apply Confined.ofExcept
              intro a _
              rcases hst with h | h
              · exact Or.inl h
              · rw [h] at hne; simp at hne
  · intro e
    exact Confined.bind (Post := fun _ => True) (.yield _ _ (fun _ _ => .ret _ trivial)) (fun _ _ => .ret _ (Or.inr rfl))

theorem confined_writeBytes {Y Q : Type} {A : Q → Prop} {S : Path → Prop} (path : Path) (b : Bytes) (hp : S path) :
    Confined A S path (fun _ => True) (writeBytes env path b : Gen World Y Q Unit) := by
  have hput : ∀ (w : World) (c : Bytes) (e : Event) (q : Path), q ≠ path ∨ ¬ S q → ((w.put path c).note e).files q = w.files q := by
    intro w c e q hq
    have : q ≠ path := by
      rcases hq with h | h
      · exact h
      · intro he; exact h (he ▸ hp)
    simp [World.put, World.note, this]
  unfold writeBytes
  split
  · exact .raise _
  · refine .act _ _ (fun w q hq => hput w _ _ q hq) (fun w w' h => by simp [World.put, World.note]) (fun w w' h => ⟨[.opened path], rfl, rfl⟩) (fun w w' _ => rfl) (fun w => ?_)
    split
    · rename_i n e _
      exact .act _ _ (fun w q hq => hput w _ _ q hq) (fun w w' h => by simp [World.put, World.note, World.overwrite, h.1]) (fun w w' h => ⟨[.wrote path (b.take n)], rfl, rfl⟩)
        (fun w w' _ => rfl) (fun w => .raise _)
    · exact .act _ _ (fun w q hq => hput w _ _ q hq) (fun w w' h => by simp [World.put, World.note, World.overwrite, h.1]) (fun w w' h => ⟨[.wrote path b], rfl, rfl⟩)
        (fun w w' _ => rfl) (fun w => .ret _ trivial)

theorem confined_lintFile {A : Answer → Prop} {S : Path → Prop} (hS : Stable env S) (path : Path) (autofix hook : Bool)
    (hp : S path ∨ (autofix = false ∧ ∀ s, A s → s.yes = false)) : Confined A S path (fun _ => True) (lintFile env path autofix hook) := by
  unfold lintFile
  apply Confined.except
  · refine Confined.bind (Post := fun _ => True) ?_ (fun content _ => ?_)
    · unfold readBytes
      refine .look (fun w w' h => by rw [h.1]) (fun w => ?_)
      split
      · exact .raise _
      · split
        · exact .raise _
        · exact .ret _ trivial
    · refine .look (fun w w' h => ?_) (fun w => ?_)
      · rw [(hS w.files w'.files h.2).1]
      · refine (Confined.ofExcept (Post := fun _ => True) _ (fun _ _ => trivial)).bind (fun cfg _ => ?_)
        refine (confined_fixitBytes env hS path content cfg autofix hook hp).bind (fun upd hu => ?_)
        unfold writeBack
        split
        · exact .ret _ trivial
        · rename_i b
          have hs : S path := by simpa using hu
          split
          · exact .ret _ trivial
          · split
            · exact .ret _ trivial
            · exact confined_writeBytes env path b hs
  · intro e
    exact .yield _ _ (fun _ _ => .ret _ trivial)

end Fixit
