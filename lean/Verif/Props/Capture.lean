import Verif.Model.Capture
import Verif.Proof.Gen

/-!
# C59, C60, C61: `capture`; C70: `chdir`
-/

namespace Fixit
open Py Py.Gen

variable {W Y S R : Type}

/-- What a consumer does between two values: call `respond` some times, then resume the iteration, sending a value or (as a `for` loop does) `None`. -/
structure Turn (S : Type) where
  responses : List (Option S)
  sent : Option S

/-- The answer this amounts to: what was sent, else the last response, else `None`. -/
def Turn.answer (t : Turn S) : Option S :=
  match t.sent with
  | some v => some v
  | none => (t.responses.getLast?).getD none

def Turn.ops (t : Turn S) : List (CaptureOp S) := t.responses.map .respond ++ [.next t.sent]

/-- What the resumptions should give when the generator itself yields `ys` and ends with `st`; `n` resumptions in all. -/
def outcomes (n : Nat) (ys : List Y) (st : Status R) : List (Outcome Y (Option R)) :=
  ys.map .yielded ++ match st with
    | .suspended => []
    | .returned r => .stopped (some (some r)) :: List.replicate (n - ys.length - 1) (.stopped none)
    | .raised e => .raised e :: List.replicate (n - ys.length - 1) (.stopped none)

theorem ops_append (xs ys : List (CaptureOp S)) : ∀ (c : Capture W Y S R) (w : W),
    Capture.ops (xs ++ ys) c w = ((Capture.ops xs c w).1 ++ (Capture.ops ys (Capture.ops xs c w).2.1 (Capture.ops xs c w).2.2).1,
      (Capture.ops ys (Capture.ops xs c w).2.1 (Capture.ops xs c w).2.2).2) := by
  induction xs with
  | nil => intro c w; simp [Capture.ops]
  | cons x xs ih => intro c w; cases x <;> simp [Capture.ops, ih]

theorem ops_responds (rs : List (Option S)) : ∀ (c : Capture W Y S R) (w : W),
    Capture.ops (rs.map .respond) c w = ([], { c with send := (rs.getLast?).getD c.send }, w) := by
  induction rs with
  | nil => intro c w; simp [Capture.ops]
  | cons r rs ih =>
    intro c w
    simp only [List.map_cons, Capture.ops, ih, Capture.respond]
    cases rs with
    | nil => simp
    | cons a l => simp [List.getLast?_cons_cons, List.getLast?_eq_some_getLast (List.cons_ne_nil a l)]

theorem ops_turns_finished (turns : List (Turn S)) : ∀ (c : Capture W Y S R) (w : W), c.iter = .finished →
    (Capture.ops (turns.flatMap Turn.ops) c w).1 = List.replicate turns.length (.stopped none) ∧
    (Capture.ops (turns.flatMap Turn.ops) c w).2.2 = w ∧ (Capture.ops (turns.flatMap Turn.ops) c w).2.1.result = c.result := by
  induction turns with
  | nil => intro c w _; exact ⟨rfl, rfl, rfl⟩
  | cons t ts ih =>
    intro c w hc
    rw [List.flatMap_cons, ops_append, Turn.ops, ops_append, ops_responds]
    simp only [Capture.ops, List.nil_append]
    have : ∀ s : Option S, ({ c with send := s } : Capture W Y S R).resume t.sent w = (.stopped none, { c with send := s }, w) := by
      intro s; simp [Capture.resume, hc]
    simp only [this]
    obtain ⟨h1, h2, h3⟩ := ih { c with send := (t.responses.getLast?).getD c.send } w hc
    exact ⟨by rw [h1]; simp [List.replicate_succ], h2, h3⟩

/-- Where a generator goes when resumed, and what its run is. -/
theorem resume_run : ∀ (g : Gen W Y (Option S) R) (w : W),
    (∃ y k w', resume g w = (.yielded y, .waiting k, w') ∧ ∀ ss, g.run ss w = match ss with
      | [] => ([y], .suspended, w')
      | s :: ss => (y :: ((k s).run ss w').1, ((k s).run ss w').2)) ∨
    (∃ r w', resume g w = (.stopped (some r), .finished, w') ∧ ∀ ss, g.run ss w = ([], .returned r, w')) ∨
    (∃ e w', resume g w = (.raised e, .finished, w') ∧ ∀ ss, g.run ss w = ([], .raised e, w'))
  | .ret r, w => Or.inr (Or.inl ⟨r, w, rfl, fun ss => by simp [run]⟩)
  | .raise e, w => Or.inr (Or.inr ⟨e, w, rfl, fun ss => by simp [run]⟩)
  | .yield y k, w => Or.inl ⟨y, k, w, rfl, fun ss => by cases ss <;> rfl⟩
  | .act a k, w => by
    rcases resume_run (k w) (a w) with ⟨y, k', w', h1, h2⟩ | ⟨r, w', h1, h2⟩ | ⟨e, w', h1, h2⟩
    · exact Or.inl ⟨y, k', w', h1, fun ss => by simpa only [run] using h2 ss⟩
    · exact Or.inr (Or.inl ⟨r, w', h1, fun ss => by simpa only [run] using h2 ss⟩)
    · exact Or.inr (Or.inr ⟨e, w', h1, fun ss => by simpa only [run] using h2 ss⟩)

/-- One pass of the loop starting the wrapped generator `g` (or what is left of it), followed by turns. -/
theorem loop_turns (turns : List (Turn S)) : ∀ (c : Capture W Y S R) (w : W) (g : Gen W Y (Option S) R),
    c.obj.send c.send w = resume g w → c.result = none →
    (c.loop w).1 :: (Capture.ops (turns.flatMap Turn.ops) (c.loop w).2.1 (c.loop w).2.2).1 =
      outcomes (turns.length + 1) (g.run (turns.map Turn.answer) w).1 (g.run (turns.map Turn.answer) w).2.1 ∧
    (Capture.ops (turns.flatMap Turn.ops) (c.loop w).2.1 (c.loop w).2.2).2.2 = (g.run (turns.map Turn.answer) w).2.2 ∧
    (Capture.ops (turns.flatMap Turn.ops) (c.loop w).2.1 (c.loop w).2.2).2.1.getResult = match (g.run (turns.map Turn.answer) w).2.1 with
      | .returned r => .ok (some r)
      | _ => .error .value := by
  induction turns with
  | nil =>
    intro c w g hs hr
    rcases resume_run g w with ⟨y, k, w', h1, h2⟩ | ⟨r, w', h1, h2⟩ | ⟨e, w', h1, h2⟩
    · simp [Capture.loop, hs, h1, h2, Capture.ops, outcomes, Capture.getResult, hr]
    · simp [Capture.loop, hs, h1, h2, Capture.ops, outcomes, Capture.getResult]
    · simp [Capture.loop, hs, h1, h2, Capture.ops, outcomes, Capture.getResult, hr]
  | cons t ts ih =>
    intro c w g hs hr
    rcases resume_run g w with ⟨y, k, w', h1, h2⟩ | ⟨r, w', h1, h2⟩ | ⟨e, w', h1, h2⟩
    · have hl : c.loop w = (.yielded y, { c with obj := .waiting k, send := none, iter := .waiting }, w') := by simp [Capture.loop, hs, h1]
      rw [hl]
      simp only [List.map_cons, h2]
      have hres : ∀ c' : Capture W Y S R, c' = { c with obj := .waiting k, send := none, iter := .waiting } →
          (({ c' with send := (t.responses.getLast?).getD c'.send } : Capture W Y S R).resume t.sent w') =
          ({ c' with send := t.answer } : Capture W Y S R).loop w' := by
        intro c' hc'
        subst hc'
        cases hts : t.sent <;> simp [Capture.resume, Turn.answer, hts]
      rw [List.flatMap_cons, ops_append, Turn.ops, ops_append, ops_responds]
      simp only [Capture.ops, List.nil_append]
      rw [hres _ rfl]
      have hi := ih { c with obj := .waiting k, send := t.answer, iter := .waiting } w' (k t.answer) rfl hr
      obtain ⟨i1, i2, i3⟩ := hi
      refine ⟨?_, i2, i3⟩
      rw [List.cons_append, List.nil_append, i1]
      unfold outcomes
      simp only [List.map_cons, List.cons_append, List.length_cons]
      cases ((k t.answer).run (ts.map Turn.answer) w').2.1 <;> simp [Nat.add_sub_add_right]
    · have hl : c.loop w = (.stopped (some (some r)), { c with obj := .finished, result := some (some r), iter := .finished }, w') := by simp [Capture.loop, hs, h1]
      rw [hl]
      obtain ⟨f1, f2, f3⟩ := ops_turns_finished (t :: ts) ({ c with obj := .finished, result := some (some r), iter := .finished } : Capture W Y S R) w' rfl
      simp only [h2]
      refine ⟨?_, f2, ?_⟩
      · rw [f1]; simp [outcomes]
      · unfold Capture.getResult; rw [f3]
    · have hl : c.loop w = (.raised e, { c with obj := .finished, iter := .finished }, w') := by simp [Capture.loop, hs, h1]
      rw [hl]
      obtain ⟨f1, f2, f3⟩ := ops_turns_finished (t :: ts) ({ c with obj := .finished, iter := .finished } : Capture W Y S R) w' rfl
      simp only [h2]
      refine ⟨?_, f2, ?_⟩
      · rw [f1]; simp [outcomes]
      · unfold Capture.getResult; rw [f3, hr]

/-- **C59, C60** Iterating `capture(g)`, with any responses and answers between the values, gives exactly what iterating `g` gives when it is sent, after each
value, the answer of that turn: the same values in the same order, the same end (as StopIteration with the return value, or the exception), and the same
effects; further resumptions give StopIteration. In particular each answer is received once, at the next resumption, and `None` when there is none. -/
theorem C60_each_answer_once (g : Gen W Y (Option S) R) (turns : List (Turn S)) (w : W) :
    let out := Capture.ops (.next none :: turns.flatMap Turn.ops) (Capture.new g) w
    let plain := g.run (turns.map Turn.answer) w
    out.1 = outcomes (turns.length + 1) plain.1 plain.2.1 ∧ out.2.2 = plain.2.2 := by
  obtain ⟨h1, h2, -⟩ := loop_turns turns (Capture.new g) w g rfl rfl
  exact ⟨h1, h2⟩

/-- **C59** Without answers: the values of `capture(g)` are those of `g`, in order. -/
theorem C59_same_values (g : Gen W Y (Option S) R) (n : Nat) (w : W) :
    (Capture.ops (List.replicate (n + 1) (.next none)) (Capture.new g) w).1.filterMap (fun o => match o with | .yielded y => some y | _ => none) =
      (g.run (List.replicate n none) w).1 := by
  have hops : (List.replicate (n + 1) (.next none) : List (CaptureOp S)) = .next none :: (List.replicate n (⟨[], none⟩ : Turn S)).flatMap Turn.ops := by
    rw [List.replicate_succ]
    congr 1
    induction n with
    | zero => rfl
    | succ n ih => rw [List.replicate_succ, List.replicate_succ, List.flatMap_cons, ← ih]; rfl
  have hans : (List.replicate n (⟨[], none⟩ : Turn S)).map Turn.answer = List.replicate n none := by simp [Turn.answer]
  rw [hops, (C60_each_answer_once g _ w).1, hans]
  have hy : ∀ ys : List Y, (ys.map Outcome.yielded).filterMap (fun o : Outcome Y (Option R) => match o with | .yielded y => some y | _ => none) = ys := by
    intro ys
    induction ys with
    | nil => rfl
    | cons y ys ih => simpa using ih
  have hrep : ∀ m, (List.replicate m (.stopped none : Outcome Y (Option R))).filterMap (fun o => match o with | .yielded y => some y | _ => none) = [] := by
    intro m; induction m with
    | zero => rfl
    | succ m ih => simpa [List.replicate_succ] using ih
  unfold outcomes
  rw [List.filterMap_append, hy]
  cases (g.run (List.replicate n none) w).2.1 <;> simp [hrep]

/-- **C61** After any number of turns, `result` is the return value if the generator has returned, and raises ValueError if it has not, be it that it raised
or that the iteration was abandoned. -/
theorem C61_result (g : Gen W Y (Option S) R) (turns : List (Turn S)) (w : W) :
    (Capture.ops (.next none :: turns.flatMap Turn.ops) (Capture.new g) w).2.1.getResult = match (g.run (turns.map Turn.answer) w).2.1 with
      | .returned r => .ok (some r)
      | _ => .error .value :=
  (loop_turns turns (Capture.new g) w g rfl rfl).2.2

/-- **C61** Before the iteration starts, `result` raises ValueError, whatever was responded. -/
theorem C61_not_started (g : Gen W Y (Option S) R) (rs : List (Option S)) (w : W) :
    (Capture.ops (rs.map .respond) (Capture.new g) w).2.1.getResult = .error .value := by
  rw [ops_responds]; rfl

/-- **C60** (finding) A response given before the first value makes the iteration fail with TypeError; the wrapped generator is not even started. -/
theorem C60_early_response_raises (g : Gen W Y (Option S) R) (v : S) (w : W) :
    (Capture.ops [.respond (some v), .next none] (Capture.new g) w).1 = [.raised .type] ∧
    (Capture.ops [.respond (some v), .next none] (Capture.new g) w).2.2 = w ∧
    (Capture.ops [.respond (some v), .next none] (Capture.new g) w).2.1.obj = .fresh g := ⟨rfl, rfl, rfl⟩

/-- **C61** (finding) Iterating once more after the end replaces the result by `None`. -/
theorem C61_iterating_again_loses_result (g : Gen W Y (Option S) R) (turns : List (Turn S)) (w : W) (r : R)
    (h : (g.run (turns.map Turn.answer) w).2.1 = .returned r) :
    (Capture.ops (.next none :: turns.flatMap Turn.ops) (Capture.new g) w).2.1.getResult = .ok (some r) ∧
    (Capture.ops (.next none :: turns.flatMap Turn.ops ++ [.again, .next none]) (Capture.new g) w).2.1.getResult = .ok none := by
  have hfin : ∀ (turns : List (Turn S)) (c : Capture W Y S R) (w : W) (g : Gen W Y (Option S) R), c.obj.send c.send w = resume g w →
      (g.run (turns.map Turn.answer) w).2.1 ≠ .suspended →
      (Capture.ops (turns.flatMap Turn.ops) (c.loop w).2.1 (c.loop w).2.2).2.1.obj = .finished := by
    have hobj : ∀ (turns : List (Turn S)) (c : Capture W Y S R) (w : W), c.iter = .finished → (Capture.ops (turns.flatMap Turn.ops) c w).2.1.obj = c.obj := by
      intro turns
      induction turns with
      | nil => intro c w _; rfl
      | cons t ts ih =>
        intro c w hc
        rw [List.flatMap_cons, ops_append, Turn.ops, ops_append, ops_responds]
        simp only [Capture.ops]
        have : ∀ s : Option S, ({ c with send := s } : Capture W Y S R).resume t.sent w = (.stopped none, { c with send := s }, w) := by
          intro s; simp [Capture.resume, hc]
        simp only [this]
        exact ih { c with send := (t.responses.getLast?).getD c.send } w hc
    intro turns
    induction turns with
    | nil =>
      intro c w g hs hn
      rcases resume_run g w with ⟨y, k, w', h1, h2⟩ | ⟨r, w', h1, h2⟩ | ⟨e, w', h1, h2⟩
      · simp [h2] at hn
      · simp [Capture.loop, hs, h1, Capture.ops]
      · simp [Capture.loop, hs, h1, Capture.ops]
    | cons t ts ih =>
      intro c w g hs hn
      rcases resume_run g w with ⟨y, k, w', h1, h2⟩ | ⟨r, w', h1, h2⟩ | ⟨e, w', h1, h2⟩
      · have hl : c.loop w = (.yielded y, { c with obj := .waiting k, send := none, iter := .waiting }, w') := by simp [Capture.loop, hs, h1]
        rw [hl]
        rw [List.flatMap_cons, ops_append, Turn.ops, ops_append, ops_responds]
        simp only [Capture.ops]
        have hres : (({ c with obj := .waiting k, send := (t.responses.getLast?).getD none, iter := .waiting } : Capture W Y S R).resume t.sent w') =
            ({ c with obj := .waiting k, send := t.answer, iter := .waiting } : Capture W Y S R).loop w' := by
          cases hts : t.sent <;> simp [Capture.resume, Turn.answer, hts]
        rw [hres]
        simp only [List.map_cons, h2] at hn
        exact ih { c with obj := .waiting k, send := t.answer, iter := .waiting } w' (k t.answer) rfl hn
      · have hl : c.loop w = (.stopped (some (some r)), { c with obj := .finished, result := some (some r), iter := .finished }, w') := by simp [Capture.loop, hs, h1]
        rw [hl]; exact hobj (t :: ts) _ w' rfl
      · have hl : c.loop w = (.raised e, { c with obj := .finished, iter := .finished }, w') := by simp [Capture.loop, hs, h1]
        rw [hl]; exact hobj (t :: ts) _ w' rfl
  refine ⟨by rw [C61_result, h], ?_⟩
  have hf := hfin turns (Capture.new g) w g rfl (by rw [h]; simp)
  rw [ops_append]
  have hf' : (Capture.ops (.next none :: turns.flatMap Turn.ops) (Capture.new g) w).2.1.obj = .finished := hf
  generalize Capture.ops (.next none :: turns.flatMap Turn.ops) (Capture.new g) w = q at hf'
  simp only [Capture.ops, Capture.again, Capture.resume, Capture.loop, hf', Obj.send]
  rfl

/-- **C59** Whatever a consumer does, in any order, with any number of iterators: the values it gets in all are those of one run of the wrapped generator from
its start, against some answers, with the effects of that run; or the generator was never started. -/
theorem C59_any_history (g : Gen W Y (Option S) R) (ops : List (CaptureOp S)) (w : W) :
    let out := Capture.ops ops (Capture.new g) w
    let values := out.1.filterMap (fun o => match o with | .yielded y => some y | _ => none)
    (values = [] ∧ out.2.2 = w) ∨ ∃ ss : List (Option S), values = (g.run ss w).1 ∧ out.2.2 = (g.run ss w).2.2 := by
  -- the object after values `ys`, in the world `w'`
  let Reached : Obj W Y S R → List Y → W → Prop := fun o ys w' =>
    (o = .fresh g ∧ ys = [] ∧ w' = w) ∨
    (∃ k ss, o = .waiting k ∧ g.run ss w = (ys, .suspended, w') ∧ ∀ s ss', g.run (ss ++ s :: ss') w = (ys ++ ((k s).run ss' w').1, ((k s).run ss' w').2)) ∨
    (o = .finished ∧ ∃ ss, (g.run ss w).1 = ys ∧ (g.run ss w).2.2 = w')
  let vals : List (Outcome Y (Option R)) → List Y := fun l => l.filterMap (fun o => match o with | .yielded y => some y | _ => none)
  have hloop : ∀ (c : Capture W Y S R) (ys : List Y) (w' : W), Reached c.obj ys w' →
      Reached (c.loop w').2.1.obj (ys ++ vals [(c.loop w').1]) (c.loop w').2.2 := by
    intro c ys w' hR
    rcases hR with ⟨ho, hy, hw⟩ | ⟨k, ss, ho, h1, h2⟩ | ⟨ho, ss, h1, h2⟩
    · subst hy hw
      cases hsend : c.send with
      | some v =>
        have : c.loop w' = (.raised .type, { c with obj := .fresh g, iter := .finished }, w') := by simp [Capture.loop, ho, hsend, Obj.send]
        rw [this]
        exact Or.inl ⟨rfl, rfl, rfl⟩
      | none =>
        rcases resume_run g w' with ⟨y, k, w₁, r1, r2⟩ | ⟨r, w₁, r1, r2⟩ | ⟨e, w₁, r1, r2⟩
        · have : c.loop w' = (.yielded y, { c with obj := .waiting k, send := none, iter := .waiting }, w₁) := by simp [Capture.loop, ho, hsend, Obj.send, r1]
          rw [this]
          exact Or.inr (Or.inl ⟨k, [], rfl, r2 [], fun s ss' => by rw [List.nil_append, r2]; rfl⟩)
        · have : c.loop w' = (.stopped (some (some r)), { c with obj := .finished, result := some (some r), iter := .finished }, w₁) := by
            simp [Capture.loop, ho, hsend, Obj.send, r1]
          rw [this]
          exact Or.inr (Or.inr ⟨rfl, [], by rw [r2]; rfl, by rw [r2]⟩)
        · have : c.loop w' = (.raised e, { c with obj := .finished, iter := .finished }, w₁) := by simp [Capture.loop, ho, hsend, Obj.send, r1]
          rw [this]
          exact Or.inr (Or.inr ⟨rfl, [], by rw [r2]; rfl, by rw [r2]⟩)
    · rcases resume_run (k c.send) w' with ⟨y, k', w₁, r1, r2⟩ | ⟨r, w₁, r1, r2⟩ | ⟨e, w₁, r1, r2⟩
      · have : c.loop w' = (.yielded y, { c with obj := .waiting k', send := none, iter := .waiting }, w₁) := by simp [Capture.loop, ho, Obj.send, r1]
        rw [this]
        refine Or.inr (Or.inl ⟨k', ss ++ [c.send], rfl, ?_, fun s ss' => ?_⟩)
        · rw [h2, r2]
          rfl
        · rw [List.append_assoc, List.singleton_append, h2, r2]
          simp [vals]
      · have : c.loop w' = (.stopped (some (some r)), { c with obj := .finished, result := some (some r), iter := .finished }, w₁) := by
          simp [Capture.loop, ho, Obj.send, r1]
        rw [this]
        exact Or.inr (Or.inr ⟨rfl, ss ++ [c.send], by rw [h2, r2]; rfl, by rw [h2, r2]⟩)
      · have : c.loop w' = (.raised e, { c with obj := .finished, iter := .finished }, w₁) := by simp [Capture.loop, ho, Obj.send, r1]
        rw [this]
        exact Or.inr (Or.inr ⟨rfl, ss ++ [c.send], by rw [h2, r2]; rfl, by rw [h2, r2]⟩)
    · have : c.loop w' = (.stopped (some none), { c with obj := .finished, result := some none, iter := .finished }, w') := by simp [Capture.loop, ho, Obj.send]
      rw [this]
      exact Or.inr (Or.inr ⟨rfl, ss, by simpa [vals] using h1, h2⟩)
  have hres : ∀ (c : Capture W Y S R) (a : Option S) (ys : List Y) (w' : W), Reached c.obj ys w' →
      Reached (c.resume a w').2.1.obj (ys ++ vals [(c.resume a w').1]) (c.resume a w').2.2 := by
    intro c a ys w' hR
    unfold Capture.resume
    split
    · split
      · exact hloop c ys w' hR
      · simpa [vals] using hR
    · split
      · exact hloop c ys w' hR
      · exact hloop _ ys w' hR
    · simpa [vals] using hR
  have hall : ∀ (ops : List (CaptureOp S)) (c : Capture W Y S R) (ys : List Y) (w' : W), Reached c.obj ys w' →
      Reached (Capture.ops ops c w').2.1.obj (ys ++ vals (Capture.ops ops c w').1) (Capture.ops ops c w').2.2 := by
    intro ops
    induction ops with
    | nil => intro c ys w' hR; simpa [Capture.ops, vals] using hR
    | cons o os ih =>
      intro c ys w' hR
      cases o with
      | next a =>
        have := ih _ _ _ (hres c a ys w' hR)
        simp only [Capture.ops]
        have hv : ys ++ vals ((c.resume a w').1 :: (Capture.ops os (c.resume a w').2.1 (c.resume a w').2.2).1) =
            ys ++ vals [(c.resume a w').1] ++ vals (Capture.ops os (c.resume a w').2.1 (c.resume a w').2.2).1 := by
          rw [List.append_assoc, ← List.filterMap_append]; rfl
        rw [hv]
        exact this
      | respond a => exact ih (c.respond a) ys w' hR
      | again => exact ih c.again ys w' hR
  have := hall ops (Capture.new g) [] w (Or.inl ⟨rfl, rfl, rfl⟩)
  rw [List.nil_append] at this
  rcases this with ⟨-, h1, h2⟩ | ⟨k, ss, -, h1, -⟩ | ⟨-, ss, h1, h2⟩
  · exact Or.inl ⟨h1, h2⟩
  · exact Or.inr ⟨ss, by rw [h1], by rw [h1]⟩
  · exact Or.inr ⟨ss, h1.symm, h2.symm⟩

/-! ## C70 -/

/-- **C70** Whatever the body does (change the directory itself, return, raise), and whether or not `path` exists: if the directory one came from is still
there at the end, one is back in it. -/
theorem C70_restored {A : Type} (path : Path) (body : OSCode A) (os : OS) (h : os.cwd ∈ (chdirDo path body os).1.dirs) :
    (chdirDo path body os).1.cwd = os.cwd := by
  unfold chdirDo tryFinally at h ⊢
  generalize ((osChdir path).andThen body os) = q at h ⊢
  unfold osChdir at h ⊢
  by_cases hd : os.cwd ∈ q.1.dirs
  · simp [hd]
  · simp [hd] at h

/-- **C70** Then the outcome is that of the body, run in `path`; or the OSError of entering, without the body having run. -/
theorem C70_outcome {A : Type} (path : Path) (body : OSCode A) (os : OS) (h : os.cwd ∈ (chdirDo path body os).1.dirs) :
    (path ∈ os.dirs → (chdirDo path body os).2 = (body { os with cwd := path }).2 ∧ (chdirDo path body os).1.dirs = (body { os with cwd := path }).1.dirs) ∧
    (path ∉ os.dirs → (chdirDo path body os).2 = .error .os ∧ (chdirDo path body os).1 = os) := by
  unfold chdirDo tryFinally OSCode.andThen at h ⊢
  constructor
  · intro hp
    have hc : osChdir path os = ({ os with cwd := path }, .ok ()) := by simp [osChdir, hp]
    rw [hc] at h ⊢
    simp only at h ⊢
    generalize (body { os with cwd := path }) = q at h ⊢
    unfold osChdir at h ⊢
    by_cases hd : os.cwd ∈ q.1.dirs
    · simp [hd]
    · simp [hd] at h
  · intro hp
    have hc : osChdir path os = (os, .error .os) := by simp [osChdir, hp]
    rw [hc] at h ⊢
    simp only at h ⊢
    unfold osChdir at h ⊢
    by_cases hd : os.cwd ∈ os.dirs
    · simp [hd]
    · simp [hd] at h

/-- **C70** When the directory one came from is gone, OSError is raised, and one stays where the body was. -/
theorem C70_gone {A : Type} (path : Path) (body : OSCode A) (os : OS) (h : os.cwd ∉ (chdirDo path body os).1.dirs) :
    (chdirDo path body os).2 = .error .os ∧ (path ∈ os.dirs → (chdirDo path body os).1 = (body { os with cwd := path }).1) := by
  unfold chdirDo tryFinally at h ⊢
  have key : os.cwd ∉ ((osChdir path).andThen body os).1.dirs := by
    intro hd
    apply h
    generalize ((osChdir path).andThen body os) = q at hd ⊢
    simp [osChdir, hd]
  refine ⟨?_, fun hp => ?_⟩
  · generalize ((osChdir path).andThen body os) = q at key ⊢
    simp [osChdir, key]
  · have : ((osChdir path).andThen body os) = body { os with cwd := path } := by simp [OSCode.andThen, osChdir, hp]
    rw [this] at key ⊢
    simp [osChdir, key]

/-! ## Concrete cases -/

/-- A generator over the list of answers it was given. -/
def echo : Nat → List (Option Nat) → Gen Unit Nat (Option Nat) (List (Option Nat))
  | 0, acc => .ret acc
  | n + 1, acc => .yield n (fun s => echo n (acc ++ [s]))

/-- C60, C61: three values; answered by two responses (the last counts), by nothing, and by a sent value that overrides a response. -/
example :
    let turns : List (Turn Nat) := [⟨[some 1, some 2], none⟩, ⟨[], none⟩, ⟨[some 5], some 7⟩]
    let out := Capture.ops (.next none :: turns.flatMap Turn.ops) (Capture.new (echo 3 [])) ()
    out.1 = [.yielded 2, .yielded 1, .yielded 0, .stopped (some (some [some 2, none, some 7]))] ∧ out.2.1.getResult = .ok (some [some 2, none, some 7]) := ⟨rfl, rfl⟩

/-- C61: abandoned. -/
example : (Capture.ops [.next none, .next none] (Capture.new (echo 3 [])) ()).2.1.getResult = .error .value := rfl

/-- C70: a nested `chdir` whose body raises. -/
example :
    let os : OS := ⟨[py "a"], [[py "a"], [py "b"], [py "c"]]⟩
    chdirDo [py "b"] (chdirDo [py "c"] (fun os => (os, (.error .value : Except Err Nat)))) os = (os, .error .value) := by decide

end Fixit
