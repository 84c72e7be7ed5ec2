import Verif.Proof.Visit
import Verif.Model.Rules.Stateful

/-!
# Rules whose state can be computed without looking at reports
-/

namespace Spec
open Py Cst Fixit

/-- What is reported along a list of steps, when the state changes by `g` and `f` says what is reported. -/
def outs {σ : Type} (g : σ → Ev → σ) (f : σ → Ev → Except Err (List Rep)) : List Ev → σ → Except Err (List Rep)
  | [], _ => .ok []
  | e :: es, s => match f s e with
    | .error x => .error x
    | .ok out => match outs g f es (g s e) with
      | .error x => .error x
      | .ok out' => .ok (out ++ out')

/-- The rule does not change metadata, its state changes by `g`, and it reports what `f` says. -/
structure Tracked {σ : Type} (methods : List PStr) (on : Store → σ → Ev → Except Err (Store × σ × List Rep)) (g : σ → Ev → σ) (f : σ → Ev → Except Err (List Rep)) : Prop where
  mem : ∀ st s e, e.method ∈ methods → on st s e = (f s e).map (fun out => (st, g s e, out))
  other : ∀ s e, e.method ∉ methods → g s e = s ∧ f s e = .ok []

theorem Tracked.step {σ : Type} {init : σ} {methods : List PStr} {on : Store → σ → Ev → Except Err (Store × σ × List Rep)} {g : σ → Ev → σ} {f : σ → Ev → Except Err (List Rep)}
    (h : Tracked methods on g f) (st : Store) (s : σ) (e : Ev) : (VRule.mk σ init methods on).step e st s = (f s e).map (fun out => (st, g s e, out)) := by
  unfold VRule.step
  by_cases hm : e.method ∈ methods
  · rw [if_pos hm]; exact h.mem st s e hm
  · rw [if_neg hm, (h.other s e hm).1, (h.other s e hm).2]; rfl

theorem Tracked.steps {σ : Type} {init : σ} {methods : List PStr} {on : Store → σ → Ev → Except Err (Store × σ × List Rep)} {g : σ → Ev → σ} {f : σ → Ev → Except Err (List Rep)}
    (h : Tracked methods on g f) (st : Store) : ∀ (evs : List Ev) (s : σ),
      (VRule.mk σ init methods on).steps evs st s = (outs g f evs s).map (fun out => (st, evs.foldl g s, out))
  | [], s => rfl
  | e :: es, s => by
    rw [VRule.steps, h.step, outs]
    cases f s e with
    | error x => rfl
    | ok out =>
      simp only [Except.map]
      rw [h.steps st es (g s e)]
      cases outs g f es (g s e) with
      | error x => rfl
      | ok out' => rfl

theorem Tracked.alone {σ : Type} {init : σ} {methods : List PStr} {on : Store → σ → Ev → Except Err (Store × σ × List Rep)} {g : σ → Ev → σ} {f : σ → Ev → Except Err (List Rep)}
    (h : Tracked methods on g f) (st : Store) (t : Syn) : (VRule.mk σ init methods on).alone st t = outs g f t.events init := by
  unfold VRule.alone
  rw [h.steps]
  cases outs g f t.events init <;> rfl

theorem Tracked.keeps {σ : Type} {init : σ} {methods : List PStr} {on : Store → σ → Ev → Except Err (Store × σ × List Rep)} {g : σ → Ev → σ} {f : σ → Ev → Except Err (List Rep)}
    (h : Tracked methods on g f) (st : Store) (s : σ) (e : Ev) (hm : e.method ∈ methods) (st' : Store) (s' : σ) (out : List Rep) (ho : on st s e = .ok (st', s', out)) : st' = st := by
  rw [h.mem st s e hm] at ho
  cases hf : f s e with
  | error x => rw [hf] at ho; cases ho
  | ok o => rw [hf] at ho; cases ho; rfl

theorem mem_outs {σ : Type} (g : σ → Ev → σ) (f : σ → Ev → Except Err (List Rep)) (rep : Rep) : ∀ (evs : List Ev) (s : σ) (reps : List Rep), outs g f evs s = .ok reps →
    (rep ∈ reps ↔ ∃ pre e post out, evs = pre ++ e :: post ∧ f (pre.foldl g s) e = .ok out ∧ rep ∈ out)
  | [], s, reps, h => by
    cases h
    exact ⟨fun h => by (cases h), fun ⟨pre, e, post, out, h, _⟩ => by simp at h⟩
  | e :: es, s, reps, h => by
    rw [outs] at h
    cases h1 : f s e with
    | error x => rw [h1] at h; cases h
    | ok out =>
      rw [h1] at h
      simp only at h
      cases h2 : outs g f es (g s e) with
      | error x => rw [h2] at h; cases h
      | ok out' =>
        rw [h2] at h
        cases h
        rw [List.mem_append, mem_outs g f rep es (g s e) out' h2]
        constructor
        · rintro (hm | ⟨pre, e', post, o, rfl, ho, hm⟩)
          · exact ⟨[], e, es, out, rfl, h1, hm⟩
          · exact ⟨e :: pre, e', post, o, rfl, ho, hm⟩
        · rintro ⟨pre, e', post, o, hp, ho, hm⟩
          cases pre with
          | nil => cases hp; rw [List.foldl_nil, h1] at ho; cases ho; exact .inl hm
          | cons p pre => cases hp; exact .inr ⟨pre, e', post, o, rfl, ho, hm⟩

theorem error_outs {σ : Type} (g : σ → Ev → σ) (f : σ → Ev → Except Err (List Rep)) : ∀ (evs : List Ev) (s : σ),
    (∃ x, outs g f evs s = .error x) ↔ ∃ pre e post x, evs = pre ++ e :: post ∧ f (pre.foldl g s) e = .error x
  | [], s => ⟨fun ⟨x, h⟩ => by (cases h), fun ⟨pre, e, post, x, h, _⟩ => by simp at h⟩
  | e :: es, s => by
    rw [outs]
    cases h1 : f s e with
    | error x => exact ⟨fun _ => ⟨[], e, es, x, rfl, h1⟩, fun _ => ⟨x, rfl⟩⟩
    | ok out =>
      have ih := error_outs g f es (g s e)
      constructor
      · rintro ⟨x, h⟩
        simp only at h
        cases h2 : outs g f es (g s e) with
        | ok o => rw [h2] at h; cases h
        | error y =>
          obtain ⟨pre, e', post, x, rfl, hx⟩ := ih.mp ⟨y, h2⟩
          exact ⟨e :: pre, e', post, x, rfl, hx⟩
      · rintro ⟨pre, e', post, x, hp, hx⟩
        cases pre with
        | nil => cases hp; rw [List.foldl_nil, h1] at hx; cases hx
        | cons p pre =>
          cases hp
          obtain ⟨y, hy⟩ := ih.mpr ⟨pre, e', post, x, rfl, hx⟩
          exact ⟨y, by simp only [hy]⟩

/-- Every step of a walk is the visit or the end of the visit of a position, and the other way round. -/
theorem splits_iff (t : Syn) (P : List Ev → Ev → Prop) : (∃ pre e post, t.events = pre ++ e :: post ∧ P pre e) ↔
    ∃ way i l ks, At way (.node i l ks) t ∧ (P (wayEvents way) (.visit i l) ∨ P (wayEvents way ++ .visit i l :: Syn.eventsAll ks) (.leave i l)) := by
  constructor
  · rintro ⟨pre, e, post, hp, h⟩
    obtain ⟨way, ⟨i, l, ks⟩, hat, hcase⟩ := position_of_split t pre post e hp
    refine ⟨way, i, l, ks, hat, ?_⟩
    rcases hcase with ⟨rfl, rfl⟩ | ⟨rfl, rfl⟩
    · exact .inl h
    · exact .inr h
  · rintro ⟨way, i, l, ks, hat, hcase⟩
    obtain ⟨rest, hr⟩ := hat.split
    rcases hcase with h | h
    · exact ⟨_, _, Syn.eventsAll ks ++ [.leave i l] ++ rest, by rw [hr]; simp [Syn.events], h⟩
    · exact ⟨_, _, rest, by rw [hr]; simp [Syn.events], h⟩

/-- What a rule reports, by position. -/
theorem Tracked.mem_alone {σ : Type} {init : σ} {methods : List PStr} {on : Store → σ → Ev → Except Err (Store × σ × List Rep)} {g : σ → Ev → σ} {f : σ → Ev → Except Err (List Rep)}
    (h : Tracked methods on g f) (st : Store) (t : Syn) (reps : List Rep) (ha : (VRule.mk σ init methods on).alone st t = .ok reps) (rep : Rep) :
    rep ∈ reps ↔ ∃ way i l ks, At way (.node i l ks) t ∧
      ((∃ out, f ((wayEvents way).foldl g init) (.visit i l) = .ok out ∧ rep ∈ out) ∨
       (∃ out, f ((Syn.eventsAll ks).foldl g (g ((wayEvents way).foldl g init) (.visit i l))) (.leave i l) = .ok out ∧ rep ∈ out)) := by
  rw [h.alone] at ha
  rw [mem_outs g f rep _ _ _ ha]
  have := splits_iff t (fun pre e => ∃ out, f (pre.foldl g init) e = .ok out ∧ rep ∈ out)
  simp only [List.foldl_append, List.foldl_cons] at this
  rw [← this]
  constructor
  · rintro ⟨pre, e, post, out, h1, h2, h3⟩; exact ⟨pre, e, post, h1, out, h2, h3⟩
  · rintro ⟨pre, e, post, h1, out, h2, h3⟩; exact ⟨pre, e, post, out, h1, h2, h3⟩

/-- When a rule raises, by position. -/
theorem Tracked.error_alone {σ : Type} {init : σ} {methods : List PStr} {on : Store → σ → Ev → Except Err (Store × σ × List Rep)} {g : σ → Ev → σ} {f : σ → Ev → Except Err (List Rep)}
    (h : Tracked methods on g f) (st : Store) (t : Syn) :
    (∃ x, (VRule.mk σ init methods on).alone st t = .error x) ↔ ∃ way i l ks, At way (.node i l ks) t ∧
      ((∃ x, f ((wayEvents way).foldl g init) (.visit i l) = .error x) ∨
       (∃ x, f ((Syn.eventsAll ks).foldl g (g ((wayEvents way).foldl g init) (.visit i l))) (.leave i l) = .error x)) := by
  rw [h.alone, error_outs]
  have := splits_iff t (fun pre e => ∃ x, f (pre.foldl g init) e = .error x)
  simp only [List.foldl_append, List.foldl_cons] at this
  rw [← this]
  constructor
  · rintro ⟨pre, e, post, x, h1, h2⟩; exact ⟨pre, e, post, h1, x, h2⟩
  · rintro ⟨pre, e, post, h1, x, h2⟩; exact ⟨pre, e, post, x, h1, h2⟩

/-! ## One report for a node -/

/-- The node of a visit. -/
def visitId : Ev → List Nat
  | .visit i _ => [i]
  | .leave _ _ => []

/-- The node of the end of a visit. -/
def leaveId : Ev → List Nat
  | .visit _ _ => []
  | .leave i _ => [i]

theorem outs_sublist {σ : Type} (g : σ → Ev → σ) (f : σ → Ev → Except Err (List Rep)) (k : Ev → List Nat) (hk : ∀ s e out, f s e = .ok out → (out.map (·.node)).Sublist (k e)) :
    ∀ (evs : List Ev) (s : σ) (reps : List Rep), outs g f evs s = .ok reps → (reps.map (·.node)).Sublist (evs.flatMap k)
  | [], s, reps, h => by cases h; exact .slnil
  | e :: es, s, reps, h => by
    rw [outs] at h
    cases h1 : f s e with
    | error x => rw [h1] at h; cases h
    | ok out =>
      rw [h1] at h
      simp only at h
      cases h2 : outs g f es (g s e) with
      | error x => rw [h2] at h; cases h
      | ok out' =>
        rw [h2] at h
        cases h
        rw [List.map_append, List.flatMap_cons]
        exact (hk s e out h1).append (outs_sublist g f k hk es (g s e) out' h2)

mutual
theorem visit_ids : ∀ t : Syn, t.events.flatMap visitId = Syn.ids t
  | .node i l ks => by simp [Syn.events, visitId, visit_idsAll ks, Syn.ids]
theorem visit_idsAll : ∀ ks : List Syn, (Syn.eventsAll ks).flatMap visitId = Syn.idsAll ks
  | [] => rfl
  | k :: ks => by simp [Syn.eventsAll, visit_ids k, visit_idsAll ks, Syn.idsAll]
end

mutual
theorem leave_ids : ∀ t : Syn, (t.events.flatMap leaveId).Perm (Syn.ids t)
  | .node i l ks => by
    simp only [Syn.events, leaveId, List.flatMap_cons, List.flatMap_append, List.nil_append, List.flatMap_nil, List.append_nil, Syn.ids]
    exact (List.perm_append_comm (l₁ := (Syn.eventsAll ks).flatMap leaveId) (l₂ := [i])).trans ((leave_idsAll ks).cons i)
theorem leave_idsAll : ∀ ks : List Syn, ((Syn.eventsAll ks).flatMap leaveId).Perm (Syn.idsAll ks)
  | [] => .nil
  | k :: ks => by
    simp only [Syn.eventsAll, List.flatMap_append, Syn.idsAll]
    exact (leave_ids k).append (leave_idsAll ks)
end

/-- In a tree whose nodes are different, a rule that reports at most once when it visits a node reports every node at most once. -/
theorem Tracked.once {σ : Type} {init : σ} {methods : List PStr} {on : Store → σ → Ev → Except Err (Store × σ × List Rep)} {g : σ → Ev → σ} {f : σ → Ev → Except Err (List Rep)}
    (h : Tracked methods on g f) (hk : ∀ s e out, f s e = .ok out → (out.map (·.node)).Sublist (visitId e)) (st : Store) (t : Syn) (reps : List Rep)
    (ha : (VRule.mk σ init methods on).alone st t = .ok reps) (hd : t.ids.Nodup) : (reps.map (·.node)).Nodup := by
  rw [h.alone] at ha
  have := outs_sublist g f visitId hk _ _ _ ha
  rw [visit_ids] at this
  exact this.nodup hd

/-- The same when it reports at the end of visits. -/
theorem Tracked.once' {σ : Type} {init : σ} {methods : List PStr} {on : Store → σ → Ev → Except Err (Store × σ × List Rep)} {g : σ → Ev → σ} {f : σ → Ev → Except Err (List Rep)}
    (h : Tracked methods on g f) (hk : ∀ s e out, f s e = .ok out → (out.map (·.node)).Sublist (leaveId e)) (st : Store) (t : Syn) (reps : List Rep)
    (ha : (VRule.mk σ init methods on).alone st t = .ok reps) (hd : t.ids.Nodup) : (reps.map (·.node)).Nodup := by
  rw [h.alone] at ha
  have := outs_sublist g f leaveId hk _ _ _ ha
  exact this.nodup ((leave_ids t).nodup_iff.mpr hd)

/-! ## Trees without a kind of node -/

theorem Within.refl (t : Syn) : Within t t := ⟨[], .here t⟩

theorem Within.down {n k : Syn} {i : Nat} {l : Label} {ks : List Syn} (h : Within n k) (hk : k ∈ ks) : Within n (.node i l ks) := by
  obtain ⟨way, hw⟩ := h
  obtain ⟨a, b, rfl⟩ := List.append_of_mem hk
  exact ⟨_, .down i l a b k way n hw⟩

theorem Within.cases {n : Syn} {i : Nat} {l : Label} {ks : List Syn} (h : Within n (.node i l ks)) : n = .node i l ks ∨ ∃ k ∈ ks, Within n k := by
  obtain ⟨way, hw⟩ := h
  cases hw with
  | here => exact .inl rfl
  | down _ _ before after k way _ h => exact .inr ⟨k, by simp, way, h⟩

/-- Leaving a node undoes what visiting it did. -/
def Balanced {σ : Type} (g : σ → Ev → σ) : Prop := ∀ s i l, g (g s (.visit i l)) (.leave i l) = s

mutual
theorem Balanced.events {σ : Type} {g : σ → Ev → σ} (h : Balanced g) : ∀ (t : Syn) (s : σ), t.events.foldl g s = s
  | .node i l ks, s => by
    rw [Syn.events, List.foldl_cons, List.foldl_append, Balanced.eventsAll h ks]
    exact h s i l
theorem Balanced.eventsAll {σ : Type} {g : σ → Ev → σ} (h : Balanced g) : ∀ (ks : List Syn) (s : σ), (Syn.eventsAll ks).foldl g s = s
  | [], s => rfl
  | k :: ks, s => by rw [Syn.eventsAll, List.foldl_append, Balanced.events h k, Balanced.eventsAll h ks]
end

/-- The state at a position depends only on the nodes above it. -/
theorem Balanced.way {σ : Type} {g : σ → Ev → σ} (h : Balanced g) : ∀ (way : List Frame) (s : σ),
    (wayEvents way).foldl g s = way.foldl (fun s f => g s (.visit f.id f.label)) s
  | [], s => rfl
  | f :: way, s => by
    rw [wayEvents, List.flatMap_cons, List.cons_append, List.foldl_cons, List.foldl_append, h.eventsAll, List.foldl_cons]
    exact Balanced.way h way _

end Spec
