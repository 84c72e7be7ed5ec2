import Verif.Spec.Visit

/-!
# Walks and positions
-/

namespace Spec
open Py Cst Fixit

/-- What happens before the node at the end of the way is visited. -/
def wayEvents (way : List Frame) : List Ev := way.flatMap (fun f => .visit f.id f.label :: Syn.eventsAll f.before)

theorem eventsAll_append : ∀ a b : List Syn, Syn.eventsAll (a ++ b) = Syn.eventsAll a ++ Syn.eventsAll b
  | [], b => by simp [Syn.eventsAll]
  | k :: a, b => by simp [Syn.eventsAll, eventsAll_append a b]

/-- A position splits the walk. -/
theorem At.split {way : List Frame} {n t : Syn} (h : At way n t) : ∃ rest, t.events = wayEvents way ++ n.events ++ rest := by
  induction h with
  | here t => exact ⟨[], by simp [wayEvents]⟩
  | down i l before after k way n h ih =>
    obtain ⟨rest, hr⟩ := ih
    refine ⟨rest ++ Syn.eventsAll after ++ [.leave i l], ?_⟩
    simp [Syn.events, eventsAll_append, Syn.eventsAll, wayEvents, hr]

mutual
/-- Every step of the walk is at a position. -/
theorem position_of_split : ∀ (t : Syn) (pre post : List Ev) (e : Ev), t.events = pre ++ e :: post →
    ∃ way n, At way n t ∧ ((e = .visit n.id n.label ∧ pre = wayEvents way) ∨ (e = .leave n.id n.label ∧ pre = wayEvents way ++ .visit n.id n.label :: Syn.eventsAll n.kids))
  | .node i l ks, pre, post, e, h => by
    rw [Syn.events] at h
    cases pre with
    | nil =>
      simp only [List.nil_append, List.cons.injEq] at h
      exact ⟨[], _, .here _, .inl ⟨h.1.symm, rfl⟩⟩
    | cons p pre =>
      simp only [List.cons_append, List.cons.injEq] at h
      obtain ⟨rfl, h⟩ := h
      rcases List.append_eq_append_iff.mp h with ⟨a, ha, hb⟩ | ⟨a, ha, hb⟩
      · -- in the last event
        have : a = [] ∧ e = .leave i l ∧ post = [] := by
          cases a with
          | nil => simp only [List.nil_append, List.cons.injEq] at hb; exact ⟨rfl, hb.1.symm, hb.2.symm⟩
          | cons x a => simp at hb
        obtain ⟨rfl, rfl, rfl⟩ := this
        simp only [List.append_nil] at ha
        refine ⟨[], .node i l ks, .here _, .inr ⟨rfl, ?_⟩⟩
        rw [ha]; rfl
      · cases a with
        | nil =>
          simp only [List.nil_append, List.cons.injEq] at hb
          refine ⟨[], .node i l ks, .here _, .inr ⟨hb.1, ?_⟩⟩
          simp only [List.append_nil] at ha
          rw [← ha]; rfl
        | cons x a =>
          simp only [List.cons_append, List.cons.injEq] at hb
          obtain ⟨rfl, hb⟩ := hb
          obtain ⟨before, k, after, way, n, hks, hat, hcase⟩ := position_of_splitAll ks pre a e ha
          subst hks
          refine ⟨⟨i, l, before⟩ :: way, n, .down i l before after k way n hat, ?_⟩
          rcases hcase with ⟨h1, h2⟩ | ⟨h1, h2⟩
          · exact .inl ⟨h1, by rw [h2]; simp [wayEvents]⟩
          · exact .inr ⟨h1, by rw [h2]; simp [wayEvents]⟩
theorem position_of_splitAll : ∀ (ks : List Syn) (pre post : List Ev) (e : Ev), Syn.eventsAll ks = pre ++ e :: post →
    ∃ before k after way n, ks = before ++ k :: after ∧ At way n k ∧
      ((e = .visit n.id n.label ∧ pre = Syn.eventsAll before ++ wayEvents way) ∨
       (e = .leave n.id n.label ∧ pre = Syn.eventsAll before ++ (wayEvents way ++ .visit n.id n.label :: Syn.eventsAll n.kids)))
  | [], pre, post, e, h => by simp [Syn.eventsAll] at h
  | k :: ks, pre, post, e, h => by
    rw [Syn.eventsAll] at h
    have later : ∀ pre', pre = k.events ++ pre' → Syn.eventsAll ks = pre' ++ e :: post →
        ∃ before k' after way n, k :: ks = before ++ k' :: after ∧ At way n k' ∧
          ((e = .visit n.id n.label ∧ pre = Syn.eventsAll before ++ wayEvents way) ∨
           (e = .leave n.id n.label ∧ pre = Syn.eventsAll before ++ (wayEvents way ++ .visit n.id n.label :: Syn.eventsAll n.kids))) := by
      intro pre' hp h'
      obtain ⟨before, k', after, way, n, hks, hat, hcase⟩ := position_of_splitAll ks pre' post e h'
      refine ⟨k :: before, k', after, way, n, by rw [hks]; rfl, hat, ?_⟩
      rcases hcase with ⟨h1, h2⟩ | ⟨h1, h2⟩
      · exact .inl ⟨h1, by rw [hp, h2]; simp [Syn.eventsAll]⟩
      · exact .inr ⟨h1, by rw [hp, h2]; simp [Syn.eventsAll]⟩
    rcases List.append_eq_append_iff.mp h with ⟨a, ha, hb⟩ | ⟨a, ha, hb⟩
    · exact later a ha hb
    · cases a with
      | nil =>
        refine later [] (by simpa using ha.symm) (by simpa using hb.symm)
      | cons x a =>
        simp only [List.cons_append, List.cons.injEq] at hb
        obtain ⟨rfl, hb⟩ := hb
        obtain ⟨way, n, hat, hcase⟩ := position_of_split k pre a e ha
        exact ⟨[], k, ks, way, n, rfl, hat, by simpa [Syn.eventsAll] using hcase⟩
end

/-! ## Runs of one rule -/

theorem steps_append (r : VRule) : ∀ (a b : List Ev) (st : Store) (s : r.State), r.steps (a ++ b) st s =
    (r.steps a st s).bind (fun x => (r.steps b x.1 x.2.1).map (fun y => (y.1, y.2.1, x.2.2 ++ y.2.2)))
  | [], b, st, s => by
    simp only [List.nil_append, VRule.steps, Except.bind]
    cases r.steps b st s <;> rfl
  | e :: a, b, st, s => by
    simp only [List.cons_append, VRule.steps]
    cases r.step e st s with
    | error x => rfl
    | ok x =>
      obtain ⟨st', s', out⟩ := x
      simp only [steps_append r a b st' s']
      cases r.steps a st' s' with
      | error x => rfl
      | ok y =>
        simp only [Except.bind]
        cases r.steps b y.1 y.2.1 with
        | error x => rfl
        | ok z => simp [Except.map, List.append_assoc]

/-- What a rule reports on a list of steps: what it reports at each of them. -/
theorem mem_steps (r : VRule) (rep : Rep) : ∀ (evs : List Ev) (st : Store) (s : r.State) (x : Store × r.State × List Rep), r.steps evs st s = .ok x →
    (rep ∈ x.2.2 ↔ ∃ pre e post y z, evs = pre ++ e :: post ∧ r.steps pre st s = .ok y ∧ r.step e y.1 y.2.1 = .ok z ∧ rep ∈ z.2.2)
  | [], st, s, x, h => by
    cases h
    constructor
    · intro h; cases h
    · rintro ⟨pre, e, post, y, z, h, -⟩; simp at h
  | e :: es, st, s, x, h => by
    rw [VRule.steps] at h
    cases h1 : r.step e st s with
    | error x => rw [h1] at h; cases h
    | ok a =>
      obtain ⟨st', s', out⟩ := a
      rw [h1] at h
      simp only at h
      cases h2 : r.steps es st' s' with
      | error x => rw [h2] at h; cases h
      | ok b =>
        obtain ⟨st'', s'', out'⟩ := b
        rw [h2] at h
        cases h
        have ih := mem_steps r rep es st' s' _ h2
        simp only [List.mem_append]
        constructor
        · rintro (hm | hm)
          · exact ⟨[], e, es, _, _, rfl, rfl, h1, hm⟩
          · obtain ⟨pre, e', post, y, z, hp, hy, hz, hm⟩ := ih.mp hm
            refine ⟨e :: pre, e', post, (y.1, y.2.1, out ++ y.2.2), z, by rw [hp]; rfl, ?_, hz, hm⟩
            rw [VRule.steps, h1]
            simp only [hy]
        · rintro ⟨pre, e', post, y, z, hp, hy, hz, hm⟩
          cases pre with
          | nil =>
            simp only [List.nil_append, List.cons.injEq] at hp
            obtain ⟨rfl, rfl⟩ := hp
            cases hy
            rw [h1] at hz
            cases hz
            exact .inl hm
          | cons p pre =>
            simp only [List.cons_append, List.cons.injEq] at hp
            obtain ⟨rfl, hp⟩ := hp
            rw [VRule.steps, h1] at hy
            simp only at hy
            cases h3 : r.steps pre st' s' with
            | error x => rw [h3] at hy; cases hy
            | ok c =>
              rw [h3] at hy
              cases hy
              exact .inr (ih.mpr ⟨pre, e', post, c, z, hp, h3, hz, hm⟩)

/-- What a rule alone reports on a module: what its methods report at each position, from the state it is in there. -/
theorem mem_alone (r : VRule) (meta_ : Store) (t : Syn) (reps : List Rep) (h : r.alone meta_ t = .ok reps) (rep : Rep) :
    rep ∈ reps ↔ ∃ way n y z, At way n t ∧ rep ∈ z.2.2 ∧
      ((r.steps (wayEvents way) meta_ r.init = .ok y ∧ r.step (.visit n.id n.label) y.1 y.2.1 = .ok z) ∨
       (r.steps (wayEvents way ++ .visit n.id n.label :: Syn.eventsAll n.kids) meta_ r.init = .ok y ∧ r.step (.leave n.id n.label) y.1 y.2.1 = .ok z)) := by
  unfold VRule.alone at h
  cases hs : r.steps t.events meta_ r.init with
  | error e => rw [hs] at h; cases h
  | ok x =>
    rw [hs] at h
    cases h
    rw [mem_steps r rep _ _ _ x hs]
    constructor
    · rintro ⟨pre, e, post, y, z, hp, hy, hz, hm⟩
      obtain ⟨way, n, hat, hcase⟩ := position_of_split t pre post e hp
      refine ⟨way, n, y, z, hat, hm, ?_⟩
      rcases hcase with ⟨rfl, rfl⟩ | ⟨rfl, rfl⟩
      · exact .inl ⟨hy, hz⟩
      · exact .inr ⟨hy, hz⟩
    · rintro ⟨way, n, y, z, hat, hm, hcase⟩
      obtain ⟨rest, hr⟩ := hat.split
      obtain ⟨i, l, ks⟩ := n
      rcases hcase with ⟨hy, hz⟩ | ⟨hy, hz⟩
      · exact ⟨_, _, Syn.eventsAll ks ++ [.leave i l] ++ rest, y, z, by rw [hr]; simp [Syn.events, Syn.id, Syn.label], hy, hz, hm⟩
      · exact ⟨_, _, rest, y, z, by rw [hr]; simp [Syn.events, Syn.id, Syn.label, Syn.kids], hy, hz, hm⟩

end Spec
