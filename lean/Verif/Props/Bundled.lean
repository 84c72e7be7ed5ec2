import Verif.Spec.Bundled
import Verif.Props.RulesTogether
import Verif.Props.RulesClassStmt
import Verif.Props.RulesCls
import Verif.Props.RulesCompare
import Verif.Props.RulesComprehension
import Verif.Props.RulesExtra
import Verif.Props.RulesFString
import Verif.Props.RulesIsinstanceShape
import Verif.Props.RulesLambda
import Verif.Props.RulesLiteral
import Verif.Props.RulesObject
import Verif.Props.RulesQuantify
import Verif.Props.RulesSorted
import Verif.Props.RulesStatic
import Verif.Props.RulesUnittest
import Verif.Props.RulesUseFstring

/-!
# C121: what each bundled rule reports about a module
-/

namespace Cst
open Py Fixit Spec

/-! ## Rules that remember nothing -/

theorem each_tracked (ms : List PStr) (f : Ev → Except Err (List Rep)) :
    Tracked (VRule.each ms f).methods (VRule.each ms f).on (fun (s : Unit) _ => s) (fun _ e => if e.method ∈ ms then f e else .ok []) where
  mem st s e hm := by
    have hm : e.method ∈ ms := hm
    simp only [VRule.each, if_pos hm]
  other s e hm := by
    have hm : e.method ∉ ms := hm
    exact ⟨rfl, if_neg hm⟩

theorem visit_method (kind : PStr) (e : Ev) : e.method = py "visit_" ++ kind ↔ ∃ i l, e = .visit i l ∧ l.typeName = kind := by
  cases e with
  | visit i l =>
    constructor
    · intro h; exact ⟨i, l, rfl, List.append_cancel_left h⟩
    · rintro ⟨_, _, h, hk⟩; cases h; rw [Ev.method, hk]
  | leave i l =>
    constructor
    · intro h; exact absurd h (by simp [Ev.method])
    · rintro ⟨_, _, h, _⟩; cases h

theorem leave_method (kind : PStr) (e : Ev) : e.method = py "leave_" ++ kind ↔ ∃ i l, e = .leave i l ∧ l.typeName = kind := by
  cases e with
  | leave i l =>
    constructor
    · intro h; exact ⟨i, l, rfl, List.append_cancel_left h⟩
    · rintro ⟨_, _, h, hk⟩; cases h; rw [Ev.method, hk]
  | visit i l =>
    constructor
    · intro h; exact absurd h (by simp [Ev.method])
    · rintro ⟨_, _, h, _⟩; cases h

/-- What a rule that remembers nothing reports: at each node, what its methods for the kind of node say. -/
theorem each_mem (ms : List PStr) (f : Ev → Except Err (List Rep)) (st : Store) (t : Syn) (reps : List Rep) (h : (VRule.each ms f).alone st t = .ok reps) (rep : Rep) :
    rep ∈ reps ↔ ∃ way i l ks e, At way (.node i l ks) t ∧ (e = .visit i l ∨ e = .leave i l) ∧ e.method ∈ ms ∧ ∃ out, f e = .ok out ∧ rep ∈ out := by
  rw [(each_tracked ms f).mem_alone st t reps h rep]
  have key : ∀ e : Ev, (∃ out, (if e.method ∈ ms then f e else .ok []) = .ok out ∧ rep ∈ out) ↔ e.method ∈ ms ∧ ∃ out, f e = .ok out ∧ rep ∈ out := by
    intro e
    by_cases hm : e.method ∈ ms
    · rw [if_pos hm]; exact ⟨fun h => ⟨hm, h⟩, fun h => h.2⟩
    · rw [if_neg hm]
      exact ⟨fun ⟨_, h, h'⟩ => by (cases h; cases h'), fun h => absurd h.1 hm⟩
  constructor
  · rintro ⟨way, i, l, ks, hat, h | h⟩
    · exact ⟨way, i, l, ks, _, hat, .inl rfl, (key _).mp h⟩
    · exact ⟨way, i, l, ks, _, hat, .inr rfl, (key _).mp h⟩
  · rintro ⟨way, i, l, ks, e, hat, rfl | rfl, h⟩
    · exact ⟨way, i, l, ks, hat, .inl ((key _).mpr h)⟩
    · exact ⟨way, i, l, ks, hat, .inr ((key _).mpr h)⟩

theorem each_error (ms : List PStr) (f : Ev → Except Err (List Rep)) (st : Store) (t : Syn) :
    (∃ x, (VRule.each ms f).alone st t = .error x) ↔ ∃ way i l ks e, At way (.node i l ks) t ∧ (e = .visit i l ∨ e = .leave i l) ∧ e.method ∈ ms ∧ ∃ x, f e = .error x := by
  have ht := (each_tracked ms f).error_alone (init := ()) st t
  have key : ∀ e : Ev, (∃ x, (if e.method ∈ ms then f e else .ok []) = .error x) ↔ e.method ∈ ms ∧ ∃ x, f e = .error x := by
    intro e
    by_cases hm : e.method ∈ ms
    · rw [if_pos hm]; exact ⟨fun h => ⟨hm, h⟩, fun h => h.2⟩
    · rw [if_neg hm]
      exact ⟨fun ⟨_, h⟩ => by (cases h), fun h => absurd h.1 hm⟩
  refine Iff.trans ht ?_
  constructor
  · rintro ⟨way, i, l, ks, hat, h | h⟩
    · exact ⟨way, i, l, ks, _, hat, .inl rfl, (key _).mp h⟩
    · exact ⟨way, i, l, ks, _, hat, .inr rfl, (key _).mp h⟩
  · rintro ⟨way, i, l, ks, e, hat, rfl | rfl, h⟩
    · exact ⟨way, i, l, ks, hat, .inl ((key _).mpr h)⟩
    · exact ⟨way, i, l, ks, hat, .inr ((key _).mpr h)⟩

/-- One `visit_…` method. -/
theorem visit_mem {kind : PStr} {ms : List PStr} (hms : ms = [py "visit_" ++ kind]) {f : Ev → Except Err (List Rep)} {st : Store} {t : Syn} {reps : List Rep}
    (h : (VRule.each ms f).alone st t = .ok reps) (rep : Rep) :
    rep ∈ reps ↔ ∃ way i l ks, At way (.node i l ks) t ∧ l.typeName = kind ∧ ∃ out, f (.visit i l) = .ok out ∧ rep ∈ out := by
  rw [each_mem ms f st t reps h rep, hms]
  simp only [List.mem_singleton, visit_method]
  constructor
  · rintro ⟨way, i, l, ks, e, hat, he, ⟨i', l', rfl, hk⟩, out, ho, hr⟩
    rcases he with he | he
    · cases he; exact ⟨way, i, l, ks, hat, hk, out, ho, hr⟩
    · cases he
  · rintro ⟨way, i, l, ks, hat, hk, h⟩
    exact ⟨way, i, l, ks, _, hat, .inl rfl, ⟨i, l, rfl, hk⟩, h⟩

theorem visit_error {kind : PStr} {ms : List PStr} (hms : ms = [py "visit_" ++ kind]) (f : Ev → Except Err (List Rep)) (st : Store) (t : Syn) :
    (∃ x, (VRule.each ms f).alone st t = .error x) ↔ ∃ way i l ks, At way (.node i l ks) t ∧ l.typeName = kind ∧ ∃ x, f (.visit i l) = .error x := by
  rw [each_error ms f st t, hms]
  simp only [List.mem_singleton, visit_method]
  constructor
  · rintro ⟨way, i, l, ks, e, hat, he, ⟨i', l', rfl, hk⟩, hx⟩
    rcases he with he | he
    · cases he; exact ⟨way, i, l, ks, hat, hk, hx⟩
    · cases he
  · rintro ⟨way, i, l, ks, hat, hk, h⟩
    exact ⟨way, i, l, ks, _, hat, .inl rfl, ⟨i, l, rfl, hk⟩, h⟩

/-- One `leave_…` method. -/
theorem leave_mem {kind : PStr} {ms : List PStr} (hms : ms = [py "leave_" ++ kind]) {f : Ev → Except Err (List Rep)} {st : Store} {t : Syn} {reps : List Rep}
    (h : (VRule.each ms f).alone st t = .ok reps) (rep : Rep) :
    rep ∈ reps ↔ ∃ way i l ks, At way (.node i l ks) t ∧ l.typeName = kind ∧ ∃ out, f (.leave i l) = .ok out ∧ rep ∈ out := by
  rw [each_mem ms f st t reps h rep, hms]
  simp only [List.mem_singleton, leave_method]
  constructor
  · rintro ⟨way, i, l, ks, e, hat, he, ⟨i', l', rfl, hk⟩, out, ho, hr⟩
    rcases he with he | he
    · cases he
    · cases he; exact ⟨way, i, l, ks, hat, hk, out, ho, hr⟩
  · rintro ⟨way, i, l, ks, hat, hk, h⟩
    exact ⟨way, i, l, ks, _, hat, .inr rfl, ⟨i, l, rfl, hk⟩, h⟩

theorem leave_error {kind : PStr} {ms : List PStr} (hms : ms = [py "leave_" ++ kind]) (f : Ev → Except Err (List Rep)) (st : Store) (t : Syn) :
    (∃ x, (VRule.each ms f).alone st t = .error x) ↔ ∃ way i l ks, At way (.node i l ks) t ∧ l.typeName = kind ∧ ∃ x, f (.leave i l) = .error x := by
  rw [each_error ms f st t, hms]
  simp only [List.mem_singleton, leave_method]
  constructor
  · rintro ⟨way, i, l, ks, e, hat, he, ⟨i', l', rfl, hk⟩, hx⟩
    rcases he with he | he
    · cases he
    · cases he; exact ⟨way, i, l, ks, hat, hk, hx⟩
  · rintro ⟨way, i, l, ks, hat, hk, h⟩
    exact ⟨way, i, l, ks, _, hat, .inr rfl, ⟨i, l, rfl, hk⟩, h⟩

theorem mem_reported {α : Type} {x : Err} {change : α → Change} {i : Nat} {message : Option PStr} {r : Cst.Report α} {rep : Rep} :
    (∃ out, reported x change i message r = .ok out ∧ rep ∈ out) ↔
      rep.node = i ∧ rep.message = message ∧ ((r = .warn ∧ rep.change = none) ∨ ∃ a, r = .fix a ∧ rep.change = some (change a)) := by
  obtain ⟨n, m, c⟩ := rep
  cases r with
  | silent =>
    constructor
    · rintro ⟨out, h, hr⟩; cases h; cases hr
    · rintro ⟨-, -, ⟨h, -⟩ | ⟨a, h, -⟩⟩ <;> cases h
  | crash =>
    constructor
    · rintro ⟨out, h, hr⟩; cases h
    · rintro ⟨-, -, ⟨h, -⟩ | ⟨a, h, -⟩⟩ <;> cases h
  | warn =>
    constructor
    · rintro ⟨out, h, hr⟩; cases h; cases List.mem_singleton.mp hr; exact ⟨rfl, rfl, .inl ⟨rfl, rfl⟩⟩
    · rintro ⟨h1, h2, ⟨h, h3⟩ | ⟨a, h, h3⟩⟩
      · cases h1; cases h2; cases h3; exact ⟨_, rfl, List.mem_singleton.mpr rfl⟩
      · cases h
  | fix a =>
    constructor
    · rintro ⟨out, h, hr⟩; cases h; cases List.mem_singleton.mp hr; exact ⟨rfl, rfl, .inr ⟨a, rfl, rfl⟩⟩
    · rintro ⟨h1, h2, ⟨h, h3⟩ | ⟨b, h, h3⟩⟩
      · cases h
      · cases h1; cases h2; cases h; cases h3; exact ⟨_, rfl, List.mem_singleton.mpr rfl⟩

theorem reported_error {α : Type} {x : Err} {change : α → Change} {i : Nat} {message : Option PStr} {r : Cst.Report α} :
    (∃ y, reported x change i message r = .error y) ↔ r = .crash := by
  cases r <;> simp [reported]

/-- What a rule about expressions reports. -/
theorem exprRule_mem {L : Looks} {kind : PStr} {message : Expr → Option PStr} {f : Nat → Expr → Cst.Report Expr} {method : PStr} (hm : method = py "visit_" ++ kind) {st : Store} {t : Syn}
    {reps : List Rep} (h : (exprRule L method message f).alone st t = .ok reps) (rep : Rep) :
    rep ∈ reps ↔ OfKind t kind rep.node ∧ rep.message = message (L.expr rep.node) ∧
      ((f rep.node (L.expr rep.node) = .warn ∧ rep.change = none) ∨ ∃ a, f rep.node (L.expr rep.node) = .fix a ∧ rep.change = some (.expr a)) := by
  subst hm
  rw [visit_mem (kind := kind) rfl h rep]
  simp only [Ev.node, mem_reported]
  constructor
  · rintro ⟨way, i, l, ks, hat, hk, rfl, h1, h2⟩
    exact ⟨⟨way, l, ks, hat, hk⟩, h1, h2⟩
  · rintro ⟨⟨way, l, ks, hat, hk⟩, h⟩
    exact ⟨way, _, l, ks, hat, hk, rfl, h⟩

theorem exprRule_error {L : Looks} {kind : PStr} {message : Expr → Option PStr} {f : Nat → Expr → Cst.Report Expr} {method : PStr} (hm : method = py "visit_" ++ kind) (st : Store) (t : Syn) :
    (∃ x, (exprRule L method message f).alone st t = .error x) ↔ ∃ i, OfKind t kind i ∧ f i (L.expr i) = .crash := by
  subst hm
  unfold exprRule
  rw [visit_error (kind := kind) rfl _ st t]
  simp only [Ev.node, reported_error]
  constructor
  · rintro ⟨way, i, l, ks, hat, hk, h⟩; exact ⟨i, ⟨way, l, ks, hat, hk⟩, h⟩
  · rintro ⟨i, ⟨way, l, ks, hat, hk⟩, h⟩; exact ⟨way, i, l, ks, hat, hk, h⟩

/-! ## Positions of nodes with different identities -/

theorem ids_of_at {way : List Frame} {n t : Syn} (h : At way n t) : n.id ∈ t.ids := by
  induction h with
  | here t => cases t; simp [Syn.id, Syn.ids]
  | down i l before after k way n h ih => rw [Syn.ids, idsAll_append, Syn.idsAll]; simp [ih]

theorem at_unique {way way' : List Frame} {n n' t : Syn} (h : At way n t) (h' : At way' n' t) (hid : n.id = n'.id) (hd : t.ids.Nodup) : way = way' ∧ n = n' := by
  induction h generalizing way' with
  | here t =>
    cases h' with
    | here => exact ⟨rfl, rfl⟩
    | down i l before after k way _ h' =>
      rw [Syn.ids, List.nodup_cons, idsAll_append, Syn.idsAll] at hd
      have : n'.id ∈ k.ids := ids_of_at h'
      have hid : i = n'.id := hid
      exact absurd (by rw [hid]; simp [this]) hd.1
  | down i l before after k way n h ih =>
    have hn := ids_of_at h
    rw [Syn.ids, List.nodup_cons, idsAll_append, Syn.idsAll] at hd
    generalize hks : before ++ k :: after = ks at h'
    cases h' with
    | here => exact absurd (by rw [Syn.id] at hid; rw [← hid]; simp [hn]) hd.1
    | down _ _ before' after' k' way' _ h' =>
      have hn' := ids_of_at h'
      rw [← hid] at hn'
      obtain ⟨-, hd⟩ := hd
      rw [List.nodup_append, List.nodup_append] at hd
      obtain ⟨-, ⟨hdk, -, hka⟩, hbk⟩ := hd
      rcases List.append_eq_append_iff.mp hks with ⟨a, ha, hb⟩ | ⟨a, ha, hb⟩
      · cases a with
        | nil =>
          simp only [List.append_nil, List.nil_append, List.cons.injEq] at ha hb
          obtain ⟨rfl, rfl⟩ := hb
          subst ha
          obtain ⟨rfl, rfl⟩ := ih h' hid hdk
          exact ⟨rfl, rfl⟩
        | cons x a =>
          simp only [List.cons_append, List.cons.injEq] at hb
          obtain ⟨rfl, rfl⟩ := hb
          have hm : n.id ∈ Syn.idsAll (a ++ k' :: after') := by rw [idsAll_append, Syn.idsAll]; simp [hn']
          exact absurd rfl (hka _ hn _ hm)
      · cases a with
        | nil =>
          simp only [List.append_nil, List.nil_append, List.cons.injEq] at ha hb
          obtain ⟨rfl, rfl⟩ := hb
          subst ha
          obtain ⟨rfl, rfl⟩ := ih h' hid hdk
          exact ⟨rfl, rfl⟩
        | cons x a =>
          simp only [List.cons_append, List.cons.injEq] at hb
          obtain ⟨rfl, rfl⟩ := hb
          have hm : n.id ∈ Syn.idsAll before := by rw [ha, idsAll_append, Syn.idsAll]; simp [hn']
          exact absurd rfl (hbk _ hm _ (by simp [hn]))

/-! ## CollapseIsinstanceChecks -/

/-- How `seen_boolean_operations` changes. -/
def seenTrack (L : Looks) (seen : List Nat) (e : Ev) : List Nat :=
  if e.method = py "visit_BooleanOperation" then if e.node ∈ seen then seen else seen ++ L.spine e.node else seen

/-- What is reported, unless it raises. -/
def seenOut (L : Looks) (seen : List Nat) (e : Ev) : Except Err (List Rep) :=
  if e.method = py "visit_BooleanOperation" then
    if e.node ∈ seen then .ok [] else reported .index .expr e.node none (collapseIsinstance (L.isinstance e.node) (L.expr e.node))
  else .ok []

theorem isinstanceRule_tracked (L : Looks) : Tracked (isinstanceRule L).methods (isinstanceRule L).on (seenTrack L) (seenOut L) where
  mem := fun st (s : List Nat) e hm => by
    have hm : e.method = py "visit_BooleanOperation" := List.mem_singleton.mp hm
    have h1 : seenTrack L s e = if e.node ∈ s then s else s ++ L.spine e.node := by rw [seenTrack, if_pos hm]
    have h2 : seenOut L s e = if e.node ∈ s then .ok [] else reported .index .expr e.node none (collapseIsinstance (L.isinstance e.node) (L.expr e.node)) := by rw [seenOut, if_pos hm]
    rw [h1, h2]
    simp only [isinstanceRule]
    by_cases hs : e.node ∈ s
    · rw [if_pos hs, if_pos hs, if_pos hs]; rfl
    · rw [if_neg hs, if_neg hs, if_neg hs]
  other s e hm := by
    have hm : e.method ≠ py "visit_BooleanOperation" := fun h => hm (List.mem_singleton.mpr h)
    exact ⟨if_neg hm, if_neg hm⟩

section
variable {L : Looks} {t : Syn} (hl : LooksRight L t)
include hl

omit hl in
theorem leftChain_or {i j : Nat} (h : LeftChain L t i j) : IsOr L t i ∧ IsOr L t j := by
  induction h with
  | here i h => exact ⟨h, h⟩
  | left i k j h hk hj ih => exact ⟨h, ih.2⟩

omit hl in
theorem leftChain_trans {i j k : Nat} (h : LeftChain L t i j) (h' : LeftChain L t j k) : LeftChain L t i k := by
  induction h with
  | here i h => exact h'
  | left i m j h hk hj ih => exact .left i m k h hk (ih h')

omit hl in
theorem leftChain_last {i j : Nat} (h : LeftChain L t i j) : i = j ∨ ∃ k, IsOr L t k ∧ FirstChild t j k := by
  induction h with
  | here i h => exact .inl rfl
  | left i k j h hk hj ih =>
    rcases ih with rfl | ih
    · exact .inr ⟨i, h, hk⟩
    · exact .inr ih

/-- The state: what the operations visited so far have added. -/
theorem seenTrack_mem : ∀ (evs : List Ev) (seen : List Nat), (∀ i l, .visit i l ∈ evs → ∃ way ks, At way (.node i l ks) t) →
    (∀ i j, i ∈ seen → LeftChain L t i j → j ∈ seen) → ∀ j,
    (j ∈ evs.foldl (seenTrack L) seen ↔ j ∈ seen ∨ ∃ i l, .visit i l ∈ evs ∧ l.typeName = py "BooleanOperation" ∧ LeftChain L t i j)
  | [], seen, _, _, j => by simp
  | e :: es, seen, hat, hc, j => by
    rw [List.foldl_cons]
    have hm := visit_method (py "BooleanOperation") e
    have hm : e.method = py "visit_BooleanOperation" ↔ _ := hm
    by_cases he : e.method = py "visit_BooleanOperation"
    · obtain ⟨i, l, rfl, hk⟩ := hm.mp he
      obtain ⟨way, ks, ha⟩ := hat i l (by simp)
      have hof : OfKind t (py "BooleanOperation") i := ⟨way, l, ks, ha, hk⟩
      have hst : ∀ j, j ∈ seenTrack L seen (.visit i l) ↔ j ∈ seen ∨ LeftChain L t i j := by
        intro j
        rw [seenTrack, if_pos he]
        by_cases hs : i ∈ seen
        · have : (Ev.visit i l).node ∈ seen := hs
          rw [if_pos this]
          exact ⟨.inl, fun h => h.elim id (hc i j hs)⟩
        · have : ¬ (Ev.visit i l).node ∈ seen := hs
          rw [if_neg this, List.mem_append]
          show j ∈ seen ∨ j ∈ L.spine i ↔ _
          rw [hl.spine i j hof]
      have hc' : ∀ i' j, i' ∈ seenTrack L seen (.visit i l) → LeftChain L t i' j → j ∈ seenTrack L seen (.visit i l) := by
        intro i' j h h'
        rw [hst] at h ⊢
        rcases h with h | h
        · exact .inl (hc i' j h h')
        · exact .inr (leftChain_trans h h')
      rw [seenTrack_mem es _ (fun i l h => hat i l (by simp [h])) hc' j, hst]
      constructor
      · rintro ((h | h) | ⟨i', l', h1, h2⟩)
        · exact .inl h
        · exact .inr ⟨i, l, by simp, hk, h⟩
        · exact .inr ⟨i', l', by simp [h1], h2⟩
      · rintro (h | ⟨i', l', h1, h2⟩)
        · exact .inl (.inl h)
        · rcases List.mem_cons.mp h1 with h1 | h1
          · cases h1; exact .inl (.inr h2.2)
          · exact .inr ⟨i', l', h1, h2⟩
    · have : seenTrack L seen e = seen := by rw [seenTrack, if_neg he]
      rw [this, seenTrack_mem es seen (fun i l h => hat i l (by simp [h])) hc j]
      constructor
      · rintro (h | ⟨i', l', h1, h2⟩)
        · exact .inl h
        · exact .inr ⟨i', l', by simp [h1], h2⟩
      · rintro (h | ⟨i', l', h1, h2⟩)
        · exact .inl h
        · rcases List.mem_cons.mp h1 with h1 | h1
          · exact absurd (hm.mpr ⟨i', l', h1.symm, h2.1⟩) he
          · exact .inr ⟨i', l', h1, h2⟩

/-- At a position, the operation has been seen exactly when it is the left operand of an `or`, and one itself. -/
theorem seen_iff {way : List Frame} {i : Nat} {l : Label} {ks : List Syn} (hat : At way (.node i l ks) t) :
    i ∈ (wayEvents way).foldl (seenTrack L) [] ↔ ∃ k, IsOr L t k ∧ IsOr L t i ∧ FirstChild t i k := by
  obtain ⟨rest, hr⟩ := hat.split
  have hpos : ∀ i' l', .visit i' l' ∈ wayEvents way → ∃ way' ks', At way' (.node i' l' ks') t := by
    intro i' l' h
    obtain ⟨pre, post, hp⟩ := List.append_of_mem h
    obtain ⟨way', ⟨i'', l'', ks'⟩, ha, hc⟩ := position_of_split t pre (post ++ (Syn.node i l ks).events ++ rest) (.visit i' l') (by rw [hr, hp]; simp)
    rcases hc with ⟨h1, -⟩ | ⟨h1, -⟩
    · cases h1; exact ⟨way', ks', ha⟩
    · cases h1
  rw [seenTrack_mem hl _ _ hpos (by intro i j h; cases h)]
  constructor
  · rintro (h | ⟨j, l', hv, hk, hch⟩)
    · cases h
    · have hor := (leftChain_or hch).2
      rcases leftChain_last hch with rfl | ⟨k, hk, hf⟩
      · -- the node itself is not visited before
        exfalso
        have hd := hl.nodup
        rw [← visit_ids, hr] at hd
        simp only [List.flatMap_append, Syn.events, List.flatMap_cons, visitId] at hd
        rw [List.append_assoc, List.nodup_append] at hd
        have h1 : j ∈ (wayEvents way).flatMap visitId := List.mem_flatMap.mpr ⟨_, hv, by simp [visitId]⟩
        exact hd.2.2 _ h1 j (by simp) rfl
      · exact ⟨k, hk, hor, hf⟩
  · rintro ⟨k, hk, hi, way', f, l', ks', hat', rfl, hb⟩
    obtain ⟨rfl, h2⟩ := at_unique hat hat' rfl hl.nodup
    refine .inr ⟨f.id, f.label, ?_, ?_, .left _ i _ hk ⟨way', f, l', ks', hat', rfl, hb⟩ (.here i hi)⟩
    · simp [wayEvents]
    · obtain ⟨⟨way'', l'', ks'', hat'', hkind⟩, -⟩ := hk
      have hup : ∀ (w : List Frame) (f : Frame) (n t : Syn), At (w ++ [f]) n t → ∃ ks, At w (.node f.id f.label ks) t := by
        intro w
        induction w with
        | nil => intro f n t h; cases h with | down i l b a k w n h => exact ⟨_, .here _⟩
        | cons g w ih =>
          intro f n t h
          cases h with
          | down i l b a k w' n h =>
            obtain ⟨ks, hk⟩ := ih f n k h
            exact ⟨ks, .down _ _ _ _ _ _ _ hk⟩
      obtain ⟨ks3, h3⟩ := hup _ _ _ _ hat'
      obtain ⟨-, h4⟩ := at_unique h3 hat'' rfl hl.nodup
      cases h4
      exact hkind

omit hl in
theorem check_iff (o : IsinstanceOracle) (e target : Expr) : Check o e target ↔ ∃ ty, isinstanceCall o e = some (target, ty) := by
  unfold Check isinstanceCall
  constructor
  · rintro ⟨f, a, b, h1, h2, h3, rfl⟩
    rw [h1]
    refine ⟨b.value, ?_⟩
    cases hb : b.value.core with
    | tuple es => exact absurd hb (h2 es)
    | _ => simp only [hb, h3, if_true]
  · rintro ⟨ty, h⟩
    split at h
    · rename_i f a b hc
      split at h
      · cases h
      · rename_i hnt
        split at h
        · rename_i hb
          cases h
          exact ⟨f, a, b, hc, hnt, hb, rfl⟩
        · cases h
    · cases h

end

theorem not_nodup_filterMap {α β : Type} (g : α → Option β) : ∀ es : List α, ¬ (es.filterMap g).Nodup ↔
    ∃ (a b : Nat) (x y : α) (v : β), a < b ∧ es[a]? = some x ∧ es[b]? = some y ∧ g x = some v ∧ g y = some v
  | [] => by simp
  | e :: es => by
    have ih := not_nodup_filterMap g es
    have shift : (∃ (a b : Nat) (x y : α) (v : β), a < b ∧ es[a]? = some x ∧ es[b]? = some y ∧ g x = some v ∧ g y = some v) →
        ∃ (a b : Nat) (x y : α) (v : β), a < b ∧ (e :: es)[a]? = some x ∧ (e :: es)[b]? = some y ∧ g x = some v ∧ g y = some v := by
      rintro ⟨a, b, x, y, v, h, h1, h2, h3⟩
      exact ⟨a + 1, b + 1, x, y, v, by omega, by simpa using h1, by simpa using h2, h3⟩
    have back : ∀ v0, g e = v0 → (∃ (a b : Nat) (x y : α) (v : β), a < b ∧ (e :: es)[a]? = some x ∧ (e :: es)[b]? = some y ∧ g x = some v ∧ g y = some v) →
        (∃ (a b : Nat) (x y : α) (v : β), a < b ∧ es[a]? = some x ∧ es[b]? = some y ∧ g x = some v ∧ g y = some v) ∨
        ∃ v, v0 = some v ∧ ∃ y ∈ es, g y = some v := by
      rintro v0 h0 ⟨a, b, x, y, v, h, h1, h2, h3, h4⟩
      cases b with
      | zero => omega
      | succ b =>
        cases a with
        | zero =>
          simp only [List.getElem?_cons_zero, Option.some.injEq] at h1
          subst h1
          exact .inr ⟨v, h0 ▸ h3, y, List.mem_of_getElem? (by simpa using h2), h4⟩
        | succ a => exact .inl ⟨a, b, x, y, v, by omega, by simpa using h1, by simpa using h2, h3, h4⟩
    cases hg : g e with
    | none =>
      rw [List.filterMap_cons, hg]
      simp only
      rw [ih]
      refine ⟨shift, fun h => ?_⟩
      rcases back none hg h with h | ⟨v, h, -⟩
      · exact h
      · cases h
    | some v =>
      rw [List.filterMap_cons, hg]
      simp only
      rw [List.nodup_cons, Classical.not_and_iff_not_or_not, Classical.not_not, ih, List.mem_filterMap]
      constructor
      · rintro (⟨y, hy, hv⟩ | h)
        · obtain ⟨b, hb⟩ := List.mem_iff_getElem?.mp hy
          exact ⟨0, b + 1, e, y, v, by omega, rfl, by simpa using hb, hg, hv⟩
        · exact shift h
      · intro h
        rcases back (some v) hg h with h | ⟨v', h, y, hy, hv⟩
        · exact .inr h
        · cases h; exact .inl ⟨y, hy, hv⟩

end Cst
