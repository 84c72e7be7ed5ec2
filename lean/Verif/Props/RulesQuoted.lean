import Verif.Proof.Tracked
import Verif.Spec.RulesStateful

/-!
# C100: NoStringTypeAnnotation
-/

namespace Cst
open Py Fixit Spec

theorem isName_iff (s : PStr) (e : Expr) : e.isName s = true ↔ e.core = .name s := by
  unfold Expr.isName
  cases hc : e.core <;> simp

theorem isFutureAnnotations_iff (d : Nat) (m : Option Expr) (ns : Option (List ImportName)) : isFutureAnnotations m ns = true ↔ IsFuture (.importFrom d m ns) := by
  unfold isFutureAnnotations
  cases m with
  | none => exact ⟨fun h => by (cases h), fun ⟨_, _, _, h, _⟩ => by (cases h)⟩
  | some m =>
    cases ns with
    | none => exact ⟨fun h => by (cases h), fun ⟨_, _, _, h, _⟩ => by (cases h)⟩
    | some as =>
      simp only [Bool.and_eq_true, List.any_eq_true, isName_iff]
      exact ⟨fun ⟨h1, h2⟩ => ⟨d, m, as, rfl, h1, h2⟩, fun ⟨_, _, _, h, h1, h2⟩ => by cases h; exact ⟨h1, h2⟩⟩

/-- `typing.Literal`. -/
def isLiteral (qual : List PStr) : Bool := qual.any (fun n => n == py "typing.Literal" || n == py "typing_extensions.Literal")

/-- How the rule's state changes. -/
def quotedTrack (qual : Nat → List PStr) (q : Quoted) : Ev → Quoted
  | .visit _ (.importFrom _ m ns) => if isFutureAnnotations m ns then { q with future := true } else q
  | .visit i .annotation => { q with annotations := i :: q.annotations }
  | .leave i .annotation => { q with annotations := q.annotations.erase i }
  | .visit i .subscript => if q.future && !q.annotations.isEmpty && isLiteral (qual i) then { q with literals := i :: q.literals } else q
  | .leave i .subscript => if q.future then { q with literals := q.literals.erase i } else q
  | _ => q

/-- What the rule reports. -/
def quotedOut (value : PStr → Except Err PStr) (parse : PStr → Option Expr) (q : Quoted) : Ev → Except Err (List Rep)
  | .visit i (.simpleString s) =>
    if q.future && !q.annotations.isEmpty && q.literals.isEmpty then
      match value s with
      | .error x => .error x
      | .ok v => .ok [unquote parse i v]
    else .ok []
  | _ => .ok []

theorem quotedRule_tracked (qual : Nat → List PStr) (value : PStr → Except Err PStr) (parse : PStr → Option Expr) :
    Tracked (quotedRule qual value parse).methods (quotedRule qual value parse).on (quotedTrack qual) (quotedOut value parse) where
  mem st s e _ := by
    cases e with
    | visit i l =>
      cases l with
      | simpleString v =>
        simp only [quotedRule, quotedOut]
        split
        · cases value v <;> rfl
        · rfl
      | _ => rfl
    | leave i l => cases l <;> rfl
  other s e hm := by
    cases e with
    | visit i l => cases l <;> first | exact ⟨rfl, rfl⟩ | (exfalso; apply hm; simp [Ev.method, Label.typeName, quotedRule])
    | leave i l => cases l <;> first | exact ⟨rfl, rfl⟩ | (exfalso; apply hm; simp [Ev.method, Label.typeName, quotedRule])

/-- The import is in the tree. -/
def HasFuture (t : Syn) : Prop := ∃ n, Within n t ∧ IsFuture n.label

theorem hasFuture_node {i : Nat} {l : Label} {ks : List Syn} : HasFuture (.node i l ks) ↔ IsFuture l ∨ ∃ k ∈ ks, HasFuture k := by
  constructor
  · rintro ⟨n, hw, hf⟩
    rcases Within.cases hw with rfl | ⟨k, hk, hw⟩
    · exact .inl hf
    · exact .inr ⟨k, hk, n, hw, hf⟩
  · rintro (h | ⟨k, hk, n, hw, hf⟩)
    · exact ⟨_, Within.refl _, h⟩
    · exact ⟨n, Within.down hw hk, hf⟩

theorem exprsOnly_node {i : Nat} {l : Label} {ks : List Syn} (h : ExprsOnly (.node i l ks)) :
    (∀ k ∈ ks, ExprsOnly k) ∧ (l = .annotation ∨ l = .subscript → ∀ k ∈ ks, ¬ HasFuture k) := by
  refine ⟨fun k hk n hn => h n (Within.down hn hk), fun hl k hk ⟨n, hw, hf⟩ => ?_⟩
  exact h _ (Within.refl _) hl n (Within.down hw hk) hf

/-- `q` after something that is as if only an import had happened. -/
def Quoted.after (q : Quoted) (p : Prop) : Quoted → Prop := fun q' => q'.annotations = q.annotations ∧ q'.literals = q.literals ∧ (q'.future = true ↔ q.future = true ∨ p)

mutual
theorem quotedTrack_events (qual : Nat → List PStr) : ∀ (t : Syn) (q : Quoted), ExprsOnly t → t.ids.Nodup → (∀ i ∈ t.ids, i ∉ q.literals) →
    q.after (HasFuture t) (t.events.foldl (quotedTrack qual) q)
  | .node i l ks, q, hw, hd, hl => by
    obtain ⟨hks, hno⟩ := exprsOnly_node hw
    rw [Syn.ids, List.nodup_cons] at hd
    have hi : i ∉ q.literals := hl i (by simp [Syn.ids])
    have hl' : ∀ j ∈ Syn.idsAll ks, j ∉ q.literals := fun j hj => hl j (by simp [Syn.ids, hj])
    rw [Syn.events, List.foldl_cons, List.foldl_append, List.foldl_cons, List.foldl_nil]
    have plain : ∀ q0 : Quoted, q0.literals = q.literals → quotedTrack qual q (.visit i l) = q0 → (∀ q, quotedTrack qual q (.leave i l) = q) → q0.annotations = q.annotations →
        (q0.future = true ↔ q.future = true ∨ IsFuture l) →
        q.after (HasFuture (.node i l ks)) (quotedTrack qual ((Syn.eventsAll ks).foldl (quotedTrack qual) (quotedTrack qual q (.visit i l))) (.leave i l)) := by
      intro q0 h0 h1 h2 h3 h4
      rw [h1, h2]
      obtain ⟨a, b, c⟩ := quotedTrack_eventsAll qual ks q0 hks hd.2 (by rw [h0]; exact hl')
      exact ⟨a.trans h3, b.trans h0, by rw [c, h4, hasFuture_node, or_assoc]⟩
    by_cases hA : l = .annotation
    · subst hA
      have hf : ¬ ∃ k ∈ ks, HasFuture k := fun ⟨k, hk, h⟩ => hno (.inl rfl) k hk h
      obtain ⟨a, b, c⟩ := quotedTrack_eventsAll qual ks { q with annotations := i :: q.annotations } hks hd.2 hl'
      refine ⟨?_, b, ?_⟩
      · show ((Syn.eventsAll ks).foldl (quotedTrack qual) { q with annotations := i :: q.annotations }).annotations.erase i = _
        rw [a]; simp
      · show ((Syn.eventsAll ks).foldl (quotedTrack qual) { q with annotations := i :: q.annotations }).future = true ↔ _
        rw [c, hasFuture_node]
        constructor
        · rintro (h | h)
          · exact .inl h
          · exact absurd h hf
        · rintro (h | ⟨_, _, _, h, _⟩ | h)
          · exact .inl h
          · cases h
          · exact absurd h hf
    · by_cases hS : l = .subscript
      · subst hS
        have hf : ¬ ∃ k ∈ ks, HasFuture k := fun ⟨k, hk, h⟩ => hno (.inr rfl) k hk h
        have hF : ¬ HasFuture (.node i .subscript ks) := by
          rw [hasFuture_node]
          rintro (⟨_, _, _, h, _⟩ | h)
          · cases h
          · exact hf h
        by_cases hc : (q.future && !q.annotations.isEmpty && isLiteral (qual i)) = true
        · have h1 : quotedTrack qual q (.visit i .subscript) = { q with literals := i :: q.literals } := by simp only [quotedTrack]; rw [if_pos hc]
          have hq : q.future = true := by simp only [Bool.and_eq_true] at hc; exact hc.1.1
          obtain ⟨a, b, c⟩ := quotedTrack_eventsAll qual ks { q with literals := i :: q.literals } hks hd.2 (by
            intro j hj hm
            rcases List.mem_cons.mp hm with rfl | hm
            · exact hd.1 hj
            · exact hl' j hj hm)
          rw [h1]
          have hfut : ((Syn.eventsAll ks).foldl (quotedTrack qual) { q with literals := i :: q.literals }).future = true := c.mpr (.inl hq)
          simp only [quotedTrack]
          rw [if_pos hfut]
          refine ⟨a, ?_, ?_⟩
          · show ((Syn.eventsAll ks).foldl (quotedTrack qual) { q with literals := i :: q.literals }).literals.erase i = _
            rw [b]; simp
          · exact ⟨fun _ => .inl hq, fun _ => hfut⟩
        · have h1 : quotedTrack qual q (.visit i .subscript) = q := by simp only [quotedTrack]; rw [if_neg hc]
          obtain ⟨a, b, c⟩ := quotedTrack_eventsAll qual ks q hks hd.2 hl'
          rw [h1]
          have hfut : ((Syn.eventsAll ks).foldl (quotedTrack qual) q).future = true ↔ q.future = true ∨ HasFuture (.node i .subscript ks) := by
            rw [c]
            constructor
            · rintro (h | h)
              · exact .inl h
              · exact absurd h hf
            · rintro (h | h)
              · exact .inl h
              · exact absurd h hF
          simp only [quotedTrack]
          split
          · refine ⟨a, ?_, hfut⟩
            show ((Syn.eventsAll ks).foldl (quotedTrack qual) q).literals.erase i = _
            rw [b, List.erase_of_not_mem hi]
          · exact ⟨a, b, hfut⟩
      · cases l with
        | importFrom d m ns =>
          by_cases hb : isFutureAnnotations m ns = true
          · refine plain { q with future := true } rfl (by simp only [quotedTrack]; rw [if_pos hb]) (fun _ => rfl) rfl ?_
            exact ⟨fun _ => .inr ((isFutureAnnotations_iff d m ns).mp hb), fun _ => rfl⟩
          · refine plain q rfl (by simp only [quotedTrack]; rw [if_neg hb]) (fun _ => rfl) rfl ?_
            exact ⟨.inl, fun h => h.elim id (fun h => absurd ((isFutureAnnotations_iff d m ns).mpr h) hb)⟩
        | annotation => exact absurd rfl hA
        | subscript => exact absurd rfl hS
        | _ => exact plain q rfl rfl (fun _ => rfl) rfl ⟨.inl, fun h => h.elim id (fun ⟨_, _, _, h, _⟩ => by (cases h))⟩
theorem quotedTrack_eventsAll (qual : Nat → List PStr) : ∀ (ks : List Syn) (q : Quoted), (∀ k ∈ ks, ExprsOnly k) → (Syn.idsAll ks).Nodup → (∀ i ∈ Syn.idsAll ks, i ∉ q.literals) →
    q.after (∃ k ∈ ks, HasFuture k) ((Syn.eventsAll ks).foldl (quotedTrack qual) q)
  | [], q, _, _, _ => ⟨rfl, rfl, by simp [Syn.eventsAll]⟩
  | k :: ks, q, hw, hd, hl => by
    rw [Syn.idsAll] at hd hl
    have hd' := List.nodup_append.mp hd
    rw [List.forall_mem_cons] at hw
    obtain ⟨a, b, c⟩ := quotedTrack_events qual k q hw.1 hd'.1 (fun i hi => hl i (by simp [hi]))
    obtain ⟨a', b', c'⟩ := quotedTrack_eventsAll qual ks (k.events.foldl (quotedTrack qual) q) hw.2 hd'.2.1 (by rw [b]; exact fun i hi => hl i (by simp [hi]))
    rw [Syn.eventsAll, List.foldl_append]
    refine ⟨a'.trans a, b'.trans b, ?_⟩
    rw [c', c, or_assoc]
    simp
end

theorem futureBefore_cons (f : Frame) (way : List Frame) : FutureBefore (f :: way) ↔ (IsFuture f.label ∨ ∃ k ∈ f.before, HasFuture k) ∨ FutureBefore way := by
  constructor
  · rintro ⟨g, hg, h⟩
    rcases List.mem_cons.mp hg with rfl | hg
    · exact .inl h
    · exact .inr ⟨g, hg, h⟩
  · rintro (h | ⟨g, hg, h⟩)
    · exact ⟨f, List.mem_cons_self, h⟩
    · exact ⟨g, List.mem_cons_of_mem _ hg, h⟩

theorem futureBefore_within {way : List Frame} {n t : Syn} (h : At way n t) : FutureBefore way → HasFuture t := by
  induction h with
  | here t => rintro ⟨f, hf, -⟩; cases hf
  | down i l before after k way n h ih =>
    rw [futureBefore_cons, hasFuture_node]
    rintro ((h | ⟨k', hk', h⟩) | h)
    · exact .inl h
    · exact .inr ⟨k', by simp [hk'], h⟩
    · exact .inr ⟨k, by simp, ih h⟩

theorem inAnnotation_cons (f : Frame) (way : List Frame) : InAnnotation (f :: way) ↔ f.label = .annotation ∨ InAnnotation way := by
  simp [InAnnotation]

/-- `InLiteral` when something outside may be an annotation. -/
def InLit (qual : Nat → List PStr) (p : Prop) (way : List Frame) : Prop :=
  ∃ outer f inner, way = outer ++ f :: inner ∧ f.label = .subscript ∧ isLiteral (qual f.id) = true ∧ (p ∨ InAnnotation outer)

theorem isLiteral_iff (q : List PStr) : isLiteral q = true ↔ py "typing.Literal" ∈ q ∨ py "typing_extensions.Literal" ∈ q := by
  simp only [isLiteral, List.any_eq_true, Bool.or_eq_true, beq_iff_eq]
  constructor
  · rintro ⟨x, hx, rfl | rfl⟩
    · exact .inl hx
    · exact .inr hx
  · rintro (h | h)
    · exact ⟨_, h, .inl rfl⟩
    · exact ⟨_, h, .inr rfl⟩

theorem inLit_cons (qual : Nat → List PStr) (p : Prop) (f : Frame) (way : List Frame) :
    InLit qual p (f :: way) ↔ (f.label = .subscript ∧ isLiteral (qual f.id) = true ∧ p) ∨ InLit qual (p ∨ f.label = .annotation) way := by
  constructor
  · rintro ⟨o, g, i, hs, h1, h2, h3⟩
    cases o with
    | nil =>
      simp only [List.nil_append, List.cons.injEq] at hs
      obtain ⟨rfl, rfl⟩ := hs
      rcases h3 with h3 | ⟨x, hx, -⟩
      · exact .inl ⟨h1, h2, h3⟩
      · cases hx
    | cons y o =>
      simp only [List.cons_append, List.cons.injEq] at hs
      obtain ⟨rfl, rfl⟩ := hs
      rw [inAnnotation_cons] at h3
      exact .inr ⟨o, g, i, rfl, h1, h2, by rw [or_assoc]; exact h3⟩
  · rintro (⟨h1, h2, h3⟩ | ⟨o, g, i, rfl, h1, h2, h3⟩)
    · exact ⟨[], f, way, rfl, h1, h2, .inl h3⟩
    · exact ⟨f :: o, g, i, rfl, h1, h2, by rw [inAnnotation_cons, ← or_assoc]; exact h3⟩

theorem inLit_congr (qual : Nat → List PStr) {p p' : Prop} (h : p ↔ p') (way : List Frame) : InLit qual p way ↔ InLit qual p' way := by
  have : p = p' := propext h
  rw [this]

theorem quotedTrack_way (qual : Nat → List PStr) {way : List Frame} {n t : Syn} (h : At way n t) : ∀ q : Quoted, ExprsOnly t → t.ids.Nodup → (∀ i ∈ t.ids, i ∉ q.literals) →
    (((wayEvents way).foldl (quotedTrack qual) q).annotations ≠ [] ↔ q.annotations ≠ [] ∨ InAnnotation way) ∧
    (((wayEvents way).foldl (quotedTrack qual) q).future = true ↔ q.future = true ∨ FutureBefore way) ∧
    (((wayEvents way).foldl (quotedTrack qual) q).future = true →
      (((wayEvents way).foldl (quotedTrack qual) q).literals ≠ [] ↔ q.literals ≠ [] ∨ InLit qual (q.annotations ≠ []) way)) := by
  induction h with
  | here t =>
    intro q _ _ _
    simp only [wayEvents, List.flatMap_nil, List.foldl_nil]
    refine ⟨⟨.inl, ?_⟩, ⟨.inl, ?_⟩, fun _ => ⟨.inl, ?_⟩⟩
    · rintro (h | ⟨f, hf, -⟩)
      · exact h
      · cases hf
    · rintro (h | ⟨f, hf, -⟩)
      · exact h
      · cases hf
    · rintro (h | ⟨o, f, i, hs, -⟩)
      · exact h
      · simp at hs
  | down i l before after k way n hat ih =>
    intro q hw hd hl
    obtain ⟨hks, hno⟩ := exprsOnly_node hw
    have ids_append : ∀ a b : List Syn, Syn.idsAll (a ++ b) = Syn.idsAll a ++ Syn.idsAll b := by
      intro a b
      induction a with
      | nil => simp [Syn.idsAll]
      | cons x a ih => simp [Syn.idsAll, ih]
    rw [Syn.ids, List.nodup_cons, ids_append] at hd
    have hbk := List.nodup_append.mp hd.2
    have hk' := List.nodup_append.mp (show (k.ids ++ Syn.idsAll after).Nodup from hbk.2.1)
    have hi : i ∉ q.literals := hl i (by simp [Syn.ids])
    have hlb : ∀ j ∈ Syn.idsAll before, j ∉ q.literals ∧ j ≠ i := by
      intro j hj
      refine ⟨hl j (by simp [Syn.ids, ids_append, hj]), ?_⟩
      rintro rfl
      exact hd.1 (by simp [hj])
    have hlk : ∀ j ∈ k.ids, j ∉ q.literals ∧ j ≠ i := by
      intro j hj
      refine ⟨hl j (by simp [Syn.ids, ids_append, Syn.idsAll, hj]), ?_⟩
      rintro rfl
      exact hd.1 (by simp [Syn.idsAll, hj])
    have hWb : ∀ k' ∈ before, ExprsOnly k' := fun k' h' => hks k' (by simp [h'])
    have hWk : ExprsOnly k := hks k (by simp)
    -- what happens for a state after the visit of the node
    have main : ∀ q1 : Quoted, quotedTrack qual q (.visit i l) = q1 → (∀ j, j ∈ q1.literals → j ∈ q.literals ∨ j = i) →
        (q1.annotations ≠ [] ↔ q.annotations ≠ [] ∨ l = .annotation) → (q1.future = true ↔ q.future = true ∨ IsFuture l) →
        (((wayEvents (⟨i, l, before⟩ :: way)).foldl (quotedTrack qual) q).annotations ≠ [] ↔ q.annotations ≠ [] ∨ InAnnotation (⟨i, l, before⟩ :: way)) := by
      intro q1 e1 hlit hann hfut
      obtain ⟨a, b, c⟩ := quotedTrack_eventsAll qual before q1 hWb hbk.1 (fun j hj hm => by
        rcases hlit j hm with h | h
        · exact (hlb j hj).1 h
        · exact (hlb j hj).2 h)
      obtain ⟨a', b', c'⟩ := ih _ hWk hk'.1 (by
        rw [b]
        intro j hj hm
        rcases hlit j hm with h | h
        · exact (hlk j hj).1 h
        · exact (hlk j hj).2 h)
      rw [wayEvents, List.flatMap_cons, List.cons_append, List.foldl_cons, List.foldl_append, e1]
      rw [wayEvents] at a'
      rw [a', a, hann, inAnnotation_cons, or_assoc]
    have mainF : ∀ q1 : Quoted, quotedTrack qual q (.visit i l) = q1 → (∀ j, j ∈ q1.literals → j ∈ q.literals ∨ j = i) →
        (q1.future = true ↔ q.future = true ∨ IsFuture l) →
        (((wayEvents (⟨i, l, before⟩ :: way)).foldl (quotedTrack qual) q).future = true ↔ q.future = true ∨ FutureBefore (⟨i, l, before⟩ :: way)) := by
      intro q1 e1 hlit hfut
      obtain ⟨a, b, c⟩ := quotedTrack_eventsAll qual before q1 hWb hbk.1 (fun j hj hm => by
        rcases hlit j hm with h | h
        · exact (hlb j hj).1 h
        · exact (hlb j hj).2 h)
      obtain ⟨a', b', c'⟩ := ih _ hWk hk'.1 (by
        rw [b]
        intro j hj hm
        rcases hlit j hm with h | h
        · exact (hlk j hj).1 h
        · exact (hlk j hj).2 h)
      rw [wayEvents, List.flatMap_cons, List.cons_append, List.foldl_cons, List.foldl_append, e1]
      rw [wayEvents] at b'
      rw [b', c, hfut, futureBefore_cons, or_assoc, or_assoc, or_assoc]
    have mainL : ∀ q1 : Quoted, quotedTrack qual q (.visit i l) = q1 → (∀ j, j ∈ q1.literals → j ∈ q.literals ∨ j = i) →
        (q1.annotations ≠ [] ↔ q.annotations ≠ [] ∨ l = .annotation) →
        (((wayEvents (⟨i, l, before⟩ :: way)).foldl (quotedTrack qual) q).future = true → (q1.literals ≠ [] ↔ q.literals ≠ [] ∨ (l = .subscript ∧ isLiteral (qual i) = true ∧ q.annotations ≠ []))) →
        ((wayEvents (⟨i, l, before⟩ :: way)).foldl (quotedTrack qual) q).future = true →
        (((wayEvents (⟨i, l, before⟩ :: way)).foldl (quotedTrack qual) q).literals ≠ [] ↔ q.literals ≠ [] ∨ InLit qual (q.annotations ≠ []) (⟨i, l, before⟩ :: way)) := by
      intro q1 e1 hlit hann hadd hF
      obtain ⟨a, b, c⟩ := quotedTrack_eventsAll qual before q1 hWb hbk.1 (fun j hj hm => by
        rcases hlit j hm with h | h
        · exact (hlb j hj).1 h
        · exact (hlb j hj).2 h)
      obtain ⟨a', b', c'⟩ := ih _ hWk hk'.1 (by
        rw [b]
        intro j hj hm
        rcases hlit j hm with h | h
        · exact (hlk j hj).1 h
        · exact (hlk j hj).2 h)
      have hadd := hadd hF
      rw [wayEvents, List.flatMap_cons, List.cons_append, List.foldl_cons, List.foldl_append, e1] at hF ⊢
      rw [wayEvents] at c'
      rw [c' hF, b, hadd, inLit_cons, or_assoc, inLit_congr qual (by rw [a, hann] : _ ↔ (q.annotations ≠ [] ∨ l = .annotation)) way]
    by_cases hA : l = .annotation
    · subst hA
      refine ⟨main _ rfl (fun j hj => .inl hj) ?_ ?_, mainF _ rfl (fun j hj => .inl hj) ?_, mainL _ rfl (fun j hj => .inl hj) ?_ ?_⟩
      · simp [quotedTrack]
      · exact ⟨.inl, fun h => h.elim id (fun ⟨_, _, _, h, _⟩ => by (cases h))⟩
      · exact ⟨.inl, fun h => h.elim id (fun ⟨_, _, _, h, _⟩ => by (cases h))⟩
      · simp [quotedTrack]
      · intro _
        exact ⟨.inl, fun h => h.elim id (fun ⟨h, _⟩ => by (cases h))⟩
    · by_cases hS : l = .subscript
      · subst hS
        have hlit : ∀ j, j ∈ (quotedTrack qual q (.visit i .subscript)).literals → j ∈ q.literals ∨ j = i := by
          intro j hj
          simp only [quotedTrack] at hj
          split at hj
          · rcases List.mem_cons.mp hj with h | h
            · exact .inr h
            · exact .inl h
          · exact .inl hj
        have hann : (quotedTrack qual q (.visit i .subscript)).annotations ≠ [] ↔ q.annotations ≠ [] ∨ (Label.subscript = .annotation) := by
          simp only [quotedTrack]
          split <;> simp
        have hfut : (quotedTrack qual q (.visit i .subscript)).future = true ↔ q.future = true ∨ IsFuture .subscript := by
          have : (quotedTrack qual q (.visit i .subscript)).future = q.future := by
            simp only [quotedTrack]
            split <;> rfl
          rw [this]
          exact ⟨.inl, fun h => h.elim id (fun ⟨_, _, _, h, _⟩ => by (cases h))⟩
        refine ⟨main _ rfl hlit hann hfut, mainF _ rfl hlit hfut, mainL _ rfl hlit hann ?_⟩
        intro hF
        have hq : q.future = true := by
          rw [mainF _ rfl hlit hfut, futureBefore_cons] at hF
          rcases hF with h | (⟨_, _, _, h, _⟩ | ⟨k', hk', h⟩) | h
          · exact h
          · cases h
          · exact absurd h (hno (.inr rfl) k' (by simp [hk']))
          · exact absurd (futureBefore_within hat h) (hno (.inr rfl) k (by simp))
        simp only [quotedTrack, hq, Bool.true_and]
        by_cases hc : (!q.annotations.isEmpty && isLiteral (qual i)) = true
        · rw [if_pos hc]
          simp only [Bool.and_eq_true, Bool.not_eq_true', List.isEmpty_eq_false_iff] at hc
          exact ⟨fun _ => .inr ⟨by trivial, hc.2, hc.1⟩, fun _ => by simp⟩
        · rw [if_neg hc]
          simp only [Bool.and_eq_true, Bool.not_eq_true', List.isEmpty_eq_false_iff] at hc
          exact ⟨.inl, fun h => h.elim id (fun ⟨_, h1, h2⟩ => absurd ⟨h2, h1⟩ hc)⟩
      · have hlit : ∀ j, j ∈ (quotedTrack qual q (.visit i l)).literals → j ∈ q.literals ∨ j = i := by
          intro j hj
          refine .inl ?_
          cases l <;> first | exact hj | exact absurd rfl hS | (simp only [quotedTrack] at hj; split at hj <;> exact hj)
        have hann : (quotedTrack qual q (.visit i l)).annotations ≠ [] ↔ q.annotations ≠ [] ∨ l = .annotation := by
          have : (quotedTrack qual q (.visit i l)).annotations = q.annotations := by
            cases l <;> first | rfl | exact absurd rfl hA | exact absurd rfl hS | (simp only [quotedTrack]; split <;> rfl)
          rw [this]
          exact ⟨.inl, fun h => h.elim id (fun h => absurd h hA)⟩
        have hfut : (quotedTrack qual q (.visit i l)).future = true ↔ q.future = true ∨ IsFuture l := by
          cases l with
          | importFrom d m ns =>
            simp only [quotedTrack]
            split
            · rename_i hb
              exact ⟨fun _ => .inr ((isFutureAnnotations_iff d m ns).mp hb), fun _ => rfl⟩
            · rename_i hb
              exact ⟨.inl, fun h => h.elim id (fun h => absurd ((isFutureAnnotations_iff d m ns).mpr h) hb)⟩
          | annotation => exact absurd rfl hA
          | subscript => exact absurd rfl hS
          | _ => exact ⟨.inl, fun h => h.elim id (fun ⟨_, _, _, h, _⟩ => by (cases h))⟩
        refine ⟨main _ rfl hlit hann hfut, mainF _ rfl hlit hfut, mainL _ rfl hlit hann ?_⟩
        intro _
        have : (quotedTrack qual q (.visit i l)).literals = q.literals := by
          cases l <;> first | rfl | exact absurd rfl hA | exact absurd rfl hS | (simp only [quotedTrack]; split <;> rfl)
        rw [this]
        exact ⟨.inl, fun h => h.elim id (fun ⟨h, _⟩ => absurd h hS)⟩

/-- What the rule does at a string. -/
theorem quoted_condition (qual : Nat → List PStr) {way : List Frame} {n t : Syn} (h : At way n t) (hw : ExprsOnly t) (hd : t.ids.Nodup) :
    (((wayEvents way).foldl (quotedTrack qual) {}).future && !((wayEvents way).foldl (quotedTrack qual) {}).annotations.isEmpty &&
      ((wayEvents way).foldl (quotedTrack qual) {}).literals.isEmpty) = true ↔ FutureBefore way ∧ InAnnotation way ∧ ¬ InLiteral qual way := by
  obtain ⟨a, b, c⟩ := quotedTrack_way qual h {} hw hd (by simp)
  simp only [ne_eq, not_true_eq_false, Bool.false_eq_true, false_or] at a b c
  have hl : InLit qual False way ↔ InLiteral qual way := by
    unfold InLit InLiteral
    simp only [isLiteral_iff, false_or]
  rw [hl] at c
  simp only [Bool.and_eq_true, Bool.not_eq_true', List.isEmpty_eq_false_iff, List.isEmpty_iff, ne_eq]
  rw [a, b]
  constructor
  · rintro ⟨⟨h1, h2⟩, h3⟩
    exact ⟨h1, h2, fun hx => (c (b.mpr h1)).mpr hx h3⟩
  · rintro ⟨h1, h2, h3⟩
    exact ⟨⟨h1, h2⟩, Decidable.byContradiction fun hx => h3 ((c (b.mpr h1)).mp hx)⟩

/-- C100: when the rule does not fail, it reports exactly the string literals inside annotations but not inside `Literal[…]`, in a module where `from __future__ import annotations`
stands before them. The fix is the expression that the string holds, if it can be parsed; otherwise there is no fix. -/
theorem C100_strings (qual : Nat → List PStr) (value : PStr → Except Err PStr) (parse : PStr → Option Expr) (meta_ : Store) (t : Syn) (reps : List Rep)
    (hw : ExprsOnly t) (hd : t.ids.Nodup) (h : (quotedRule qual value parse).alone meta_ t = .ok reps) (rep : Rep) : rep ∈ reps ↔
    ∃ way i text kids v, At way (.node i (.simpleString text) kids) t ∧ FutureBefore way ∧ InAnnotation way ∧ ¬ InLiteral qual way ∧
      value text = .ok v ∧ rep = { node := i, message := none, change := (parse v).map .expr } := by
  rw [(quotedRule_tracked qual value parse).mem_alone meta_ t reps h rep]
  have hu : ∀ i v, unquote parse i v = { node := i, message := none, change := (parse v).map .expr } := by
    intro i v
    unfold unquote
    cases parse v <;> rfl
  constructor
  · rintro ⟨way, i, l, ks, hat, ⟨out, ho, hm⟩ | ⟨out, ho, hm⟩⟩
    · cases l with
      | simpleString s =>
        have ho : quotedOut value parse ((wayEvents way).foldl (quotedTrack qual) {}) (.visit i (.simpleString s)) = .ok out := ho
        simp only [quotedOut] at ho
        split at ho
        · rename_i hc
          obtain ⟨h1, h2, h3⟩ := (quoted_condition qual hat hw hd).mp hc
          cases hv : value s with
          | error x => rw [hv] at ho; cases ho
          | ok v =>
            rw [hv] at ho
            cases ho
            rw [List.mem_singleton, hu] at hm
            exact ⟨way, i, s, ks, v, hat, h1, h2, h3, hv, hm⟩
        · cases ho; cases hm
      | _ => cases ho; cases hm
    · cases ho; cases hm
  · rintro ⟨way, i, s, ks, v, hat, h1, h2, h3, hv, rfl⟩
    refine ⟨way, i, _, ks, hat, .inl ⟨[unquote parse i v], ?_, by rw [hu]; simp⟩⟩
    show quotedOut value parse ((wayEvents way).foldl (quotedTrack qual) {}) (.visit i (.simpleString s)) = _
    simp only [quotedOut]
    rw [if_pos ((quoted_condition qual hat hw hd).mpr ⟨h1, h2, h3⟩), hv]

/-- C100: the rule fails exactly when it cannot decode such a string (bytes that are not UTF-8). -/
theorem C100_raises (qual : Nat → List PStr) (value : PStr → Except Err PStr) (parse : PStr → Option Expr) (meta_ : Store) (t : Syn) (hw : ExprsOnly t) (hd : t.ids.Nodup) :
    (∃ x, (quotedRule qual value parse).alone meta_ t = .error x) ↔
    ∃ way i text kids x, At way (.node i (.simpleString text) kids) t ∧ FutureBefore way ∧ InAnnotation way ∧ ¬ InLiteral qual way ∧ value text = .error x := by
  refine Iff.trans ((quotedRule_tracked qual value parse).error_alone (init := ({} : Quoted)) meta_ t) ?_
  constructor
  · rintro ⟨way, i, l, ks, hat, ⟨x, ho⟩ | ⟨x, ho⟩⟩
    · cases l with
      | simpleString s =>
        simp only [quotedOut] at ho
        split at ho
        · rename_i hc
          obtain ⟨h1, h2, h3⟩ := (quoted_condition qual hat hw hd).mp hc
          cases hv : value s with
          | error y => exact ⟨way, i, s, ks, y, hat, h1, h2, h3, hv⟩
          | ok v => rw [hv] at ho; cases ho
        · cases ho
      | _ => cases ho
    · cases ho
  · rintro ⟨way, i, s, ks, x, hat, h1, h2, h3, hv⟩
    refine ⟨way, i, _, ks, hat, .inl ⟨x, ?_⟩⟩
    simp only [quotedOut]
    rw [if_pos ((quoted_condition qual hat hw hd).mpr ⟨h1, h2, h3⟩), hv]

/-- C100: no string is reported twice. -/
theorem C100_once (qual : Nat → List PStr) (value : PStr → Except Err PStr) (parse : PStr → Option Expr) (meta_ : Store) (t : Syn) (reps : List Rep)
    (h : (quotedRule qual value parse).alone meta_ t = .ok reps) (hd : t.ids.Nodup) : (reps.map (·.node)).Nodup := by
  refine (quotedRule_tracked qual value parse).once ?_ meta_ t reps h hd
  intro s e out ho
  cases e with
  | leave i l => cases ho; exact .slnil
  | visit i l =>
    cases l with
    | simpleString v =>
      simp only [quotedOut] at ho
      split at ho
      · cases hs : value v with
        | error x => rw [hs] at ho; cases ho
        | ok k =>
          rw [hs] at ho
          cases ho
          unfold unquote
          cases parse k <;> exact .refl _
      · cases ho; exact List.nil_sublist _
    | _ => cases ho; exact List.nil_sublist _

/-! ## Cases -/

/-- `from __future__ import annotations`. -/
def futureImport (i : Nat) : Syn := .node i (.importFrom 0 (some (.name (py "__future__"))) (some [⟨i + 1, .name (py "annotations"), none⟩])) []

/-- `x: <annotation>`. -/
def annotation (i : Nat) (kids : List Syn) : Syn := .node i (.other (py "AnnAssign")) [.node (i + 1) (.name (py "x")) [], .node (i + 2) .annotation kids]

def stringNode (i : Nat) : Syn := .node i (.simpleString (py "'Class'")) []

/-- `<f>[<kids>]`. -/
def subscriptNode (i : Nat) (kids : List Syn) : Syn := .node i .subscript kids

/-- The rule with strings that all hold the name `Class`; subscript 30 is `Literal[…]`. -/
def quotedCase : VRule := quotedRule (fun i => if i = 30 then [py "typing.Literal"] else []) (fun _ => .ok (py "Class")) (fun s => some (.name s))

/-- `x: "Class"`, `x: List["Class"]` and `x: Literal["Class"]` after the import. -/
example : (quotedCase.alone (fun _ => []) (.node 0 .module [futureImport 1, annotation 10 [stringNode 15], annotation 20 [subscriptNode 23 [stringNode 25]],
    annotation 26 [subscriptNode 30 [stringNode 31]], stringNode 40])).map (·.map (·.node)) = .ok [15, 25] := by decide +kernel

/-- The same without the import. -/
example : (quotedCase.alone (fun _ => []) (.node 0 .module [annotation 10 [stringNode 15]])).map (·.map (·.node)) = .ok [] := by decide +kernel

/-- Finding: every string in an annotation is taken for a type. In `x: Annotated[int, "Class"]` the string, which is a value, becomes the name `Class`. -/
theorem C100_annotated : ∃ reps, quotedCase.alone (fun _ => []) (.node 0 .module [futureImport 1,
    annotation 10 [subscriptNode 20 [.node 21 (.name (py "Annotated")) [], .node 22 (.name (py "int")) [], stringNode 23]]]) = .ok reps ∧
    reps = [{ node := 23, message := none, change := some (.expr (.name (py "Class"))) }] := ⟨_, rfl, rfl⟩

/-- The hypotheses of `C100_strings` hold of that module. -/
example : (Syn.node 0 .module [futureImport 1, annotation 10 [subscriptNode 20 [.node 21 (.name (py "Annotated")) [], .node 22 (.name (py "int")) [], stringNode 23]]]).ids.Nodup := by
  decide +kernel

theorem exprsOnly_mk {i : Nat} {l : Label} {ks : List Syn} (h : ∀ k ∈ ks, ExprsOnly k) (h' : l = .annotation ∨ l = .subscript → ¬ HasFuture (.node i l ks)) :
    ExprsOnly (.node i l ks) := by
  intro n hn hl m hm hf
  rcases Within.cases hn with rfl | ⟨k, hk, hn⟩
  · exact h' hl ⟨m, hm, hf⟩
  · exact h k hk n hn hl m hm hf

example : ExprsOnly (.node 0 .module [futureImport 1, annotation 10 [subscriptNode 20 [.node 21 (.name (py "Annotated")) [], .node 22 (.name (py "int")) [], stringNode 23]]]) := by
  have hn : ∀ l : Label, (∀ d m ns, l ≠ .importFrom d m ns) → ¬ IsFuture l := fun l h ⟨d, m, ns, e, _⟩ => h _ _ _ e
  have leaf : ∀ i l, l ≠ .annotation → l ≠ .subscript → ExprsOnly (.node i l []) := fun i l h1 h2 => exprsOnly_mk (by simp) (fun h => absurd h (by simp [h1, h2]))
  have hsub : ¬ HasFuture (subscriptNode 20 [.node 21 (.name (py "Annotated")) [], .node 22 (.name (py "int")) [], stringNode 23]) := by
    simp only [subscriptNode, stringNode, hasFuture_node, List.mem_cons, List.not_mem_nil, or_false, exists_eq_or_imp, exists_eq_left, false_and, exists_false]
    simp only [IsFuture]
    simp
  refine exprsOnly_mk ?_ (by simp)
  simp only [List.forall_mem_cons]
  refine ⟨leaf _ _ (by simp) (by simp), exprsOnly_mk ?_ (by simp), by simp⟩
  simp only [List.forall_mem_cons]
  refine ⟨leaf _ _ (by simp) (by simp), exprsOnly_mk ?_ ?_, by simp⟩
  · simp only [List.forall_mem_cons]
    refine ⟨exprsOnly_mk ?_ (fun _ => hsub), by simp⟩
    simp only [List.forall_mem_cons]
    exact ⟨leaf _ _ (by simp) (by simp), leaf _ _ (by simp) (by simp), leaf _ _ (by simp) (by simp), by simp⟩
  · intro _ h
    rw [hasFuture_node] at h
    rcases h with h | ⟨k, hk, h⟩
    · exact hn _ (by simp) h
    · rw [List.mem_singleton] at hk
      subst hk
      exact hsub h

end Cst
