import Verif.Proof.Tracked
import Verif.Spec.RulesStateful

/-!
# C98: UseAsyncSleepInAsyncDef, and C99: UseTypesFromTyping
-/

namespace Cst
open Py Fixit Spec

theorem noDef_node {i : Nat} {l : Label} {ks : List Syn} : NoDef (.node i l ks) ↔ (∀ a, l ≠ .funcDef a) ∧ ∀ k ∈ ks, NoDef k := by
  constructor
  · intro h
    refine ⟨fun a e => ?_, fun k hk j a js hw => h j a js (Within.down hw hk)⟩
    subst e
    exact h i a ks (Within.refl _)
  · rintro ⟨h1, h2⟩ j a js hw
    rcases Within.cases hw with e | ⟨k, hk, hw⟩
    · cases e; exact h1 a rfl
    · exact h2 k hk j a js hw

/-! ## C98 -/

/-- How the rule's flag changes. -/
def asyncTrack (s : Bool) : Ev → Bool
  | .visit _ (.funcDef a) => a
  | .leave _ (.funcDef _) => false
  | _ => s

/-- What the rule reports. -/
def asyncOut (qual : Nat → List PStr) (message : PStr) (s : Bool) : Ev → Except Err (List Rep)
  | .visit i (.call _ _) => .ok (if s && (qual i).head? == some (py "time.sleep") then [{ node := i, message := some message }] else [])
  | _ => .ok []

theorem asyncSleepRule_tracked (qual : Nat → List PStr) (message : PStr) :
    Tracked (asyncSleepRule qual message).methods (asyncSleepRule qual message).on asyncTrack (asyncOut qual message) where
  mem st s e _ := by
    cases e with
    | visit i l => cases l <;> rfl
    | leave i l => cases l <;> rfl
  other s e hm := by
    cases e with
    | visit i l => cases l <;> first | exact ⟨rfl, rfl⟩ | (exfalso; apply hm; simp [Ev.method, Label.typeName, asyncSleepRule, VRule.simple])
    | leave i l => cases l <;> first | exact ⟨rfl, rfl⟩ | (exfalso; apply hm; simp [Ev.method, Label.typeName, asyncSleepRule, VRule.simple])

mutual
theorem asyncTrack_events : ∀ (t : Syn) (s : Bool), (t.events.foldl asyncTrack s = true ↔ s = true ∧ NoDef t)
  | .node i l ks, s => by
    rw [Syn.events, List.foldl_cons, List.foldl_append, noDef_node]
    by_cases hl : ∃ a, l = .funcDef a
    · obtain ⟨a, rfl⟩ := hl
      constructor
      · intro h; cases h
      · rintro ⟨-, h, -⟩; exact absurd rfl (h a)
    · have hl' : ∀ a, l ≠ .funcDef a := fun a e => hl ⟨a, e⟩
      have h1 : asyncTrack s (.visit i l) = s := by cases l <;> first | rfl | exact absurd rfl (hl' _)
      have h2 : ∀ s, asyncTrack s (.leave i l) = s := by intro s; cases l <;> first | rfl | exact absurd rfl (hl' _)
      rw [h1, List.foldl_cons, List.foldl_nil, h2, asyncTrack_eventsAll ks s]
      exact ⟨fun ⟨a, b⟩ => ⟨a, hl', b⟩, fun ⟨a, _, b⟩ => ⟨a, b⟩⟩
theorem asyncTrack_eventsAll : ∀ (ks : List Syn) (s : Bool), ((Syn.eventsAll ks).foldl asyncTrack s = true ↔ s = true ∧ ∀ k ∈ ks, NoDef k)
  | [], s => by simp [Syn.eventsAll]
  | k :: ks, s => by
    rw [Syn.eventsAll, List.foldl_append, asyncTrack_eventsAll ks, asyncTrack_events k, List.forall_mem_cons, and_assoc]
end

theorem asyncTrack_way : ∀ (way : List Frame) (s : Bool), ((wayEvents way).foldl asyncTrack s = true ↔
    InAsync way ∨ (s = true ∧ ∀ f ∈ way, (∀ a, f.label ≠ .funcDef a) ∧ ∀ k ∈ f.before, NoDef k))
  | [], s => by
    constructor
    · intro h; exact .inr ⟨h, by simp⟩
    · rintro (⟨o, f, i, h, -⟩ | ⟨h, -⟩)
      · simp at h
      · exact h
  | f :: way, s => by
    rw [wayEvents, List.flatMap_cons, List.cons_append, List.foldl_cons, List.foldl_append]
    have ih := asyncTrack_way way ((Syn.eventsAll f.before).foldl asyncTrack (asyncTrack s (.visit f.id f.label)))
    rw [wayEvents] at ih
    rw [ih, asyncTrack_eventsAll]
    have hIn : InAsync way → InAsync (f :: way) := by
      rintro ⟨o, f', i, rfl, h⟩
      exact ⟨f :: o, f', i, rfl, h⟩
    by_cases hl : ∃ a, f.label = .funcDef a
    · obtain ⟨a, ha⟩ := hl
      have h1 : asyncTrack s (.visit f.id f.label) = a := by rw [ha]; rfl
      rw [h1]
      constructor
      · rintro (h | ⟨⟨rfl, hb⟩, hw⟩)
        · exact .inl (hIn h)
        · refine .inl ⟨[], f, way, rfl, ha, fun g hg => (hw g hg).1, ?_⟩
          rw [List.forall_mem_cons]
          exact ⟨hb, fun g hg => (hw g hg).2⟩
      · rintro (⟨o, f', i, hs, hf, hi, hb⟩ | ⟨-, h⟩)
        · cases o with
          | nil =>
            simp only [List.nil_append, List.cons.injEq] at hs
            obtain ⟨rfl, rfl⟩ := hs
            rw [ha] at hf
            cases hf
            rw [List.forall_mem_cons] at hb
            exact .inr ⟨⟨rfl, hb.1⟩, fun g hg => ⟨hi g hg, hb.2 g hg⟩⟩
          | cons x o =>
            simp only [List.cons_append, List.cons.injEq] at hs
            exact .inl ⟨o, f', i, hs.2, hf, hi, hb⟩
        · exact absurd ha ((h f List.mem_cons_self).1 a)
    · have hl' : ∀ a, f.label ≠ .funcDef a := fun a e => hl ⟨a, e⟩
      have h1 : asyncTrack s (.visit f.id f.label) = s := by
        cases hf : f.label <;> first | rfl | exact absurd hf (hl' _)
      rw [h1, List.forall_mem_cons]
      constructor
      · rintro (h | ⟨⟨rfl, hb⟩, hw⟩)
        · exact .inl (hIn h)
        · exact .inr ⟨rfl, ⟨hl', hb⟩, hw⟩
      · rintro (⟨o, f', i, hs, hf, hi, hb⟩ | ⟨h1, ⟨-, h2⟩, h3⟩)
        · cases o with
          | nil =>
            simp only [List.nil_append, List.cons.injEq] at hs
            exact absurd (hs.1 ▸ hf) (hl' _)
          | cons x o =>
            simp only [List.cons_append, List.cons.injEq] at hs
            exact .inl ⟨o, f', i, hs.2, hf, hi, hb⟩
        · exact .inr ⟨⟨h1, h2⟩, h3⟩

/-- C98: the rule reports, without a fix, exactly the calls whose (first) qualified name is `time.sleep`, whose innermost function definition is an `async def`, and before
which no function definition stands inside that `async def`. -/
theorem C98_sleep (qual : Nat → List PStr) (message : PStr) (meta_ : Store) (t : Syn) : ∃ reps, (asyncSleepRule qual message).alone meta_ t = .ok reps ∧
    ∀ rep, rep ∈ reps ↔ ∃ way i func args kids, At way (.node i (.call func args) kids) t ∧
      rep = { node := i, message := some message, change := none } ∧ InAsync way ∧ (qual i)[0]? = some (py "time.sleep") := by
  have hT := asyncSleepRule_tracked qual message
  have hno : ¬ ∃ x, (asyncSleepRule qual message).alone meta_ t = .error x := by
    intro hx
    obtain ⟨way, i, l, ks, -, ⟨x, hx⟩ | ⟨x, hx⟩⟩ := (hT.error_alone meta_ t).mp hx
    · cases l <;> cases hx
    · cases hx
  cases ha : (asyncSleepRule qual message).alone meta_ t with
  | error x => exact absurd ⟨x, ha⟩ hno
  | ok reps =>
  refine ⟨reps, rfl, fun rep => ?_⟩
  rw [hT.mem_alone meta_ t reps ha rep]
  have hcond : ∀ (way : List Frame) (i : Nat), rep ∈ (if (wayEvents way).foldl asyncTrack false && (qual i).head? == some (py "time.sleep") then
      [({ node := i, message := some message } : Rep)] else []) ↔
      rep = { node := i, message := some message, change := none } ∧ InAsync way ∧ (qual i)[0]? = some (py "time.sleep") := by
    intro way i
    have hw := asyncTrack_way way false
    simp only [Bool.false_eq_true, false_and, or_false] at hw
    rw [← List.head?_eq_getElem?, ← hw]
    split
    · rename_i hc
      simp only [Bool.and_eq_true, beq_iff_eq] at hc
      rw [List.mem_singleton]
      exact ⟨fun h => ⟨h, hc⟩, fun h => h.1⟩
    · rename_i hc
      simp only [Bool.and_eq_true, beq_iff_eq] at hc
      exact ⟨fun h => by (cases h), fun h => absurd h.2 hc⟩
  constructor
  · rintro ⟨way, i, l, ks, hat, ⟨out, ho, hm⟩ | ⟨out, ho, hm⟩⟩
    · cases l with
      | call func args => cases ho; exact ⟨way, i, func, args, ks, hat, (hcond way i).mp hm⟩
      | _ => cases ho; cases hm
    · cases ho; cases hm
  · rintro ⟨way, i, func, args, ks, hat, hc⟩
    exact ⟨way, i, _, ks, hat, .inl ⟨_, rfl, (hcond way i).mpr hc⟩⟩

/-- C98: no call is reported twice. -/
theorem C98_once (qual : Nat → List PStr) (message : PStr) (meta_ : Store) (t : Syn) (reps : List Rep) (h : (asyncSleepRule qual message).alone meta_ t = .ok reps) (hd : t.ids.Nodup) :
    (reps.map (·.node)).Nodup := by
  refine (asyncSleepRule_tracked qual message).once ?_ meta_ t reps h hd
  intro s e out ho
  cases e with
  | leave i l => cases ho; exact .slnil
  | visit i l =>
    cases l with
    | call func args =>
      cases ho
      split
      · exact .refl _
      · exact List.nil_sublist _
    | _ => cases ho; exact List.nil_sublist _

/-! ### Cases -/

/-- `name()`. -/
def callNode (i : Nat) : Syn := .node i (.call (.name (py "sleep")) []) []

def defNode (isAsync : Bool) (i : Nat) (kids : List Syn) : Syn := .node i (.funcDef isAsync) kids

/-- `async def f(): sleep()` with `from time import sleep`. -/
example : ((asyncSleepRule (fun _ => [py "time.sleep"]) []).alone (fun _ => []) (.node 0 .module [defNode true 1 [callNode 2]])).map (·.map (·.node)) = .ok [2] := by decide +kernel

/-- `async def f(): def g(): sleep()` is not reported. -/
example : ((asyncSleepRule (fun _ => [py "time.sleep"]) []).alone (fun _ => []) (.node 0 .module [defNode true 1 [defNode false 2 [callNode 3]]])).map (·.map (·.node)) = .ok [] := by decide +kernel

/-- Finding: after a nested function the rule has forgotten that it is in an `async def`: `async def f(): def g(): pass; sleep()` is not reported. -/
theorem C98_forgets : ((asyncSleepRule (fun _ => [py "time.sleep"]) []).alone (fun _ => []) (.node 0 .module [defNode true 1 [callNode 2, defNode false 3 [], callNode 4]])).map
    (·.map (·.node)) = .ok [2] := by decide +kernel

/-- Finding: a decorator or a default value, which runs when the `async def` statement is executed and not in the coroutine, is a child of the definition and is reported:
`async def f(x=sleep()): pass`. In libCST the parameters are children of the `FunctionDef`. -/
theorem C98_default : ((asyncSleepRule (fun _ => [py "time.sleep"]) []).alone (fun _ => []) (.node 0 .module [defNode true 1 [.node 2 (.other (py "Parameters")) [.node 3 (.other (py "Param")) [callNode 4]]]])).map
    (·.map (·.node)) = .ok [4] := by decide +kernel

/-! ## C99 -/

/-- How the rule's counter changes. -/
def typingTrack (n : Int) : Ev → Int
  | .visit _ .annotation => n + 1
  | .leave _ .annotation => n - 1
  | _ => n

/-- What the rule reports. -/
def typingOut (qual : Nat → List PStr) (scope : Nat → Except Err (Option (PStr → Bool))) (n : Int) : Ev → Except Err (List Rep)
  | .visit i (.name s) =>
    if n > 0 ∧ isBuiltinType s (qual i) = true then
      match scope i with
      | .error x => .error x
      | .ok none => .ok [{ node := i, message := some (typingMessage s) }]
      | .ok (some known) => .ok [{ node := i, message := some (typingMessage s), change := if known (titleWord s) then some (.rename (titleWord s)) else none }]
    else .ok []
  | _ => .ok []

theorem typingRule_tracked (qual : Nat → List PStr) (scope : Nat → Except Err (Option (PStr → Bool))) :
    Tracked (typingRule qual scope).methods (typingRule qual scope).on typingTrack (typingOut qual scope) where
  mem st s e _ := by
    cases e with
    | visit i l =>
      cases l with
      | name v =>
        simp only [typingRule, typingOut]
        split
        · cases scope i with
          | error x => rfl
          | ok o => cases o <;> rfl
        · rfl
      | _ => rfl
    | leave i l => cases l <;> rfl
  other s e hm := by
    cases e with
    | visit i l => cases l <;> first | exact ⟨rfl, rfl⟩ | (exfalso; apply hm; simp [Ev.method, Label.typeName, typingRule])
    | leave i l => cases l <;> first | exact ⟨rfl, rfl⟩ | (exfalso; apply hm; simp [Ev.method, Label.typeName, typingRule])

theorem typingTrack_balanced : Balanced typingTrack := by
  intro n i l
  cases l <;> first | rfl | (simp only [typingTrack]; omega)

theorem typingTrack_way : ∀ (way : List Frame) (n : Int), 0 ≤ n → (way.foldl (fun s f => typingTrack s (.visit f.id f.label)) n > 0 ↔ n > 0 ∨ InAnnotation way)
  | [], n, _ => by
    simp only [List.foldl_nil]
    exact ⟨.inl, fun h => h.elim id (fun ⟨f, hf, _⟩ => by cases hf)⟩
  | f :: way, n, hn => by
    rw [List.foldl_cons]
    by_cases hl : f.label = .annotation
    · have h1 : typingTrack n (.visit f.id f.label) = n + 1 := by rw [hl]; rfl
      rw [h1, typingTrack_way way (n + 1) (by omega)]
      exact ⟨fun _ => .inr ⟨f, List.mem_cons_self, hl⟩, fun _ => .inl (by omega)⟩
    · have h1 : typingTrack n (.visit f.id f.label) = n := by
        cases hf : f.label <;> first | rfl | exact absurd hf hl
      rw [h1, typingTrack_way way n hn]
      constructor
      · rintro (h | ⟨g, hg, h⟩)
        · exact .inl h
        · exact .inr ⟨g, List.mem_cons_of_mem _ hg, h⟩
      · rintro (h | ⟨g, hg, h⟩)
        · exact .inl h
        · rcases List.mem_cons.mp hg with rfl | hg
          · exact absurd h hl
          · exact .inr ⟨g, hg, h⟩

theorem isBuiltinType_iff (s : PStr) (q : List PStr) : isBuiltinType s q = true ↔ ∃ t, MeansBuiltin q s t := by
  have hq : (q.all (fun q => (builtinsToReplace.map (fun b => py "builtins." ++ b)).contains q)) = true ↔ ∀ x ∈ q, ∃ b ∈ typingNames, x = py "builtins." ++ b.1 := by
    rw [List.all_eq_true]
    refine forall_congr' fun x => forall_congr' fun _ => ?_
    simp [builtinsToReplace, typingNames]
  have hs : builtinsToReplace.contains s = true ↔ ∃ t, (s, t) ∈ typingNames := by
    simp only [builtinsToReplace, typingNames, List.contains_iff_mem, List.mem_cons, List.not_mem_nil, or_false, Prod.mk.injEq]
    constructor
    · rintro (h | h | h | h)
      · exact ⟨_, .inl ⟨h, rfl⟩⟩
      · exact ⟨_, .inr (.inl ⟨h, rfl⟩)⟩
      · exact ⟨_, .inr (.inr (.inl ⟨h, rfl⟩))⟩
      · exact ⟨_, .inr (.inr (.inr ⟨h, rfl⟩))⟩
    · rintro ⟨t, h | h | h | h⟩
      · exact .inl h.1
      · exact .inr (.inl h.1)
      · exact .inr (.inr (.inl h.1))
      · exact .inr (.inr (.inr h.1))
  unfold isBuiltinType
  rw [Bool.and_eq_true, hq, hs]
  exact ⟨fun ⟨⟨t, h⟩, h'⟩ => ⟨t, h, h'⟩, fun ⟨t, h⟩ => ⟨⟨t, h.known⟩, h.only⟩⟩

theorem titleWord_of {q : List PStr} {s t : PStr} (h : MeansBuiltin q s t) : titleWord s = t := by
  have := h.known
  simp only [typingNames, List.mem_cons, List.not_mem_nil, or_false, Prod.mk.injEq] at this
  rcases this with ⟨rfl, rfl⟩ | ⟨rfl, rfl⟩ | ⟨rfl, rfl⟩ | ⟨rfl, rfl⟩ <;> decide +kernel

theorem typing_counter (way : List Frame) : (wayEvents way).foldl typingTrack 0 > 0 ↔ InAnnotation way := by
  rw [typingTrack_balanced.way, typingTrack_way way 0 (by omega)]
  simp

/-- C99: when the rule does not fail, it reports exactly the names `dict`, `list`, `set` and `tuple` inside annotations whose qualified names, as far as there are any, are all
builtin types of these; the message says which type of `typing` to use, and the fix is that name if the scope of the name knows it; otherwise there is no fix. -/
theorem C99_types (qual : Nat → List PStr) (scope : Nat → Except Err (Option (PStr → Bool))) (meta_ : Store) (t : Syn) (reps : List Rep)
    (h : (typingRule qual scope).alone meta_ t = .ok reps) (rep : Rep) : rep ∈ reps ↔
    ∃ way i s kids T known, At way (.node i (.name s) kids) t ∧ InAnnotation way ∧ MeansBuiltin (qual i) s T ∧ scope i = .ok known ∧
      rep.node = i ∧
      rep.message = some (py "You are using builtins." ++ s ++ py " as a type annotation but the type system doesn't recognize it as a valid type. You should use typing." ++ T ++ py " instead.") ∧
      rep.change = if ∃ k, known = some k ∧ k T = true then some (.rename T) else none := by
  rw [(typingRule_tracked qual scope).mem_alone meta_ t reps h rep]
  constructor
  · rintro ⟨way, i, l, ks, hat, ⟨out, ho, hm⟩ | ⟨out, ho, hm⟩⟩
    · cases l with
      | name s =>
        have ho : typingOut qual scope ((wayEvents way).foldl typingTrack 0) (.visit i (.name s)) = .ok out := ho
        simp only [typingOut] at ho
        split at ho
        · rename_i hc
          obtain ⟨T, hT⟩ := (isBuiltinType_iff s (qual i)).mp hc.2
          have hw := (typing_counter way).mp hc.1
          cases hs : scope i with
          | error x => rw [hs] at ho; cases ho
          | ok known =>
            rw [hs] at ho
            cases known with
            | none =>
              cases ho
              rw [List.mem_singleton] at hm
              subst hm
              refine ⟨way, i, s, ks, T, none, hat, hw, hT, hs, rfl, ?_, ?_⟩
              · rw [← titleWord_of hT]; rfl
              · rw [if_neg (by rintro ⟨k, h, -⟩; cases h)]
            | some k =>
              cases ho
              rw [List.mem_singleton] at hm
              subst hm
              refine ⟨way, i, s, ks, T, some k, hat, hw, hT, hs, rfl, ?_, ?_⟩
              · rw [← titleWord_of hT]; rfl
              · rw [titleWord_of hT]
                by_cases hk : k T = true
                · rw [if_pos hk, if_pos ⟨k, rfl, hk⟩]
                · rw [if_neg hk, if_neg (by rintro ⟨k', h, h'⟩; cases h; exact hk h')]
        · cases ho; cases hm
      | _ => cases ho; cases hm
    · cases ho; cases hm
  · rintro ⟨way, i, s, ks, T, known, hat, hw, hT, hs, h1, h2, h3⟩
    refine ⟨way, i, _, ks, hat, .inl ⟨[rep], ?_, by simp⟩⟩
    show typingOut qual scope ((wayEvents way).foldl typingTrack 0) (.visit i (.name s)) = _
    simp only [typingOut]
    rw [if_pos ⟨(typing_counter way).mpr hw, (isBuiltinType_iff s (qual i)).mpr ⟨T, hT⟩⟩, hs]
    obtain ⟨rn, rm, rc⟩ := rep
    simp only at h1 h2 h3
    subst h1 h2 h3
    cases known with
    | none =>
      simp only [typingMessage, titleWord_of hT]
      rw [if_neg (by rintro ⟨k, h, -⟩; cases h)]
    | some k =>
      simp only [typingMessage, titleWord_of hT]
      by_cases hk : k T = true
      · rw [if_pos hk, if_pos ⟨k, rfl, hk⟩]
      · rw [if_neg hk, if_neg (by rintro ⟨k', h, h'⟩; cases h; exact hk h')]

/-- C99: the rule fails exactly when a name that it would report has no scope metadata. -/
theorem C99_raises (qual : Nat → List PStr) (scope : Nat → Except Err (Option (PStr → Bool))) (meta_ : Store) (t : Syn) :
    (∃ x, (typingRule qual scope).alone meta_ t = .error x) ↔
    ∃ way i s kids T x, At way (.node i (.name s) kids) t ∧ InAnnotation way ∧ MeansBuiltin (qual i) s T ∧ scope i = .error x := by
  refine Iff.trans ((typingRule_tracked qual scope).error_alone (init := (0 : Int)) meta_ t) ?_
  constructor
  · rintro ⟨way, i, l, ks, hat, ⟨x, ho⟩ | ⟨x, ho⟩⟩
    · cases l with
      | name s =>
        simp only [typingOut] at ho
        split at ho
        · rename_i hc
          obtain ⟨T, hT⟩ := (isBuiltinType_iff s (qual i)).mp hc.2
          have hw := (typing_counter way).mp hc.1
          cases hs : scope i with
          | error y => exact ⟨way, i, s, ks, T, y, hat, hw, hT, hs⟩
          | ok known => rw [hs] at ho; cases known <;> cases ho
        · cases ho
      | _ => cases ho
    · cases ho
  · rintro ⟨way, i, s, ks, T, x, hat, hw, hT, hs⟩
    refine ⟨way, i, _, ks, hat, .inl ⟨x, ?_⟩⟩
    simp only [typingOut]
    rw [if_pos ⟨(typing_counter way).mpr hw, (isBuiltinType_iff s (qual i)).mpr ⟨T, hT⟩⟩, hs]

/-- C99: no name is reported twice. -/
theorem C99_once (qual : Nat → List PStr) (scope : Nat → Except Err (Option (PStr → Bool))) (meta_ : Store) (t : Syn) (reps : List Rep) (h : (typingRule qual scope).alone meta_ t = .ok reps)
    (hd : t.ids.Nodup) : (reps.map (·.node)).Nodup := by
  refine (typingRule_tracked qual scope).once ?_ meta_ t reps h hd
  intro s e out ho
  cases e with
  | leave i l => cases ho; exact .slnil
  | visit i l =>
    cases l with
    | name v =>
      simp only [typingOut] at ho
      split at ho
      · cases hs : scope i with
        | error x => rw [hs] at ho; cases ho
        | ok k =>
          rw [hs] at ho
          cases k <;> (cases ho; exact .refl _)
      · cases ho; exact List.nil_sublist _
    | _ => cases ho; exact List.nil_sublist _

/-! ### Cases -/

/-- A module with an annotation that holds these nodes. -/
def annotated (kids : List Syn) : Syn := .node 0 .module [.node 1 (.other (py "AnnAssign")) [.node 2 (.name (py "list")) [], .node 3 .annotation kids]]

/-- `from typing import List; list: list`: the annotation is reported and fixed, the variable is not. -/
example : ((typingRule (fun _ => [py "builtins.list"]) (fun _ => .ok (some (· == py "List")))).alone (fun _ => []) (annotated [.node 4 (.name (py "list")) []])).map
    (·.map (fun r => (r.node, match r.change with | some (.rename s) => some s | _ => none))) = .ok [(4, some (py "List"))] := by decide +kernel

/-- Finding: `x: models.list`. The last name of an attribute has no scope metadata and no qualified names, so the rule takes it for a builtin type, and then fails; this fails
the whole file. -/
theorem C99_attribute : (typingRule (fun i => if i = 5 then [py "models"] else []) (fun i => if i = 6 then .error (.other 4) else .ok none)).alone (fun _ => [])
    (annotated [.node 4 (.other (py "Attribute")) [.node 5 (.name (py "models")) [], .node 6 (.name (py "list")) []]]) = .error (.other 4) := rfl

end Cst
