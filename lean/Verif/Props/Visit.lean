import Verif.Proof.Visit
import Verif.Model.System

/-!
# C96: rules visited together do not influence each other
-/

namespace Cst
open Py Fixit Spec

/-- The methods of the rule do not change metadata. -/
def KeepsMetadata (r : VRule) : Prop := ∀ e st s st' s' out, r.step e st s = .ok (st', s', out) → st' = st

theorem KeepsMetadata.step {r : VRule} (h : KeepsMetadata r) {e : Ev} {st st' : Store} {s s' : r.State} {out : List Rep} (hs : r.step e st s = .ok (st', s', out)) : st' = st :=
  h _ _ _ _ _ _ hs

/-- The state of the rule with this number. -/
def States.get : (rs : List VRule) → States rs → (i : Nat) → (r : VRule) → rs[i]? = some r → r.State
  | [], _, _, _, h => by simp at h
  | _ :: _, (s, _), 0, _, h => (by simp at h; exact h) ▸ s
  | _ :: rs, (_, ss), i + 1, r, h => States.get rs ss i r (by simpa using h)

theorem States.get_init : ∀ (rs : List VRule) (i : Nat) (r : VRule) (h : rs[i]? = some r), States.get rs (States.init rs) i r h = r.init
  | [], _, _, h => by simp at h
  | r' :: rs, 0, r, h => by
    have : r' = r := by simpa using h
    subst this
    rfl
  | _ :: rs, i + 1, r, h => by
    simp only [States.init, States.get]
    exact States.get_init rs i r _

/-- What rule number `i` reports in a step of the batch, counted from `j`. -/
theorem batchStep_get : ∀ (rs : List VRule) (j : Nat) (e : Ev) (st st' : Store) (ss ss' : States rs) (out : List (Nat × Rep)), (∀ r ∈ rs, KeepsMetadata r) →
    batchStep rs j e st ss = .ok (st', ss', out) → st' = st ∧ (∀ o ∈ out, j ≤ o.1) ∧
    ∀ (i : Nat) (r : VRule) (h : rs[i]? = some r), r.step e st (States.get rs ss i r h) =
      .ok (st, States.get rs ss' i r h, (out.filter (fun o => o.1 = j + i)).map Prod.snd)
  | [], j, e, st, st', ss, ss', out, _, h => by
    cases h
    exact ⟨rfl, by simp, fun i r h => by simp at h⟩
  | r0 :: rs, j, e, st, st', (s, ss), ss', out, hk, h => by
    rw [batchStep] at h
    cases h1 : r0.step e st s with
    | error x => rw [h1] at h; cases h
    | ok a =>
      obtain ⟨st1, s1, out1⟩ := a
      rw [h1] at h
      simp only at h
      cases h2 : batchStep rs (j + 1) e st1 ss with
      | error x => rw [h2] at h; cases h
      | ok b =>
        obtain ⟨st2, ss2, out2⟩ := b
        rw [h2] at h
        cases h
        have e1 : st1 = st := (hk r0 List.mem_cons_self).step h1
        subst e1
        obtain ⟨e2, hge, hrest⟩ := batchStep_get rs (j + 1) e st1 _ ss _ out2 (fun r hr => hk r (List.mem_cons_of_mem _ hr)) h2
        subst e2
        refine ⟨rfl, ?_, ?_⟩
        · intro o ho
          rcases List.mem_append.mp ho with ho | ho
          · obtain ⟨x, -, rfl⟩ := List.mem_map.mp ho; exact Nat.le_refl _
          · have := hge o ho; omega
        · intro i r hr
          cases i with
          | zero =>
            have : r0 = r := by simpa using hr
            subst this
            have hf : (out2.filter (fun o => o.1 = j + 0)) = [] := by
              rw [List.filter_eq_nil_iff]
              intro o ho
              have := hge o ho
              simp only [decide_eq_true_eq]
              omega
            have hf1 : ((out1.map (fun o => (j, o))).filter (fun o => o.1 = j + 0)).map Prod.snd = out1 := by
              have : (out1.map (fun o => (j, o))).filter (fun o => o.1 = j + 0) = out1.map (fun o => (j, o)) := by
                rw [List.filter_eq_self]
                intro o ho
                obtain ⟨x, -, rfl⟩ := List.mem_map.mp ho
                simp
              rw [this, List.map_map]
              simp [Function.comp_def]
            rw [List.filter_append, List.map_append, hf, hf1]
            simp only [States.get, List.map_nil, List.append_nil]
            exact h1
          | succ i =>
            simp only [States.get]
            have hf1 : ((out1.map (fun o => (j, o))).filter (fun o => o.1 = j + (i + 1))) = [] := by
              rw [List.filter_eq_nil_iff]
              intro o ho
              obtain ⟨x, -, rfl⟩ := List.mem_map.mp ho
              simp
            rw [List.filter_append, hf1, List.nil_append]
            have := hrest i r (by simpa using hr)
            rw [this]
            have : j + 1 + i = j + (i + 1) := by omega
            rw [this]

/-- What rule number `i` reports in the batch. -/
theorem batchSteps_get (rs : List VRule) (hk : ∀ r ∈ rs, KeepsMetadata r) : ∀ (evs : List Ev) (st st' : Store) (ss ss' : States rs) (out : List (Nat × Rep)),
    batchSteps rs evs st ss = .ok (st', ss', out) → ∀ (i : Nat) (r : VRule) (h : rs[i]? = some r),
      r.steps evs st (States.get rs ss i r h) = .ok (st', States.get rs ss' i r h, (out.filter (fun o => o.1 = i)).map Prod.snd)
  | [], st, st', ss, ss', out, h, i, r, hr => by cases h; rfl
  | e :: es, st, st', ss, ss', out, h, i, r, hr => by
    rw [batchSteps] at h
    cases h1 : batchStep rs 0 e st ss with
    | error x => rw [h1] at h; cases h
    | ok a =>
      obtain ⟨st1, ss1, out1⟩ := a
      rw [h1] at h
      simp only at h
      cases h2 : batchSteps rs es st1 ss1 with
      | error x => rw [h2] at h; cases h
      | ok b =>
        obtain ⟨st2, ss2, out2⟩ := b
        rw [h2] at h
        cases h
        obtain ⟨e1, -, hstep⟩ := batchStep_get rs 0 e st st1 ss ss1 out1 hk h1
        subst e1
        have hs := hstep i r hr
        rw [Nat.zero_add] at hs
        have hrest := batchSteps_get rs hk es st1 _ ss1 _ out2 h2 i r hr
        rw [VRule.steps, hs]
        simp only [hrest, List.filter_append, List.map_append]

/-- C96: when several rules that do not change metadata visit a module together, each reports exactly what it would report alone, in the same order. -/
theorem C96_independent (rs : List VRule) (meta_ : Store) (t : Syn) (out : List (Nat × Rep)) (hk : ∀ r ∈ rs, KeepsMetadata r) (h : visitBatched rs meta_ t = .ok out)
    (i : Nat) (r : VRule) (hr : rs[i]? = some r) : r.alone meta_ t = .ok ((out.filter (fun o => o.1 = i)).map Prod.snd) := by
  unfold visitBatched at h
  cases hb : batchSteps rs t.events meta_ (States.init rs) with
  | error e => rw [hb] at h; cases h
  | ok x =>
    rw [hb] at h
    cases h
    have := batchSteps_get rs hk t.events meta_ x.1 _ x.2.1 x.2.2 hb i r hr
    rw [States.get_init] at this
    unfold VRule.alone
    rw [this]
    rfl

theorem batchStep_error : ∀ (rs : List VRule) (j : Nat) (e : Ev) (st : Store) (ss : States rs) (x : Err), (∀ r ∈ rs, KeepsMetadata r) →
    batchStep rs j e st ss = .error x → ∃ (i : Nat) (r : VRule) (h : rs[i]? = some r), r.step e st (States.get rs ss i r h) = .error x
  | [], j, e, st, ss, x, _, h => by cases h
  | r0 :: rs, j, e, st, (s, ss), x, hk, h => by
    rw [batchStep] at h
    cases h1 : r0.step e st s with
    | error y => rw [h1] at h; cases h; exact ⟨0, r0, rfl, h1⟩
    | ok a =>
      obtain ⟨st1, s1, out1⟩ := a
      rw [h1] at h
      simp only at h
      have e1 : st1 = st := (hk r0 List.mem_cons_self).step h1
      subst e1
      cases h2 : batchStep rs (j + 1) e st1 ss with
      | ok b => rw [h2] at h; cases h
      | error y =>
        rw [h2] at h
        cases h
        obtain ⟨i, r, hr, hx⟩ := batchStep_error rs (j + 1) e st1 ss x (fun r hr => hk r (List.mem_cons_of_mem _ hr)) h2
        exact ⟨i + 1, r, by simpa using hr, hx⟩

theorem batchSteps_error (rs : List VRule) (hk : ∀ r ∈ rs, KeepsMetadata r) : ∀ (evs : List Ev) (st : Store) (ss : States rs) (x : Err),
    batchSteps rs evs st ss = .error x → ∃ (i : Nat) (r : VRule) (h : rs[i]? = some r), r.steps evs st (States.get rs ss i r h) = .error x
  | [], st, ss, x, h => by cases h
  | e :: es, st, ss, x, h => by
    rw [batchSteps] at h
    cases h1 : batchStep rs 0 e st ss with
    | error y =>
      rw [h1] at h
      cases h
      obtain ⟨i, r, hr, hx⟩ := batchStep_error rs 0 e st ss x hk h1
      exact ⟨i, r, hr, by rw [VRule.steps, hx]⟩
    | ok a =>
      obtain ⟨st1, ss1, out1⟩ := a
      rw [h1] at h
      simp only at h
      cases h2 : batchSteps rs es st1 ss1 with
      | ok b => rw [h2] at h; cases h
      | error y =>
        rw [h2] at h
        cases h
        obtain ⟨e1, -, hstep⟩ := batchStep_get rs 0 e st st1 ss ss1 out1 hk h1
        subst e1
        obtain ⟨i, r, hr, hx⟩ := batchSteps_error rs hk es st1 ss1 x h2
        exact ⟨i, r, hr, by rw [VRule.steps, hstep i r hr]; simp only [hx]⟩

/-- C96: the visit fails exactly when some rule fails when it is alone. -/
theorem C96_raises (rs : List VRule) (meta_ : Store) (t : Syn) (hk : ∀ r ∈ rs, KeepsMetadata r) :
    (∃ x, visitBatched rs meta_ t = .error x) ↔ ∃ r ∈ rs, ∃ x, r.alone meta_ t = .error x := by
  constructor
  · rintro ⟨x, h⟩
    unfold visitBatched at h
    cases hb : batchSteps rs t.events meta_ (States.init rs) with
    | ok y => rw [hb] at h; cases h
    | error y =>
      obtain ⟨i, r, hr, hx⟩ := batchSteps_error rs hk t.events meta_ _ y hb
      rw [States.get_init] at hx
      refine ⟨r, List.mem_of_getElem? hr, y, ?_⟩
      unfold VRule.alone; rw [hx]; rfl
  · rintro ⟨r, hr, x, hx⟩
    cases h : visitBatched rs meta_ t with
    | error y => exact ⟨y, rfl⟩
    | ok out =>
      obtain ⟨i, hi⟩ := List.mem_iff_getElem?.mp hr
      have := C96_independent rs meta_ t out hk h i r hi
      rw [this] at hx
      cases hx

/-! ## Durations -/

theorem metric_dictSet (k k' : PStr) (v : Nat) : ∀ μ : Metrics, metric k (dictSet k' v μ) = if k = k' then v else metric k μ
  | [] => by
    by_cases h : k = k'
    · subst h; simp [dictSet, metric]
    · have : k' ≠ k := fun e => h e.symm
      simp [dictSet, metric, h, this]
  | (a, b) :: μ => by
    have ih := metric_dictSet k k' v μ
    rw [dictSet]
    by_cases ha : a = k'
    · subst ha
      by_cases h : k = a
      · subst h; simp [metric]
      · have : a ≠ k := fun e => h e.symm
        simp [metric, h, this]
    · by_cases h : a = k
      · subst h
        simp [metric, ha]
      · simp [metric, ha, h, ih]

/-- The sum of the numbers at the places of this name. -/
def total (n : PStr) : List PStr → List Nat → Nat
  | m :: ms, d :: ds => (if m = n then d else 0) + total n ms ds
  | _, _ => 0

/-- C96: for each visitor method of each rule, the metric with its name is the time its calls took together. -/
theorem C96_durations (names : List PStr) (ds : List Nat) (n : PStr) : ∀ μ : Metrics,
    metric (py "Duration." ++ n) (durations names ds μ) = metric (py "Duration." ++ n) μ + total n names ds := by
  induction names generalizing ds with
  | nil => intro μ; simp [durations, total]
  | cons m ms ih =>
    intro μ
    cases ds with
    | nil => simp [durations, total]
    | cons d ds =>
      rw [durations, ih ds, metric_dictSet, total]
      by_cases h : m = n
      · subst h; simp; omega
      · have h' : n ≠ m := fun e => h e.symm
        simp [h, h']

theorem total_eq_zero (n : PStr) : ∀ (names : List PStr) (ds : List Nat), n ∉ names → total n names ds = 0
  | [], ds, _ => by cases ds <;> rfl
  | m :: ms, [], _ => rfl
  | m :: ms, d :: ds, h => by
    rw [List.mem_cons, not_or] at h
    rw [total, if_neg (fun e => h.1 e.symm), total_eq_zero n ms ds h.2]

/-- C96: after a visit, a metric for a visitor method that does not belong to a rule, or whose node type does not occur in the module, is what it was. -/
theorem C96_silent (rs : List (PStr × List PStr)) (t : Syn) (ds : List Nat) (μ : Metrics) (n : PStr)
    (h : ∀ way i l ks, At way (.node i l ks) t → ∀ r ∈ rs, ∀ m ∈ r.2, m = py "visit_" ++ l.typeName ∨ m = py "leave_" ++ l.typeName → n ≠ r.1 ++ py "." ++ m) :
    metric (py "Duration." ++ n) (durations (hookNames rs t.events) ds μ) = metric (py "Duration." ++ n) μ := by
  rw [C96_durations, total_eq_zero n, Nat.add_zero]
  intro hn
  obtain ⟨e, he, hn⟩ := List.mem_flatMap.mp hn
  obtain ⟨r, hr, hn⟩ := List.mem_filterMap.mp hn
  split at hn
  · rename_i hm
    cases hn
    obtain ⟨pre, post, hp⟩ := List.append_of_mem he
    obtain ⟨way, ⟨i, l, ks⟩, hat, ⟨rfl, -⟩ | ⟨rfl, -⟩⟩ := position_of_split t pre post e hp
    · exact h way i l ks hat r hr _ hm (.inl rfl) rfl
    · exact h way i l ks hat r hr _ hm (.inr rfl) rfl
  · cases hn

end Cst
