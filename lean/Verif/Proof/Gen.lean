import Verif.Py.Gen

/-!
# Lemmas about generators
-/

namespace Py.Gen
open Fixit (Err)
variable {W Y S R Q : Type}

/-- What is left of the answers. -/
theorem run_bind (f : R → Gen W Y S Q) : ∀ (g : Gen W Y S R) (ss : List S) (w : W),
    (g.bind f).run ss w = match g.run ss w with
      | (ys, .returned r, w') => (ys ++ ((f r).run (ss.drop ys.length) w').1, ((f r).run (ss.drop ys.length) w').2)
      | (ys, .raised e, w') => (ys, .raised e, w')
      | (ys, .suspended, w') => (ys, .suspended, w')
  | .ret r, ss, w => by simp [bind, run]
  | .raise e, ss, w => by simp [bind, run]
  | .yield y k, [], w => by simp [bind, run]
  | .yield y k, s :: ss, w => by
    simp only [bind, run]
    rw [run_bind f (k s) ss w]
    rcases h : (k s).run ss w with ⟨ys, st, w'⟩
    cases st <;> simp
  | .act a k, ss, w => by simp only [bind, run]; exact run_bind f (k w) ss (a w)

theorem run_bind_returned {f : R → Gen W Y S Q} {g : Gen W Y S R} {ss : List S} {w w' : W} {ys : List Y} {r : R}
    (h : g.run ss w = (ys, .returned r, w')) :
    (g.bind f).run ss w = (ys ++ ((f r).run (ss.drop ys.length) w').1, ((f r).run (ss.drop ys.length) w').2) := by
  rw [run_bind, h]

theorem run_bind_raised {f : R → Gen W Y S Q} {g : Gen W Y S R} {ss : List S} {w w' : W} {ys : List Y} {e : Err}
    (h : g.run ss w = (ys, .raised e, w')) : (g.bind f).run ss w = (ys, .raised e, w') := by
  rw [run_bind, h]

theorem run_bind_suspended {f : R → Gen W Y S Q} {g : Gen W Y S R} {ss : List S} {w w' : W} {ys : List Y}
    (h : g.run ss w = (ys, .suspended, w')) : (g.bind f).run ss w = (ys, .suspended, w') := by
  rw [run_bind, h]

theorem run_except (h : Err → Gen W Y S R) : ∀ (g : Gen W Y S R) (ss : List S) (w : W),
    (g.except h).run ss w = match g.run ss w with
      | (ys, .returned r, w') => (ys, .returned r, w')
      | (ys, .raised e, w') => (ys ++ ((h e).run (ss.drop ys.length) w').1, ((h e).run (ss.drop ys.length) w').2)
      | (ys, .suspended, w') => (ys, .suspended, w')
  | .ret r, ss, w => by simp [except, run]
  | .raise e, ss, w => by simp [except, run]
  | .yield y k, [], w => by simp [except, run]
  | .yield y k, s :: ss, w => by
    simp only [except, run]
    rw [run_except h (k s) ss w]
    rcases hr : (k s).run ss w with ⟨ys, st, w'⟩
    cases st <;> simp
  | .act a k, ss, w => by simp only [except, run]; exact run_except h (k w) ss (a w)

/-- How many values come out: one per answer, and one more when the run is still suspended. -/
theorem run_length : ∀ (g : Gen W Y S R) (ss : List S) (w : W),
    match g.run ss w with
      | (ys, .suspended, _) => ys.length = ss.length + 1
      | (ys, _, _) => ys.length ≤ ss.length
  | .ret r, ss, w => by simp [run]
  | .raise e, ss, w => by simp [run]
  | .yield y k, [], w => by simp [run]
  | .yield y k, s :: ss, w => by
    have := run_length (k s) ss w
    simp only [run]
    rcases hr : (k s).run ss w with ⟨ys, st, w'⟩
    rw [hr] at this
    cases st <;> simpa using this
  | .act a k, ss, w => by simpa only [run] using run_length (k w) ss (a w)

/-- The world at the end is one of the worlds gone through. -/
theorem run_world_mem : ∀ (g : Gen W Y S R) (ss : List S) (w : W), (g.run ss w).2.2 ∈ g.worlds ss w
  | .ret r, ss, w => by simp [run, worlds]
  | .raise e, ss, w => by simp [run, worlds]
  | .yield y k, [], w => by simp [run, worlds]
  | .yield y k, s :: ss, w => by simp only [run, worlds]; exact List.mem_cons_of_mem _ (run_world_mem (k s) ss w)
  | .act a k, ss, w => by simp only [run, worlds]; exact List.mem_cons_of_mem _ (run_world_mem (k w) ss (a w))

/-- A property of worlds kept by every step of the generator, whatever is sent. -/
inductive Keeps (P : W → Prop) : Gen W Y S R → Prop
  | ret (r : R) : Keeps P (.ret r)
  | raise (e : Err) : Keeps P (.raise e)
  | yield (y : Y) (k : S → Gen W Y S R) : (∀ s, Keeps P (k s)) → Keeps P (.yield y k)
  | act (a : W → W) (k : W → Gen W Y S R) : (∀ w, P w → P (a w)) → (∀ w, P w → Keeps P (k w)) → Keeps P (.act a k)

theorem Keeps.worlds {P : W → Prop} {g : Gen W Y S R} (h : Keeps P g) : ∀ (ss : List S) (w : W), P w → ∀ w' ∈ g.worlds ss w, P w' := by
  induction h with
  | ret r => intro ss w hw w' h; simp only [Gen.worlds, List.mem_singleton] at h; rwa [h]
  | raise e => intro ss w hw w' h; simp only [Gen.worlds, List.mem_singleton] at h; rwa [h]
  | yield y k _ ih =>
    intro ss w hw w' h
    cases ss with
    | nil => simp only [Gen.worlds, List.mem_singleton] at h; rwa [h]
    | cons s ss =>
      simp only [Gen.worlds, List.mem_cons] at h
      rcases h with rfl | h
      · exact hw
      · exact ih s ss w hw w' h
  | act a k ha _ ih =>
    intro ss w hw w' h
    simp only [Gen.worlds, List.mem_cons] at h
    rcases h with rfl | h
    · exact hw
    · exact ih w hw ss (a w) (ha w hw) w' h

theorem Keeps.run {P : W → Prop} {g : Gen W Y S R} (h : Keeps P g) (ss : List S) (w : W) (hw : P w) : P (g.run ss w).2.2 :=
  h.worlds ss w hw _ (run_world_mem g ss w)

theorem Keeps.bind {P : W → Prop} {g : Gen W Y S R} (hg : Keeps P g) {f : R → Gen W Y S Q} (hf : ∀ r, Keeps P (f r)) : Keeps P (g.bind f) := by
  induction hg with
  | ret r => exact hf r
  | raise e => exact .raise e
  | yield y k _ ih => exact .yield y _ ih
  | act a k ha _ ih => exact .act a _ ha ih

theorem Keeps.except {P : W → Prop} {g : Gen W Y S R} (hg : Keeps P g) {h : Err → Gen W Y S R} (hh : ∀ e, Keeps P (h e)) : Keeps P (g.except h) := by
  induction hg with
  | ret r => exact .ret r
  | raise e => exact hh e
  | yield y k _ ih => exact .yield y _ ih
  | act a k ha _ ih => exact .act a _ ha ih

theorem Keeps.forIn {Z T : Type} {P : W → Prop} {g : Gen W Z Unit R} (hg : Keeps P g) {body : Z → T → Gen W Y S T} (hb : ∀ z t, Keeps P (body z t)) :
    ∀ t, Keeps P (g.forIn body t) := by
  induction hg with
  | ret r => intro t; exact .ret t
  | raise e => intro t; exact .raise e
  | yield y k _ ih => intro t; exact (hb y t).bind (fun t' => ih () t')
  | act a k ha _ ih => intro t; exact .act a _ ha (fun w hw => ih w hw t)

theorem Keeps.look {P : W → Prop} {k : W → Gen W Y S R} (h : ∀ w, P w → Keeps P (k w)) : Keeps P (look k) := .act _ _ (fun _ h => h) h

theorem Keeps.ofExcept {P : W → Prop} (r : Except Err R) : Keeps P (ofExcept r : Gen W Y S R) := by
  cases r <;> constructor

/-- The loop of a consumer that hands every value on and folds the answers: `for z in g: s = yield f z; st = upd st z s`. -/
theorem run_forIn_yield {Z T : Type} (f : Z → Y) (upd : Z → T → S → T) : ∀ (g : Gen W Z Unit R) (st : T) (ss : List S) (w : W),
    (g.forIn (fun z t => .yield (f z) (fun s => .ret (upd z t s))) st).run ss w =
      match g.run (ss.map (fun _ => ())) w with
      | (zs, .returned _, w') => (zs.map f, .returned ((zs.zip ss).foldl (fun t p => upd p.1 t p.2) st), w')
      | (zs, .raised e, w') => (zs.map f, .raised e, w')
      | (zs, .suspended, w') => (zs.map f, .suspended, w')
  | .ret r, st, ss, w => by simp [forIn, run]
  | .raise e, st, ss, w => by simp [forIn, run]
  | .yield z k, st, [], w => by simp [forIn, bind, run]
  | .yield z k, st, s :: ss, w => by
    simp only [forIn, bind, run, List.map_cons]
    rw [run_forIn_yield f upd (k ()) (upd z st s) ss w]
    rcases hr : (k ()).run (ss.map (fun _ => ())) w with ⟨zs, stt, w'⟩
    cases stt <;> simp
  | .act a k, st, ss, w => by simp only [forIn, run]; exact run_forIn_yield f upd (k w) st ss (a w)

end Py.Gen
