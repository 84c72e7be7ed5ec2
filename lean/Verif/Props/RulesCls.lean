import Verif.Model.Rules.Scopes

/-!
# C111: UseClsInClassmethod
-/

namespace Cst
open Py Spec

/-! ## The scope of the function, before and after -/

/-- The name in the renamed scope. -/
def swapName (a c s : PStr) : PStr := if s = a then c else s

/-- What is known of the scopes around and inside the function. -/
structure Renamed (a c : PStr) (F F' : ScopeFrame) (out : List ScopeFrame) : Prop where
  sid : F'.sid = F.sid
  kind : F.kind = .func ∧ F'.kind = .func
  globals : F'.globals = F.globals
  bound : ∀ s, s ∈ F'.bound ↔ ∃ t ∈ F.bound, swapName a c t = s
  has : a ∈ F.bound
  hasNot : c ∉ F.bound
  noGlobal : a ∉ F.globals ∧ c ∉ F.globals
  outer : resolveUp out c = none
  sids : ∀ f ∈ out, f.sid ≠ F.sid

section
variable {a c : PStr} {F F' : ScopeFrame} {out : List ScopeFrame} (hR : Renamed a c F F' out)
include hR

theorem renamed_ne : a ≠ c := fun h => hR.hasNot (h ▸ hR.has)

theorem renamed_bound {s : PStr} (h1 : s ≠ a) (h2 : s ≠ c) : s ∈ F'.bound ↔ s ∈ F.bound := by
  rw [hR.bound]
  constructor
  · rintro ⟨t, ht, he⟩
    unfold swapName at he
    split at he
    · exact absurd he.symm h2
    · exact he ▸ ht
  · intro h
    exact ⟨s, h, if_neg h1⟩

theorem renamed_new : c ∈ F'.bound := (hR.bound c).mpr ⟨a, hR.has, if_pos rfl⟩

theorem moduleLookup_same (s : PStr) : ∀ pre : List ScopeFrame, moduleLookup (pre ++ F' :: out) s = moduleLookup (pre ++ F :: out) s
  | [] => by
    simp only [List.nil_append, moduleLookup, hR.kind.1, hR.kind.2]
    rw [if_neg (by simp), if_neg (by simp)]
  | f :: pre => by
    simp only [List.cons_append, moduleLookup, moduleLookup_same s pre]

theorem moduleLookup_ne (s : PStr) : ∀ pre : List ScopeFrame, (∀ f ∈ pre, f.sid ≠ F.sid) → moduleLookup (pre ++ F :: out) s ≠ some F.sid
  | [], _ => by
    have : ∀ o : List ScopeFrame, (∀ f ∈ o, f.sid ≠ F.sid) → moduleLookup o s ≠ some F.sid := by
      intro o
      induction o with
      | nil => intro _ h; cases h
      | cons f o ih =>
        intro hs h
        rw [moduleLookup] at h
        split at h
        · exact hs f (by simp) (Option.some.inj h)
        · exact ih (fun g hg => hs g (by simp [hg])) h
    simp only [List.nil_append, moduleLookup, hR.kind.1]
    rw [if_neg (by simp)]
    exact this out hR.sids
  | f :: pre, hs => by
    rw [List.cons_append, moduleLookup]
    split
    · intro h; exact hs f (by simp) (Option.some.inj h)
    · exact moduleLookup_ne s pre (fun g hg => hs g (by simp [hg]))

/-- Other names. -/
theorem resolveUp_other {s : PStr} (h1 : s ≠ a) (h2 : s ≠ c) : ∀ pre : List ScopeFrame, resolveUp (pre ++ F' :: out) s = resolveUp (pre ++ F :: out) s
  | [] => by
    simp only [List.nil_append, resolveUp, hR.kind.1, hR.kind.2, hR.globals, renamed_bound hR h1 h2, hR.sid]
  | f :: pre => by
    simp only [List.cons_append, resolveUp, resolveUp_other h1 h2 pre, moduleLookup_same hR s pre]

theorem resolve_other {s : PStr} (h1 : s ≠ a) (h2 : s ≠ c) : ∀ pre : List ScopeFrame, resolve (pre ++ F' :: out) s = resolve (pre ++ F :: out) s
  | [] => by
    simp only [List.nil_append, resolve, hR.globals, renamed_bound hR h1 h2, hR.sid]
  | f :: pre => by
    simp only [List.cons_append, resolve, resolveUp_other hR h1 h2 pre, moduleLookup_same hR s pre]

/-- The new name, where it already means something. -/
theorem resolveUp_new : ∀ pre : List ScopeFrame, resolveUp (pre ++ F :: out) c ≠ none → resolveUp (pre ++ F' :: out) c = resolveUp (pre ++ F :: out) c
  | [], h => by
    simp only [List.nil_append, resolveUp, hR.kind.1] at h
    rw [if_neg (by simp), if_neg hR.noGlobal.2, if_neg hR.hasNot] at h
    exact absurd hR.outer h
  | f :: pre, h => by
    simp only [List.cons_append, resolveUp] at h ⊢
    split
    · rename_i hk
      rw [if_pos hk] at h
      exact resolveUp_new pre h
    · rename_i hk
      rw [if_neg hk] at h
      split
      · exact moduleLookup_same hR c pre
      · rename_i hg
        rw [if_neg hg] at h
        split
        · rfl
        · rename_i hb
          rw [if_neg hb] at h
          exact resolveUp_new pre h

theorem resolve_new : ∀ pre : List ScopeFrame, resolve (pre ++ F :: out) c ≠ none → resolve (pre ++ F' :: out) c = resolve (pre ++ F :: out) c
  | [], h => by
    simp only [List.nil_append, resolve] at h
    rw [if_neg hR.noGlobal.2, if_neg hR.hasNot] at h
    exact absurd hR.outer h
  | f :: pre, h => by
    simp only [List.cons_append, resolve] at h ⊢
    split
    · exact moduleLookup_same hR c pre
    · rename_i hg
      rw [if_neg hg] at h
      split
      · rfl
      · rename_i hb
        rw [if_neg hb] at h
        exact resolveUp_new hR pre h

/-- The old name, where it means another variable. -/
theorem resolveUp_old : ∀ pre : List ScopeFrame, resolveUp (pre ++ F :: out) a ≠ some F.sid → resolveUp (pre ++ F' :: out) a = resolveUp (pre ++ F :: out) a
  | [], h => by
    simp only [List.nil_append, resolveUp, hR.kind.1] at h
    rw [if_neg (by simp), if_neg hR.noGlobal.1, if_pos hR.has] at h
    exact absurd rfl h
  | f :: pre, h => by
    simp only [List.cons_append, resolveUp] at h ⊢
    split
    · rename_i hk
      rw [if_pos hk] at h
      exact resolveUp_old pre h
    · rename_i hk
      rw [if_neg hk] at h
      split
      · exact moduleLookup_same hR a pre
      · rename_i hg
        rw [if_neg hg] at h
        split
        · rfl
        · rename_i hb
          rw [if_neg hb] at h
          exact resolveUp_old pre h

theorem resolve_old : ∀ pre : List ScopeFrame, resolve (pre ++ F :: out) a ≠ some F.sid → resolve (pre ++ F' :: out) a = resolve (pre ++ F :: out) a
  | [], h => by
    simp only [List.nil_append, resolve] at h
    rw [if_neg hR.noGlobal.1, if_pos hR.has] at h
    exact absurd rfl h
  | f :: pre, h => by
    simp only [List.cons_append, resolve] at h ⊢
    split
    · exact moduleLookup_same hR a pre
    · rename_i hg
      rw [if_neg hg] at h
      split
      · rfl
      · rename_i hb
        rw [if_neg hb] at h
        exact resolveUp_old hR pre h

/-- The old name, where it means the parameter: the new name means it afterwards, if nothing is called that. -/
theorem resolveUp_moved : ∀ pre : List ScopeFrame, (∀ f ∈ pre, f.sid ≠ F.sid ∧ c ∉ f.globals) → resolveUp (pre ++ F :: out) c = none →
    resolveUp (pre ++ F' :: out) c = some F.sid
  | [], _, _ => by
    simp only [List.nil_append, resolveUp, hR.kind.2]
    rw [if_neg (by simp), hR.globals, if_neg hR.noGlobal.2, if_pos (renamed_new hR), hR.sid]
  | f :: pre, hp, h => by
    have hf := hp f (by simp)
    have ih := resolveUp_moved pre (fun g hg => hp g (by simp [hg]))
    simp only [List.cons_append, resolveUp, if_neg hf.2] at h ⊢
    split
    · rename_i hk
      rw [if_pos hk] at h
      exact ih h
    · rename_i hk
      rw [if_neg hk] at h
      split
      · rename_i hb
        rw [if_pos hb] at h
        cases h
      · rename_i hb
        rw [if_neg hb] at h
        exact ih h

theorem resolve_moved : ∀ pre : List ScopeFrame, (∀ f ∈ pre, f.sid ≠ F.sid ∧ c ∉ f.globals) → resolve (pre ++ F :: out) c = none →
    resolve (pre ++ F' :: out) c = some F.sid
  | [], _, _ => by
    simp only [List.nil_append, resolve]
    rw [hR.globals, if_neg hR.noGlobal.2, if_pos (renamed_new hR), hR.sid]
  | f :: pre, hp, h => by
    have hf := hp f (by simp)
    simp only [List.cons_append, resolve, if_neg hf.2] at h ⊢
    split
    · rename_i hb
      rw [if_pos hb] at h
      cases h
    · rename_i hb
      rw [if_neg hb] at h
      exact resolveUp_moved hR pre (fun g hg => hp g (by simp [hg])) h

/-! ## The names inside -/

/-- What is asked of a place inside the function. -/
structure PlaceOk (refs : List Nat) (a c : PStr) (sid : Nat) (p : Place) : Prop where
  ref : p.id ∈ refs ↔ p.s = a ∧ p.target = some sid
  quoted : p.u = .quoted → p.s = a → p.target ≠ some sid
  free : p.s = c → p.target ≠ none
  captured : p.s = a → p.target = some sid → resolve p.env c = none

/-- A place as it should be after renaming. -/
def Place.renamed (a c : PStr) (sid : Nat) (p : Place) : Nat × PStr × Use × Option Nat := (p.id, if p.s = a ∧ p.target = some sid then c else p.s, p.u, p.target)

/-- A place. -/
def Place.view (p : Place) : Nat × PStr × Use × Option Nat := (p.id, p.s, p.u, p.target)

omit hR in
theorem mem_declaredAll {t : Scoped} : ∀ {ts : List Scoped}, t ∈ ts → ∀ s ∈ declared t, s ∈ declaredAll ts
  | u :: ts, h, s, hs => by
    rw [declaredAll, List.mem_append]
    rcases List.mem_cons.mp h with rfl | h
    · exact .inl hs
    · exact .inr (mem_declaredAll h s hs)

omit hR in
theorem mem_placesAll {env : List ScopeFrame} {t : Scoped} : ∀ {ts : List Scoped}, t ∈ ts → ∀ p ∈ places env t, p ∈ placesAll env ts
  | u :: ts, h, p, hp => by
    rw [placesAll, List.mem_append]
    rcases List.mem_cons.mp h with rfl | h
    · exact .inl hp
    · exact .inr (mem_placesAll h p hp)

omit hR in
theorem renameAll_map (refs : List Nat) (c : PStr) : ∀ ts : List Scoped, renameAll refs c ts = ts.map (renameAt refs c)
  | [] => rfl
  | t :: ts => by rw [renameAll, renameAll_map refs c ts]; rfl

omit hR in
theorem declares_rename (refs : List Nat) (c : PStr) (t : Scoped) : (renameAt refs c t).declares = t.declares ∧ (renameAt refs c t).declaresGlobal = t.declaresGlobal := by
  cases t with
  | name id s u =>
    rw [renameAt]
    split <;> exact ⟨rfl, rfl⟩
  | _ => exact ⟨rfl, rfl⟩

omit hR in
theorem declares_declared (t : Scoped) : ∀ s ∈ t.declares, s ∈ declared t := by
  cases t <;> simp [Scoped.declares, declared]

omit hR in
theorem declaresGlobal_declares (t : Scoped) : ∀ s ∈ t.declaresGlobal, s ∈ t.declares := by
  cases t with
  | declare g s => cases g <;> simp [Scoped.declares, Scoped.declaresGlobal]
  | _ => simp [Scoped.declares, Scoped.declaresGlobal]

omit hR in
theorem frame_globals {sid : Nat} {k : ScopeKind} {items : List Scoped} {s : PStr} (h : s ∈ (frameOf sid k items).globals) : s ∈ declaredAll items := by
  obtain ⟨t, ht, hs⟩ := List.mem_flatMap.mp h
  exact mem_declaredAll ht s (declares_declared t s (declaresGlobal_declares t s hs))

omit hR in
theorem frame_bound {sid : Nat} {k : ScopeKind} {items : List Scoped} {s : PStr} (hd : s ∉ declaredAll items) : s ∈ (frameOf sid k items).bound ↔ ∃ t ∈ items, s ∈ t.binds := by
  simp only [frameOf, List.mem_filter, List.mem_flatMap, Bool.not_eq_true', List.contains_eq_mem, decide_eq_false_iff_not]
  constructor
  · exact fun h => h.1
  · intro h
    refine ⟨h, ?_⟩
    rintro ⟨t, ht, hs⟩
    exact hd (mem_declaredAll ht s (declares_declared t s hs))

omit hR in
theorem flatMap_rename {β : Type} (refs : List Nat) (c : PStr) (f : Scoped → List β) (h : ∀ t, f (renameAt refs c t) = f t) : ∀ ts : List Scoped, (renameAll refs c ts).flatMap f = ts.flatMap f
  | [] => rfl
  | t :: ts => by rw [renameAll, List.flatMap_cons, List.flatMap_cons, h, flatMap_rename refs c f h ts]

omit hR in
/-- A nested scope keeps its variables. -/
theorem frame_same {refs : List Nat} {sid' : Nat} {k : ScopeKind} {items : List Scoped} {env : List ScopeFrame} {sid : Nat} (hne : sid' ≠ sid) (hd : a ∉ declaredAll items)
    (hok : ∀ p ∈ placesAll (frameOf sid' k items :: env) items, PlaceOk refs a c sid p) : frameOf sid' k (renameAll refs c items) = frameOf sid' k items := by
  have hbinds : ∀ t ∈ items, (renameAt refs c t).binds = t.binds := by
    intro t ht
    cases t with
    | name id s u =>
      rw [renameAt]
      split
      · rename_i hu
        have hp : (⟨id, s, u, frameOf sid' k items :: env⟩ : Place) ∈ placesAll (frameOf sid' k items :: env) items := mem_placesAll ht _ (by simp [places])
        obtain ⟨hs, htg⟩ := (hok _ hp).ref.mp hu.2
        cases u with
        | store =>
          exfalso
          simp only at hs
          subst hs
          have hb : s ∈ (frameOf sid' k items).bound := (frame_bound hd).mpr ⟨_, ht, by simp [Scoped.binds]⟩
          have hg : s ∉ (frameOf sid' k items).globals := fun h => hd (frame_globals h)
          simp only [Place.target, resolve, if_neg hg, if_pos hb, Option.some.injEq] at htg
          exact hne htg
        | _ => rfl
      · rfl
    | _ => rfl
  have h1 : (renameAll refs c items).flatMap Scoped.binds = items.flatMap Scoped.binds := by
    rw [renameAll_map, List.flatMap_map, List.flatMap_def, List.flatMap_def]
    congr 1
    exact List.map_congr_left hbinds
  unfold frameOf
  rw [h1, flatMap_rename refs c _ (fun t => (declares_rename refs c t).1), flatMap_rename refs c _ (fun t => (declares_rename refs c t).2)]

mutual
theorem places_rename (refs : List Nat) : ∀ (t : Scoped) (pre : List ScopeFrame), (∀ f ∈ pre, f.sid ≠ F.sid ∧ c ∉ f.globals) → a ∉ declared t → c ∉ declared t → F.sid ∉ sids t →
    (∀ p ∈ places (pre ++ F :: out) t, PlaceOk refs a c F.sid p) →
    (places (pre ++ F' :: out) (renameAt refs c t)).map Place.view = (places (pre ++ F :: out) t).map (Place.renamed a c F.sid)
  | .name id s u, pre, hpre, _, _, _, hok => by
    have hp := hok ⟨id, s, u, pre ++ F :: out⟩ (by simp [places])
    rw [renameAt]
    by_cases hm : s = a ∧ resolve (pre ++ F :: out) s = some F.sid
    · have hq : u ≠ .quoted := fun h => hp.quoted h hm.1 hm.2
      have hi : id ∈ refs := hp.ref.mpr hm
      rw [if_pos ⟨hq, hi⟩]
      have hc := hp.captured hm.1 hm.2
      simp only [places, List.map_cons, List.map_nil, Place.view, Place.renamed, Place.target, resolve_moved hR pre hpre hc, hm.2]
      simp [hm.1]
    · have hi : id ∉ refs := fun h => hm (hp.ref.mp h)
      rw [if_neg (fun h => hi h.2)]
      have hr : resolve (pre ++ F' :: out) s = resolve (pre ++ F :: out) s := by
        by_cases h1 : s = a
        · subst h1
          exact resolve_old hR pre (fun h => hm ⟨rfl, h⟩)
        · by_cases h2 : s = c
          · subst h2
            exact resolve_new hR pre (hp.free rfl)
          · exact resolve_other hR h1 h2 pre
      simp only [places, List.map_cons, List.map_nil, Place.view, Place.target, hr]
      have hm' : ¬ ((⟨id, s, u, pre ++ F :: out⟩ : Place).s = a ∧ (⟨id, s, u, pre ++ F :: out⟩ : Place).target = some F.sid) := hm
      rw [Place.renamed, if_neg hm']
      rfl
  | .binder _, _, _, _, _, _, _ => rfl
  | .declare _ _, _, _, _, _, _, _ => rfl
  | .scope sid k items, pre, hpre, ha, hc, hs, hok => by
    simp only [declared] at ha hc
    simp only [sids, List.mem_cons, not_or] at hs
    rw [renameAt, places, places]
    simp only [places] at hok
    rw [frame_same (c := c) (fun h => hs.1 h.symm) ha hok]
    refine placesAll_rename refs items (frameOf sid k items :: pre) ?_ ha hc hs.2 hok
    intro f hf
    rcases List.mem_cons.mp hf with rfl | hf
    · exact ⟨fun h => hs.1 h.symm, fun h => hc (frame_globals h)⟩
    · exact hpre f hf
theorem placesAll_rename (refs : List Nat) : ∀ (ts : List Scoped) (pre : List ScopeFrame), (∀ f ∈ pre, f.sid ≠ F.sid ∧ c ∉ f.globals) → a ∉ declaredAll ts → c ∉ declaredAll ts → F.sid ∉ sidsAll ts →
    (∀ p ∈ placesAll (pre ++ F :: out) ts, PlaceOk refs a c F.sid p) →
    (placesAll (pre ++ F' :: out) (renameAll refs c ts)).map Place.view = (placesAll (pre ++ F :: out) ts).map (Place.renamed a c F.sid)
  | [], _, _, _, _, _, _ => rfl
  | t :: ts, pre, hpre, ha, hc, hs, hok => by
    simp only [declaredAll, sidsAll, placesAll, List.mem_append, not_or] at ha hc hs hok
    rw [renameAll, placesAll, placesAll, List.map_append, List.map_append,
      places_rename refs t pre hpre ha.1 hc.1 hs.1 (fun p hp => hok p (.inl hp)),
      placesAll_rename refs ts pre hpre ha.2 hc.2 hs.2 (fun p hp => hok p (.inr hp))]
end
end

/-! ## The rule -/

theorem unique_of_nodup {α β : Type} (f : α → β) : ∀ {l : List α}, (l.map f).Nodup → ∀ {x y : α}, x ∈ l → y ∈ l → f x = f y → x = y
  | [], _, x, _, hx, _, _ => by cases hx
  | z :: l, h, x, y, hx, hy, he => by
    rw [List.map_cons, List.nodup_cons] at h
    rcases List.mem_cons.mp hx with hxz | hx
    · rcases List.mem_cons.mp hy with hyz | hy
      · rw [hxz, hyz]
      · exact absurd (List.mem_map.mpr ⟨y, hy, by rw [← he, hxz]⟩) h.1
    · rcases List.mem_cons.mp hy with hyz | hy
      · exact absurd (List.mem_map.mpr ⟨x, hx, by rw [he, hyz]⟩) h.1
      · exact unique_of_nodup f h.2 hx hy he

theorem paramItems_rename (refs : List Nat) (c : PStr) : ∀ ps : List (Nat × PStr), paramItems (renameParams refs c ps) = renameAll refs c (paramItems ps)
  | [] => rfl
  | p :: ps => by
    have ih := paramItems_rename refs c ps
    unfold paramItems renameParams at ih ⊢
    rw [List.map_cons, List.map_cons, List.map_cons, renameAll, ih, renameAt]
    by_cases h : p.1 ∈ refs
    · rw [if_pos h, if_pos ⟨by decide, h⟩]
    · rw [if_neg h, if_neg (fun h' => h h'.2)]

theorem renameAll_append (refs : List Nat) (c : PStr) (s t : List Scoped) : renameAll refs c (s ++ t) = renameAll refs c s ++ renameAll refs c t := by
  rw [renameAll_map, renameAll_map, renameAll_map, List.map_append]

theorem items_rename (refs : List Nat) (c : PStr) (m : Method) : (m.rename refs c).items = renameAll refs c m.items := by
  unfold Method.items Method.rename
  simp only [renameAll_append, paramItems_rename]

mutual
theorem rename_none (refs : List Nat) (c : PStr) : ∀ (t : Scoped) (env : List ScopeFrame), (∀ p ∈ places env t, p.id ∉ refs) → renameAt refs c t = t
  | .name id s u, env, h => by
    rw [renameAt, if_neg (fun h' => h ⟨id, s, u, env⟩ (by simp [places]) h'.2)]
  | .binder _, _, _ => rfl
  | .declare _ _, _, _ => rfl
  | .scope sid k items, env, h => by
    rw [renameAt, renameAll_none refs c items _ (by simpa only [places] using h)]
theorem renameAll_none (refs : List Nat) (c : PStr) : ∀ (ts : List Scoped) (env : List ScopeFrame), (∀ p ∈ placesAll env ts, p.id ∉ refs) → renameAll refs c ts = ts
  | [], _, _ => rfl
  | t :: ts, env, h => by
    simp only [placesAll, List.mem_append] at h
    rw [renameAll, rename_none refs c t env (fun p hp => h p (.inl hp)), renameAll_none refs c ts env (fun p hp => h p (.inr hp))]
end

/-- The scope of a function. -/
def Method.frame (m : Method) : ScopeFrame := frameOf m.sid .func m.items

/-- The names inside a function, with the scopes around it. -/
def Method.places (env : List ScopeFrame) (m : Method) : List Place := placesAll (m.frame :: env) m.items

/-- C111: which functions are reported: the class methods whose first plain parameter is not called `cls`, or that have none. -/
theorem C111_reports (isClassmethod : Expr → Bool) (hasScope : Bool) (env : List ScopeFrame) (fresh : Nat) (m : Method) :
    (useCls isClassmethod hasScope env fresh m ≠ .silent ↔ (∃ d ∈ m.decorators, isClassmethod d = true) ∧ ∀ p0 rest, m.params = p0 :: rest → p0.2 ≠ py "cls") ∧
    (useCls isClassmethod hasScope env fresh m = .warn ↔ (∃ d ∈ m.decorators, isClassmethod d = true) ∧ ∃ p0 rest, m.params = p0 :: rest ∧ p0.2 ≠ py "cls" ∧
      (hasScope = false ∨ (resolve (m.frame :: env) (py "cls")).isSome = true)) := by
  have hany : m.decorators.any isClassmethod = true ↔ ∃ d ∈ m.decorators, isClassmethod d = true := List.any_eq_true
  rw [← hany]
  unfold useCls
  by_cases hd : m.decorators.any isClassmethod = true
  case neg =>
    rw [if_neg hd]
    exact ⟨⟨fun h => absurd rfl h, fun h => absurd h.1 hd⟩, fun h => by (cases h), fun h => absurd h.1 hd⟩
  rw [if_pos hd]
  cases hp : m.params with
  | nil => exact ⟨⟨fun _ => ⟨hd, fun _ _ h => by (cases h)⟩, fun _ h => by (cases h)⟩, fun h => (by (cases h)), fun ⟨_, _, _, h, _⟩ => by (cases h)⟩
  | cons p0 rest =>
    simp only
    by_cases hc : p0.2 = clsName
    · rw [if_pos hc]
      refine ⟨⟨fun h => absurd rfl h, fun h => absurd hc (h.2 p0 rest rfl)⟩, fun h => (by (cases h)), ?_⟩
      rintro ⟨_, q, r, h, hq, _⟩
      cases h
      exact absurd hc hq
    · rw [if_neg hc]
      have hne : ∀ q r, p0 :: rest = q :: r → q.2 ≠ py "cls" := by
        intro q r h
        cases h
        exact hc
      by_cases hs : hasScope = true
      · have h1 : (!hasScope) = false := by rw [hs]; rfl
        rw [if_neg (by rw [h1]; decide)]
        by_cases hr : (resolve (frameOf m.sid .func m.items :: env) clsName).isSome = true
        · rw [if_pos hr]
          exact ⟨⟨fun _ => ⟨hd, hne⟩, fun _ h => by (cases h)⟩, fun _ => ⟨hd, p0, rest, rfl, hc, .inr hr⟩, fun _ => rfl⟩
        · rw [if_neg hr]
          refine ⟨⟨fun _ => ⟨hd, hne⟩, fun _ h => by (cases h)⟩, fun h => (by (cases h)), ?_⟩
          rintro ⟨_, q, r, h, _, h' | h'⟩
          · rw [hs] at h'; cases h'
          · exact absurd h' hr
      · have h1 : (!hasScope) = true := by simpa using hs
        rw [if_pos h1]
        exact ⟨⟨fun _ => ⟨hd, hne⟩, fun _ h => by (cases h)⟩, fun _ => ⟨hd, p0, rest, rfl, hc, .inl (by simpa using hs)⟩, fun _ => rfl⟩

/-- C111: the replacement renames the first parameter to `cls` and changes no variable's meaning: all names are where they were, each means the variable of the same scope as before, and
those that mean the parameter are called `cls`, all others are called what they were. This needs: no `global` or `nonlocal` for either name inside the function; the parameter's name is not
also bound by an `import`, `def` or `class` in the function, and not used in a quoted annotation; no use of an unknown `cls`; and no use of the parameter where `cls` means something. -/
theorem C111_sound (isClassmethod : Expr → Bool) (hasScope : Bool) (env : List ScopeFrame) (fresh : Nat) (m m' : Method) (i0 : Nat) (a : PStr) (rest : List (Nat × PStr))
    (hparams : m.params = (i0, a) :: rest) (hfix : useCls isClassmethod hasScope env fresh m = .fix m')
    (hids : ((placesAll env m.header ++ m.places env).map Place.id).Nodup) (hsid : m.sid ∉ sidsAll m.items) (henv : ∀ f ∈ env, f.sid ≠ m.sid)
    (hdecl : a ∉ declaredAll m.items ∧ py "cls" ∉ declaredAll m.items) (hbinder : Scoped.binder a ∉ m.items)
    (hquoted : ∀ p ∈ m.places env, p.u = .quoted → p.s = a → p.target ≠ some m.sid)
    (hfree : ∀ p ∈ m.places env, p.s = py "cls" → p.target ≠ none)
    (hcaptured : ∀ p ∈ m.places env, p.s = a → p.target = some m.sid → resolve p.env (py "cls") = none) :
    m'.decorators = m.decorators ∧ m'.header = m.header ∧ m'.sid = m.sid ∧ m'.params.head? = some (i0, py "cls") ∧
    (m'.places env).map (fun p => (p.id, p.s, p.u, p.target)) =
      (m.places env).map (fun p => (p.id, if p.s = a ∧ p.target = some m.sid then py "cls" else p.s, p.u, p.target)) := by
  unfold useCls at hfix
  by_cases hd : m.decorators.any isClassmethod = true
  case neg => rw [if_neg hd] at hfix; cases hfix
  rw [if_pos hd, hparams] at hfix
  simp only at hfix
  by_cases hc : a = clsName
  · rw [if_pos hc] at hfix; cases hfix
  rw [if_neg hc] at hfix
  by_cases hs : (!hasScope) = true
  · rw [if_pos hs] at hfix; cases hfix
  rw [if_neg hs] at hfix
  by_cases hr : (resolve (frameOf m.sid .func m.items :: env) clsName).isSome = true
  · rw [if_pos hr] at hfix; cases hfix
  rw [if_neg hr] at hfix
  have hm' : m' = m.rename (m.refs env a) clsName := by cases hfix; rfl
  subst hm'
  have hr : resolve (m.frame :: env) (py "cls") = none := by
    rw [Bool.not_eq_true, Option.isSome_eq_false_iff, Option.isNone_iff_eq_none] at hr
    exact hr
  generalize hrefs : m.refs env a = refs
  have hfirst : Scoped.name i0 a .store ∈ m.items := by
    unfold Method.items
    rw [hparams]
    exact List.mem_append_right _ (List.mem_append_left _ (by simp [paramItems]))
  have haB : a ∈ m.frame.bound := (frame_bound hdecl.1).mpr ⟨_, hfirst, by simp [Scoped.binds]⟩
  have haG : a ∉ m.frame.globals := fun h => hdecl.1 (frame_globals h)
  have hcG : py "cls" ∉ m.frame.globals := fun h => hdecl.2 (frame_globals h)
  rw [resolve, if_neg hcG] at hr
  have hcB : py "cls" ∉ m.frame.bound := by
    intro h
    rw [if_pos h] at hr
    cases hr
  rw [if_neg hcB] at hr
  have hnd : ((m.places env).map Place.id).Nodup := by
    rw [List.map_append] at hids
    exact (List.nodup_append.mp hids).2.1
  have href : ∀ p ∈ m.places env, (p.id ∈ refs ↔ p.s = a ∧ p.target = some m.sid) := by
    intro p hp
    rw [← hrefs]
    unfold Method.refs
    rw [List.mem_map]
    constructor
    · rintro ⟨q, hq, he⟩
      rw [List.mem_filter] at hq
      have : q = p := unique_of_nodup Place.id hnd hq.1 hp he
      subst this
      simpa using hq.2
    · intro h
      exact ⟨p, List.mem_filter.mpr ⟨hp, by simpa using h⟩, rfl⟩
  have hok : ∀ p ∈ m.places env, PlaceOk refs a (py "cls") m.frame.sid p := fun p hp => ⟨href p hp, hquoted p hp, hfree p hp, hcaptured p hp⟩
  have hbinds : ∀ t ∈ m.items, (renameAt refs clsName t).binds = t.binds.map (swapName a clsName) := by
    intro t ht
    cases t with
    | name id s u =>
      have hp : (⟨id, s, u, m.frame :: env⟩ : Place) ∈ m.places env := mem_placesAll ht _ (by simp [Spec.places])
      have := href _ hp
      simp only [Place.target] at this
      rw [renameAt]
      cases u with
      | store =>
        by_cases hs : s = a
        · subst hs
          have htg : resolve (m.frame :: env) s = some m.sid := by rw [resolve, if_neg haG, if_pos haB]; rfl
          rw [if_pos ⟨by decide, this.mpr ⟨rfl, htg⟩⟩]
          simp [Scoped.binds, swapName]
        · rw [if_neg (fun h => hs (this.mp h.2).1)]
          simp [Scoped.binds, swapName, hs]
      | _ => split <;> rfl
    | binder s =>
      have : s ≠ a := fun h => hbinder (h ▸ ht)
      simp [renameAt, Scoped.binds, swapName, this]
    | _ => rfl
  have hR : Renamed a (py "cls") m.frame (m.rename refs clsName).frame env := by
    refine ⟨rfl, ⟨rfl, rfl⟩, ?_, ?_, haB, hcB, ⟨haG, hcG⟩, hr, henv⟩
    · unfold Method.frame
      rw [items_rename]
      exact flatMap_rename refs clsName _ (fun t => (declares_rename refs clsName t).2) _
    · intro s
      have hdeq : (renameAll refs clsName m.items).flatMap Scoped.declares = m.items.flatMap Scoped.declares := flatMap_rename refs clsName _ (fun t => (declares_rename refs clsName t).1) _
      have hda : ∀ x, x ∉ declaredAll m.items → x ∉ m.items.flatMap Scoped.declares := by
        intro x hx h
        obtain ⟨t, ht, hs⟩ := List.mem_flatMap.mp h
        exact hx (mem_declaredAll ht x (declares_declared t x hs))
      have hF : s ∈ (m.rename refs clsName).frame.bound ↔ (∃ t ∈ m.items, s ∈ (renameAt refs clsName t).binds) ∧ s ∉ m.items.flatMap Scoped.declares := by
        unfold Method.frame frameOf
        rw [items_rename, hdeq]
        simp only [List.mem_filter, renameAll_map, List.flatMap_map, List.mem_flatMap, Bool.not_eq_true', List.contains_eq_mem, decide_eq_false_iff_not]
      have hF0 : ∀ x, x ∈ m.frame.bound ↔ (∃ t ∈ m.items, x ∈ t.binds) ∧ x ∉ m.items.flatMap Scoped.declares := by
        intro x
        unfold Method.frame frameOf
        simp only [List.mem_filter, List.mem_flatMap, Bool.not_eq_true', List.contains_eq_mem, decide_eq_false_iff_not]
      rw [hF]
      constructor
      · rintro ⟨⟨t, ht, hs⟩, hn⟩
        rw [hbinds t ht, List.mem_map] at hs
        obtain ⟨x, hx, rfl⟩ := hs
        refine ⟨x, (hF0 x).mpr ⟨⟨t, ht, hx⟩, ?_⟩, rfl⟩
        by_cases hxa : x = a
        · rw [hxa]; exact hda a hdecl.1
        · unfold swapName at hn
          rw [if_neg hxa] at hn
          exact hn
      · rintro ⟨x, hx, rfl⟩
        obtain ⟨⟨t, ht, hxt⟩, hn⟩ := (hF0 x).mp hx
        refine ⟨⟨t, ht, by rw [hbinds t ht]; exact List.mem_map.mpr ⟨x, hxt, rfl⟩⟩, ?_⟩
        unfold swapName
        split
        · exact hda _ hdecl.2
        · exact hn
  have hheader : renameAll refs clsName m.header = m.header := by
    refine renameAll_none refs clsName m.header env ?_
    intro p hp hmem
    rw [← hrefs] at hmem
    obtain ⟨q, hq, he⟩ := List.mem_map.mp hmem
    have hq := (List.mem_filter.mp hq).1
    rw [List.map_append] at hids
    exact (List.nodup_append.mp hids).2.2 p.id (List.mem_map.mpr ⟨p, hp, rfl⟩) q.id (List.mem_map.mpr ⟨q, hq, rfl⟩) he.symm
  refine ⟨rfl, hheader, rfl, ?_, ?_⟩
  · have hp : (⟨i0, a, .store, m.frame :: env⟩ : Place) ∈ m.places env := mem_placesAll hfirst _ (by simp [Spec.places])
    have htg : resolve (m.frame :: env) a = some m.sid := by rw [resolve, if_neg haG, if_pos haB]; rfl
    have : i0 ∈ refs := (href _ hp).mpr ⟨rfl, htg⟩
    show (renameParams refs clsName m.params).head? = _
    rw [hparams]
    unfold renameParams
    rw [List.map_cons, List.head?_cons, if_pos this]
    rfl
  · have := placesAll_rename hR refs m.items [] (by simp) hdecl.1 hdecl.2 hsid hok
    unfold Method.places
    rw [items_rename]
    exact this

/-- C111: a class method without plain parameters gets the parameter `cls`, and nothing else changes. -/
theorem C111_added (isClassmethod : Expr → Bool) (hasScope : Bool) (env : List ScopeFrame) (fresh : Nat) (m m' : Method) (hparams : m.params = [])
    (hfix : useCls isClassmethod hasScope env fresh m = .fix m') :
    m'.params = [(fresh, py "cls")] ∧ m'.decorators = m.decorators ∧ m'.header = m.header ∧ m'.sid = m.sid ∧ m'.posonly = m.posonly ∧ m'.others = m.others ∧ m'.body = m.body := by
  unfold useCls at hfix
  split at hfix
  · rw [hparams] at hfix
    cases hfix
    exact ⟨rfl, rfl, rfl, rfl, rfl, rfl, rfl⟩
  · cases hfix

/-- C111: the rule does not report its own replacements. -/
theorem C111_idempotent (isClassmethod : Expr → Bool) (hasScope hasScope' : Bool) (env env' : List ScopeFrame) (fresh fresh' : Nat) (m m' : Method)
    (hdecl : ∀ p0 rest, m.params = p0 :: rest → p0.2 ∉ declaredAll m.items)
    (hfix : useCls isClassmethod hasScope env fresh m = .fix m') : useCls isClassmethod hasScope' env' fresh' m' = .silent := by
  unfold useCls at hfix
  by_cases hd : m.decorators.any isClassmethod = true
  case neg => rw [if_neg hd] at hfix; cases hfix
  rw [if_pos hd] at hfix
  have key : ∀ m'' : Method, m''.decorators = m.decorators → (∃ i r, m''.params = (i, clsName) :: r) → useCls isClassmethod hasScope' env' fresh' m'' = .silent := by
    intro m'' h1 ⟨i, r, h2⟩
    unfold useCls
    rw [h1, if_pos hd, h2]
    simp only
    rw [if_pos trivial]
  cases hp : m.params with
  | nil =>
    rw [hp] at hfix
    cases hfix
    exact key _ rfl ⟨fresh, [], rfl⟩
  | cons p0 rest =>
    rw [hp] at hfix
    simp only at hfix
    split at hfix
    · cases hfix
    split at hfix
    · cases hfix
    split at hfix
    · cases hfix
    cases hfix
    refine key _ rfl ⟨p0.1, renameParams (m.refs env p0.2) clsName rest, ?_⟩
    have hfirst : Scoped.name p0.1 p0.2 .store ∈ m.items := by
      unfold Method.items
      rw [hp]
      exact List.mem_append_right _ (List.mem_append_left _ (by simp [paramItems]))
    have hd0 := hdecl p0 rest hp
    have haB : p0.2 ∈ m.frame.bound := (frame_bound hd0).mpr ⟨_, hfirst, by simp [Scoped.binds]⟩
    have haG : p0.2 ∉ m.frame.globals := fun h => hd0 (frame_globals h)
    have hmem : p0.1 ∈ m.refs env p0.2 := by
      unfold Method.refs
      refine List.mem_map.mpr ⟨⟨p0.1, p0.2, .store, m.frame :: env⟩, List.mem_filter.mpr ⟨mem_placesAll hfirst _ (by simp [Spec.places, Method.frame]), ?_⟩, rfl⟩
      simp only [beq_self_eq_true, Bool.true_and, Place.target, resolve, if_neg haG, if_pos haB]
      simp [Method.frame, frameOf]
    show renameParams _ _ m.params = _
    rw [hp]
    unfold renameParams
    rw [List.map_cons, if_pos hmem]

/-! ## Cases -/

/-- The scopes around: a class `foo` with `a = 2`, a module with `a = 1` and `foo`, and what is built in. -/
def clsEnv : List ScopeFrame := [⟨1, .cls, [py "a"], []⟩, ⟨2, .module, [py "a", py "foo"], []⟩, ⟨3, .module, [py "print"], []⟩]

/-- `@classmethod` -/
def clsDecorators : List Expr := [.name (py "classmethod")]

def isCm (e : Expr) : Bool := e.isName (py "classmethod")

/-- `def cm(a, b): b = a; b = lambda _: a; [a for a in b]; foo.cm(a)` in that class. -/
def clsMethod : Method where
  decorators := clsDecorators
  header := [.name 10 (py "classmethod") .load]
  sid := 4
  posonly := []
  params := [(11, py "a"), (12, py "b")]
  others := []
  body := [.name 13 (py "b") .store, .name 14 (py "a") .load,
    .scope 5 .func [.name 15 (py "_") .store, .name 16 (py "a") .load],
    .scope 6 .comp [.name 17 (py "a") .load, .name 18 (py "a") .store], .name 19 (py "b") .load,
    .name 20 (py "foo") .load, .name 21 (py "a") .load]

theorem cls_case : ∃ m', useCls isCm true clsEnv 99 clsMethod = .fix m' ∧
    (m'.places clsEnv).map (fun p => (p.id, p.s, p.target)) =
      [(11, py "cls", some 4), (12, py "b", some 4), (13, py "b", some 4), (14, py "cls", some 4), (15, py "_", some 5), (16, py "cls", some 4), (17, py "a", some 6), (18, py "a", some 6),
       (19, py "b", some 4), (20, py "foo", some 2), (21, py "cls", some 4)] := ⟨_, rfl, by decide +kernel⟩

example : ∀ m', useCls isCm true clsEnv 99 clsMethod = .fix m' → m'.header = clsMethod.header := by
  intro m' h
  refine (C111_sound isCm true clsEnv 99 clsMethod m' 11 (py "a") [(12, py "b")] rfl h (by decide +kernel) (by decide +kernel) (by decide) (by decide +kernel)
    (by simp [clsMethod, Method.items, paramItems]) ?_ ?_ ?_).2.1
  · have : ((clsMethod.places clsEnv).all (fun p => decide (p.u ≠ .quoted))) = true := by decide +kernel
    intro p hp hq
    have := List.all_eq_true.mp this p hp
    simp [hq] at this
  · have : ((clsMethod.places clsEnv).all (fun p => decide (p.s ≠ py "cls"))) = true := by decide +kernel
    intro p hp hq
    have := List.all_eq_true.mp this p hp
    simp [hq] at this
  · have : ((clsMethod.places clsEnv).all (fun p => decide (resolve p.env (py "cls") = none))) = true := by decide +kernel
    intro p hp _ _
    exact of_decide_eq_true (List.all_eq_true.mp this p hp)

/-! ## Findings -/

/-- A class method `def f(a): …` in that class. -/
def clsWith (body : List Scoped) : Method := { clsMethod with params := [(11, py "a")], body := body }

/-- A finding: `def f(a): def g(cls): return a` — the renamed use means the parameter of `g`. -/
theorem C111_captured : ∃ m', useCls isCm true clsEnv 99 (clsWith [.scope 5 .func [.name 12 (py "cls") .store, .name 13 (py "a") .load]]) = .fix m' ∧
    ((clsWith [.scope 5 .func [.name 12 (py "cls") .store, .name 13 (py "a") .load]]).places clsEnv).map Place.target = [some 4, some 5, some 4] ∧
    (m'.places clsEnv).map Place.target = [some 4, some 5, some 5] := ⟨_, rfl, by decide +kernel, by decide +kernel⟩

/-- A finding: `def f(a): return cls` with an unknown `cls`, say one that comes from `from module import *`: it is taken over by the parameter. -/
theorem C111_unknown : ∃ m', useCls isCm true clsEnv 99 (clsWith [.name 12 (py "cls") .load]) = .fix m' ∧
    ((clsWith [.name 12 (py "cls") .load]).places clsEnv).map Place.target = [some 4, none] ∧ (m'.places clsEnv).map Place.target = [some 4, some 4] :=
  ⟨_, rfl, by decide +kernel, by decide +kernel⟩

/-- A finding: `def f(a): import a; return a` — the import is not renamed but the use is, so that it no longer means the module. -/
theorem C111_import : ∃ m', useCls isCm true clsEnv 99 (clsWith [.binder (py "a"), .name 12 (py "a") .load]) = .fix m' ∧ m'.body = [.binder (py "a"), .name 12 (py "cls") .load] :=
  ⟨_, rfl, rfl⟩

/-- A finding: `def f(a): def g(): nonlocal a; a = 1` — the declaration is not renamed. `a` is then an error, and `cls` a variable of `g`. -/
theorem C111_nonlocal : ∃ m', useCls isCm true clsEnv 99 (clsWith [.scope 5 .func [.declare false (py "a"), .name 12 (py "a") .store]]) = .fix m' ∧
    ((clsWith [.scope 5 .func [.declare false (py "a"), .name 12 (py "a") .store]]).places clsEnv).map Place.target = [some 4, some 4] ∧
    (m'.places clsEnv).map Place.target = [some 4, some 5] := ⟨_, rfl, by decide +kernel, by decide +kernel⟩

/-- A finding: in a quoted annotation the name stays, and means the variable of the module. -/
theorem C111_quoted : ∃ m', useCls isCm true clsEnv 99 (clsWith [.name 12 (py "a") .quoted]) = .fix m' ∧
    ((clsWith [.name 12 (py "a") .quoted]).places clsEnv).map Place.target = [some 4, some 4] ∧ (m'.places clsEnv).map Place.target = [some 4, some 2] :=
  ⟨_, rfl, by decide +kernel, by decide +kernel⟩

/-- A finding: positional-only parameters are not looked at. `def f(a, /)` becomes `def f(a, /, cls)`, and `def f(cls, /)` is reported and becomes `def f(cls, /, cls)`. -/
theorem C111_posonly : ∃ m', useCls isCm true clsEnv 99 { clsMethod with posonly := [(11, py "cls")], params := [], body := [] } = .fix m' ∧
    m'.items = [.name 11 (py "cls") .store, .name 99 (py "cls") .store] := ⟨_, rfl, rfl⟩

/-- A finding: `def f(*args)` becomes `def f(cls, *args)`, and `args` no longer has the class in it. -/
theorem C111_star : ∃ m', useCls isCm true clsEnv 99 { clsMethod with params := [], others := [(12, py "args")], body := [.name 13 (py "args") .load] } = .fix m' ∧
    m'.items = [.name 99 (py "cls") .store, .name 12 (py "args") .store, .name 13 (py "args") .load] := ⟨_, rfl, rfl⟩

/-- A finding: a `cls` of the module is enough for no fix to be offered, though it is not used in the function. -/
theorem C111_module : useCls isCm true [⟨2, .module, [py "cls"], []⟩] 99 (clsWith []) = .warn := rfl

end Cst
