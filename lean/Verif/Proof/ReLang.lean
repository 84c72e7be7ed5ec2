import Verif.Py.Re

/-!
# The language of a regular expression

What the backtracking matcher accepts, without the order in which it tries.
-/

namespace Py

/-- The texts that a regular expression without anchors stands for. -/
def Re.Lang : Re → PStr → Prop
  | .eps, u => u = []
  | .chr p, u => ∃ c, u = [c] ∧ p c = true
  | .seq a b, u => ∃ x y, u = x ++ y ∧ a.Lang x ∧ b.Lang y
  | .alt a b, u => a.Lang u ∨ b.Lang u
  | .star a, u => ∃ us : List PStr, u = us.flatten ∧ ∀ x ∈ us, a.Lang x
  | .grp _ a, u => a.Lang u
  | .bos, _ => False
  | .eos, _ => False

/-- No anchors. -/
def Re.plain : Re → Bool
  | .eps => true
  | .chr _ => true
  | .seq a b => a.plain && b.plain
  | .alt a b => a.plain && b.plain
  | .star a => a.plain
  | .grp _ a => a.plain
  | .bos => false
  | .eos => false

theorem starGo_sound (a : Re) (ih : ∀ (s t : St), t ∈ a.run s → ∃ u, s.rest = u ++ t.rest ∧ a.Lang u) : ∀ (n : Nat) (s t : St), t ∈ starGo a.run n s → ∃ us : List PStr, s.rest = us.flatten ++ t.rest ∧ ∀ x ∈ us, a.Lang x
  | 0, s, t, h => by
    rw [starGo, List.mem_singleton] at h
    subst h
    exact ⟨[], by simp, by simp⟩
  | n + 1, s, t, h => by
    rw [starGo, List.mem_append] at h
    rcases h with h | h
    · obtain ⟨m, hm, ht⟩ := List.mem_flatMap.mp h
      obtain ⟨u, hu, hl⟩ := ih s m (List.mem_filter.mp hm).1
      obtain ⟨us, hus, hl'⟩ := starGo_sound a ih n m t ht
      refine ⟨u :: us, by rw [hu, hus]; simp, ?_⟩
      intro x hx
      rcases List.mem_cons.mp hx with rfl | hx
      · exact hl
      · exact hl' x hx
    · rw [List.mem_singleton] at h
      subst h
      exact ⟨[], by simp, by simp⟩

theorem lang_sound : ∀ (r : Re), r.plain = true → ∀ (s t : St), t ∈ r.run s → ∃ u, s.rest = u ++ t.rest ∧ r.Lang u
  | .eps, _, s, t, h => by
    rw [Re.run, List.mem_singleton] at h
    subst h
    exact ⟨[], rfl, rfl⟩
  | .chr p, _, s, t, h => by
    rw [Re.run] at h
    split at h
    · cases h
    · rename_i c cs hr
      split at h
      · rename_i hp
        rw [List.mem_singleton] at h
        subst h
        exact ⟨[c], hr, c, rfl, hp⟩
      · cases h
  | .seq a b, hp, s, t, h => by
    simp only [Re.plain, Bool.and_eq_true] at hp
    rw [Re.run] at h
    obtain ⟨m, hm, ht⟩ := List.mem_flatMap.mp h
    obtain ⟨u, hu, hl⟩ := lang_sound a hp.1 s m hm
    obtain ⟨v, hv, hl'⟩ := lang_sound b hp.2 m t ht
    exact ⟨u ++ v, by rw [hu, hv, List.append_assoc], u, v, rfl, hl, hl'⟩
  | .alt a b, hp, s, t, h => by
    simp only [Re.plain, Bool.and_eq_true] at hp
    rw [Re.run, List.mem_append] at h
    rcases h with h | h
    · obtain ⟨u, hu, hl⟩ := lang_sound a hp.1 s t h
      exact ⟨u, hu, .inl hl⟩
    · obtain ⟨u, hu, hl⟩ := lang_sound b hp.2 s t h
      exact ⟨u, hu, .inr hl⟩
  | .star a, hp, s, t, h => by
    obtain ⟨us, h1, h2⟩ := starGo_sound a (lang_sound a hp) _ s t h
    exact ⟨us.flatten, h1, us, rfl, h2⟩
  | .grp n a, hp, s, t, h => by
    rw [Re.run] at h
    obtain ⟨m, hm, rfl⟩ := List.mem_map.mp h
    obtain ⟨u, hu, hl⟩ := lang_sound a hp s m hm
    exact ⟨u, hu, hl⟩

theorem starGo_self (f : St → List St) (n : Nat) (s : St) : s ∈ starGo f n s := by
  cases n <;> simp [starGo]

theorem starGo_complete (a : Re) (ih : ∀ (s : St) (u v : PStr), s.rest = u ++ v → a.Lang u → ∃ t ∈ a.run s, t.rest = v) : ∀ (us : List PStr) (n : Nat) (s : St) (v : PStr),
    s.rest.length ≤ n → s.rest = us.flatten ++ v → (∀ x ∈ us, a.Lang x) → ∃ t ∈ starGo a.run n s, t.rest = v
  | [], n, s, v, _, h, _ => ⟨s, starGo_self _ _ _, by simpa using h⟩
  | u :: us, n, s, v, hn, h, hl => by
    by_cases hu : u = []
    · subst hu
      exact starGo_complete a ih us n s v hn (by simpa using h) (fun x hx => hl x (by simp [hx]))
    · obtain ⟨m, hm, hr⟩ := ih s u (us.flatten ++ v) (by simpa using h) (hl u (by simp))
      have hlen : m.rest.length < s.rest.length := by
        rw [hr, h]
        have : 0 < u.length := List.length_pos_iff.mpr hu
        simp
        omega
      cases n with
      | zero => omega
      | succ n =>
        obtain ⟨t, ht, hv⟩ := starGo_complete a ih us n m v (by omega) hr (fun x hx => hl x (by simp [hx]))
        refine ⟨t, ?_, hv⟩
        rw [starGo, List.mem_append]
        exact .inl (List.mem_flatMap.mpr ⟨m, List.mem_filter.mpr ⟨hm, by simpa using hlen⟩, ht⟩)

theorem run_complete : ∀ (r : Re), r.plain = true → ∀ (s : St) (u v : PStr), s.rest = u ++ v → r.Lang u → ∃ t ∈ r.run s, t.rest = v
  | .eps, _, s, u, v, h, hl => by
    have hl : u = [] := hl
    subst hl
    exact ⟨s, by simp [Re.run], by simpa using h⟩
  | .chr p, _, s, u, v, h, hl => by
    obtain ⟨c, rfl, hp⟩ := hl
    refine ⟨{ s with pos := s.pos + 1, rest := v }, ?_, rfl⟩
    rw [Re.run]
    split
    · rename_i hr; rw [hr] at h; cases h
    · rename_i d ds hr
      rw [hr] at h
      cases h
      simp [hp]
  | .seq a b, hp, s, u, v, h, hl => by
    simp only [Re.plain, Bool.and_eq_true] at hp
    obtain ⟨x, y, rfl, hx, hy⟩ := hl
    obtain ⟨m, hm, hr⟩ := run_complete a hp.1 s x (y ++ v) (by rw [h, List.append_assoc]) hx
    obtain ⟨t, ht, hv⟩ := run_complete b hp.2 m y v hr hy
    exact ⟨t, by rw [Re.run]; exact List.mem_flatMap.mpr ⟨m, hm, ht⟩, hv⟩
  | .alt a b, hp, s, u, v, h, hl => by
    simp only [Re.plain, Bool.and_eq_true] at hp
    rcases hl with hl | hl
    · obtain ⟨t, ht, hv⟩ := run_complete a hp.1 s u v h hl
      exact ⟨t, by rw [Re.run]; exact List.mem_append_left _ ht, hv⟩
    · obtain ⟨t, ht, hv⟩ := run_complete b hp.2 s u v h hl
      exact ⟨t, by rw [Re.run]; exact List.mem_append_right _ ht, hv⟩
  | .star a, hp, s, u, v, h, hl => by
    obtain ⟨us, rfl, hl⟩ := hl
    exact starGo_complete a (run_complete a hp) us _ s v (Nat.le_refl _) h hl
  | .grp n a, hp, s, u, v, h, hl => by
    obtain ⟨t, ht, hv⟩ := run_complete a hp s u v h hl
    exact ⟨{ t with caps := setCap t.caps n (s.rest.take (s.rest.length - t.rest.length)) }, by rw [Re.run]; exact List.mem_map.mpr ⟨t, ht, rfl⟩, hv⟩

/-- `fullmatch` accepts exactly the language. -/
theorem fullmatch_iff (r : Re) (hp : r.plain = true) (s : PStr) : (r.run ⟨0, s, fun _ => none⟩).any (fun t => t.rest.isEmpty) = true ↔ r.Lang s := by
  rw [List.any_eq_true]
  constructor
  · rintro ⟨t, ht, he⟩
    obtain ⟨u, hu, hl⟩ := lang_sound r hp _ t ht
    have : t.rest = [] := by simpa using he
    rw [this, List.append_nil] at hu
    have hu : s = u := hu
    rw [hu]; exact hl
  · intro h
    obtain ⟨t, ht, hv⟩ := run_complete r hp ⟨0, s, fun _ => none⟩ s [] (by simp) h
    exact ⟨t, ht, by rw [hv]; rfl⟩

end Py
