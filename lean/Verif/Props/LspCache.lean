import Verif.Props.LspLatest

/-!
# C64, C68: the configuration cache, and documents independent of each other
-/

namespace Fixit
open Py Py.Gen Spec

variable {C : Type} (env : Env C) (client : Client)

/-- How to show that something survives an event. -/
theorem next_invariant (P : Server C → Prop) (s : Server C) (e : LspEvent)
    (hcongr : ∀ t t' : Server C, P t → t'.cache = t.cache → t'.calls = t.calls → t'.sent = t.sent → t'.requests = t.requests → P t')
    (hstep : ∀ (t : Server C) u i, t.files = s.files → t.docs = s.docs → P t → P (t.stepCall env client u i))
    (hpush : ∀ (t : Server C) u (l : List (Validation C)), P t →
      (∀ (i : Nat) v, l[i]? = some v → v.phase = .waiting ∨ v.phase = .cancelled ∨ v.phase = .running ∨ (t.calls u)[i]? = some v) →
      P { t with calls := setCalls t.calls u l })
    (hcache : ∀ (t : Server C) path cfg, t.files = s.files → P t → t.cache path = none → env.config s.files path = .ok cfg →
      P { t with cache := fun p => if p = path then some cfg else t.cache p })
    (hrequest : ∀ u, P (s.request u)) (hgo : ∀ u i, P (s.stepRequest env client u i))
    (h : P s) : P (s.next env client e) := by
  cases e with
  | files f => exact hcongr s _ h rfl rfl rfl rfl
  | edit u t => exact hcongr s _ h rfl rfl rfl rfl
  | close u => exact hcongr s _ h rfl rfl rfl rfl
  | notify u v =>
    show P (s.validate env client u v)
    unfold Server.validate
    split
    · refine hpush s u _ h (fun i w hw => ?_)
      rw [debounceCall_get] at hw
      split at hw
      · cases hw; exact Or.inl rfl
      · split at hw
        · cases ho : (s.calls u)[i]? with
          | none => rw [ho] at hw; cases hw
          | some w₀ =>
            rw [ho] at hw
            cases hw
            unfold Validation.cancel
            cases hp : w₀.phase <;> simp [hp]
        · exact Or.inr (Or.inr (Or.inr hw))
    · have h0 : P { s with calls := setCalls s.calls u (s.calls u ++ [Validation.mk v .running]) } := by
        refine hpush s u _ h (fun i w hw => ?_)
        by_cases hi : i < (s.calls u).length
        · rw [List.getElem?_append_left hi] at hw; exact Or.inr (Or.inr (Or.inr hw))
        · rw [List.getElem?_append_right (by omega), List.getElem?_singleton] at hw
          split at hw
          · cases hw; exact Or.inr (Or.inr (Or.inl rfl))
          · cases hw
      have go : ∀ (t : Server C) (j : Nat), P t ∧ t.files = s.files ∧ t.docs = s.docs →
          P (t.stepCall env client u j) ∧ (t.stepCall env client u j).files = s.files ∧ (t.stepCall env client u j).docs = s.docs := by
        rintro t j ⟨h1, h2, h3⟩
        obtain ⟨f1, f2, -⟩ := stepCall_source env client t u j
        exact ⟨hstep t u j h2 h3 h1, by rw [f1, h2], by rw [f2, h3]⟩
      exact (go _ _ (go _ _ (go _ _ (go _ _ ⟨h0, rfl, rfl⟩)))).1
  | step u i => exact hstep s u i rfl rfl h
  | format u =>
    show P (s.format env client u)
    obtain ⟨h1, h2, -, -, h3⟩ := format_same env client s u
    rcases h3 with h3 | ⟨path, cfg, -, hn, hc, h3⟩
    · exact hcongr s _ h h3 h1 h2 (format_requests env client s u)
    · exact hcongr _ _ (hcache s path cfg rfl h hn hc) h3 h1 h2 (format_requests env client s u)
  | request u => exact hrequest u
  | go u i => exact hgo u i

/-! ## C68 -/

/-- What goes on has its configuration cached. -/
def PhaseCached (cache : Path → Option C) (u : Uri) : Phase C → Prop
  | .storing p _ _ => client.fsPath u = some p
  | .returning p _ => client.fsPath u = some p ∧ cache p ≠ none
  | .ready p _ _ => client.fsPath u = some p ∧ cache p ≠ none
  | _ => True

theorem PhaseCached.grow {c c' : Path → Option C} {u : Uri} {ph : Phase C} (h : PhaseCached client c u ph) (h3 : ∀ p, c p ≠ none → c' p ≠ none) :
    PhaseCached client c' u ph := by
  cases ph with
  | storing p b cf => exact h
  | returning p b => exact ⟨h.1, h3 _ h.2⟩
  | ready p b cf => exact ⟨h.1, h3 _ h.2⟩
  | _ => trivial

theorem PhaseCached.next {s : Server C} {u : Uri} {ph : Phase C} (hk : PhaseCached client s.cache u ph) :
    PhaseCached client (nextCache s ph) u (nextPhase env client s u ph) := by
  have hgrow := nextCache_grows s ph
  cases ph with
  | running =>
    simp only [nextPhase]
    cases hp : client.fsPath u with
    | none => trivial
    | some path =>
      simp only
      cases hs : s.source client u with
      | error e => trivial
      | ok content =>
        simp only
        cases hc : s.cache path with
        | some cfg => exact ⟨hp, hgrow path (by rw [hc]; simp)⟩
        | none =>
          simp only
          cases hcf : env.config s.files path with
          | error e => trivial
          | ok cfg => exact hp
  | storing p b c => exact ⟨hk, by simp [nextCache]⟩
  | returning p b =>
    simp only [nextPhase]
    cases hc : s.cache p with
    | none => trivial
    | some cfg => exact ⟨hk.1, hgrow p hk.2⟩
  | _ => trivial

/-- What was published has its configuration cached. -/
structure Cached (s : Server C) : Prop where
  calls : ∀ (u : Uri) (i : Nat) v, (s.calls u)[i]? = some v → PhaseCached client s.cache u v.phase
  sent : ∀ q ∈ s.sent, ∃ p, client.fsPath q.uri = some p ∧ s.cache p ≠ none
  requests : ∀ (u : Uri) (i : Nat) ph, (s.requests u)[i]? = some ph → PhaseCached client s.cache u ph

theorem Cached.grow {s t : Server C} (h : Cached client s) (h1 : t.calls = s.calls) (h2 : t.sent = s.sent) (h4 : t.requests = s.requests) (h3 : ∀ p, s.cache p ≠ none → t.cache p ≠ none) :
    Cached client t := by
  refine ⟨?_, ?_, ?_⟩
  · intro u i v hv
    rw [h1] at hv
    exact (h.calls u i v hv).grow client h3
  · intro q hq
    rw [h2] at hq
    obtain ⟨p, hp, hc⟩ := h.sent q hq
    exact ⟨p, hp, h3 p hc⟩
  · intro u i v hv
    rw [h4] at hv
    exact (h.requests u i v hv).grow client h3

theorem Cached.stepCall {s : Server C} (h : Cached client s) (u : Uri) (i : Nat) : Cached client (s.stepCall env client u i) := by
  cases hv : (s.calls u)[i]? with
  | none => rw [stepCall_none env client s u i hv]; exact h
  | some v =>
    have hcache : (s.stepCall env client u i).cache = nextCache s v.phase := by rw [stepCall_cache, hv]
    have hgrow : ∀ p, s.cache p ≠ none → (s.stepCall env client u i).cache p ≠ none := by
      intro p hp; rw [hcache]; exact nextCache_grows s _ p hp
    have hk := h.calls u i v hv
    refine ⟨?_, ?_, ?_⟩
    · intro u' j v' hv'
      rw [stepCall_calls] at hv'
      split at hv'
      · rename_i hij
        rw [hv] at hv'
        simp only [Option.map_some, Option.some.injEq] at hv'
        subst hv'
        rw [hij.1, hcache]
        exact hk.next env client
      · exact (h.calls u' j v' hv').grow client hgrow
    · intro q hq
      rw [stepCall_sent env client s u i v hv] at hq
      rcases List.mem_append.mp hq with hq | hq
      · obtain ⟨p, hp, hc⟩ := h.sent q hq
        exact ⟨p, hp, hgrow p hc⟩
      · unfold nextSent at hq
        cases hph : v.phase with
        | ready p b c =>
          rw [hph] at hq hk
          cases List.mem_singleton.mp hq
          exact ⟨p, hk.1, hgrow p hk.2⟩
        | _ => rw [hph] at hq; cases hq
    · intro u' j ph hp
      rw [stepCall_requests] at hp
      exact (h.requests u' j ph hp).grow client hgrow

theorem Cached.request {s : Server C} (h : Cached client s) (u : Uri) : Cached client (s.request u) := by
  refine ⟨h.calls, h.sent, ?_⟩
  intro u' j ph hp
  rcases request_requests s u u' j ph hp with hp | ⟨-, -, rfl⟩
  · exact h.requests u' j ph hp
  · trivial

theorem Cached.stepRequest {s : Server C} (h : Cached client s) (u : Uri) (i : Nat) : Cached client (s.stepRequest env client u i) := by
  cases hv : (s.requests u)[i]? with
  | none => rw [stepRequest_none env client s u i hv]; exact h
  | some ph =>
    have hcache : (s.stepRequest env client u i).cache = nextCache s ph := by rw [stepRequest_cache, hv]
    obtain ⟨h1, h2, -, -⟩ := stepRequest_same env client s u i
    refine ⟨?_, ?_, ?_⟩
    · rw [h1, hcache]; exact fun u' j v hj => (h.calls u' j v hj).grow client (nextCache_grows s ph)
    · rw [h2, hcache]
      intro q hq
      obtain ⟨p, hp, hc⟩ := h.sent q hq
      exact ⟨p, hp, nextCache_grows s ph p hc⟩
    · intro u' j ph' hj
      rw [stepRequest_requests] at hj
      rw [hcache]
      split at hj
      · rename_i hij
        obtain ⟨rfl, rfl⟩ := hij
        rw [hv] at hj
        cases hj
        exact (h.requests _ _ _ hv).next env client
      · exact (h.requests u' j ph' hj).grow client (nextCache_grows s ph)

theorem cached_next {s : Server C} (h : Cached client s) (e : LspEvent) : Cached client (s.next env client e) := by
  refine next_invariant env client (Cached client) s e ?_ ?_ ?_ ?_ (h.request client) (h.stepRequest env client) h
  · intro t t' ht h1 h2 h3 h4; exact ht.grow client h2 h3 h4 (fun p hp => by rw [h1]; exact hp)
  · intro t u i _ _ ht; exact ht.stepCall env client u i
  · intro t u l ht hl
    refine ⟨?_, ht.sent, ht.requests⟩
    intro u' i v hv
    simp only [setCalls] at hv
    split at hv
    · rename_i hu
      rcases hl i v hv with h1 | h1 | h1 | h1
      · rw [h1]; trivial
      · rw [h1]; trivial
      · rw [h1]; trivial
      · rw [hu]; exact ht.calls u i v h1
    · exact ht.calls u' i v hv
  · intro t path cfg _ ht _ _
    refine ht.grow client rfl rfl rfl (fun p hp => ?_)
    simp only
    split
    · simp
    · exact hp

theorem cached_run (files : Path → Option Bytes) (es : List LspEvent) : Cached client ((Server.start files).run env client es) := by
  induction es using history_induction with
  | nil =>
    refine ⟨?_, ?_, ?_⟩
    · intro u i v h; simp [Server.run, Server.start] at h
    · intro p h; simp [Server.run, Server.start] at h
    · intro u i v h; simp [Server.run, Server.start] at h
  | snoc es e ih => rw [run_snoc]; exact cached_next env client ih e

/-- A path whose configuration is settled. -/
structure Settled (F : (Path → Option Bytes) → Prop) (S : Uri → Bytes → Prop) (path : Path) (cfg : C) (base : List Publication) (s : Server C) : Prop where
  cache : s.cache path = some cfg
  calls : ∀ (u : Uri) (i : Nat) v, (s.calls u)[i]? = some v → match v.phase with
    | .storing p _ _ => p ≠ path
    | .returning p b => p = path → S u b
    | .ready p b c => p = path → c = cfg ∧ S u b
    | _ => True
  sent : ∃ new, s.sent = base ++ new ∧ ∀ q ∈ new, client.fsPath q.uri = some path →
    ∃ content f, S q.uri content ∧ F f ∧ q.diagnostics = (found env f path content cfg).map shownAs
  requests : ∀ (u : Uri) (i : Nat) ph, (s.requests u)[i]? = some ph → ∀ p b c, ph = .storing p b c → p ≠ path

theorem Settled.stepCall {F : (Path → Option Bytes) → Prop} {S : Uri → Bytes → Prop} {path : Path} {cfg : C} {base : List Publication} {s : Server C}
    (h : Settled env client F S path cfg base s) (hC : Cached client s) (hF : F s.files) (hS : ∀ u b, s.source client u = .ok b → S u b)
    (u : Uri) (i : Nat) : Settled env client F S path cfg base (s.stepCall env client u i) := by
  cases hv : (s.calls u)[i]? with
  | none => rw [stepCall_none env client s u i hv]; exact h
  | some v =>
    have hk := h.calls u i v hv
    have hk' := hC.calls u i v hv
    refine ⟨?_, ?_, ?_, by rw [stepCall_requests]; exact h.requests⟩
    · rw [stepCall_cache, hv]
      simp only
      unfold nextCache
      cases hph : v.phase with
      | storing p b c =>
        rw [hph] at hk
        simp only
        rw [if_neg (fun h => hk h.symm)]; exact h.cache
      | _ => exact h.cache
    · intro u' j v' hv'
      rw [stepCall_calls] at hv'
      split at hv'
      · rename_i hij
        rw [hv] at hv'
        simp only [Option.map_some, Option.some.injEq] at hv'
        subst hv'
        rw [hij.1]
        simp only
        cases hph : v.phase with
        | running =>
          simp only [nextPhase]
          cases hp : client.fsPath u with
          | none => trivial
          | some p =>
            simp only
            cases hs : s.source client u with
            | error e => trivial
            | ok content =>
              simp only
              cases hc : s.cache p with
              | some c => intro _; exact hS u content hs
              | none =>
                simp only
                cases hcf : env.config s.files p with
                | error e => trivial
                | ok c => intro he; rw [he, h.cache] at hc; cases hc
        | storing p b c =>
          rw [hph] at hk
          intro he; exact absurd he hk
        | returning p b =>
          rw [hph] at hk
          simp only [nextPhase]
          cases hc : s.cache p with
          | none => trivial
          | some c =>
            intro he
            refine ⟨?_, hk he⟩
            rw [he, h.cache] at hc
            cases hc; rfl
        | _ => trivial
      · exact h.calls u' j v' hv'
    · obtain ⟨new, h1, h2⟩ := h.sent
      refine ⟨new ++ nextSent env s u i v.version v.phase, by rw [stepCall_sent env client s u i v hv, h1, List.append_assoc], ?_⟩
      intro q hq hqp
      rcases List.mem_append.mp hq with hq | hq
      · exact h2 q hq hqp
      · unfold nextSent at hq
        cases hph : v.phase with
        | ready p b c =>
          rw [hph] at hq hk hk'
          cases List.mem_singleton.mp hq
          simp only at hqp hk hk'
          rw [hk'.1] at hqp
          cases hqp
          obtain ⟨rfl, hb⟩ := hk rfl
          exact ⟨b, s.files, hb, hF, C66_diagnostics env s path b c⟩
        | _ => rw [hph] at hq; cases hq

theorem Settled.request {F : (Path → Option Bytes) → Prop} {S : Uri → Bytes → Prop} {path : Path} {cfg : C} {base : List Publication} {s : Server C}
    (h : Settled env client F S path cfg base s) (u : Uri) : Settled env client F S path cfg base (s.request u) := by
  refine ⟨h.cache, h.calls, h.sent, ?_⟩
  intro u' j ph hp
  rcases request_requests s u u' j ph hp with hp | ⟨-, -, rfl⟩
  · exact h.requests u' j ph hp
  · intro p b c hph; cases hph

theorem Settled.stepRequest {F : (Path → Option Bytes) → Prop} {S : Uri → Bytes → Prop} {path : Path} {cfg : C} {base : List Publication} {s : Server C}
    (h : Settled env client F S path cfg base s) (u : Uri) (i : Nat) : Settled env client F S path cfg base (s.stepRequest env client u i) := by
  cases hv : (s.requests u)[i]? with
  | none => rw [stepRequest_none env client s u i hv]; exact h
  | some ph =>
    have hcache : (s.stepRequest env client u i).cache = nextCache s ph := by rw [stepRequest_cache, hv]
    obtain ⟨h1, h2, -, -⟩ := stepRequest_same env client s u i
    have hk := h.requests u i ph hv
    refine ⟨?_, by rw [h1]; exact h.calls, by rw [h2]; exact h.sent, ?_⟩
    · rw [hcache]
      unfold nextCache
      cases ph with
      | storing p b c =>
        simp only
        rw [if_neg (fun he => hk p b c rfl he.symm)]; exact h.cache
      | _ => exact h.cache
    · intro u' j ph' hj
      rw [stepRequest_requests] at hj
      split at hj
      · rename_i hij
        obtain ⟨rfl, rfl⟩ := hij
        rw [hv] at hj
        cases hj
        intro p b c hn he
        subst he
        cases ph with
        | running =>
          simp only [nextPhase] at hn
          repeat' split at hn
          all_goals cases hn
          rename_i hcn _ _
          rw [h.cache] at hcn; cases hcn
        | returning p' b' =>
          simp only [nextPhase] at hn
          split at hn <;> cases hn
        | _ => cases hn
      · exact h.requests u' j ph' hj

theorem Settled.next {F : (Path → Option Bytes) → Prop} {S : Uri → Bytes → Prop} {path : Path} {cfg : C} {base : List Publication} {s : Server C}
    (h : Settled env client F S path cfg base s) (hC : Cached client s) (hF : F s.files) (hS : ∀ u b, s.source client u = .ok b → S u b)
    (e : LspEvent) : Settled env client F S path cfg base (s.next env client e) := by
  refine (next_invariant env client (fun t => Settled env client F S path cfg base t ∧ Cached client t) s e ?_ ?_ ?_ ?_
    (fun u => ⟨h.request env client u, hC.request client u⟩) (fun u i => ⟨h.stepRequest env client u i, hC.stepRequest env client u i⟩) ⟨h, hC⟩).1
  · rintro t t' ⟨h1, h2⟩ h3 h4 h5 h6
    exact ⟨⟨by rw [h3]; exact h1.cache, by rw [h4]; exact h1.calls, by rw [h5]; exact h1.sent, by rw [h6]; exact h1.requests⟩, h2.grow client h4 h5 h6 (fun p hp => by rw [h3]; exact hp)⟩
  · rintro t u i hf hd ⟨h1, h2⟩
    exact ⟨h1.stepCall env client h2 (by rw [hf]; exact hF) (fun u b hb => hS u b (by simpa only [Server.source, hf, hd] using hb)) u i,
      h2.stepCall env client u i⟩
  · rintro t u l ⟨h1, h2⟩ hl
    refine ⟨⟨h1.cache, ?_, h1.sent, h1.requests⟩, ⟨?_, h2.sent, h2.requests⟩⟩
    · intro u' i v hv
      simp only [setCalls] at hv
      split at hv
      · rename_i hu
        rcases hl i v hv with h3 | h3 | h3 | h3
        · rw [h3]; trivial
        · rw [h3]; trivial
        · rw [h3]; trivial
        · rw [hu]; exact h1.calls u i v h3
      · exact h1.calls u' i v hv
    · intro u' i v hv
      simp only [setCalls] at hv
      split at hv
      · rename_i hu
        rcases hl i v hv with h3 | h3 | h3 | h3
        · rw [h3]; trivial
        · rw [h3]; trivial
        · rw [h3]; trivial
        · rw [hu]; exact h2.calls u i v h3
      · exact h2.calls u' i v hv
  · rintro t p c _ ⟨h1, h2⟩ hn _
    refine ⟨⟨?_, h1.calls, h1.sent, h1.requests⟩, h2.grow client rfl rfl rfl (fun p hp => ?_)⟩
    · simp only
      split
      · rename_i he; rw [← he, h1.cache] at hn; cases hn
      · exact h1.cache
    · simp only
      split
      · simp
      · exact hp

/-- **C68** Once a path was published for and neither a call nor a format request for it is under way, its configuration is settled: it is one its files gave at some time, and every later
publication for the path is made with it, whatever happens to the files. -/
theorem C68_settled (files : Path → Option Bytes) (es₁ : List LspEvent) (path : Path) (q₀ : Publication)
    (hq₀ : q₀ ∈ ((Server.start files).run env client es₁).sent) (hp : client.fsPath q₀.uri = some path)
    (hover : ∀ u, client.fsPath u = some path → ∀ v ∈ ((Server.start files).run env client es₁).calls u, Over v.phase)
    (hidle : ∀ u, client.fsPath u = some path → ∀ ph ∈ ((Server.start files).run env client es₁).requests u, Over ph) :
    ∃ cfg, ConfigSeen env files [] es₁ path cfg ∧ ∀ es₂, ∃ new,
      ((Server.start files).run env client (es₁ ++ es₂)).sent = ((Server.start files).run env client es₁).sent ++ new ∧
      ∀ q ∈ new, client.fsPath q.uri = some path → ∃ content f,
        SourceSeen client files es₁ es₂ q.uri content ∧ FilesSeen files es₁ es₂ f ∧
        q.diagnostics = (found env f path content cfg).map shownAs := by
  have hinv := inv_run env client files es₁ es₁.length
  rw [List.take_length] at hinv
  have hC := cached_run env client files es₁
  generalize hs : (Server.start files).run env client es₁ = s at *
  obtain ⟨p, hp', hc⟩ := hC.sent q₀ hq₀
  rw [hp] at hp'
  cases hp'
  cases hcfg : s.cache path with
  | none => exact absurd hcfg hc
  | some cfg =>
    refine ⟨cfg, hinv.cache path cfg hcfg, fun es₂ => ?_⟩
    have h0 : Settled env client (FilesSeen files es₁ es₂) (SourceSeen client files es₁ es₂) path cfg s.sent s := by
      refine ⟨hcfg, ?_, ⟨[], by simp, by simp⟩, ?_⟩
      case refine_2 =>
        intro u i ph hph p b c hs he
        subst hs he
        exact hidle u (hC.requests u i _ hph) _ (List.mem_of_getElem? hph)
      intro u i v hv
      have h1 := hC.calls u i v hv
      have h2 := fun hu => hover u hu v (List.mem_of_getElem? hv)
      cases hph : v.phase with
      | storing p b c => rw [hph] at h1 h2; intro he; subst he; exact h2 h1
      | returning p b => rw [hph] at h1 h2; intro he; subst he; exact (h2 h1.1).elim
      | ready p b c => rw [hph] at h1 h2; intro he; subst he; exact (h2 h1.1).elim
      | _ => trivial
    have main : ∀ q, q <+: es₂ → Settled env client (FilesSeen files es₁ es₂) (SourceSeen client files es₁ es₂) path cfg s.sent (s.run env client q) := by
      intro q
      induction q using history_induction with
      | nil => intro _; exact h0
      | snoc q e ih =>
        intro hq
        have hq' : q <+: es₂ := List.IsPrefix.trans (List.prefix_append q [e]) hq
        have hcc := cached_run env client files (es₁ ++ q)
        rw [run_append, hs] at hcc
        rw [run_snoc]
        exact (ih hq').next env client hcc ⟨q, hq', by rw [← hs, ← run_append, run_files]⟩ (fun u b hb => ⟨q, hq', by rw [← hb, ← hs, ← run_append, run_source]⟩) e
    have := (main es₂ (List.prefix_refl _)).sent
    rw [run_append, hs]
    exact this

end Fixit
