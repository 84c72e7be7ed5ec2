import Verif.Props.Stdin
import Verif.Proof.Pool
import Verif.Spec.Lsp

/-!
# C62–C66, C68: the language server's validations
-/

namespace Fixit
open Py Py.Gen Spec

variable {C : Type} (env : Env C) (client : Client)

/-! ## C66 -/

/-- All of `fixit_bytes`. -/
theorem drain_fixitBytes (path : Path) (content : Bytes) (cfg : C) (autofix hook : Bool) (w : World) :
    ∃ n, (found env w.files path content cfg).length ≤ n ∧
      ((fixitBytes env path content cfg autofix hook).drain none w).1 =
        (found env w.files path content cfg).map (reporting path) ++ (bytesFinish env w.files path content cfg autofix hook (List.replicate n none)).last.toList ∧
      ((fixitBytes env path content cfg autofix hook).drain none w).2.1 =
        .returned (bytesFinish env w.files path content cfg autofix hook (List.replicate n none)).ret := by
  have hrep := run_replicate none (fixitBytes env path content cfg autofix hook) w _ (Nat.le_refl _)
  generalize ((fixitBytes env path content cfg autofix hook).drain none w).1.length = n at hrep
  obtain ⟨ys, st, evs, hr, -, hst⟩ := fixitBytes_facts env path content cfg autofix hook (List.replicate n none) w
  have hns := drain_not_suspended none (fixitBytes env path content cfg autofix hook) w
  refine ⟨n, ?_, ?_⟩
  · have hrun := run_fixitBytes env path content cfg autofix hook (List.replicate n none) w _ rfl
    by_cases hk : (List.replicate n (none : Answer)).length < (found env w.files path content cfg).length
    · rw [script_lt _ _ _ _ _ hk, hrep] at hrun
      exact absurd (by rw [hrun]) hns
    · simpa using hk
  · rw [← hrep] at hns ⊢
    rw [hr] at hns ⊢
    rcases hst with rfl | ⟨h1, h2⟩
    · exact absurd rfl hns
    · exact ⟨h2, h1⟩

theorem diagnosticsOf_append (a b : List Result) : diagnosticsOf (a ++ b) = diagnosticsOf a ++ diagnosticsOf b := by
  induction a with
  | nil => rfl
  | cons r rs ih =>
    simp only [List.cons_append, diagnosticsOf]
    cases r.violation <;> simp [ih]

/-- **C66** The diagnostics made of a document are one for each violation found in it, in order, and none for errors or clean documents. -/
theorem C66_diagnostics (s : Server C) (path : Path) (content : Bytes) (cfg : C) :
    diagnosticsOf (lintResults env s path content cfg) = (found env s.files path content cfg).map shownAs := by
  obtain ⟨n, -, h, -⟩ := drain_fixitBytes env path content cfg false false ⟨s.files, []⟩
  unfold lintResults
  rw [h, diagnosticsOf_append]
  have h1 : ∀ vs : List LintViolation, diagnosticsOf (vs.map (reporting path)) = vs.map shownAs := by
    intro vs
    induction vs with
    | nil => rfl
    | cons v vs ih => simp only [List.map_cons, diagnosticsOf, reporting, ← ih]; rfl
  have h2 := bytesFinish_last env s.files path content cfg false false (List.replicate n none)
  rw [h1]
  cases hl : (bytesFinish env s.files path content cfg false false (List.replicate n none)).last with
  | none => simp [diagnosticsOf]
  | some r =>
    rw [hl] at h2
    rcases h2 with ⟨rfl, -⟩ | ⟨e, rfl⟩ <;> simp [diagnosticsOf, cleanResult, errorResult]

/-! ## The invariant -/

theorem run_snoc (s : Server C) (es : List LspEvent) (e : LspEvent) : s.run env client (es ++ [e]) = (s.run env client es).next env client e := by
  simp [Server.run]

theorem run_append (s : Server C) (es es' : List LspEvent) : s.run env client (es ++ es') = (s.run env client es).run env client es' := by
  simp [Server.run]

theorem cancelLast_length (l : List (Validation C)) : (cancelLast l).length = l.length := by
  induction l with
  | nil => rfl
  | cons v vs ih => cases vs <;> simp_all [cancelLast]

/-- A call after the last one was cancelled: it was there before, cancelled or unchanged. -/
theorem cancelLast_get : ∀ (l : List (Validation C)) (i : Nat), (cancelLast l)[i]? = if i + 1 = l.length then l[i]?.map Validation.cancel else l[i]?
  | [], i => by simp [cancelLast]
  | [v], i => by cases i <;> simp [cancelLast]
  | v :: w :: vs, i => by
    cases i with
    | zero => simp [cancelLast]
    | succ i =>
      have ih := cancelLast_get (w :: vs) i
      simp only [cancelLast, List.getElem?_cons_succ, ih, List.length_cons]
      by_cases h : i + 1 = vs.length + 1
      · simp [h]
      · rw [if_neg h, if_neg (by omega)]

theorem cancel_version (v : Validation C) : v.cancel.version = v.version := by
  unfold Validation.cancel; cases v.phase <;> rfl

theorem cancel_phase (v : Validation C) : v.cancel.phase = v.phase ∨ (v.phase = .waiting ∧ v.cancel.phase = .cancelled) := by
  unfold Validation.cancel; cases h : v.phase <;> simp [h]

theorem debounceCall_get (version : Int) (l : List (Validation C)) (i : Nat) :
    (debounceCall version l)[i]? = if i = l.length then some ⟨version, .waiting⟩ else if i + 1 = l.length then l[i]?.map Validation.cancel else l[i]? := by
  unfold debounceCall
  by_cases h : i = l.length
  · rw [if_pos h, List.getElem?_append_right (by rw [cancelLast_length]; omega), cancelLast_length, h]; simp
  · rw [if_neg h]
    by_cases hi : i < l.length
    · rw [List.getElem?_append_left (by rw [cancelLast_length]; exact hi), cancelLast_get]
    · rw [if_neg (by omega), List.getElem?_eq_none (by simp [cancelLast_length]; omega), List.getElem?_eq_none (by omega)]

/-- What a call knows, depending on where it is. `F`: files seen, `S`: sources seen. -/
def PhaseOk (F : (Path → Option Bytes) → Prop) (S : Uri → Bytes → Prop) (cache : Path → Option C) (uri : Uri) : Phase C → Prop
  | .storing path content cfg => client.fsPath uri = some path ∧ S uri content ∧ ∃ f, F f ∧ env.config f path = .ok cfg
  | .returning path content => client.fsPath uri = some path ∧ S uri content ∧ cache path ≠ none
  | .ready path content cfg => client.fsPath uri = some path ∧ S uri content ∧ ∃ f, F f ∧ env.config f path = .ok cfg
  | _ => True

/-- What a publication says. -/
def PubOk (F : (Path → Option Bytes) → Prop) (S : Uri → Bytes → Prop) (p : Publication) : Prop :=
  ∃ path content cfg f f', client.fsPath p.uri = some path ∧ S p.uri content ∧ F f ∧ env.config f path = .ok cfg ∧ F f' ∧
    p.diagnostics = (found env f' path content cfg).map shownAs

/-- The invariant. -/
structure Inv (F : (Path → Option Bytes) → Prop) (S : Uri → Bytes → Prop) (s : Server C) : Prop where
  cache : ∀ path cfg, s.cache path = some cfg → ∃ f, F f ∧ env.config f path = .ok cfg
  calls : ∀ (u : Uri) (i : Nat) v, (s.calls u)[i]? = some v → PhaseOk env client F S s.cache u v.phase
  sent : ∀ p ∈ s.sent, PubOk env client F S p
  requests : ∀ (u : Uri) (i : Nat) ph, (s.requests u)[i]? = some ph → PhaseOk env client F S s.cache u ph

theorem PhaseOk.mono {F : (Path → Option Bytes) → Prop} {S : Uri → Bytes → Prop} {c c' : Path → Option C} {u : Uri} {ph : Phase C}
    (h : PhaseOk env client F S c u ph) (hc : ∀ p, c p ≠ none → c' p ≠ none) : PhaseOk env client F S c' u ph := by
  cases ph with
  | returning path content => exact ⟨h.1, h.2.1, hc path h.2.2⟩
  | storing path content cfg => exact h
  | ready path content cfg => exact h
  | _ => trivial

/-- What a step does to the calls of a document. -/
theorem stepCall_calls (s : Server C) (u : Uri) (i : Nat) (u' : Uri) (j : Nat) :
    ((s.stepCall env client u i).calls u')[j]? =
      if u' = u ∧ j = i then (s.calls u)[i]?.map (fun v => ⟨v.version, nextPhase env client s u v.phase⟩) else (s.calls u')[j]? := by
  unfold Server.stepCall
  cases hv : (s.calls u)[i]? with
  | none =>
    by_cases h : u' = u ∧ j = i
    · rw [if_pos h, h.1, h.2]; simpa using hv
    · rw [if_neg h]
  | some v =>
    simp only [setCalls]
    by_cases hu : u' = u
    · simp only [hu, if_true, true_and]
      rw [List.getElem?_set]
      have hlt := (List.getElem?_eq_some_iff.mp hv).1
      by_cases hj : i = j
      · subst hj; simp [hlt]
      · rw [if_neg hj, if_neg (fun h => hj h.symm)]
    · simp [hu]

theorem stepCall_source (s : Server C) (u : Uri) (i : Nat) :
    (s.stepCall env client u i).files = s.files ∧ (s.stepCall env client u i).docs = s.docs ∧ (s.stepCall env client u i).edits = s.edits := by
  unfold Server.stepCall
  split <;> simp

theorem stepCall_requests (s : Server C) (u : Uri) (i : Nat) : (s.stepCall env client u i).requests = s.requests := by
  unfold Server.stepCall
  split <;> simp

theorem stepCall_cache (s : Server C) (u : Uri) (i : Nat) : (s.stepCall env client u i).cache =
    match (s.calls u)[i]? with | none => s.cache | some v => nextCache s v.phase := by
  unfold Server.stepCall
  split <;> rename_i h <;> simp [h]

theorem nextCache_grows (s : Server C) (ph : Phase C) (p : Path) (h : s.cache p ≠ none) : nextCache s ph p ≠ none := by
  unfold nextCache
  cases ph <;> simp only <;> try exact h
  split
  · simp
  · exact h

theorem PhaseOk.cache {F : (Path → Option Bytes) → Prop} {S : Uri → Bytes → Prop} {s : Server C}
    (hcache : ∀ path cfg, s.cache path = some cfg → ∃ f, F f ∧ env.config f path = .ok cfg) {u : Uri} {ph : Phase C} (hok : PhaseOk env client F S s.cache u ph)
    (path : Path) (cfg : C) (hc : nextCache s ph path = some cfg) : ∃ f, F f ∧ env.config f path = .ok cfg := by
  unfold nextCache at hc
  cases ph with
  | storing p b c =>
    simp only at hc
    split at hc
    · rename_i hp
      cases hc
      rw [hp]; exact hok.2.2
    · exact hcache path cfg hc
  | _ => exact hcache path cfg hc

/-- What a call knows after a step. -/
theorem PhaseOk.next {F : (Path → Option Bytes) → Prop} {S : Uri → Bytes → Prop} {s : Server C}
    (hcache : ∀ path cfg, s.cache path = some cfg → ∃ f, F f ∧ env.config f path = .ok cfg) (hF : F s.files)
    (hS : ∀ u b, s.source client u = .ok b → S u b) {u : Uri} {ph : Phase C} (hok : PhaseOk env client F S s.cache u ph) :
    PhaseOk env client F S (nextCache s ph) u (nextPhase env client s u ph) := by
  cases ph with
  | waiting => trivial
  | cancelled => trivial
  | running =>
    unfold nextPhase
    cases hp : client.fsPath u with
    | none => trivial
    | some path =>
      simp only
      cases hs : s.source client u with
      | error e => trivial
      | ok content =>
        simp only
        cases hc : s.cache path with
        | some cfg => simp only; exact ⟨hp, hS _ _ hs, by simp [nextCache, hc]⟩
        | none =>
          simp only
          cases hcf : env.config s.files path with
          | error e => trivial
          | ok cfg => exact ⟨hp, hS _ _ hs, s.files, hF, hcf⟩
  | storing p b c => exact ⟨hok.1, hok.2.1, by simp [nextCache]⟩
  | returning p b =>
    unfold nextPhase
    simp only
    cases hc : s.cache p with
    | none => trivial
    | some cfg => exact ⟨hok.1, hok.2.1, hcache p cfg hc⟩
  | ready p b c => trivial
  | ended => trivial

theorem Inv.stepCall {F : (Path → Option Bytes) → Prop} {S : Uri → Bytes → Prop} {s : Server C} (h : Inv env client F S s) (hF : F s.files)
    (hS : ∀ u b, s.source client u = .ok b → S u b) (u : Uri) (i : Nat) : Inv env client F S (s.stepCall env client u i) := by
  have hcache := stepCall_cache env client s u i
  have hgrow : ∀ p, s.cache p ≠ none → (s.stepCall env client u i).cache p ≠ none := by
    intro p hp
    rw [hcache]
    split
    · exact hp
    · exact nextCache_grows s _ p hp
  refine ⟨?_, ?_, ?_, ?_⟩
  · intro path cfg hc
    rw [hcache] at hc
    cases hv : (s.calls u)[i]? with
    | none => rw [hv] at hc; exact h.cache path cfg hc
    | some v =>
      rw [hv] at hc
      exact (h.calls u i v hv).cache env client h.cache path cfg hc
  · intro u' j v' hv'
    rw [stepCall_calls] at hv'
    split at hv'
    · rename_i hij
      obtain ⟨rfl, rfl⟩ := hij
      cases hv : (s.calls u')[j]? with
      | none => rw [hv] at hv'; cases hv'
      | some v =>
        rw [hv] at hv'
        simp only [Option.map_some, Option.some.injEq] at hv'
        subst hv'
        rw [hcache, hv]
        exact (h.calls u' j v hv).next env client h.cache hF hS
    · exact (h.calls u' j v' hv').mono env client hgrow
  · intro p hp
    unfold Server.stepCall at hp
    cases hv : (s.calls u)[i]? with
    | none => rw [hv] at hp; exact h.sent p hp
    | some v =>
      rw [hv] at hp
      simp only [List.mem_append] at hp
      rcases hp with hp | hp
      · exact h.sent p hp
      · have hok := h.calls u i v hv
        unfold nextSent at hp
        cases hph : v.phase with
        | ready path b c =>
          rw [hph] at hp hok
          simp only [List.mem_singleton] at hp
          subst hp
          obtain ⟨h1, h2, f, h3, h4⟩ := hok
          exact ⟨path, b, c, f, s.files, h1, h2, h3, h4, hF, C66_diagnostics env s path b c⟩
        | _ => rw [hph] at hp; cases hp
  · intro u' j ph hp
    rw [stepCall_requests] at hp
    exact (h.requests u' j ph hp).mono env client hgrow

/-- More calls do not matter as long as they know nothing. -/
theorem Inv.setCalls {F : (Path → Option Bytes) → Prop} {S : Uri → Bytes → Prop} {s : Server C} (h : Inv env client F S s) (u : Uri) (l : List (Validation C))
    (hl : ∀ (i : Nat) v, l[i]? = some v → PhaseOk env client F S s.cache u v.phase) : Inv env client F S { s with calls := setCalls s.calls u l } := by
  refine ⟨h.cache, ?_, h.sent, h.requests⟩
  intro u' i v hv
  simp only [Fixit.setCalls] at hv
  split at hv
  · rename_i hu; rw [hu]; exact hl i v hv
  · exact h.calls u' i v hv

theorem Inv.validate {F : (Path → Option Bytes) → Prop} {S : Uri → Bytes → Prop} {s : Server C} (h : Inv env client F S s) (hF : F s.files)
    (hS : ∀ u b, s.source client u = .ok b → S u b) (u : Uri) (version : Int) : Inv env client F S (s.validate env client u version) := by
  unfold Server.validate
  split
  · refine h.setCalls env client u _ (fun i v hv => ?_)
    rw [debounceCall_get] at hv
    split at hv
    · cases hv; trivial
    · split at hv
      · cases ho : (s.calls u)[i]? with
        | none => rw [ho] at hv; cases hv
        | some v₀ =>
          rw [ho] at hv
          cases hv
          have := h.calls u i v₀ ho
          rcases cancel_phase v₀ with hp | ⟨-, hp⟩
          · rw [hp]; exact this
          · rw [hp]; trivial
      · exact h.calls u i v hv
  · simp only
    have h0 : Inv env client F S { s with calls := Fixit.setCalls s.calls u (s.calls u ++ [⟨version, .running⟩]) } := by
      refine h.setCalls env client u _ (fun i v hv => ?_)
      by_cases hi : i < (s.calls u).length
      · rw [List.getElem?_append_left hi] at hv; exact h.calls u i v hv
      · rw [List.getElem?_append_right (by omega), List.getElem?_singleton] at hv
        split at hv
        · cases hv; trivial
        · cases hv
    have go : ∀ (t : Server C) (j : Nat), Inv env client F S t ∧ t.files = s.files ∧ t.docs = s.docs →
        Inv env client F S (t.stepCall env client u j) ∧ (t.stepCall env client u j).files = s.files ∧ (t.stepCall env client u j).docs = s.docs := by
      rintro t j ⟨h1, h2, h3⟩
      obtain ⟨f1, f2, -⟩ := stepCall_source env client t u j
      refine ⟨h1.stepCall env client (by rw [h2]; exact hF) (fun u b hb => hS u b ?_) u j, by rw [f1, h2], by rw [f2, h3]⟩
      simpa only [Server.source, h2, h3] using hb
    exact (go _ _ (go _ _ (go _ _ (go _ _ ⟨h0, rfl, rfl⟩)))).1

theorem Inv.congr {F : (Path → Option Bytes) → Prop} {S : Uri → Bytes → Prop} {s t : Server C} (h : Inv env client F S s) (h1 : t.cache = s.cache)
    (h2 : t.calls = s.calls) (h3 : t.sent = s.sent) (h4 : t.requests = s.requests) : Inv env client F S t :=
  ⟨by rw [h1]; exact h.cache, by rw [h1, h2]; exact h.calls, by rw [h3]; exact h.sent, by rw [h1, h4]; exact h.requests⟩

/-- What a step of a request leaves alone, and what it does to the requests. -/
theorem stepRequest_same (s : Server C) (u : Uri) (i : Nat) : (s.stepRequest env client u i).calls = s.calls ∧ (s.stepRequest env client u i).sent = s.sent ∧
    (s.stepRequest env client u i).files = s.files ∧ (s.stepRequest env client u i).docs = s.docs := by
  unfold Server.stepRequest
  split <;> exact ⟨rfl, rfl, rfl, rfl⟩

theorem stepRequest_cache (s : Server C) (u : Uri) (i : Nat) : (s.stepRequest env client u i).cache =
    match (s.requests u)[i]? with | none => s.cache | some ph => nextCache s ph := by
  unfold Server.stepRequest
  split <;> rename_i h <;> simp [h]

theorem stepRequest_requests (s : Server C) (u : Uri) (i : Nat) (u' : Uri) (j : Nat) :
    ((s.stepRequest env client u i).requests u')[j]? =
      if u' = u ∧ j = i then (s.requests u)[i]?.map (nextPhase env client s u) else (s.requests u')[j]? := by
  unfold Server.stepRequest
  cases hv : (s.requests u)[i]? with
  | none =>
    by_cases h : u' = u ∧ j = i
    · rw [if_pos h, h.1, h.2]; simpa using hv
    · rw [if_neg h]
  | some v =>
    simp only
    by_cases hu : u' = u
    · simp only [hu, if_true, true_and]
      rw [List.getElem?_set]
      have hlt := (List.getElem?_eq_some_iff.mp hv).1
      by_cases hj : i = j
      · subst hj; simp [hlt]
      · rw [if_neg hj, if_neg (fun h => hj h.symm)]
    · simp [hu]

theorem stepRequest_none (s : Server C) (u : Uri) (i : Nat) (h : (s.requests u)[i]? = none) : s.stepRequest env client u i = s := by
  unfold Server.stepRequest; rw [h]

theorem request_requests (s : Server C) (u u' : Uri) (j : Nat) (ph : Phase C) (h : ((s.request u).requests u')[j]? = some ph) :
    (s.requests u')[j]? = some ph ∨ (u' = u ∧ j = (s.requests u).length ∧ ph = .running) := by
  unfold Server.request at h
  simp only at h
  split at h
  · rename_i hu
    subst hu
    by_cases hj : j < (s.requests u').length
    · rw [List.getElem?_append_left hj] at h; exact Or.inl h
    · rw [List.getElem?_append_right (by omega), List.getElem?_singleton] at h
      split at h
      · cases h; exact Or.inr ⟨rfl, by omega, rfl⟩
      · cases h
  · exact Or.inl h

theorem Inv.stepRequest {F : (Path → Option Bytes) → Prop} {S : Uri → Bytes → Prop} {s : Server C} (h : Inv env client F S s) (hF : F s.files)
    (hS : ∀ u b, s.source client u = .ok b → S u b) (u : Uri) (i : Nat) : Inv env client F S (s.stepRequest env client u i) := by
  cases hv : (s.requests u)[i]? with
  | none => rw [stepRequest_none env client s u i hv]; exact h
  | some ph =>
    have hcache : (s.stepRequest env client u i).cache = nextCache s ph := by rw [stepRequest_cache, hv]
    obtain ⟨h1, h2, -, -⟩ := stepRequest_same env client s u i
    have hok := h.requests u i ph hv
    refine ⟨?_, ?_, by rw [h2]; exact h.sent, ?_⟩
    · rw [hcache]; exact hok.cache env client h.cache
    · rw [hcache, h1]
      exact fun u' j v hj => (h.calls u' j v hj).mono env client (nextCache_grows s ph)
    · intro u' j ph' hj
      rw [stepRequest_requests] at hj
      rw [hcache]
      split at hj
      · rename_i hij
        obtain ⟨rfl, rfl⟩ := hij
        rw [hv] at hj
        cases hj
        exact hok.next env client h.cache hF hS
      · exact (h.requests u' j ph' hj).mono env client (nextCache_grows s ph)

theorem format_same (s : Server C) (u : Uri) : (s.format env client u).calls = s.calls ∧ (s.format env client u).sent = s.sent ∧
    (s.format env client u).files = s.files ∧ (s.format env client u).docs = s.docs ∧
    ((s.format env client u).cache = s.cache ∨ ∃ path cfg, client.fsPath u = some path ∧ s.cache path = none ∧ env.config s.files path = .ok cfg ∧
      (s.format env client u).cache = fun p => if p = path then some cfg else s.cache p) := by
  unfold Server.format
  cases hp : client.fsPath u with
  | none => exact ⟨rfl, rfl, rfl, rfl, Or.inl rfl⟩
  | some path =>
    simp only
    cases hs : s.source client u with
    | error e => exact ⟨rfl, rfl, rfl, rfl, Or.inl rfl⟩
    | ok content =>
      simp only
      unfold Server.loadConfig
      cases hc : s.cache path with
      | some cfg => exact ⟨rfl, rfl, rfl, rfl, Or.inl rfl⟩
      | none =>
        simp only
        cases hcf : env.config s.files path with
        | error e => exact ⟨rfl, rfl, rfl, rfl, Or.inl rfl⟩
        | ok cfg => exact ⟨rfl, rfl, rfl, rfl, Or.inr ⟨path, cfg, rfl, hc, hcf, rfl⟩⟩

theorem format_requests (s : Server C) (u : Uri) : (s.format env client u).requests = s.requests := by
  unfold Server.format
  cases hp : client.fsPath u with
  | none => rfl
  | some path =>
    simp only
    cases hs : s.source client u with
    | error e => rfl
    | ok content =>
      simp only
      unfold Server.loadConfig
      cases hc : s.cache path with
      | some cfg => rfl
      | none =>
        simp only
        cases hcf : env.config s.files path with
        | error e => rfl
        | ok cfg => rfl

theorem Inv.next {F : (Path → Option Bytes) → Prop} {S : Uri → Bytes → Prop} {s : Server C} (h : Inv env client F S s) (hF : F s.files)
    (hS : ∀ u b, s.source client u = .ok b → S u b) (e : LspEvent) : Inv env client F S (s.next env client e) := by
  cases e with
  | files f => exact h.congr env client rfl rfl rfl rfl
  | edit u t => exact h.congr env client rfl rfl rfl rfl
  | close u => exact h.congr env client rfl rfl rfl rfl
  | notify u v => exact h.validate env client hF hS u v
  | step u i => exact h.stepCall env client hF hS u i
  | format u =>
    obtain ⟨h1, h2, -, -, h3⟩ := format_same env client s u
    show Inv env client F S (s.format env client u)
    rcases h3 with h3 | ⟨path, cfg, hp, hn, hc, h3⟩
    · exact h.congr env client h3 h1 h2 (format_requests env client s u)
    · have hgrow : ∀ p, s.cache p ≠ none → (s.format env client u).cache p ≠ none := by
        intro p hp
        rw [h3]; simp only
        split
        · simp
        · exact hp
      refine ⟨?_, ?_, by rw [h2]; exact h.sent, ?_⟩
      · intro p c hpc
        rw [h3] at hpc
        simp only at hpc
        split at hpc
        · rename_i he
          cases hpc
          exact ⟨s.files, hF, by rw [he]; exact hc⟩
        · exact h.cache p c hpc
      · intro u' i v hv
        rw [h1] at hv
        exact (h.calls u' i v hv).mono env client hgrow
      · intro u' i v hv
        rw [format_requests] at hv
        exact (h.requests u' i v hv).mono env client hgrow
  | request u =>
    refine ⟨h.cache, h.calls, h.sent, ?_⟩
    intro u' i ph hp
    rcases request_requests s u u' i ph hp with hp | ⟨-, -, rfl⟩
    · exact h.requests u' i ph hp
    · trivial
  | go u i => exact h.stepRequest env client hF hS u i

/-- Validating leaves files and documents alone. -/
theorem validate_same (s : Server C) (u : Uri) (v : Int) : (s.validate env client u v).files = s.files ∧ (s.validate env client u v).docs = s.docs := by
  unfold Server.validate
  split
  · exact ⟨rfl, rfl⟩
  · simp only [(stepCall_source env client _ _ _).1, (stepCall_source env client _ _ _).2, and_self]

theorem run_files_gen (es : List LspEvent) : ∀ s : Server C, (s.run env client es).files = filesAfter s.files es := by
  induction es with
  | nil => intro s; rfl
  | cons e es ih =>
    intro s
    show ((s.next env client e).run env client es).files = _
    rw [ih]
    cases e with
    | files f => rfl
    | edit u t => rfl
    | close u => rfl
    | notify u v => simp only [filesAfter, Server.next, (validate_same env client s u v).1]
    | step u i => simp only [filesAfter, Server.next, (stepCall_source env client s u i).1]
    | format u => simp only [filesAfter, Server.next, (format_same env client s u).2.2.1]
    | request u => rfl
    | go u i => simp only [filesAfter, Server.next, (stepRequest_same env client s u i).2.2.1]

theorem run_docs_gen (uri : Uri) (es : List LspEvent) : ∀ s : Server C, (s.run env client es).docs uri = textAfter uri (s.docs uri) es := by
  induction es with
  | nil => intro s; rfl
  | cons e es ih =>
    intro s
    show ((s.next env client e).run env client es).docs uri = _
    rw [ih]
    cases e with
    | files f => rfl
    | edit u t => simp only [textAfter, Server.next, eq_comm (a := uri)]
    | close u => simp only [textAfter, Server.next, eq_comm (a := uri)]
    | notify u v => simp only [textAfter, Server.next, (validate_same env client s u v).2]
    | step u i => simp only [textAfter, Server.next, (stepCall_source env client s u i).2]
    | format u => simp only [textAfter, Server.next, (format_same env client s u).2.2.2.1]
    | request u => rfl
    | go u i => simp only [textAfter, Server.next, (stepRequest_same env client s u i).2.2.2]

/-- The files the server sees are those of the history. -/
theorem run_files (files : Path → Option Bytes) (es : List LspEvent) : ((Server.start files).run env client es : Server C).files = filesAfter files es :=
  run_files_gen env client es _

/-- So are the texts. -/
theorem run_docs (files : Path → Option Bytes) (es : List LspEvent) (uri : Uri) :
    ((Server.start files).run env client es : Server C).docs uri = textAfter uri none es := run_docs_gen env client uri es _

/-- And the sources. -/
theorem run_source (files : Path → Option Bytes) (es : List LspEvent) (uri : Uri) :
    ((Server.start files).run env client es : Server C).source client uri = sourceAfter client files es uri := by
  unfold Server.source sourceAfter
  rw [run_docs, run_files]
  cases textAfter uri none es with
  | some t => rfl
  | none =>
    simp only
    cases client.diskText (filesAfter files es) uri <;> rfl

/-- The invariant holds throughout a history. -/
theorem inv_run (files : Path → Option Bytes) (es : List LspEvent) : ∀ (n : Nat),
    Inv env client (FilesSeen files [] es) (SourceSeen client files [] es) ((Server.start files).run env client (es.take n)) := by
  intro n
  induction n with
  | zero =>
    refine ⟨?_, ?_, ?_, ?_⟩
    · intro p c h; simp [Server.run, Server.start] at h
    · intro u i v h; simp [Server.run, Server.start] at h
    · intro p h; simp [Server.run, Server.start] at h
    · intro u i v h; simp [Server.run, Server.start] at h
  | succ n ih =>
    by_cases hn : n < es.length
    · rw [List.take_succ_eq_append_getElem hn, run_snoc]
      exact ih.next env client ⟨es.take n, List.take_prefix _ _, (run_files env client files _).symm⟩ (fun u b hb => ⟨es.take n, List.take_prefix _ _, by rw [← hb, run_source]; rfl⟩) _
    · rw [List.take_of_length_le (by omega)] at ih ⊢
      exact ih

/-- **C66** Every publication, in any history: it is for a file URI, and its diagnostics mirror the violations found in a source the document had, under a
configuration of its path (both seen at some time of the history), one for each in order. -/
theorem C66_published (files : Path → Option Bytes) (es : List LspEvent) (p : Publication) (hp : p ∈ ((Server.start files).run env client es).sent) :
    ∃ path content cfg f, client.fsPath p.uri = some path ∧ SourceSeen client files [] es p.uri content ∧
      ConfigSeen env files [] es path cfg ∧ FilesSeen files [] es f ∧
      p.diagnostics = (found env f path content cfg).map shownAs := by
  have h := inv_run env client files es es.length
  rw [List.take_length] at h
  obtain ⟨path, content, cfg, f, f', h1, h2, h3, h4, h5, h6⟩ := h.sent p hp
  exact ⟨path, content, cfg, f', h1, h2, ⟨f, h3, h4⟩, h5, h6⟩

end Fixit
