import Verif.Props.Lsp

/-!
# C63, C65, C68: histories of the language server
-/

namespace Fixit
open Py Py.Gen Spec

variable {C : Type} (env : Env C) (client : Client)

/-! ## Steps, one at a time -/

theorem stepCall_none (s : Server C) (u : Uri) (i : Nat) (h : (s.calls u)[i]? = none) : s.stepCall env client u i = s := by
  unfold Server.stepCall; rw [h]

theorem stepCall_sent (s : Server C) (u : Uri) (i : Nat) (v : Validation C) (h : (s.calls u)[i]? = some v) :
    (s.stepCall env client u i).sent = s.sent ++ nextSent env s u i v.version v.phase := by
  unfold Server.stepCall; rw [h]

theorem stepCall_length (s : Server C) (u : Uri) (i : Nat) (u' : Uri) : ((s.stepCall env client u i).calls u').length = (s.calls u').length := by
  unfold Server.stepCall
  split
  · rfl
  · simp only [setCalls]
    split
    · rename_i hu; rw [hu, List.length_set]
    · rfl

theorem stepCall_versions (s : Server C) (u : Uri) (i : Nat) (u' : Uri) :
    ((s.stepCall env client u i).calls u').map Validation.version = (s.calls u').map Validation.version := by
  apply List.ext_getElem?
  intro j
  simp only [List.getElem?_map]
  rw [stepCall_calls]
  split
  · rename_i h
    rw [h.1, h.2]
    cases (s.calls u)[i]? <;> rfl
  · rfl

/-- A call is over when it has ended. -/
theorem nextPhase_ended (s : Server C) (u : Uri) (ph : Phase C) (h : ph = .ended) : nextPhase env client s u ph = .ended := by rw [h]; rfl

/-! ## C63: which calls publish -/

/-- What is recorded about the calls. `N`: the versions notified. -/
structure Track (N : Uri → List Int) (s : Server C) : Prop where
  versions : ∀ u, (s.calls u).map Validation.version = N u
  waits : ∀ (u : Uri) (i : Nat) v, (s.calls u)[i]? = some v → (client.debounced = false ∨ i + 1 < (s.calls u).length) → v.phase ≠ .waiting
  sent : ∀ p ∈ s.sent, (s.calls p.uri)[p.call]? = some ⟨p.version, .ended⟩
  once : (s.sent.map (fun p => (p.uri, p.call))).Nodup

theorem nextPhase_not_waiting (s : Server C) (u : Uri) (ph : Phase C) : nextPhase env client s u ph ≠ .waiting := by
  unfold nextPhase
  repeat' split
  all_goals simp

theorem Track.stepCall {N : Uri → List Int} {s : Server C} (h : Track client N s) (u : Uri) (i : Nat) : Track client N (s.stepCall env client u i) := by
  cases hv : (s.calls u)[i]? with
  | none => rw [stepCall_none env client s u i hv]; exact h
  | some v =>
    have hs := stepCall_sent env client s u i v hv
    -- a publication made before is of another call, or of one ended already
    have hold : ∀ p ∈ s.sent, ((s.stepCall env client u i).calls p.uri)[p.call]? = some ⟨p.version, .ended⟩ := by
      intro p hp
      have h1 := h.sent p hp
      rw [stepCall_calls]
      split
      · rename_i hc
        rw [hc.1, hc.2] at h1
        rw [h1]; rfl
      · exact h1
    refine ⟨?_, ?_, ?_, ?_⟩
    · intro u'; rw [stepCall_versions]; exact h.versions u'
    · intro u' j v' hv' hlt
      rw [stepCall_length] at hlt
      rw [stepCall_calls] at hv'
      split at hv'
      · rw [hv] at hv'; cases hv'; exact nextPhase_not_waiting _ _ _ _ _
      · exact h.waits u' j v' hv' hlt
    · intro p hp
      rw [hs] at hp
      rcases List.mem_append.mp hp with hp | hp
      · exact hold p hp
      · unfold nextSent at hp
        cases hph : v.phase with
        | ready path b c =>
          rw [hph] at hp
          cases List.mem_singleton.mp hp
          rw [stepCall_calls, if_pos ⟨rfl, rfl⟩, hv, Option.map_some, hph]; rfl
        | _ => rw [hph] at hp; cases hp
    · rw [hs, List.map_append]
      unfold nextSent
      cases hph : v.phase with
      | ready path b c =>
        simp only [List.map_cons, List.map_nil]
        refine List.nodup_append.mpr ⟨h.once, by simp, ?_⟩
        intro x hx y hy hxy
        rw [List.mem_singleton] at hy
        subst hxy hy
        obtain ⟨p, hp, hpe⟩ := List.mem_map.mp hx
        have h1 := h.sent p hp
        simp only [Prod.mk.injEq] at hpe
        rw [hpe.1, hpe.2, hv] at h1
        cases h1
        cases hph
      | _ => simpa using h.once

theorem Track.push {N : Uri → List Int} {s : Server C} (h : Track client N s) (u : Uri) (l : List (Validation C)) (version : Int)
    (h1 : l.map Validation.version = N u ++ [version])
    (h2 : ∀ (i : Nat) v, l[i]? = some v → (client.debounced = false ∨ i + 1 < l.length) → v.phase ≠ .waiting)
    (h3 : ∀ (i : Nat) k, (s.calls u)[i]? = some ⟨k, .ended⟩ → l[i]? = some ⟨k, .ended⟩) :
    Track client (fun u' => if u' = u then N u ++ [version] else N u') { s with calls := setCalls s.calls u l } := by
  refine ⟨?_, ?_, ?_, h.once⟩
  · intro u'
    simp only [setCalls]
    split
    · exact h1
    · exact h.versions u'
  · intro u' i v hv hlt
    simp only [setCalls] at hv hlt
    split at hv
    · rename_i hu; rw [if_pos hu] at hlt; exact h2 i v hv hlt
    · rename_i hu; rw [if_neg hu] at hlt; exact h.waits u' i v hv hlt
  · intro p hp
    have := h.sent p hp
    simp only [setCalls]
    split
    · rename_i hu; rw [hu] at this; exact h3 _ _ this
    · exact this

theorem debounceCall_versions (version : Int) (l : List (Validation C)) :
    (debounceCall version l).map Validation.version = l.map Validation.version ++ [version] := by
  unfold debounceCall
  rw [List.map_append]
  congr 1
  induction l with
  | nil => rfl
  | cons v vs ih =>
    cases vs with
    | nil => simp [cancelLast, cancel_version]
    | cons w ws => simp only [cancelLast, List.map_cons] at ih ⊢; rw [ih]

theorem debounceCall_length (version : Int) (l : List (Validation C)) : (debounceCall version l).length = l.length + 1 := by
  simp [debounceCall, cancelLast_length]

theorem Track.validate {N : Uri → List Int} {s : Server C} (h : Track client N s) (u : Uri) (version : Int) :
    Track client (fun u' => if u' = u then N u ++ [version] else N u') (s.validate env client u version) := by
  unfold Server.validate
  split
  · rename_i hd
    refine h.push client u _ version ?_ ?_ ?_
    · rw [debounceCall_versions, h.versions]
    · intro i v hv hlt
      rw [debounceCall_length] at hlt
      have hlt : i + 1 < (s.calls u).length + 1 := by
        rcases hlt with hlt | hlt
        · rw [hd] at hlt; cases hlt
        · exact hlt
      rw [debounceCall_get, if_neg (by omega)] at hv
      split at hv
      · cases ho : (s.calls u)[i]? with
        | none => rw [ho] at hv; cases hv
        | some w =>
          rw [ho] at hv; cases hv
          unfold Validation.cancel
          cases hw : w.phase <;> simp [hw]
      · exact h.waits u i v hv (Or.inr (by omega))
    · intro i k hk
      have hlt := (List.getElem?_eq_some_iff.mp hk).1
      rw [debounceCall_get, if_neg (by omega)]
      split
      · rw [hk]; rfl
      · exact hk
  · rename_i hd
    have hd : client.debounced = false := by simpa using hd
    simp only
    refine (((Track.stepCall env client ?_ u _).stepCall env client u _).stepCall env client u _).stepCall env client u _
    refine h.push client u _ version ?_ ?_ ?_
    · rw [List.map_append, h.versions]; rfl
    · intro i v hv hlt
      by_cases hl : i < (s.calls u).length
      · rw [List.getElem?_append_left hl] at hv
        exact h.waits u i v hv (Or.inl hd)
      · rw [List.getElem?_append_right (by omega), List.getElem?_singleton] at hv
        split at hv
        · cases hv; simp
        · cases hv
    · intro i k hk
      have hlt := (List.getElem?_eq_some_iff.mp hk).1
      rw [List.getElem?_append_left hlt]; exact hk

theorem Track.congr {N : Uri → List Int} {s t : Server C} (h : Track client N s) (h2 : t.calls = s.calls) (h3 : t.sent = s.sent) : Track client N t :=
  ⟨by rw [h2]; exact h.versions, by rw [h2]; exact h.waits, by rw [h2, h3]; exact h.sent, by rw [h3]; exact h.once⟩

theorem notified_append (u : Uri) (es es' : List LspEvent) : notified u (es ++ es') = notified u es ++ notified u es' := by
  induction es with
  | nil => rfl
  | cons e es ih =>
    cases e with
    | notify u' v => simp only [List.cons_append, notified]; split <;> simp [ih]
    | _ => simpa only [List.cons_append, notified] using ih

/-- Histories grow at the end. -/
theorem history_induction {P : List LspEvent → Prop} (nil : P []) (snoc : ∀ es e, P es → P (es ++ [e])) (es : List LspEvent) : P es := by
  have : ∀ l : List LspEvent, P l.reverse := by
    intro l
    induction l with
    | nil => exact nil
    | cons e l ih => rw [List.reverse_cons]; exact snoc _ _ ih
  have h := this es.reverse
  rwa [List.reverse_reverse] at h

theorem track_run (files : Path → Option Bytes) (es : List LspEvent) :
    Track client (fun u => notified u es) ((Server.start files).run env client es) := by
  induction es using history_induction with
  | nil =>
    refine ⟨fun u => rfl, ?_, ?_, ?_⟩
    · intro u i v h; simp [Server.run, Server.start] at h
    · intro p h; simp [Server.run, Server.start] at h
    · simp [Server.run, Server.start]
  | snoc es e ih =>
    rw [run_snoc]
    cases e with
    | notify u v =>
      have := ih.validate env client u v
      have hN : (fun u' => notified u' (es ++ [.notify u v])) = (fun u' => if u' = u then notified u es ++ [v] else notified u' es) := by
        funext u'
        rw [notified_append]
        by_cases h : u = u'
        · subst h; simp [notified]
        · have h' : ¬ u' = u := fun x => h x.symm
          simp [notified, h, h']
      rw [hN]; exact this
    | _ =>
      simp only [notified_append, notified, List.append_nil]
      first
      | exact ih.congr client rfl rfl
      | exact ih.stepCall env client _ _
      | (obtain ⟨h1, h2, -⟩ := format_same env client ((Server.start files).run env client es) ‹Uri›; exact ih.congr client h1 h2)
      | (obtain ⟨h1, h2, -⟩ := stepRequest_same env client ((Server.start files).run env client es) ‹Uri› ‹Nat›; exact ih.congr client h1 h2)

/-- **C63** In any history: a publication carries the version of the notification it answers. -/
theorem C63_version (files : Path → Option Bytes) (es : List LspEvent) (p : Publication) (hp : p ∈ ((Server.start files).run env client es).sent) :
    (notified p.uri es)[p.call]? = some p.version := by
  have h := track_run env client files es
  have h1 := h.sent p hp
  rw [← h.versions, List.getElem?_map, h1]; rfl

/-- **C63** In any history: a notification is answered at most once. -/
theorem C63_once (files : Path → Option Bytes) (es : List LspEvent) :
    (((Server.start files).run env client es).sent.map (fun p => (p.uri, p.call))).Nodup := (track_run env client files es).once

/-- **C63** So a document is not published more often than notified. -/
theorem C63_not_more (files : Path → Option Bytes) (es : List LspEvent) (u : Uri) :
    (publishedFor ((Server.start files).run env client es) u).length ≤ (notified u es).length := by
  have hnd := C63_once env client files es
  have hv := C63_version env client files es
  generalize ((Server.start files).run env client es) = s at hnd hv
  have hsub : (publishedFor s u).Sublist s.sent := List.filter_sublist
  have hnd' : ((publishedFor s u).map (fun p => (p.uri, p.call))).Nodup := (hsub.map _).nodup hnd
  have hu : ∀ p ∈ publishedFor s u, p.uri = u := by
    intro p hp
    have := (List.mem_filter.mp hp).2
    simpa using this
  have hcalls : ((publishedFor s u).map Publication.call).Nodup := by
    rw [List.Nodup, List.pairwise_map] at hnd' ⊢
    refine hnd'.imp_of_mem ?_
    intro a b ha hb hab hcall
    exact hab (by rw [hu a ha, hu b hb, hcall])
  have hlt : ∀ k ∈ (publishedFor s u).map Publication.call, k ∈ List.range (notified u es).length := by
    intro k hk
    obtain ⟨p, hp, rfl⟩ := List.mem_map.mp hk
    have := hv p (hsub.subset hp)
    rw [hu p hp] at this
    exact List.mem_range.mpr (List.getElem?_eq_some_iff.mp this).1
  have := hcalls.length_le_of_subset (fun k hk => hlt k hk)
  simpa using this

/-- **C63** At any time at most one call for a document waits for its timer: the last one. -/
theorem C63_one_waiting (files : Path → Option Bytes) (es : List LspEvent) (u : Uri) (i : Nat) (v : Validation C)
    (hv : (((Server.start files).run env client es).calls u)[i]? = some v) (hw : v.phase = .waiting) : i + 1 = (notified u es).length := by
  have h := track_run env client files es
  have hlt := (List.getElem?_eq_some_iff.mp hv).1
  have hlen : (((Server.start files).run env client es).calls u).length = (notified u es).length := by
    rw [← h.versions u, List.length_map]
  by_cases hl : i + 1 < (((Server.start files).run env client es).calls u).length
  · exact absurd hw (h.waits u i v hv (Or.inr hl))
  · omega

/-- What events do to a call, other than its own steps. -/
theorem next_call (hd : client.debounced = true) (s : Server C) (e : LspEvent) (u : Uri) (i : Nat) (v : Validation C)
    (hv : (s.calls u)[i]? = some v) (he : e ≠ .step u i) :
    ((s.next env client e).calls u)[i]? = some (match e with | .notify u' _ => if u' = u ∧ i + 1 = (s.calls u).length then v.cancel else v | _ => v) := by
  have hlt := (List.getElem?_eq_some_iff.mp hv).1
  cases e with
  | files f => exact hv
  | edit u t => exact hv
  | close u => exact hv
  | notify u' v' =>
    show ((s.validate env client u' v').calls u)[i]? = _
    unfold Server.validate
    rw [if_pos hd]
    simp only [setCalls]
    by_cases hu : u = u'
    · subst hu
      rw [if_pos rfl, debounceCall_get, if_neg (by omega), hv]
      simp only [true_and]
      split <;> rfl
    · rw [if_neg hu, hv, if_neg (fun h => hu h.1.symm)]
  | step u' j =>
    show ((s.stepCall env client u' j).calls u)[i]? = _
    rw [stepCall_calls, if_neg ?_, hv]
    rintro ⟨rfl, rfl⟩
    exact he rfl
  | format u' =>
    show ((s.format env client u').calls u)[i]? = _
    rw [(format_same env client s u').1, hv]
  | request u' => exact hv
  | go u' j =>
    show ((s.stepRequest env client u' j).calls u)[i]? = _
    rw [(stepRequest_same env client s u' j).1, hv]

theorem run_calls_length (files : Path → Option Bytes) (es : List LspEvent) (u : Uri) :
    (((Server.start files).run env client es).calls u).length = (notified u es).length := by
  rw [← (track_run env client files es).versions u, List.length_map]

/-- A cancelled call stays cancelled. -/
theorem cancelled_stays (hd : client.debounced = true) (s : Server C) (u : Uri) (i : Nat) (k : Int) (hv : (s.calls u)[i]? = some ⟨k, .cancelled⟩)
    (es : List LspEvent) : ((s.run env client es).calls u)[i]? = some ⟨k, .cancelled⟩ := by
  induction es using history_induction with
  | nil => exact hv
  | snoc es e ih =>
    rw [run_snoc]
    by_cases he : e = .step u i
    · subst he
      show (((s.run env client es).stepCall env client u i).calls u)[i]? = _
      rw [stepCall_calls, if_pos ⟨rfl, rfl⟩, ih]; rfl
    · rw [next_call env client hd _ e u i _ ih he]
      cases e with
      | notify u' v' => simp only; split <;> rfl
      | _ => rfl

/-- **C63** A call superseded while waiting is never published: between the two notifications its thread did not move. -/
theorem C63_superseded (hd : client.debounced = true) (files : Path → Option Bytes) (pre mid post : List LspEvent) (u : Uri) (v v' : Int)
    (hmid : LspEvent.step u (notified u pre).length ∉ mid) (p : Publication)
    (hp : p ∈ ((Server.start files).run env client (pre ++ [.notify u v] ++ mid ++ [.notify u v'] ++ post)).sent) :
    ¬ (p.uri = u ∧ p.call = (notified u pre).length) := by
  rintro ⟨h1, h2⟩
  have h3 := (track_run env client files _).sent p hp
  rw [h1, h2] at h3
  have hnew : (((Server.start files).run env client (pre ++ [.notify u v])).calls u)[(notified u pre).length]? = some ⟨v, .waiting⟩ := by
    rw [run_snoc]
    show ((((Server.start files).run env client pre).validate env client u v).calls u)[_]? = _
    unfold Server.validate
    rw [if_pos hd]
    simp only [setCalls]
    rw [if_pos trivial, debounceCall_get, if_pos (run_calls_length env client files pre u).symm]
  have hwait : ∀ mid, LspEvent.step u (notified u pre).length ∉ mid →
      ∃ ph, (((Server.start files).run env client (pre ++ [.notify u v] ++ mid)).calls u)[(notified u pre).length]? = some ⟨v, ph⟩ ∧
        ((ph = .waiting ∧ (notified u (pre ++ [.notify u v] ++ mid)).length = (notified u pre).length + 1) ∨ ph = .cancelled) := by
    intro mid
    induction mid using history_induction with
    | nil => intro _; exact ⟨.waiting, by simpa using hnew, Or.inl ⟨rfl, by simp [notified_append, notified]⟩⟩
    | snoc es e ih =>
      intro hm
      rw [List.mem_append, not_or, List.mem_singleton] at hm
      obtain ⟨ph, hc, hph⟩ := ih hm.1
      rw [← List.append_assoc, run_snoc, next_call env client hd _ e u _ _ hc (fun h => hm.2 h.symm)]
      rcases hph with ⟨rfl, hl⟩ | rfl
      · cases e with
        | notify u' w =>
          simp only [run_calls_length, hl]
          by_cases hu : u' = u
          · subst hu
            exact ⟨.cancelled, by simp [Validation.cancel], Or.inr rfl⟩
          · refine ⟨.waiting, by simp [hu], Or.inl ⟨rfl, ?_⟩⟩
            rw [notified_append, List.length_append, hl]; simp [notified, hu]
        | _ => exact ⟨.waiting, rfl, Or.inl ⟨rfl, by rw [notified_append, List.length_append, hl]; simp [notified]⟩⟩
      · refine ⟨.cancelled, ?_, Or.inr rfl⟩
        cases e with
        | notify u' w => simp only; split <;> rfl
        | _ => rfl
  obtain ⟨ph, hc, hph⟩ := hwait mid hmid
  have hcan : (((Server.start files).run env client (pre ++ [.notify u v] ++ mid ++ [.notify u v'])).calls u)[(notified u pre).length]? = some ⟨v, .cancelled⟩ := by
    rw [run_snoc, next_call env client hd _ _ u _ _ hc (by simp)]
    rcases hph with ⟨rfl, hl⟩ | rfl
    · simp only [run_calls_length, hl]; simp [Validation.cancel]
    · simp only; split <;> rfl
  have := cancelled_stays env client hd _ u _ v hcan post
  rw [← run_append, h3] at this
  cases this

/-! ## C65: no debouncing -/

theorem step_facts (t : Server C) (u : Uri) (i : Nat) (k : Int) (ph : Phase C) (h : (t.calls u)[i]? = some ⟨k, ph⟩) :
    ((t.stepCall env client u i).calls u)[i]? = some ⟨k, nextPhase env client t u ph⟩ ∧ (t.stepCall env client u i).files = t.files ∧
    (t.stepCall env client u i).docs = t.docs ∧ (t.stepCall env client u i).cache = nextCache t ph ∧
    (t.stepCall env client u i).sent = t.sent ++ nextSent env t u i k ph := by
  obtain ⟨h1, h2, -⟩ := stepCall_source env client t u i
  refine ⟨?_, h1, h2, ?_, stepCall_sent env client t u i _ h⟩
  · rw [stepCall_calls, if_pos ⟨rfl, rfl⟩, h]; rfl
  · rw [stepCall_cache, h]

/-- A call that has ended does nothing more. -/
theorem step_ended (t : Server C) (u : Uri) (i : Nat) (k : Int) (l : List Publication)
    (h : (t.calls u)[i]? = some ⟨k, .ended⟩ ∧ t.sent = l) :
    ((t.stepCall env client u i).calls u)[i]? = some ⟨k, .ended⟩ ∧ (t.stepCall env client u i).sent = l := by
  obtain ⟨h1, -, -, -, h2⟩ := step_facts env client t u i k _ h.1
  exact ⟨h1, by rw [h2, h.2]; simp [nextSent]⟩

/-- The last two steps. -/
theorem step_ready (t : Server C) (u : Uri) (i : Nat) (k : Int) (path : Path) (content : Bytes) (cfg : C)
    (h : (t.calls u)[i]? = some ⟨k, .returning path content⟩) (hc : t.cache path = some cfg) :
    let t' := (t.stepCall env client u i).stepCall env client u i
    (t'.calls u)[i]? = some ⟨k, .ended⟩ ∧ t'.sent = t.sent ++ [⟨u, i, k, (found env t.files path content cfg).map shownAs⟩] := by
  obtain ⟨h1, f1, -, -, s1⟩ := step_facts env client t u i k _ h
  simp only [nextPhase, hc] at h1
  obtain ⟨h2, f2, -, -, s2⟩ := step_facts env client _ u i k _ h1
  refine ⟨h2, ?_⟩
  rw [s2, s1]
  simp only [nextSent, List.append_nil]
  rw [C66_diagnostics, f1]

/-- **C65** Without a debounce interval a notification is answered before anything else happens: the document is published once, with its present source and
its configuration; nothing is published when it is no file, cannot be read, or has no valid configuration. -/
theorem C65_at_once (hd : client.debounced = false) (s : Server C) (u : Uri) (version : Int) :
    ((s.next env client (.notify u version)).sent =
      match client.fsPath u with
      | none => s.sent
      | some path => match s.source client u with
        | .error _ => s.sent
        | .ok content => match s.cache path, env.config s.files path with
          | none, .error _ => s.sent
          | none, .ok cfg => s.sent ++ [⟨u, (s.calls u).length, version, (found env s.files path content cfg).map shownAs⟩]
          | some cfg, _ => s.sent ++ [⟨u, (s.calls u).length, version, (found env s.files path content cfg).map shownAs⟩]) ∧
    ((s.next env client (.notify u version)).calls u)[(s.calls u).length]? = some ⟨version, .ended⟩ := by
  show (s.validate env client u version).sent = _ ∧ ((s.validate env client u version).calls u)[_]? = _
  unfold Server.validate
  rw [hd]
  simp only [Bool.false_eq_true, if_false]
  have h0 : (setCalls s.calls u (s.calls u ++ [⟨version, .running⟩]) u)[(s.calls u).length]? = some ⟨version, .running⟩ := by
    simp [setCalls]
  generalize ht : ({ s with calls := setCalls s.calls u (s.calls u ++ [Validation.mk version .running]) } : Server C) = t
  have htc : (t.calls u)[(s.calls u).length]? = some ⟨version, .running⟩ := by rw [← ht]; exact h0
  have htf : t.files = s.files := by rw [← ht]
  have htk : t.cache = s.cache := by rw [← ht]
  have hts : t.sent = s.sent := by rw [← ht]
  have htd : t.source client u = s.source client u := by rw [← ht]; rfl
  obtain ⟨h1, f1, -, k1, s1⟩ := step_facts env client t u _ version _ htc
  simp only [nextSent, List.append_nil, hts] at s1
  simp only [nextCache] at k1
  rw [htf] at f1
  rw [htk] at k1
  simp only [nextPhase, htd, htk, htf] at h1
  cases hp : client.fsPath u with
  | none =>
    simp only [hp] at h1 ⊢
    exact (step_ended env client _ u _ version _ (step_ended env client _ u _ version _ (step_ended env client _ u _ version _ ⟨h1, s1⟩))).symm
  | some path =>
    simp only [hp] at h1 ⊢
    cases hs : s.source client u with
    | error e =>
      simp only [hs] at h1 ⊢
      exact (step_ended env client _ u _ version _ (step_ended env client _ u _ version _ (step_ended env client _ u _ version _ ⟨h1, s1⟩))).symm
    | ok content =>
      simp only [hs] at h1 ⊢
      cases hc : s.cache path with
      | some cfg =>
        simp only [hc] at h1 ⊢
        obtain ⟨h2, s2⟩ := step_ready env client _ u _ version path content cfg h1 (by rw [k1, hc])
        rw [s1, f1] at s2
        exact (step_ended env client _ u _ version _ ⟨h2, s2⟩).symm
      | none =>
        simp only [hc] at h1 ⊢
        cases hcf : env.config s.files path with
        | error e =>
          simp only [hcf] at h1 ⊢
          exact (step_ended env client _ u _ version _ (step_ended env client _ u _ version _ (step_ended env client _ u _ version _ ⟨h1, s1⟩))).symm
        | ok cfg =>
          simp only [hcf] at h1 ⊢
          obtain ⟨h2, f2, -, k2, s2⟩ := step_facts env client _ u _ version _ h1
          simp only [nextPhase, nextCache] at h2 k2
          simp only [nextSent, List.append_nil, s1] at s2
          rw [f1] at f2
          obtain ⟨h3, s3⟩ := step_ready env client _ u _ version path content cfg h2 (by rw [k2]; simp)
          rw [s2, f2] at s3
          exact ⟨s3, h3⟩

end Fixit
