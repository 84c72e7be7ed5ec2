import Verif.Props.LspCache

/-!
# C64: documents do not disturb each other
-/

namespace Fixit
open Py Py.Gen Spec

variable {C : Type} (env : Env C) (client : Client)

/-- Two servers are the same as far as one document goes. -/
structure SameFor (u : Uri) (s t : Server C) : Prop where
  files : t.files = s.files
  docs : t.docs u = s.docs u
  cache : ∀ path, client.fsPath u = some path → t.cache path = s.cache path
  calls : t.calls u = s.calls u
  sent : publishedFor t u = publishedFor s u
  edits : repliesFor t u = repliesFor s u
  requests : t.requests u = s.requests u

theorem SameFor.symm {u : Uri} {s t : Server C} (h : SameFor client u s t) : SameFor client u t s :=
  ⟨h.files.symm, h.docs.symm, fun p hp => (h.cache p hp).symm, h.calls.symm, h.sent.symm, h.edits.symm, h.requests.symm⟩

theorem SameFor.trans {u : Uri} {s t r : Server C} (h : SameFor client u s t) (h' : SameFor client u t r) : SameFor client u s r :=
  ⟨h'.files.trans h.files, h'.docs.trans h.docs, fun p hp => (h'.cache p hp).trans (h.cache p hp), h'.calls.trans h.calls, h'.sent.trans h.sent,
   h'.edits.trans h.edits, h'.requests.trans h.requests⟩

theorem SameFor.refl (u : Uri) (s : Server C) : SameFor client u s s := ⟨rfl, rfl, fun _ _ => rfl, rfl, rfl, rfl, rfl⟩

theorem SameFor.source {u : Uri} {s t : Server C} (h : SameFor client u s t) : t.source client u = s.source client u := by
  simp only [Server.source, h.docs, h.files]

/-- Steps of another document's calls. -/
theorem stepCall_other {u u' : Uri} (hu : u' ≠ u) (halone : ∀ p, client.fsPath u = some p → client.fsPath u' ≠ some p) (s : Server C) (hC : Cached client s)
    (i : Nat) : SameFor client u s (s.stepCall env client u' i) := by
  cases hv : (s.calls u')[i]? with
  | none => rw [stepCall_none env client s u' i hv]; exact SameFor.refl client u s
  | some v =>
    obtain ⟨h1, h2, h3⟩ := stepCall_source env client s u' i
    have hk := hC.calls u' i v hv
    refine ⟨h1, by rw [h2], ?_, ?_, ?_, ?_, by rw [stepCall_requests]⟩
    · intro p hp
      rw [stepCall_cache, hv]
      simp only [nextCache]
      cases hph : v.phase with
      | storing p' b c =>
        rw [hph] at hk
        simp only
        rw [if_neg]
        rintro rfl
        exact halone p hp hk
      | _ => rfl
    · apply List.ext_getElem?
      intro j
      rw [stepCall_calls, if_neg (fun h => hu h.1.symm)]
    · unfold publishedFor
      rw [stepCall_sent env client s u' i v hv, List.filter_append]
      suffices h : List.filter (fun p => decide (p.uri = u)) (nextSent env s u' i v.version v.phase) = [] by rw [h, List.append_nil]
      refine List.filter_eq_nil_iff.mpr ?_
      intro q hq
      unfold nextSent at hq
      cases hph : v.phase with
      | ready p b c => rw [hph] at hq; cases List.mem_singleton.mp hq; simpa using hu
      | _ => rw [hph] at hq; cases hq
    · unfold repliesFor; rw [h3]

theorem setCalls_other {u u' : Uri} (hu : u' ≠ u) (s : Server C) (l : List (Validation C)) :
    SameFor client u s { s with calls := setCalls s.calls u' l } :=
  ⟨rfl, rfl, fun _ _ => rfl, by simp only [setCalls]; rw [if_neg (fun h => hu h.symm)], rfl, rfl, rfl⟩

/-- What a format request is replied to with. -/
def replyOf (s : Server C) (u : Uri) : Except Err (Option TextEdit) :=
  match client.fsPath u with
  | none => .ok none
  | some path => match s.source client u with
    | .error e => .error e
    | .ok content => match s.cache path with
      | some cfg => editFor client s u (returnedValue (Gen.drain none (fixitBytes env path content cfg true false) ⟨s.files, []⟩).2.1)
      | none => match env.config s.files path with
        | .error e => .error e
        | .ok cfg => editFor client s u (returnedValue (Gen.drain none (fixitBytes env path content cfg true false) ⟨s.files, []⟩).2.1)

theorem format_edits (s : Server C) (u : Uri) : (s.format env client u).edits = s.edits ++ [(u, replyOf env client s u)] := by
  unfold Server.format replyOf
  cases client.fsPath u with
  | none => rfl
  | some path =>
    simp only
    cases s.source client u with
    | error e => rfl
    | ok content =>
      simp only [Server.loadConfig]
      cases s.cache path with
      | some cfg => rfl
      | none =>
        simp only
        cases env.config s.files path with
        | error e => rfl
        | ok cfg => rfl

/-- What it does to the cache. -/
theorem format_cache (s : Server C) (u : Uri) (p : Path) : (s.format env client u).cache p =
    match client.fsPath u, s.source client u, s.cache p, env.config s.files p with
    | some path, .ok _, none, .ok cfg => if p = path then some cfg else none
    | _, _, c, _ => c := by
  unfold Server.format
  cases hp : client.fsPath u with
  | none => rfl
  | some path =>
    simp only
    cases hs : s.source client u with
    | error e => rfl
    | ok content =>
      simp only [Server.loadConfig]
      by_cases hpp : p = path
      · subst hpp
        cases hc : s.cache p with
        | some cfg => simp [hc]
        | none =>
          simp only
          cases hcf : env.config s.files p with
          | error e => simp [hc]
          | ok cfg => simp
      · cases hc : s.cache path with
        | some cfg => simp only; cases hc' : s.cache p <;> cases env.config s.files p <;> simp [hpp]
        | none =>
          simp only
          cases hcf : env.config s.files path with
          | error e => simp only; cases hc' : s.cache p <;> cases env.config s.files p <;> simp [hpp]
          | ok cfg => simp only [if_neg hpp]; cases hc' : s.cache p <;> cases env.config s.files p <;> simp [hpp]

theorem stepRequest_edits (s : Server C) (u : Uri) (i : Nat) (ph : Phase C) (h : (s.requests u)[i]? = some ph) :
    (s.stepRequest env client u i).edits = s.edits ++ (requestReply env client s u ph).toList.map (fun r => (u, r)) := by
  unfold Server.stepRequest; rw [h]

/-- Steps of another document's format requests. -/
theorem stepRequest_other {u u' : Uri} (hu : u' ≠ u) (halone : ∀ p, client.fsPath u = some p → client.fsPath u' ≠ some p) (s : Server C) (hC : Cached client s)
    (i : Nat) : SameFor client u s (s.stepRequest env client u' i) := by
  cases hv : (s.requests u')[i]? with
  | none => rw [stepRequest_none env client s u' i hv]; exact SameFor.refl client u s
  | some ph =>
    obtain ⟨h1, h2, h3, h4⟩ := stepRequest_same env client s u' i
    have hk := hC.requests u' i ph hv
    refine ⟨h3, by rw [h4], ?_, by rw [h1], by unfold publishedFor; rw [h2], ?_, ?_⟩
    · intro p hp
      rw [stepRequest_cache, hv]
      simp only [nextCache]
      cases ph with
      | storing p' b c =>
        simp only
        rw [if_neg]
        rintro rfl
        exact halone p hp hk
      | _ => rfl
    · unfold repliesFor
      rw [stepRequest_edits env client s u' i ph hv, List.filter_append]
      cases requestReply env client s u' ph with
      | none => simp
      | some r => simp [hu]
    · apply List.ext_getElem?
      intro j
      rw [stepRequest_requests, if_neg (fun h => hu h.1.symm)]

/-- An event that does not concern the document. -/
theorem next_other {u : Uri} (halone : ∀ p, client.fsPath u = some p → ∀ u', u' ≠ u → client.fsPath u' ≠ some p) (s : Server C) (hC : Cached client s)
    (e : LspEvent) (he : LspEvent.concerns u e = false) : SameFor client u s (s.next env client e) := by
  cases e with
  | files f => cases he
  | edit u' t =>
    have hu : ¬ u' = u := by simpa [LspEvent.concerns, LspEvent.about] using he
    exact ⟨rfl, by simp only [Server.next]; rw [if_neg (fun h => hu h.symm)], fun _ _ => rfl, rfl, rfl, rfl, rfl⟩
  | close u' =>
    have hu : ¬ u' = u := by simpa [LspEvent.concerns, LspEvent.about] using he
    exact ⟨rfl, by simp only [Server.next]; rw [if_neg (fun h => hu h.symm)], fun _ _ => rfl, rfl, rfl, rfl, rfl⟩
  | notify u' v =>
    have hu : ¬ u' = u := by simpa [LspEvent.concerns, LspEvent.about] using he
    show SameFor client u s (s.validate env client u' v)
    unfold Server.validate
    split
    · exact setCalls_other client hu s _
    · have h0 : Cached client { s with calls := setCalls s.calls u' (s.calls u' ++ [Validation.mk v .running]) } := by
        refine ⟨?_, hC.sent, hC.requests⟩
        intro w j x hx
        simp only [setCalls] at hx
        split at hx
        · rename_i hw
          by_cases hj : j < (s.calls u').length
          · rw [List.getElem?_append_left hj] at hx; rw [hw]; exact hC.calls u' j x hx
          · rw [List.getElem?_append_right (by omega), List.getElem?_singleton] at hx
            split at hx
            · cases hx; trivial
            · cases hx
        · exact hC.calls w j x hx
      have go : ∀ (t : Server C) (j : Nat), SameFor client u s t ∧ Cached client t →
          SameFor client u s (t.stepCall env client u' j) ∧ Cached client (t.stepCall env client u' j) := by
        rintro t j ⟨h1, h2⟩
        exact ⟨h1.trans client (stepCall_other env client hu (fun p hp => halone p hp u' hu) t h2 j), h2.stepCall env client u' j⟩
      exact (go _ _ (go _ _ (go _ _ (go _ _ ⟨setCalls_other client hu s _, h0⟩)))).1
  | step u' i =>
    have hu : ¬ u' = u := by simpa [LspEvent.concerns, LspEvent.about] using he
    exact stepCall_other env client hu (fun p hp => halone p hp u' hu) s hC i
  | format u' =>
    have hu : ¬ u' = u := by simpa [LspEvent.concerns, LspEvent.about] using he
    show SameFor client u s (s.format env client u')
    obtain ⟨h1, h2, h3, h4, h5⟩ := format_same env client s u'
    have hr := format_edits env client s u'
    refine ⟨h3, by rw [h4], ?_, by rw [h1], by unfold publishedFor; rw [h2], ?_, by rw [format_requests]⟩
    · intro p hp
      rcases h5 with h5 | ⟨path, cfg, hpath, -, -, h5⟩
      · rw [h5]
      · rw [h5]
        simp only
        rw [if_neg]
        rintro rfl
        exact halone p hp u' hu hpath
    · unfold repliesFor
      rw [hr, List.filter_append]
      simp [hu]
  | request u' =>
    have hu : ¬ u' = u := by simpa [LspEvent.concerns, LspEvent.about] using he
    refine ⟨rfl, rfl, fun _ _ => rfl, rfl, rfl, rfl, ?_⟩
    show (s.request u').requests u = _
    simp only [Server.request]
    rw [if_neg (fun h => hu h.symm)]
  | go u' i =>
    have hu : ¬ u' = u := by simpa [LspEvent.concerns, LspEvent.about] using he
    exact stepRequest_other env client hu (fun p hp => halone p hp u' hu) s hC i

/-- A step of the document's own calls. -/
theorem stepCall_own {u : Uri} {s t : Server C} (h : SameFor client u s t) (hC : Cached client s) (i : Nat) :
    SameFor client u (s.stepCall env client u i) (t.stepCall env client u i) := by
  cases hv : (s.calls u)[i]? with
  | none =>
    rw [stepCall_none env client s u i hv, stepCall_none env client t u i (by rw [h.calls]; exact hv)]; exact h
  | some v =>
    have hvt : (t.calls u)[i]? = some v := by rw [h.calls]; exact hv
    obtain ⟨a1, a2, a3⟩ := stepCall_source env client s u i
    obtain ⟨b1, b2, b3⟩ := stepCall_source env client t u i
    have hk := hC.calls u i v hv
    have hph : nextPhase env client t u v.phase = nextPhase env client s u v.phase := by
      unfold nextPhase
      cases hp : v.phase with
      | running =>
        simp only
        cases hpath : client.fsPath u with
        | none => rfl
        | some path => simp only [h.source client, h.cache path hpath, h.files]
      | returning p b =>
        rw [hp] at hk
        simp only [h.cache p hk.1]
      | _ => rfl
    have hsent : ∀ i k, nextSent env t u i k v.phase = nextSent env s u i k v.phase := by
      intro i k
      unfold nextSent
      cases hp : v.phase with
      | ready p b c => simp only [lintResults, h.files]
      | _ => rfl
    refine ⟨by rw [a1, b1, h.files], by rw [a2, b2, h.docs], ?_, ?_, ?_, by unfold repliesFor; rw [a3, b3]; exact h.edits,
      by rw [stepCall_requests, stepCall_requests]; exact h.requests⟩
    · intro p hp
      rw [stepCall_cache, stepCall_cache, hv, hvt]
      simp only [nextCache]
      cases hph : v.phase with
      | storing p' b c => simp only; split; · rfl
                          · exact h.cache p hp
      | _ => exact h.cache p hp
    · apply List.ext_getElem?
      intro j
      rw [stepCall_calls, stepCall_calls, hv, hvt, h.calls]
      simp only [Option.map_some, hph]
    · have hs := h.sent
      unfold publishedFor at hs ⊢
      rw [stepCall_sent env client s u i v hv, stepCall_sent env client t u i v hvt, List.filter_append, List.filter_append, hs, hsent]

theorem repliesFor_snoc (s : Server C) (u : Uri) (r : Except Err (Option TextEdit)) (t : Server C) (h : t.edits = s.edits ++ [(u, r)]) :
    repliesFor t u = repliesFor s u ++ [(u, r)] := by
  unfold repliesFor; rw [h, List.filter_append]; simp

/-- A format request for the document. -/
theorem format_own {u : Uri} {s t : Server C} (h : SameFor client u s t) : SameFor client u (s.format env client u) (t.format env client u) := by
  obtain ⟨a1, a2, a3, a4, -⟩ := format_same env client s u
  obtain ⟨b1, b2, b3, b4, -⟩ := format_same env client t u
  have hsrc := h.source client
  refine ⟨by rw [a3, b3, h.files], by rw [a4, b4, h.docs], ?_, by rw [a1, b1, h.calls], ?_, ?_, by rw [format_requests, format_requests]; exact h.requests⟩
  · intro p hp
    rw [format_cache, format_cache, hsrc, h.cache p hp, h.files]
  · have := h.sent
    unfold publishedFor at this ⊢
    rw [a2, b2, this]
  · rw [repliesFor_snoc s u _ _ (format_edits env client s u), repliesFor_snoc t u _ _ (format_edits env client t u), h.edits]
    have : replyOf env client t u = replyOf env client s u := by
      unfold replyOf
      cases hp : client.fsPath u with
      | none => rfl
      | some path => simp only [hsrc, h.cache path hp, h.files, editFor, Server.text, h.docs]
    rw [this]

/-- What goes on with a document depends on that document. -/
theorem SameFor.nextPhase {u : Uri} {s t : Server C} (h : SameFor client u s t) {ph : Phase C} (hk : PhaseCached client s.cache u ph) :
    nextPhase env client t u ph = nextPhase env client s u ph := by
  unfold Fixit.nextPhase
  cases ph with
  | running =>
    simp only
    cases hpath : client.fsPath u with
    | none => rfl
    | some path => simp only [h.source client, h.cache path hpath, h.files]
  | returning p b => simp only [h.cache p hk.1]
  | _ => rfl

theorem SameFor.requestReply {u : Uri} {s t : Server C} (h : SameFor client u s t) {ph : Phase C} (hk : PhaseCached client s.cache u ph) :
    requestReply env client t u ph = requestReply env client s u ph := by
  unfold Fixit.requestReply
  cases ph with
  | running =>
    simp only
    cases hpath : client.fsPath u with
    | none => rfl
    | some path => simp only [h.source client, h.cache path hpath, h.files]
  | returning p b => simp only [h.cache p hk.1]
  | ready p b c => simp only [h.files, editFor, Server.text, h.docs]
  | _ => rfl

/-- A step of the document's own format requests. -/
theorem stepRequest_own {u : Uri} {s t : Server C} (h : SameFor client u s t) (hC : Cached client s) (i : Nat) :
    SameFor client u (s.stepRequest env client u i) (t.stepRequest env client u i) := by
  cases hv : (s.requests u)[i]? with
  | none => rw [stepRequest_none env client s u i hv, stepRequest_none env client t u i (by rw [h.requests]; exact hv)]; exact h
  | some ph =>
    have hvt : (t.requests u)[i]? = some ph := by rw [h.requests]; exact hv
    obtain ⟨a1, a2, a3, a4⟩ := stepRequest_same env client s u i
    obtain ⟨b1, b2, b3, b4⟩ := stepRequest_same env client t u i
    have hk := hC.requests u i ph hv
    refine ⟨by rw [a3, b3, h.files], by rw [a4, b4, h.docs], ?_, by rw [a1, b1, h.calls], ?_, ?_, ?_⟩
    · intro p hp
      rw [stepRequest_cache, stepRequest_cache, hv, hvt]
      simp only [nextCache]
      cases ph with
      | storing p' b c => simp only; split; · rfl
                          · exact h.cache p hp
      | _ => exact h.cache p hp
    · have := h.sent
      unfold publishedFor at this ⊢
      rw [a2, b2, this]
    · have he := h.edits
      unfold repliesFor at he ⊢
      rw [stepRequest_edits env client s u i ph hv, stepRequest_edits env client t u i ph hvt, List.filter_append, List.filter_append, he, h.requestReply env client hk]
    · apply List.ext_getElem?
      intro j
      rw [stepRequest_requests, stepRequest_requests, hv, hvt, h.requests]
      simp only [Option.map_some, h.nextPhase env client hk]

/-- An event that concerns the document. -/
theorem next_own {u : Uri} {s t : Server C} (h : SameFor client u s t) (hC : Cached client s) (e : LspEvent) (he : LspEvent.concerns u e = true) :
    SameFor client u (s.next env client e) (t.next env client e) := by
  cases e with
  | files f => exact ⟨rfl, h.docs, h.cache, h.calls, h.sent, h.edits, h.requests⟩
  | edit u' x =>
    have hu : u' = u := by simpa [LspEvent.concerns, LspEvent.about] using he
    subst hu
    exact ⟨h.files, by simp [Server.next], h.cache, h.calls, h.sent, h.edits, h.requests⟩
  | close u' =>
    have hu : u' = u := by simpa [LspEvent.concerns, LspEvent.about] using he
    subst hu
    exact ⟨h.files, by simp [Server.next], h.cache, h.calls, h.sent, h.edits, h.requests⟩
  | notify u' v =>
    have hu : u' = u := by simpa [LspEvent.concerns, LspEvent.about] using he
    subst hu
    show SameFor client u' (s.validate env client u' v) (t.validate env client u' v)
    unfold Server.validate
    rw [h.calls]
    split
    · exact ⟨h.files, h.docs, h.cache, by simp [setCalls], h.sent, h.edits, h.requests⟩
    · have h0 : Cached client { s with calls := setCalls s.calls u' (s.calls u' ++ [Validation.mk v .running]) } := by
        refine ⟨?_, hC.sent, hC.requests⟩
        intro w j x hx
        simp only [setCalls] at hx
        split at hx
        · rename_i hw
          by_cases hj : j < (s.calls u').length
          · rw [List.getElem?_append_left hj] at hx; rw [hw]; exact hC.calls u' j x hx
          · rw [List.getElem?_append_right (by omega), List.getElem?_singleton] at hx
            split at hx
            · cases hx; trivial
            · cases hx
        · exact hC.calls w j x hx
      have go : ∀ (a b : Server C) (j : Nat), SameFor client u' a b ∧ Cached client a →
          SameFor client u' (a.stepCall env client u' j) (b.stepCall env client u' j) ∧ Cached client (a.stepCall env client u' j) := by
        rintro a b j ⟨h1, h2⟩
        exact ⟨stepCall_own env client h1 h2 j, h2.stepCall env client u' j⟩
      refine (go _ _ _ (go _ _ _ (go _ _ _ (go _ _ _ ⟨?_, h0⟩)))).1
      exact ⟨h.files, h.docs, h.cache, by simp [setCalls], h.sent, h.edits, h.requests⟩
  | step u' i =>
    have hu : u' = u := by simpa [LspEvent.concerns, LspEvent.about] using he
    subst hu
    exact stepCall_own env client h hC i
  | format u' =>
    have hu : u' = u := by simpa [LspEvent.concerns, LspEvent.about] using he
    subst hu
    exact format_own env client h
  | request u' =>
    have hu : u' = u := by simpa [LspEvent.concerns, LspEvent.about] using he
    subst hu
    exact ⟨h.files, h.docs, h.cache, h.calls, h.sent, h.edits, by simp [Server.next, Server.request, h.requests]⟩
  | go u' i =>
    have hu : u' = u := by simpa [LspEvent.concerns, LspEvent.about] using he
    subst hu
    exact stepRequest_own env client h hC i

/-- **C64** What a document's client sees – diagnostics published and replies to format requests, in their order – does not depend on what is done with other
documents: leaving all their events out of the history changes nothing (for a path no other document has). -/
theorem C64_apart (files : Path → Option Bytes) (es : List LspEvent) (u : Uri)
    (halone : ∀ p, client.fsPath u = some p → ∀ u', u' ≠ u → client.fsPath u' ≠ some p) :
    publishedFor ((Server.start files).run env client es) u = publishedFor ((Server.start files).run env client (es.filter (LspEvent.concerns u))) u ∧
    repliesFor ((Server.start files).run env client es) u = repliesFor ((Server.start files).run env client (es.filter (LspEvent.concerns u))) u := by
  have h : SameFor client u ((Server.start files).run env client (es.filter (LspEvent.concerns u))) ((Server.start files).run env client es) := by
    induction es using history_induction with
    | nil => exact SameFor.refl client u _
    | snoc es e ih =>
      rw [List.filter_append, run_snoc]
      cases he : LspEvent.concerns u e with
      | false =>
        simp only [List.filter_cons, he, List.filter_nil, List.append_nil, Bool.false_eq_true, if_false]
        exact ih.trans client (next_other env client halone _ (cached_run env client files es) e he)
      | true =>
        simp only [List.filter_cons, he, List.filter_nil, if_true]
        rw [run_snoc]
        exact next_own env client ih (cached_run env client files _) e he
  exact ⟨h.sent, h.edits⟩

end Fixit
