import Verif.Props.LspFormat

/-!
# C127: formatting while documents are validated
-/

namespace Fixit
open Py Py.Gen Spec

variable {C : Type} (env : Env C) (client : Client)

/-- What happens to a request, other than the main thread going on with it: nothing. -/
theorem next_request (s : Server C) (e : LspEvent) (u : Uri) (i : Nat) (ph : Phase C) (hv : (s.requests u)[i]? = some ph) (he : e ≠ .go u i) :
    ((s.next env client e).requests u)[i]? = some ph := by
  have hlt := (List.getElem?_eq_some_iff.mp hv).1
  cases e with
  | files f => exact hv
  | edit u t => exact hv
  | close u => exact hv
  | notify u' v' =>
    show ((s.validate env client u' v').requests u)[i]? = _
    unfold Server.validate
    split
    · exact hv
    · simp only [stepCall_requests]; exact hv
  | step u' j =>
    show ((s.stepCall env client u' j).requests u)[i]? = _
    rw [stepCall_requests]; exact hv
  | format u' =>
    show ((s.format env client u').requests u)[i]? = _
    rw [format_requests]; exact hv
  | request u' =>
    simp only [Server.next, Server.request]
    split
    · rw [List.getElem?_append_left hlt]; exact hv
    · exact hv
  | go u' j =>
    show ((s.stepRequest env client u' j).requests u)[i]? = _
    rw [stepRequest_requests, if_neg ?_]
    · exact hv
    · rintro ⟨rfl, rfl⟩; exact he rfl

/-- The text of a document changes when it is edited or closed. -/
theorem next_text (s : Server C) (e : LspEvent) (u : Uri) (h : LspEvent.changes u e = false) : (s.next env client e).docs u = s.docs u := by
  cases e with
  | notify u' v' =>
    show (s.validate env client u' v').docs u = _
    unfold Server.validate
    split
    · rfl
    · simp only [(stepCall_source env client _ _ _).2.1]
  | edit u' t =>
    simp only [LspEvent.changes, decide_eq_false_iff_not] at h
    simp only [Server.next]
    rw [if_neg (fun h' => h h'.symm)]
  | close u' =>
    simp only [LspEvent.changes, decide_eq_false_iff_not] at h
    simp only [Server.next]
    rw [if_neg (fun h' => h h'.symm)]
  | step u' j => simp only [Server.next, (stepCall_source env client s u' j).2.1]
  | format u' => simp only [Server.next, (format_same env client s u').2.2.2.1]
  | files f => rfl
  | request u' => rfl
  | go u' j => simp only [Server.next, (stepRequest_same env client s u' j).2.2.2]

/-! ## A request ends, with one reply -/

/-- How many steps are left at most. -/
def phaseSteps : Phase C → Nat
  | .running => 4
  | .storing _ _ _ => 3
  | .returning _ _ => 2
  | .ready _ _ _ => 1
  | _ => 0

theorem phaseSteps_next (s : Server C) (u : Uri) (ph : Phase C) : phaseSteps (nextPhase env client s u ph) ≤ phaseSteps ph - 1 ∨ ph = .waiting := by
  cases ph with
  | running => left; simp only [nextPhase]; repeat' split
               all_goals simp [phaseSteps]
  | returning p b => left; unfold nextPhase; simp only; split <;> simp [phaseSteps]
  | waiting => right; rfl
  | _ => left; simp [nextPhase, phaseSteps]

/-- A request neither waits nor is cancelled. -/
def Serving : Phase C → Prop
  | .waiting => False
  | .cancelled => False
  | _ => True

theorem serving_next (s : Server C) (u : Uri) (ph : Phase C) (h : Serving ph) : Serving (nextPhase env client s u ph) := by
  cases ph with
  | running => unfold nextPhase; repeat' split
               all_goals trivial
  | returning p b => unfold nextPhase; simp only; split <;> trivial
  | waiting => exact h.elim
  | cancelled => exact h.elim
  | _ => trivial

theorem serving_ended (ph : Phase C) (h : Serving ph) (h0 : phaseSteps ph = 0) : ph = .ended := by
  cases ph <;> first | rfl | exact h.elim | cases h0

theorem request_progress (s : Server C) (u : Uri) (i : Nat) (ph : Phase C) (hv : (s.requests u)[i]? = some ph) (hs : Serving ph) (es : List LspEvent) :
    ∃ ph', ((s.run env client es).requests u)[i]? = some ph' ∧ Serving ph' ∧ phaseSteps ph' ≤ phaseSteps ph - wentOn u i es := by
  induction es generalizing s ph with
  | nil => exact ⟨ph, hv, hs, Nat.le_refl _⟩
  | cons e es ih =>
    show ∃ ph', (((s.next env client e).run env client es).requests u)[i]? = some ph' ∧ _
    by_cases he : e = .go u i
    · subst he
      have hn : ((s.next env client (.go u i)).requests u)[i]? = some (nextPhase env client s u ph) := by
        show ((s.stepRequest env client u i).requests u)[i]? = _
        rw [stepRequest_requests, if_pos ⟨rfl, rfl⟩, hv]; rfl
      obtain ⟨ph', h1, h2, h3⟩ := ih _ _ hn (serving_next env client s u ph hs)
      refine ⟨ph', h1, h2, ?_⟩
      rcases phaseSteps_next env client s u ph with hl | rfl
      · simp only [wentOn, and_self, if_true]; omega
      · exact hs.elim
    · obtain ⟨ph', h1, h2, h3⟩ := ih _ ph (next_request env client s e u i ph hv he) hs
      refine ⟨ph', h1, h2, ?_⟩
      cases e with
      | go u' j =>
        have : ¬ (u' = u ∧ j = i) := by rintro ⟨rfl, rfl⟩; exact he rfl
        simp only [wentOn, if_neg this]; omega
      | _ => exact h3

/-- **C127** A format request is over after the main thread went on with it four times, whatever happens in between. -/
theorem C127_ends (s : Server C) (u : Uri) (es : List LspEvent) (h : 4 ≤ wentOn u (s.requests u).length es) :
    (((s.next env client (.request u)).run env client es).requests u)[(s.requests u).length]? = some .ended := by
  have h0 : ((s.next env client (.request u)).requests u)[(s.requests u).length]? = some .running := by
    simp [Server.next, Server.request]
  obtain ⟨ph', h1, h2, h3⟩ := request_progress env client _ u _ .running h0 trivial es
  have h4 : phaseSteps (.running : Phase C) = 4 := rfl
  rw [h1, serving_ended ph' h2 (by omega)]

theorem stepCall_edits_all (s : Server C) (u : Uri) (v : Int) : (s.validate env client u v).edits = s.edits := by
  unfold Server.validate
  split
  · rfl
  · simp only [(stepCall_source env client _ _ _).2.2]

theorem validate_requests (s : Server C) (u : Uri) (v : Int) : (s.validate env client u v).requests = s.requests := by
  unfold Server.validate
  split
  · rfl
  · simp only [stepCall_requests]

theorem requested_append (u : Uri) (es es' : List LspEvent) : requested u (es ++ es') = requested u es + requested u es' := by
  induction es with
  | nil => simp [requested]
  | cons e es ih => cases e <;> simp only [List.cons_append, requested, ih] <;> omega

theorem formatted_append (u : Uri) (es es' : List LspEvent) : formatted u (es ++ es') = formatted u es + formatted u es' := by
  induction es with
  | nil => simp [formatted]
  | cons e es ih => cases e <;> simp only [List.cons_append, formatted, ih] <;> omega

theorem countP_set {α : Type} (p : α → Bool) (l : List α) (i : Nat) (a b : α) (h : l[i]? = some a) :
    (l.set i b).countP p + (if p a then 1 else 0) = l.countP p + (if p b then 1 else 0) := by
  induction l generalizing i with
  | nil => cases h
  | cons x l ih =>
    cases i with
    | zero =>
      simp only [List.getElem?_cons_zero, Option.some.injEq] at h
      subst h
      simp only [List.set_cons_zero, List.countP_cons]
      omega
    | succ i =>
      simp only [List.getElem?_cons_succ] at h
      have := ih i h
      simp only [List.set_cons_succ, List.countP_cons]
      omega

/-- The request replies in the step that ends it, and in no other. -/
theorem reply_iff_ends (s : Server C) (u : Uri) (ph : Phase C) (hs : Serving ph) :
    ((requestReply env client s u ph).toList.length + (if isOver ph then 1 else 0)) = (if isOver (nextPhase env client s u ph) then 1 else 0) := by
  cases ph with
  | waiting => exact hs.elim
  | cancelled => exact hs.elim
  | running =>
    cases hp : client.fsPath u with
    | none => simp [requestReply, nextPhase, hp, isOver]
    | some path =>
      cases hs : s.source client u with
      | error e => simp [requestReply, nextPhase, hp, hs, isOver]
      | ok b =>
        cases hc : s.cache path with
        | some c => simp [requestReply, nextPhase, hp, hs, hc, isOver]
        | none => cases hcf : env.config s.files path <;> simp [requestReply, nextPhase, hp, hs, hc, hcf, isOver]
  | storing p b c => rfl
  | returning p b => cases hc : s.cache p <;> simp [requestReply, nextPhase, hc, isOver]
  | ready p b c => rfl
  | ended => rfl

/-- **C127** Every format request is replied to once, when it is over, and not before: at any time of any history there are as many replies for a document as
requests for it that are over; and there are as many requests as were made. -/
theorem C127_one_reply (files : Path → Option Bytes) (es : List LspEvent) (u : Uri) :
    (repliesFor ((Server.start files).run env client es) u).length = formatted u es + (((Server.start files).run env client es).requests u).countP isOver ∧
    (((Server.start files).run env client es).requests u).length = requested u es := by
  have key : (∀ (i : Nat) ph, (((Server.start files).run env client es).requests u)[i]? = some ph → Serving ph) ∧
      (repliesFor ((Server.start files).run env client es) u).length = formatted u es + (((Server.start files).run env client es).requests u).countP isOver ∧
      (((Server.start files).run env client es).requests u).length = requested u es := by
    induction es using history_induction with
    | nil => refine ⟨?_, rfl, rfl⟩; intro i ph h; simp [Server.run, Server.start] at h
    | snoc es e ih =>
      rw [run_snoc, requested_append, formatted_append]
      generalize (Server.start files).run env client es = s at ih ⊢
      obtain ⟨ih0, ih1, ih2⟩ := ih
      cases e with
      | files f => exact ⟨ih0, ih1, ih2⟩
      | edit u t => exact ⟨ih0, ih1, ih2⟩
      | close u => exact ⟨ih0, ih1, ih2⟩
      | notify u' v =>
        have hr := validate_requests env client s u' v
        have he := stepCall_edits_all env client s u' v
        simp only [Server.next, repliesFor, hr, he]
        exact ⟨ih0, ih1, ih2⟩
      | step u' i =>
        have hr := stepCall_requests env client s u' i
        have he := (stepCall_source env client s u' i).2.2
        simp only [Server.next, repliesFor, hr, he]
        exact ⟨ih0, ih1, ih2⟩
      | format u' =>
        have hr := format_requests env client s u'
        have he := format_edits env client s u'
        simp only [Server.next, hr]
        refine ⟨ih0, ?_, by simpa [requested] using ih2⟩
        unfold repliesFor at ih1 ⊢
        rw [he, List.filter_append, List.length_append, ih1]
        by_cases hu : u' = u
        · simp [formatted, hu]; omega
        · simp [formatted, hu]
      | request u' =>
        simp only [Server.next, Server.request]
        by_cases hu : u = u'
        · subst hu
          simp only [if_true]
          refine ⟨?_, ?_, by simp [requested, ih2]⟩
          · intro i ph h
            by_cases hi : i < (s.requests u).length
            · rw [List.getElem?_append_left hi] at h; exact ih0 i ph h
            · rw [List.getElem?_append_right (by omega), List.getElem?_singleton] at h
              split at h
              · cases h; trivial
              · cases h
          · rw [List.countP_append]
            simpa [formatted, isOver, repliesFor] using ih1
        · have hu' : ¬ u' = u := fun h => hu h.symm
          simp only [hu, if_false]
          exact ⟨ih0, by simpa [formatted, repliesFor] using ih1, by simpa [requested, hu'] using ih2⟩
      | go u' i =>
        simp only [Server.next, formatted, requested, Nat.add_zero]
        cases hv : (s.requests u')[i]? with
        | none => rw [stepRequest_none env client s u' i hv]; exact ⟨ih0, ih1, ih2⟩
        | some ph =>
          have he := stepRequest_edits env client s u' i ph hv
          by_cases hu : u' = u
          · subst hu
            have hrq : (s.stepRequest env client u' i).requests u' = (s.requests u').set i (nextPhase env client s u' ph) := by
              unfold Server.stepRequest; rw [hv]; simp
            have hsv := ih0 i ph hv
            refine ⟨?_, ?_, by rw [hrq, List.length_set]; exact ih2⟩
            · intro j ph' hj
              rw [stepRequest_requests] at hj
              split at hj
              · rw [hv] at hj; cases hj; exact serving_next env client s u' ph hsv
              · exact ih0 j ph' hj
            · have hc := countP_set isOver (s.requests u') i ph (nextPhase env client s u' ph) hv
              have hre := reply_iff_ends env client s u' ph hsv
              have hlen : (repliesFor (s.stepRequest env client u' i) u').length = (repliesFor s u').length + (requestReply env client s u' ph).toList.length := by
                unfold repliesFor
                rw [he, List.filter_append, List.length_append]
                cases requestReply env client s u' ph <;> simp
              rw [hlen, ih1, hrq]
              omega
          · have hrq : (s.stepRequest env client u' i).requests u = s.requests u := by
              apply List.ext_getElem?
              intro j
              rw [stepRequest_requests, if_neg (fun h => hu h.1.symm)]
            have hrp : repliesFor (s.stepRequest env client u' i) u = repliesFor s u := by
              unfold repliesFor
              rw [he, List.filter_append]
              cases requestReply env client s u' ph <;> simp [hu]
            rw [hrq, hrp]
            exact ⟨ih0, ih1, ih2⟩
  exact ⟨key.2.1, key.2.2⟩

/-! ## What the reply is -/

/-- What the main thread knows at this point of a request. -/
def RequestOk (u : Uri) (text : PStr) (s : Server C) (es : List LspEvent) : Phase C → Prop
  | .storing path content _ => client.fsPath u = some path ∧ client.encode text = .ok content
  | .returning path content => client.fsPath u = some path ∧ client.encode text = .ok content
  | .ready path content cfg => client.fsPath u = some path ∧ client.encode text = .ok content ∧ ∃ pre, pre <+: es ∧ (s.run env client pre).cache path = some cfg
  | _ => True

theorem RequestOk.mono {u : Uri} {text : PStr} {s : Server C} {es : List LspEvent} {ph : Phase C} (h : RequestOk env client u text s es ph) (e : LspEvent) :
    RequestOk env client u text s (es ++ [e]) ph := by
  cases ph with
  | ready path content cfg =>
    obtain ⟨h1, h2, pre, h3, h4⟩ := h
    exact ⟨h1, h2, pre, h3.trans (List.prefix_append _ _), h4⟩
  | _ => exact h

theorem requestOk_run (u : Uri) (text : PStr) (s : Server C) (hdoc : s.docs u = some text) (i : Nat) (hi : (s.requests u)[i]? = some .running) (es : List LspEvent) :
    (∀ e ∈ es, LspEvent.changes u e = false) →
    (s.run env client es).docs u = some text ∧ ∃ ph, ((s.run env client es).requests u)[i]? = some ph ∧ RequestOk env client u text s es ph := by
  induction es using history_induction with
  | nil => intro _; exact ⟨hdoc, .running, hi, trivial⟩
  | snoc es e ih =>
    intro hno
    obtain ⟨ih1, ph, ih2, ih3⟩ := ih (fun e he => hno e (List.mem_append_left _ he))
    have hne := hno e (by simp)
    rw [run_snoc]
    refine ⟨by rw [next_text env client _ e u hne]; exact ih1, ?_⟩
    by_cases he : e = .go u i
    · subst he
      refine ⟨_, by
        show ((Server.stepRequest env client _ u i).requests u)[i]? = _
        rw [stepRequest_requests, if_pos ⟨rfl, rfl⟩, ih2]; rfl, ?_⟩
      generalize ht : s.run env client es = t at ih1 ih2
      have hsrc : t.source client u = client.encode text := by simp only [Server.source, ih1]
      cases ph with
      | running =>
        simp only [nextPhase, hsrc]
        cases hp : client.fsPath u with
        | none => trivial
        | some path =>
          simp only
          cases henc : client.encode text with
          | error x => trivial
          | ok content =>
            simp only
            cases hc : t.cache path with
            | some cfg => exact ⟨hp, henc⟩
            | none =>
              simp only
              cases hcf : env.config t.files path with
              | error x => trivial
              | ok cfg => exact ⟨hp, henc⟩
      | storing p c cfg => exact ih3
      | returning p c =>
        simp only [nextPhase]
        cases hc : t.cache p with
        | none => trivial
        | some cfg => exact ⟨ih3.1, ih3.2, es, List.prefix_append _ _, by rw [ht]; exact hc⟩
      | _ => trivial
    · exact ⟨ph, next_request env client _ e u i ph ih2 he, ih3.mono env client e⟩

/-- **C127** A format request of an open document whose text does not change until the reply, whatever else happens in between (validations of this and other
documents, changes of files, other requests): the reply is the one of a request that is answered at once, in a state with this text, the files there are now,
and what was cached for the document's path at one moment in between. So what C67 says about the reply holds of it. -/
theorem C127_reply (files : Path → Option Bytes) (es₀ es : List LspEvent) (u : Uri) (text : PStr) (s t : Server C) (i : Nat)
    (hs : s = (Server.start files).run env client (es₀ ++ [.request u])) (hi : i + 1 = (s.requests u).length) (ht : t = s.run env client es)
    (hdoc : s.docs u = some text) (hsame : ∀ e ∈ es, LspEvent.changes u e = false)
    (hbusy : (t.requests u)[i]? ≠ some .ended) (hdone : ((t.next env client (.go u i)).requests u)[i]? = some .ended) :
    ∃ (r : Except Err (Option TextEdit)) (a : Server C),
      (t.next env client (.go u i)).edits = t.edits ++ [(u, r)] ∧ (a.next env client (.format u)).edits = a.edits ++ [(u, r)] ∧
      a.docs u = some text ∧ a.files = t.files ∧ ∀ path, client.fsPath u = some path → ∃ pre, pre <+: es ∧ a.cache path = (s.run env client pre).cache path := by
  have hrun : (s.requests u)[i]? = some .running := by
    rw [run_snoc] at hs
    rw [hs] at hi ⊢
    simp only [Server.next, Server.request, if_true, List.length_append, List.length_singleton] at hi ⊢
    have : i = (((Server.start files).run env client es₀).requests u).length := by omega
    rw [this]; simp
  obtain ⟨h1, ph, h2, h3⟩ := requestOk_run env client u text s hdoc i hrun es hsame
  have hC : Cached client t := by
    have := cached_run env client files (es₀ ++ [.request u] ++ es)
    rw [run_append, ← hs, ← ht] at this
    exact this
  rw [← ht] at h1 h2
  have hk := hC.requests u i ph h2
  have hsrc : t.source client u = client.encode text := by simp only [Server.source, h1]
  have he : (t.next env client (.go u i)).edits = _ := stepRequest_edits env client t u i ph h2
  have hend : nextPhase env client t u ph = .ended := by
    have hd : ((t.stepRequest env client u i).requests u)[i]? = some .ended := hdone
    rw [stepRequest_requests, if_pos ⟨rfl, rfl⟩, h2] at hd
    exact Option.some.inj hd
  have hfmt : ∀ a : Server C, (a.next env client (.format u)).edits = a.edits ++ [(u, replyOf env client a u)] := fun a => format_edits env client a u
  cases hrep : requestReply env client t u ph with
  | none =>
    exfalso
    cases ph with
    | running =>
      simp only [requestReply] at hrep
      simp only [nextPhase] at hend
      cases hp : client.fsPath u with
      | none => rw [hp] at hrep; cases hrep
      | some path =>
        rw [hp] at hrep hend
        simp only at hrep hend
        cases hs : t.source client u with
        | error x => rw [hs] at hrep; cases hrep
        | ok content =>
          rw [hs] at hrep hend
          simp only at hrep hend
          cases hc : t.cache path with
          | some cfg => rw [hc] at hend; cases hend
          | none =>
            rw [hc] at hrep hend
            simp only at hrep hend
            cases hcf : env.config t.files path with
            | error x => rw [hcf] at hrep; cases hrep
            | ok cfg => rw [hcf] at hend; cases hend
    | returning p c =>
      simp only [requestReply] at hrep
      simp only [nextPhase] at hend
      cases hc : t.cache p with
      | none => exact hk.2 hc
      | some cfg => rw [hc] at hend; cases hend
    | ready p c cfg => simp [requestReply] at hrep
    | ended => exact hbusy h2
    | _ => cases hend
  | some r =>
    rw [hrep] at he
    refine ⟨r, ?_⟩
    cases ph with
    | running =>
      refine ⟨t, he, ?_, h1, rfl, fun path _ => ⟨es, List.prefix_rfl, by rw [ht]⟩⟩
      rw [hfmt]
      congr 3
      simp only [requestReply] at hrep
      unfold replyOf
      cases hp : client.fsPath u with
      | none => rw [hp] at hrep; exact Option.some.inj hrep
      | some path =>
        rw [hp] at hrep
        simp only at hrep ⊢
        cases hs : t.source client u with
        | error x => rw [hs] at hrep; exact Option.some.inj hrep
        | ok content =>
          rw [hs] at hrep
          simp only at hrep ⊢
          cases hc : t.cache path with
          | some cfg => rw [hc] at hrep; cases hrep
          | none =>
            rw [hc] at hrep
            simp only at hrep ⊢
            cases hcf : env.config t.files path with
            | error x => rw [hcf] at hrep; exact Option.some.inj hrep
            | ok cfg => rw [hcf] at hrep; cases hrep
    | returning p c =>
      simp only [requestReply] at hrep
      cases hc' : t.cache p with
      | none => exact absurd hc' hk.2
      | some cfg => rw [hc'] at hrep; cases hrep
    | ready p c cfg =>
      obtain ⟨hp, henc, pre, hpre, hc⟩ := h3
      refine ⟨{ t with cache := fun q => if q = p then some cfg else t.cache q }, he, ?_, h1, rfl, ?_⟩
      · rw [hfmt]
        congr 3
        simp only [requestReply, Option.some.injEq] at hrep
        rw [← hrep]
        refine (replyOf_open env client _ u p c cfg hp ?_ ?_).trans ?_
        · rw [← henc]; exact hsrc
        · left; simp
        · rfl
      · intro path hpath
        rw [hp, Option.some.injEq] at hpath
        subst hpath
        exact ⟨pre, hpre, by simp [hc]⟩
    | _ => cases hrep

/-! ## At once -/

/-- **C127** Nothing in between: the request and its four steps do what `format` does in one (a fifth step would do nothing). -/
theorem C127_at_once (s : Server C) (u : Uri) :
    let i := (s.requests u).length
    let t := s.run env client [.request u, .go u i, .go u i, .go u i, .go u i]
    t.edits = (s.format env client u).edits ∧ t.cache = (s.format env client u).cache ∧ t.files = (s.format env client u).files ∧
    t.docs = (s.format env client u).docs ∧ t.calls = (s.format env client u).calls ∧ t.sent = (s.format env client u).sent := by
  intro i t
  have hr : ((s.request u).requests u)[i]? = some .running := by simp [Server.request, i]
  have step : ∀ (a : Server C) (ph : Phase C), (a.requests u)[i]? = some ph → ((a.stepRequest env client u i).requests u)[i]? = some (nextPhase env client a u ph) ∧
      (a.stepRequest env client u i).cache = nextCache a ph ∧ (a.stepRequest env client u i).edits = a.edits ++ (requestReply env client a u ph).toList.map (fun r => (u, r)) ∧
      (a.stepRequest env client u i).files = a.files ∧ (a.stepRequest env client u i).docs = a.docs ∧ (a.stepRequest env client u i).calls = a.calls ∧
      (a.stepRequest env client u i).sent = a.sent := by
    intro a ph h
    obtain ⟨h1, h2, h3, h4⟩ := stepRequest_same env client a u i
    refine ⟨?_, ?_, stepRequest_edits env client a u i ph h, h3, h4, h1, h2⟩
    · rw [stepRequest_requests, if_pos ⟨rfl, rfl⟩, h]; rfl
    · rw [stepRequest_cache, h]
  have ended : ∀ (a : Server C), (a.requests u)[i]? = some .ended → ((a.stepRequest env client u i).requests u)[i]? = some .ended ∧
      (a.stepRequest env client u i).cache = a.cache ∧ (a.stepRequest env client u i).edits = a.edits ∧
      (a.stepRequest env client u i).files = a.files ∧ (a.stepRequest env client u i).docs = a.docs ∧ (a.stepRequest env client u i).calls = a.calls ∧
      (a.stepRequest env client u i).sent = a.sent := by
    intro a h
    obtain ⟨h1, h2, h3, h4⟩ := step a _ h
    exact ⟨h1, h2, by rw [h3]; simp [requestReply], h4⟩
  have ht : t = (((((s.request u).stepRequest env client u i).stepRequest env client u i).stepRequest env client u i).stepRequest env client u i) := rfl
  obtain ⟨f1, f2, f3, f4, -⟩ := format_same env client s u
  rw [ht, f1, f2, f3, f4, format_edits]
  have hsrc : (s.request u).source client u = s.source client u := rfl
  generalize h0 : s.request u = s₀ at hr hsrc
  have e0 : s₀.files = s.files ∧ s₀.docs = s.docs ∧ s₀.calls = s.calls ∧ s₀.sent = s.sent ∧ s₀.cache = s.cache ∧ s₀.edits = s.edits := by
    rw [← h0]; exact ⟨rfl, rfl, rfl, rfl, rfl, rfl⟩
  obtain ⟨a1, a2, a3, a4, a5, a6⟩ := e0
  obtain ⟨b1, b2, b3, b4, b5, b6, b7⟩ := step _ _ hr
  generalize s₀.stepRequest env client u i = s₁ at *
  have finish : ∀ a : Server C, (a.requests u)[i]? = some .ended → a.edits = s.edits ++ [(u, replyOf env client s u)] → a.cache = (s.format env client u).cache →
      a.files = s.files → a.docs = s.docs → a.calls = s.calls → a.sent = s.sent →
      ((a.stepRequest env client u i).requests u)[i]? = some .ended ∧ (a.stepRequest env client u i).edits = s.edits ++ [(u, replyOf env client s u)] ∧
      (a.stepRequest env client u i).cache = (s.format env client u).cache ∧
      (a.stepRequest env client u i).files = s.files ∧ (a.stepRequest env client u i).docs = s.docs ∧ (a.stepRequest env client u i).calls = s.calls ∧
      (a.stepRequest env client u i).sent = s.sent := by
    intro a h h1 h2 h3 h4 h5 h6
    obtain ⟨c1, c2, c3, c4, c5, c6, c7⟩ := ended a h
    exact ⟨c1, c3.trans h1, c2.trans h2, c4.trans h3, c5.trans h4, c6.trans h5, c7.trans h6⟩
  have stopped : (s₁.requests u)[i]? = some .ended → s₁.edits = s.edits ++ [(u, replyOf env client s u)] → s₁.cache = (s.format env client u).cache →
      ((((s₁.stepRequest env client u i).stepRequest env client u i).stepRequest env client u i).edits = s.edits ++ [(u, replyOf env client s u)] ∧
       (((s₁.stepRequest env client u i).stepRequest env client u i).stepRequest env client u i).cache = (s.format env client u).cache ∧
       (((s₁.stepRequest env client u i).stepRequest env client u i).stepRequest env client u i).files = s.files ∧
       (((s₁.stepRequest env client u i).stepRequest env client u i).stepRequest env client u i).docs = s.docs ∧
       (((s₁.stepRequest env client u i).stepRequest env client u i).stepRequest env client u i).calls = s.calls ∧
       (((s₁.stepRequest env client u i).stepRequest env client u i).stepRequest env client u i).sent = s.sent) := by
    intro h h1 h2
    obtain ⟨c1, c2, c3, c4, c5, c6, c7⟩ := finish s₁ h h1 h2 (b4.trans a1) (b5.trans a2) (b6.trans a3) (b7.trans a4)
    obtain ⟨d1, d2, d3, d4, d5, d6, d7⟩ := finish _ c1 c2 c3 c4 c5 c6 c7
    exact (finish _ d1 d2 d3 d4 d5 d6 d7).2
  simp only [nextPhase, hsrc, a5, a1] at b1
  simp only [requestReply, hsrc, a5, a1, a6] at b3
  simp only [nextCache, a5] at b2
  cases hp : client.fsPath u with
  | none =>
    rw [hp] at b1 b3
    exact stopped b1 (by rw [b3]; simp [replyOf, hp]) (by rw [b2]; simp [Server.format, hp])
  | some path =>
    rw [hp] at b1 b3
    simp only at b1 b3
    cases hs : s.source client u with
    | error x =>
      rw [hs] at b1 b3
      exact stopped b1 (by rw [b3]; simp [replyOf, hp, hs]) (by rw [b2]; simp [Server.format, hp, hs])
    | ok content =>
      rw [hs] at b1 b3
      simp only at b1 b3
      have last : ∀ (a : Server C) (cfg : C), (a.requests u)[i]? = some (.returning path content) → a.cache path = some cfg → a.edits = s.edits → a.files = s.files → a.docs = s.docs →
          a.calls = s.calls → a.sent = s.sent → a.cache = (s.format env client u).cache →
          replyOf env client s u = editFor client s u (returnedValue (Gen.drain none (fixitBytes env path content cfg true false) ⟨s.files, []⟩).2.1) →
          (((a.stepRequest env client u i).stepRequest env client u i).requests u)[i]? = some .ended ∧
          ((a.stepRequest env client u i).stepRequest env client u i).edits = s.edits ++ [(u, replyOf env client s u)] ∧
          ((a.stepRequest env client u i).stepRequest env client u i).cache = (s.format env client u).cache ∧
          ((a.stepRequest env client u i).stepRequest env client u i).files = s.files ∧ ((a.stepRequest env client u i).stepRequest env client u i).docs = s.docs ∧
          ((a.stepRequest env client u i).stepRequest env client u i).calls = s.calls ∧ ((a.stepRequest env client u i).stepRequest env client u i).sent = s.sent := by
        intro a cfg h hc he hf hd hca hse hch hrp
        obtain ⟨c1, c2, c3, c4, c5, c6, c7⟩ := step a _ h
        simp only [nextPhase, hc] at c1
        simp only [requestReply, hc, he] at c3
        simp only [nextCache] at c2
        obtain ⟨d1, d2, d3, d4, d5, d6, d7⟩ := step _ _ c1
        refine ⟨d1, ?_, by rw [d2]; simp only [nextCache]; rw [c2, hch], by rw [d4, c4, hf], by rw [d5, c5, hd], by rw [d6, c6, hca], by rw [d7, c7, hse]⟩
        rw [d3, c3, hrp]
        have hed : ∀ x, editFor client (a.stepRequest env client u i) u x = editFor client s u x := by
          intro x; simp only [editFor, Server.text, c5, hd, c4, hf]
        simp only [requestReply, hed, c4, hf]
        simp
      cases hc : s.cache path with
      | some cfg =>
        rw [hc] at b1 b3
        simp only at b1 b3
        have hfc : (s.format env client u).cache = s.cache := by simp [Server.format, hp, hs, Server.loadConfig, hc]
        obtain ⟨c1, c2, c3, c4, c5, c6, c7⟩ := last s₁ cfg b1 (by rw [b2, hc]) (by rw [b3]; simp) (b4.trans a1) (b5.trans a2) (b6.trans a3) (b7.trans a4) (by rw [b2, hfc])
          (by simp [replyOf, hp, hs, hc])
        exact (finish _ c1 c2 c3 c4 c5 c6 c7).2
      | none =>
        rw [hc] at b1 b3
        simp only at b1 b3
        cases hcf : env.config s.files path with
        | error x =>
          rw [hcf] at b1 b3
          exact stopped b1 (by rw [b3]; simp [replyOf, hp, hs, hc, hcf]) (by rw [b2]; simp [Server.format, hp, hs, Server.loadConfig, hc, hcf])
        | ok cfg =>
          rw [hcf] at b1 b3
          obtain ⟨c1, c2, c3, c4, c5, c6, c7⟩ := step _ _ b1
          simp only [nextPhase] at c1
          simp only [requestReply, b3] at c3
          simp only [nextCache, b2] at c2
          have hfc : (s.format env client u).cache = fun p => if p = path then some cfg else s.cache p := by simp [Server.format, hp, hs, Server.loadConfig, hc, hcf]
          exact (last _ cfg c1 (by rw [c2]; simp) (by rw [c3]; simp) (c4.trans (b4.trans a1)) (c5.trans (b5.trans a2)) (c6.trans (b6.trans a3)) (c7.trans (b7.trans a4)) (by rw [c2, hfc])
            (by simp [replyOf, hp, hs, hc, hcf])).2

end Fixit
