import Verif.Props.LspHistory

/-!
# C62, C64, C68: the last notification, other documents, and the configuration cache
-/

namespace Fixit
open Py Py.Gen Spec

variable {C : Type} (env : Env C) (client : Client)

/-! ## C62 -/

/-- How far the call of the last notification is. `F`: files since then, `K`: configurations used. -/
def FollowPhase (F : (Path → Option Bytes) → Prop) (K : C → Prop) (sent : List Publication) (u : Uri) (i : Nat) (k : Int) (path : Path) (b : Bytes) : Phase C → Prop
  | .waiting => True
  | .cancelled => False
  | .running => True
  | .storing p b' _ => p = path ∧ b' = b
  | .returning p b' => p = path ∧ b' = b
  | .ready p b' c => p = path ∧ b' = b ∧ K c
  | .ended => (∃ f c, F f ∧ K c ∧ (⟨u, i, k, (found env f path b c).map shownAs⟩ : Publication) ∈ sent) ∨ ∃ f e, F f ∧ env.config f path = .error e

theorem FollowPhase.mono {F : (Path → Option Bytes) → Prop} {K : C → Prop} {sent sent' : List Publication} {u : Uri} {i : Nat} {k : Int} {path : Path} {b : Bytes}
    {ph : Phase C} (h : FollowPhase env F K sent u i k path b ph) (hs : ∀ p ∈ sent, p ∈ sent') : FollowPhase env F K sent' u i k path b ph := by
  cases ph with
  | ended =>
    rcases h with ⟨f, c, h1, h2, h3⟩ | h
    · exact Or.inl ⟨f, c, h1, h2, hs _ h3⟩
    · exact Or.inr h
  | _ => exact h

theorem next_sent_grows (hd : client.debounced = true) (s : Server C) (e : LspEvent) (p : Publication) (hp : p ∈ s.sent) : p ∈ (s.next env client e).sent := by
  cases e with
  | notify u v =>
    show p ∈ (s.validate env client u v).sent
    unfold Server.validate; rw [if_pos hd]; exact hp
  | step u i =>
    show p ∈ (s.stepCall env client u i).sent
    cases hv : (s.calls u)[i]? with
    | none => rw [stepCall_none env client s u i hv]; exact hp
    | some v => rw [stepCall_sent env client s u i v hv]; exact List.mem_append_left _ hp
  | format u =>
    show p ∈ (s.format env client u).sent
    rw [(format_same env client s u).2.1]; exact hp
  | go u i =>
    show p ∈ (s.stepRequest env client u i).sent
    rw [(stepRequest_same env client s u i).2.1]; exact hp
  | _ => exact hp

/-- The call of the last notification, followed. -/
def Follow (F : (Path → Option Bytes) → Prop) (K : C → Prop) (u : Uri) (i : Nat) (k : Int) (path : Path) (text : PStr) (b : Bytes) (s : Server C) : Prop :=
  ∃ ph, (s.calls u)[i]? = some ⟨k, ph⟩ ∧ s.docs u = some text ∧ FollowPhase env F K s.sent u i k path b ph

theorem next_docs (hd : client.debounced = true) (s : Server C) (e : LspEvent) (u : Uri) (h : LspEvent.changes u e = false) :
    (s.next env client e).docs u = s.docs u := by
  cases e with
  | edit u' t =>
    simp only [LspEvent.changes, decide_eq_false_iff_not] at h
    simp only [Server.next]
    rw [if_neg (fun h' => h h'.symm)]
  | close u' =>
    simp only [LspEvent.changes, decide_eq_false_iff_not] at h
    simp only [Server.next]
    rw [if_neg (fun h' => h h'.symm)]
  | notify u' v' => simp only [Server.next, Server.validate, hd, if_true]
  | step u' j => simp only [Server.next, (stepCall_source env client s u' j).2.1]
  | format u' => simp only [Server.next, (format_same env client s u').2.2.2.1]
  | files f => rfl
  | request u' => rfl
  | go u' j => simp only [Server.next, (stepRequest_same env client s u' j).2.2.2]

theorem Follow.step {F : (Path → Option Bytes) → Prop} {K : C → Prop} {u : Uri} {i : Nat} {k : Int} {path : Path} {text : PStr} {b : Bytes} {s : Server C}
    (h : Follow env F K u i k path text b s) (hpath : client.fsPath u = some path) (henc : client.encode text = .ok b) (hF : F s.files)
    (hK : ∀ cfg, s.cache path = some cfg → K cfg)
    (hR : ∀ (p : Path) (b : Bytes) (k : Int), (s.calls u)[i]? = some ⟨k, .returning p b⟩ → s.cache p ≠ none) :
    Follow env F K u i k path text b (s.stepCall env client u i) := by
  obtain ⟨ph, hc, htext, hph⟩ := h
  obtain ⟨h1, -, h3, -, h5⟩ := step_facts env client s u _ k ph hc
  refine ⟨_, h1, by rw [h3]; exact htext, ?_⟩
  rw [h5]
  cases ph with
  | waiting => trivial
  | cancelled => exact hph
  | running =>
    simp only [nextPhase, hpath, Server.source, htext, henc]
    cases hca : s.cache path with
    | some cfg => exact ⟨rfl, rfl⟩
    | none =>
      simp only
      cases hcf : env.config s.files path with
      | error e => exact Or.inr ⟨_, e, hF, hcf⟩
      | ok cfg => exact ⟨rfl, rfl⟩
  | storing p b c => exact hph
  | returning p b' =>
    have hr := hR p b' k hc
    obtain ⟨rfl, rfl⟩ := hph
    simp only [nextPhase]
    cases hca : s.cache p with
    | none => exact absurd hca hr
    | some cfg => exact ⟨rfl, rfl, hK cfg hca⟩
  | ready p b' c =>
    obtain ⟨rfl, rfl, hKc⟩ := hph
    refine Or.inl ⟨s.files, c, hF, hKc, ?_⟩
    simp only [nextSent, C66_diagnostics]
    simp
  | ended => exact hph.mono env (fun p hp => List.mem_append_left _ hp)

theorem Follow.next {F : (Path → Option Bytes) → Prop} {K : C → Prop} {u : Uri} {i : Nat} {k : Int} {path : Path} {text : PStr} {b : Bytes} {s : Server C}
    (hd : client.debounced = true) (h : Follow env F K u i k path text b s) (hpath : client.fsPath u = some path) (henc : client.encode text = .ok b)
    (hF : F s.files) (hK : ∀ cfg, s.cache path = some cfg → K cfg)
    (hR : ∀ (p : Path) (b : Bytes) (k : Int), (s.calls u)[i]? = some ⟨k, .returning p b⟩ → s.cache p ≠ none)
    (e : LspEvent) (hch : LspEvent.changes u e = false) : Follow env F K u i k path text b (s.next env client e) := by
  by_cases hstep : e = .step u i
  · subst hstep; exact h.step env client hpath henc hF hK hR
  · obtain ⟨ph, hc, htext, hph⟩ := h
    refine ⟨ph, ?_, by rw [next_docs env client hd s e u hch]; exact htext, hph.mono env (fun p hp => next_sent_grows env client hd s e p hp)⟩
    rw [next_call env client hd s e u _ _ hc hstep]
    cases e with
    | notify u' v' =>
      simp only [LspEvent.changes, decide_eq_false_iff_not] at hch
      simp [hch]
    | _ => rfl

/-- **C62** When a document is edited and announced for the last time, and all its calls are over, diagnostics of that version were published: those of the
text it has now, under a configuration of its path – unless its configuration could not be generated. -/
theorem C62_latest (hd : client.debounced = true) (files : Path → Option Bytes) (es₁ es₂ : List LspEvent) (u : Uri) (text : PStr) (version : Int)
    (path : Path) (content : Bytes) (hpath : client.fsPath u = some path) (henc : client.encode text = .ok content)
    (hlast : ∀ e ∈ es₂, LspEvent.changes u e = false) (es : List LspEvent) (hes : es = es₁ ++ [.edit u text, .notify u version] ++ es₂)
    (hover : ∀ v ∈ ((Server.start files).run env client es).calls u, Over v.phase) :
    (∃ f cfg, FilesSeen files (es₁ ++ [.edit u text, .notify u version]) es₂ f ∧
      ConfigSeen env files [] es path cfg ∧
      ⟨u, (notified u es₁).length, version, (found env f path content cfg).map shownAs⟩ ∈ ((Server.start files).run env client es).sent) ∨
    ∃ f e, FilesSeen files (es₁ ++ [.edit u text, .notify u version]) es₂ f ∧ env.config f path = .error e := by
  subst hes
  have hstart : Follow env (FilesSeen files (es₁ ++ [.edit u text, .notify u version]) es₂)
      (ConfigSeen env files [] (es₁ ++ [.edit u text, .notify u version] ++ es₂) path) u (notified u es₁).length version path text content
      ((Server.start files).run env client (es₁ ++ [.edit u text, .notify u version])) := by
    have hl := run_calls_length env client files es₁ u
    rw [run_append]
    generalize (Server.start files).run env client es₁ = t at *
    refine ⟨.waiting, ?_, ?_, trivial⟩
    · simp only [Server.run, List.foldl, Server.next, Server.validate, hd, if_true, setCalls]
      rw [debounceCall_get, hl, if_pos rfl]
    · simp only [Server.run, List.foldl, Server.next, Server.validate, hd, if_true]
  have main : ∀ q, q <+: es₂ → Follow env (FilesSeen files (es₁ ++ [.edit u text, .notify u version]) es₂)
      (ConfigSeen env files [] (es₁ ++ [.edit u text, .notify u version] ++ es₂) path) u (notified u es₁).length version path text content
      (((Server.start files).run env client (es₁ ++ [.edit u text, .notify u version])).run env client q) := by
    intro q
    induction q using history_induction with
    | nil => intro _; exact hstart
    | snoc q e ih =>
      intro hq
      have hq' : q <+: es₂ := List.IsPrefix.trans (List.prefix_append q [e]) hq
      have he : e ∈ es₂ := hq.subset (by simp)
      have hinv := inv_run env client files (es₁ ++ [.edit u text, .notify u version] ++ es₂) (es₁ ++ [LspEvent.edit u text, .notify u version] ++ q).length
      have htk : (es₁ ++ [LspEvent.edit u text, .notify u version] ++ es₂).take (es₁ ++ [LspEvent.edit u text, .notify u version] ++ q).length =
          es₁ ++ [.edit u text, .notify u version] ++ q := by
        obtain ⟨r, rfl⟩ := hq'
        rw [← List.append_assoc, List.take_left']
        rfl
      rw [htk, run_append] at hinv
      rw [run_snoc]
      exact (ih hq').next env client hd hpath henc ⟨q, hq', by rw [← run_append, run_files]⟩ (fun cfg hc => hinv.cache path cfg hc)
        (fun p b k hk => (hinv.calls u _ _ hk).2.2) e (hlast e he)
  obtain ⟨ph, hc, -, hph⟩ := main es₂ (List.prefix_refl _)
  rw [← run_append] at hc hph
  have := hover _ (List.mem_of_getElem? hc)
  cases ph with
  | ended => exact hph
  | cancelled => exact hph.elim
  | _ => exact this.elim

end Fixit
