import Verif.Props.LspCache

/-!
# C66: what is published is not older than what was announced
-/

namespace Fixit
open Py Spec

section
variable {C : Type} (env : Env C) (client : Client)

/-- What one call knows, and what it published: sources in `S`, files in `F`. -/
structure Fresh (F : (Path → Option Bytes) → Prop) (S : Bytes → Prop) (K : Path → C → Prop) (u : Uri) (i : Nat) (s : Server C) : Prop where
  call : ∀ v, (s.calls u)[i]? = some v → match v.phase with
    | .storing _ b _ => S b
    | .returning _ b => S b
    | .ready _ b _ => S b
    | _ => True
  sent : ∀ p ∈ s.sent, p.uri = u → p.call = i → ∃ path content cfg f, client.fsPath u = some path ∧ S content ∧ K path cfg ∧ F f ∧
    p.diagnostics = (found env f path content cfg).map shownAs

theorem Fresh.stepCall {F F₀ : (Path → Option Bytes) → Prop} {S : Bytes → Prop} {S₀ : Uri → Bytes → Prop} {u : Uri} {i : Nat} {s : Server C}
    (h : Fresh env client F S (fun path cfg => ∃ f, F₀ f ∧ env.config f path = .ok cfg) u i s) (hinv : Inv env client F₀ S₀ s) (hF : F s.files)
    (hS : ∀ b, s.source client u = .ok b → S b) (u' : Uri) (j : Nat) :
    Fresh env client F S (fun path cfg => ∃ f, F₀ f ∧ env.config f path = .ok cfg) u i (s.stepCall env client u' j) := by
  cases hv : (s.calls u')[j]? with
  | none => rw [stepCall_none env client s u' j hv]; exact h
  | some v =>
    refine ⟨?_, ?_⟩
    · intro w hw
      rw [stepCall_calls] at hw
      split at hw
      · rename_i hij
        obtain ⟨rfl, rfl⟩ := hij
        rw [hv] at hw
        simp only [Option.map_some, Option.some.injEq] at hw
        subst hw
        have hk := h.call v hv
        cases hph : v.phase with
        | running =>
          simp only [nextPhase]
          cases client.fsPath u with
          | none => trivial
          | some path =>
            simp only
            cases hs : s.source client u with
            | error e => trivial
            | ok content =>
              simp only
              cases s.cache path with
              | some c => exact hS _ hs
              | none =>
                simp only
                cases env.config s.files path with
                | error e => trivial
                | ok c => exact hS _ hs
        | storing p b c => rw [hph] at hk; exact hk
        | returning p b =>
          rw [hph] at hk
          simp only [nextPhase]
          cases s.cache p with
          | none => trivial
          | some c => exact hk
        | _ => trivial
      · exact h.call w hw
    · intro p hp hpu hpi
      rw [stepCall_sent env client s u' j v hv, List.mem_append] at hp
      rcases hp with hp | hp
      · exact h.sent p hp hpu hpi
      · cases hph : v.phase with
        | ready path b c =>
          rw [hph] at hp
          simp only [nextSent, List.mem_singleton] at hp
          subst hp
          simp only at hpu hpi
          subst hpu hpi
          have hk := h.call v hv
          have ho := hinv.calls _ _ v hv
          rw [hph] at hk ho
          exact ⟨path, b, c, s.files, ho.1, hk, ho.2.2, hF, C66_diagnostics env s path b c⟩
        | _ => rw [hph] at hp; cases hp

theorem Fresh.next {F F₀ : (Path → Option Bytes) → Prop} {S : Bytes → Prop} {S₀ : Uri → Bytes → Prop} {u : Uri} {i : Nat} {s : Server C}
    (h : Fresh env client F S (fun path cfg => ∃ f, F₀ f ∧ env.config f path = .ok cfg) u i s) (hinv : Inv env client F₀ S₀ s) (hF : F s.files)
    (hS : ∀ b, s.source client u = .ok b → S b) (hF₀ : F₀ s.files) (hS₀ : ∀ u b, s.source client u = .ok b → S₀ u b) (e : LspEvent) :
    Fresh env client F S (fun path cfg => ∃ f, F₀ f ∧ env.config f path = .ok cfg) u i (s.next env client e) := by
  refine (next_invariant env client (fun t => Fresh env client F S (fun path cfg => ∃ f, F₀ f ∧ env.config f path = .ok cfg) u i t ∧ Inv env client F₀ S₀ t)
    s e ?_ ?_ ?_ ?_ ?_ ?_ ⟨h, hinv⟩).1
  · rintro t t' ⟨h1, h2⟩ h3 h4 h5 h6
    exact ⟨⟨by rw [h4]; exact h1.call, by rw [h5]; exact h1.sent⟩, h2.congr env client h3 h4 h5 h6⟩
  · rintro t u' j hf hd ⟨h1, h2⟩
    have hsrc : ∀ u, t.source client u = s.source client u := fun u => by simp only [Server.source, hf, hd]
    exact ⟨h1.stepCall env client h2 (by rw [hf]; exact hF) (fun b hb => hS b (by rw [← hsrc]; exact hb)) u' j,
      h2.stepCall env client (by rw [hf]; exact hF₀) (fun u b hb => hS₀ u b (by rw [← hsrc]; exact hb)) u' j⟩
  · rintro t u' l ⟨h1, h2⟩ hl
    refine ⟨⟨?_, h1.sent⟩, h2.setCalls env client u' l ?_⟩
    · intro v hv
      simp only [Fixit.setCalls] at hv
      split at hv
      · rename_i hu
        rcases hl i v hv with h3 | h3 | h3 | h3
        · rw [h3]; trivial
        · rw [h3]; trivial
        · rw [h3]; trivial
        · exact h1.call v (by rw [hu]; exact h3)
      · exact h1.call v hv
    · intro j v hv
      rcases hl j v hv with h3 | h3 | h3 | h3
      · rw [h3]; trivial
      · rw [h3]; trivial
      · rw [h3]; trivial
      · exact h2.calls u' j v h3
  · rintro t path cfg hf ⟨h1, h2⟩ hn hc
    have hgrow : ∀ p, t.cache p ≠ none → (if p = path then some cfg else t.cache p) ≠ none := by
      intro p hp
      split
      · simp
      · exact hp
    refine ⟨⟨h1.call, h1.sent⟩, ⟨?_, fun u i v hv => (h2.calls u i v hv).mono env client hgrow, h2.sent,
      fun u i v hv => (h2.requests u i v hv).mono env client hgrow⟩⟩
    intro p c hpc
    simp only at hpc
    split at hpc
    · rename_i he
      cases hpc
      exact ⟨s.files, hF₀, by rw [he]; exact hc⟩
    · exact h2.cache p c hpc
  · exact fun u' => ⟨⟨h.call, h.sent⟩, hinv.next env client hF₀ hS₀ (.request u')⟩
  · intro u' j
    obtain ⟨h1, h2, -, -⟩ := stepRequest_same env client s u' j
    exact ⟨⟨by rw [h1]; exact h.call, by rw [h2]; exact h.sent⟩, hinv.next env client hF₀ hS₀ (.go u' j)⟩

/-- Where the notification with this number is. -/
theorem notified_split (u : Uri) : ∀ (es : List LspEvent) (i : Nat) (v : Int), (notified u es)[i]? = some v →
    ∃ pre post, es = pre ++ [.notify u v] ++ post ∧ (notified u pre).length = i
  | [], i, v, h => by simp [notified] at h
  | e :: es, i, v, h => by
    by_cases he : ∃ w, e = .notify u w
    · obtain ⟨w, rfl⟩ := he
      simp only [notified, if_true] at h
      cases i with
      | zero =>
        simp only [List.getElem?_cons_zero, Option.some.injEq] at h
        subst h
        exact ⟨[], es, rfl, rfl⟩
      | succ i =>
        rw [List.getElem?_cons_succ] at h
        obtain ⟨pre, post, rfl, hl⟩ := notified_split u es i v h
        exact ⟨.notify u w :: pre, post, rfl, by simp [notified, hl]⟩
    · have hn : ∀ l, notified u (e :: l) = notified u l := by
        intro l
        cases e with
        | notify u' w =>
          simp only [notified]
          rw [if_neg]
          intro hu
          exact he ⟨w, by rw [hu]⟩
        | _ => rfl
      rw [hn] at h
      obtain ⟨pre, post, rfl, hl⟩ := notified_split u es i v h
      exact ⟨e :: pre, post, rfl, by rw [hn, hl]⟩

/-- **C66** In any history a publication answers a notification, and what it says is not older than that: its diagnostics mirror the violations found in a source the
document had when it was notified or later, with files there were then or later, under a configuration its path had at some time. -/
theorem C66_not_older (files : Path → Option Bytes) (es : List LspEvent) (p : Publication) (hp : p ∈ ((Server.start files).run env client es).sent) :
    ∃ before after path content cfg f, es = before ++ [.notify p.uri p.version] ++ after ∧ p.call = (notified p.uri before).length ∧
      client.fsPath p.uri = some path ∧ SourceSeen client files (before ++ [.notify p.uri p.version]) after p.uri content ∧
      ConfigSeen env files [] es path cfg ∧ FilesSeen files (before ++ [.notify p.uri p.version]) after f ∧
      p.diagnostics = (found env f path content cfg).map shownAs := by
  obtain ⟨pre, post, hes, hlen⟩ := notified_split _ _ _ _ (C63_version env client files es p hp)
  have hinv : ∀ q, q <+: es → Inv env client (FilesSeen files [] es) (SourceSeen client files [] es) ((Server.start files).run env client q) := by
    rintro q ⟨r, hr⟩
    have := inv_run env client files es q.length
    rwa [← hr, List.take_left' rfl, hr] at this
  have hnil : filesAfter files (pre ++ [.notify p.uri p.version]) = filesAfter files pre ∧
      sourceAfter client files (pre ++ [.notify p.uri p.version]) p.uri = sourceAfter client files pre p.uri := by
    have h1 := validate_same env client ((Server.start files).run env client pre) p.uri p.version
    have h2 : (Server.start files).run env client (pre ++ [.notify p.uri p.version]) = ((Server.start files).run env client pre).validate env client p.uri p.version := by
      rw [run_snoc]; rfl
    refine ⟨?_, ?_⟩
    · rw [← run_files env client, ← run_files env client, h2, h1.1]
    · rw [← run_source env client, ← run_source env client, h2]
      simp only [Server.source, h1.1, h1.2]
  have main : ∀ q, q <+: post → Fresh env client (FilesSeen files (pre ++ [.notify p.uri p.version]) post)
      (SourceSeen client files (pre ++ [.notify p.uri p.version]) post p.uri) (ConfigSeen env files [] es) p.uri p.call
      ((Server.start files).run env client (pre ++ [.notify p.uri p.version] ++ q)) := by
    intro q
    induction q using history_induction with
    | nil =>
      intro _
      rw [List.append_nil, run_snoc]
      have hpre : pre <+: es := by rw [hes, List.append_assoc]; exact List.prefix_append _ _
      refine Fresh.next env client (S₀ := SourceSeen client files [] es) ⟨?_, ?_⟩ (hinv pre hpre) ⟨[], List.nil_prefix, ?_⟩
        (fun b hb => ⟨[], List.nil_prefix, ?_⟩) ⟨pre, hpre, ?_⟩ (fun u b hb => ⟨pre, hpre, ?_⟩) _
      · intro v hv
        have := run_calls_length env client files pre p.uri
        rw [List.getElem?_eq_none (by omega)] at hv
        cases hv
      · intro p' hp' hu hi
        have := C63_version env client files pre p' hp'
        rw [hu, hi, List.getElem?_eq_none (by omega)] at this
        cases this
      · rw [run_files]; rfl
      · rw [← hb, run_source]; rfl
      · rw [List.append_nil, hnil.1, run_files]
      · rw [List.append_nil, hnil.2, ← run_source env client]; exact hb
    | snoc q e ih =>
      intro hq
      have hq' : q <+: post := List.IsPrefix.trans (List.prefix_append q [e]) hq
      have hpre : pre ++ [.notify p.uri p.version] ++ q <+: es := by
        obtain ⟨r, rfl⟩ := hq'
        rw [hes, ← List.append_assoc]
        exact List.prefix_append _ _
      rw [← List.append_assoc, run_snoc]
      exact (ih hq').next env client (S₀ := SourceSeen client files [] es) (hinv _ hpre) ⟨q, hq', (run_files env client files _).symm⟩
        (fun b hb => ⟨q, hq', by rw [← hb, run_source]⟩) ⟨_, hpre, (run_files env client files _).symm⟩ (fun u b hb => ⟨_, hpre, by rw [← hb, run_source]; rfl⟩) e
  have hfin := main post (List.prefix_refl _)
  rw [← hes] at hfin
  obtain ⟨path, content, cfg, f, h1, h2, h3, h4, h5⟩ := hfin.sent p hp rfl rfl
  exact ⟨pre, post, path, content, cfg, f, hes, hlen.symm, h1, h2, h3, h4, h5⟩

end

end Fixit
