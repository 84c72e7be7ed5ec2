import Verif.Props.LspLatest
import Verif.Props.LspCases

/-!
# C62: under fair threads the last version is validated
-/

namespace Spec
open Py Fixit

/-- The thread of the call `i` for the document gets to go on again and again. -/
def GoesOn (ev : Nat → LspEvent) (u : Uri) (i : Nat) : Prop := ∀ m, ∃ m' ≥ m, ev m' = .step u i

/-- The first `n` events of an endless history. -/
def soFar (ev : Nat → LspEvent) (n : Nat) : List LspEvent := (List.range n).map ev

end Spec

namespace Fixit
open Py Py.Gen Spec

variable {C : Type} (env : Env C) (client : Client)

theorem soFar_succ (ev : Nat → LspEvent) (n : Nat) : soFar ev (n + 1) = soFar ev n ++ [ev n] := by simp [soFar, List.range_succ]

/-- How many steps a call can still make. -/
def callSteps : Phase C → Nat
  | .waiting => 5
  | .running => 4
  | .storing .. => 3
  | .returning .. => 2
  | .ready .. => 1
  | .cancelled => 0
  | .ended => 0

theorem over_iff (ph : Phase C) : Over ph ↔ callSteps ph = 0 := by cases ph <;> simp [Over, callSteps]

theorem callSteps_next (s : Server C) (u : Uri) (ph : Phase C) : callSteps (nextPhase env client s u ph) ≤ callSteps ph - 1 := by
  cases ph with
  | running =>
    cases h1 : client.fsPath u with
    | none => simp [nextPhase, callSteps, h1]
    | some path =>
      cases h2 : s.source client u with
      | error e => simp [nextPhase, callSteps, h1, h2]
      | ok content =>
        cases h3 : s.cache path with
        | some cfg => simp [nextPhase, callSteps, h1, h2, h3]
        | none => cases h4 : env.config s.files path <;> simp [nextPhase, callSteps, h1, h2, h3, h4]
  | returning p b => cases h : s.cache p <;> simp [nextPhase, callSteps, h]
  | _ => simp [nextPhase, callSteps]

/-- No event gives a call more to do, and its own steps less. -/
theorem callSteps_event (hd : client.debounced = true) (s : Server C) (e : LspEvent) (u : Uri) (i : Nat) (v : Validation C) (hv : (s.calls u)[i]? = some v) :
    ∃ v', ((s.next env client e).calls u)[i]? = some v' ∧ callSteps v'.phase ≤ callSteps v.phase ∧ (e = .step u i → callSteps v'.phase ≤ callSteps v.phase - 1) := by
  by_cases he : e = .step u i
  · subst he
    refine ⟨⟨v.version, nextPhase env client s u v.phase⟩, ?_, ?_, fun _ => callSteps_next env client s u v.phase⟩
    · show ((s.stepCall env client u i).calls u)[i]? = _
      rw [stepCall_calls, if_pos ⟨rfl, rfl⟩, hv]; rfl
    · exact Nat.le_trans (callSteps_next env client s u v.phase) (Nat.sub_le _ _)
  · refine ⟨_, next_call env client hd s e u i v hv he, ?_, fun h => absurd h he⟩
    have hc : callSteps v.cancel.phase ≤ callSteps v.phase := by
      obtain ⟨k, ph⟩ := v
      cases ph <;> simp [Validation.cancel, callSteps]
    cases e with
    | notify u' v' => simp only; split <;> simp [hc]
    | _ => exact Nat.le_refl _

theorem callSteps_later (hd : client.debounced = true) (s : Server C) (ev : Nat → LspEvent) (u : Uri) (i : Nat) (n : Nat) (v : Validation C)
    (hv : ((s.run env client (soFar ev n)).calls u)[i]? = some v) : ∀ m ≥ n, ∃ v', ((s.run env client (soFar ev m)).calls u)[i]? = some v' ∧ callSteps v'.phase ≤ callSteps v.phase := by
  intro m hm
  obtain ⟨d, rfl⟩ := Nat.exists_eq_add_of_le hm
  induction d with
  | zero => exact ⟨v, hv, Nat.le_refl _⟩
  | succ d ih =>
    obtain ⟨v', h1, h2⟩ := ih (by omega)
    obtain ⟨v'', h3, h4, -⟩ := callSteps_event env client hd _ (ev (n + d)) u i v' h1
    refine ⟨v'', ?_, Nat.le_trans h4 h2⟩
    rw [show n + (d + 1) = n + d + 1 from rfl, soFar_succ, run_snoc]
    exact h3

theorem call_ends (hd : client.debounced = true) (s : Server C) (ev : Nat → LspEvent) (u : Uri) (i : Nat) (hfair : GoesOn ev u i) :
    ∀ (k n : Nat) (v : Validation C), ((s.run env client (soFar ev n)).calls u)[i]? = some v → callSteps v.phase ≤ k →
      ∃ N, ∀ m ≥ N, ∃ v', ((s.run env client (soFar ev m)).calls u)[i]? = some v' ∧ Over v'.phase
  | 0, n, v, hv, hk => ⟨n, fun m hm => by
      obtain ⟨v', h1, h2⟩ := callSteps_later env client hd s ev u i n v hv m hm
      exact ⟨v', h1, (over_iff _).mpr (by omega)⟩⟩
  | k + 1, n, v, hv, hk => by
    obtain ⟨m, hm, he⟩ := hfair n
    obtain ⟨v', h1, h2⟩ := callSteps_later env client hd s ev u i n v hv m hm
    obtain ⟨v'', h3, -, h4⟩ := callSteps_event env client hd _ (ev m) u i v' h1
    refine call_ends hd s ev u i hfair k (m + 1) v'' ?_ ?_
    · rw [soFar_succ, run_snoc]; exact h3
    · have := h4 he
      omega

/-- **C62** Whatever else goes on, for ever, in the editor and on the disk: a validation whose thread gets to go on again and again comes to an end. -/
theorem C62_ends (hd : client.debounced = true) (s : Server C) (ev : Nat → LspEvent) (u : Uri) (i n : Nat) (v : Validation C)
    (hv : ((s.run env client (soFar ev n)).calls u)[i]? = some v) (hfair : GoesOn ev u i) :
    ∃ N, ∀ m ≥ N, ∃ v', ((s.run env client (soFar ev m)).calls u)[i]? = some v' ∧ Over v'.phase :=
  call_ends env client hd s ev u i hfair _ n v hv (Nat.le_refl _)

/-- **C62** When a document is edited and announced for the last time and the threads of its validations get to go on again and again, then from some moment on, whatever else goes on, diagnostics of
that version have been published: those of the text it has now, under a configuration of its path – unless its configuration could not be generated. -/
theorem C62_fair (hd : client.debounced = true) (files : Path → Option Bytes) (es₁ : List LspEvent) (ev : Nat → LspEvent) (u : Uri) (text : PStr) (version : Int)
    (path : Path) (content : Bytes) (hpath : client.fsPath u = some path) (henc : client.encode text = .ok content)
    (hlast : ∀ n, LspEvent.changes u (ev n) = false) (hfair : ∀ i < (notified u es₁).length + 1, GoesOn ev u i) :
    ∃ N, ∀ m ≥ N,
      let es := es₁ ++ [.edit u text, .notify u version] ++ soFar ev m
      (∃ f cfg, FilesSeen files (es₁ ++ [.edit u text, .notify u version]) (soFar ev m) f ∧ ConfigSeen env files [] es path cfg ∧
        ⟨u, (notified u es₁).length, version, (found env f path content cfg).map shownAs⟩ ∈ ((Server.start files).run env client es).sent) ∨
      ∃ f e, FilesSeen files (es₁ ++ [.edit u text, .notify u version]) (soFar ev m) f ∧ env.config f path = .error e := by
  let s := (Server.start files).run env client (es₁ ++ [.edit u text, .notify u version])
  have hrun : ∀ m, (Server.start files).run env client (es₁ ++ [.edit u text, .notify u version] ++ soFar ev m) = s.run env client (soFar ev m) := fun m => by
    simp only [Server.run, List.foldl_append, s]
  have hquiet : ∀ m, notified u (soFar ev m) = [] := by
    intro m
    induction m with
    | zero => rfl
    | succ m ih =>
      rw [soFar_succ, notified_append, ih]
      have := hlast m
      cases he : ev m <;> simp [he, LspEvent.changes, notified] at this ⊢
      assumption
  have hlen : ∀ m, ((s.run env client (soFar ev m)).calls u).length = (notified u es₁).length + 1 := by
    intro m
    rw [← hrun, run_calls_length, notified_append, notified_append, hquiet]
    simp [notified]
  have each : ∀ L ≤ (notified u es₁).length + 1, ∃ N, ∀ m ≥ N, ∀ i < L, ∃ v, ((s.run env client (soFar ev m)).calls u)[i]? = some v ∧ Over v.phase := by
    intro L
    induction L with
    | zero => intro _; exact ⟨0, fun m _ i hi => by omega⟩
    | succ L ih =>
      intro hL
      obtain ⟨N, hN⟩ := ih (by omega)
      have h0 := hlen 0
      obtain ⟨N', hN'⟩ := C62_ends env client hd s ev u L 0 _ (List.getElem?_eq_getElem (by omega)) (hfair L (by omega))
      refine ⟨max N N', fun m hm i hi => ?_⟩
      rcases Nat.lt_succ_iff_lt_or_eq.mp hi with hi | rfl
      · exact hN m (by omega) i hi
      · exact hN' m (by omega)
  obtain ⟨N, hN⟩ := each _ (Nat.le_refl _)
  refine ⟨N, fun m hm => ?_⟩
  refine C62_latest env client hd files es₁ (soFar ev m) u text version path content hpath henc ?_ _ rfl ?_
  · intro e he
    simp only [soFar, List.mem_map] at he
    obtain ⟨n, -, rfl⟩ := he
    exact hlast n
  · intro v hv
    rw [hrun] at hv
    obtain ⟨i, hi⟩ := List.getElem?_of_mem hv
    have hil := (List.getElem?_eq_some_iff.mp hi).1
    rw [hlen] at hil
    obtain ⟨v', h1, h2⟩ := hN m hm i hil
    rw [hi] at h1
    cases h1
    exact h2

/-- C62: the hypotheses are met: two validations of a document whose threads take turns for ever, while another document is announced again and again. -/
example : ∃ N, ∀ m ≥ N,
    let ev : Nat → LspEvent := fun n => if n % 3 = 2 then .notify docB n else .step docA (n % 3)
    let es := [.edit docA (py "n"), .notify docA 1] ++ [.edit docA (py "b"), .notify docA 2] ++ soFar ev m
    (∃ f cfg, FilesSeen noFiles ([.edit docA (py "n"), .notify docA 1] ++ [.edit docA (py "b"), .notify docA 2]) (soFar ev m) f ∧ ConfigSeen lspEnv noFiles [] es [py "a"] cfg ∧
      ⟨docA, 1, 2, (found lspEnv f [py "a"] [98] cfg).map shownAs⟩ ∈ ((Server.start noFiles).run lspEnv (lspClient true) es).sent) ∨
    ∃ f e, FilesSeen noFiles ([.edit docA (py "n"), .notify docA 1] ++ [.edit docA (py "b"), .notify docA 2]) (soFar ev m) f ∧ lspEnv.config f [py "a"] = .error e := by
  refine C62_fair lspEnv (lspClient true) rfl noFiles [.edit docA (py "n"), .notify docA 1] _ docA (py "b") 2 [py "a"] [98] (by decide) rfl ?_ ?_
  · intro n
    by_cases h : n % 3 = 2
    · simp [h, LspEvent.changes, docA, docB]
    · simp [h, LspEvent.changes]
  · intro i hi m
    have hi : i < 2 := hi
    refine ⟨3 * m + i, by omega, ?_⟩
    have h1 : (3 * m + i) % 3 = i := by omega
    simp only [h1]
    rw [if_neg (by omega)]

end Fixit
