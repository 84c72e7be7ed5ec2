import Verif.Props.BatchesEnd
import Verif.Props.SameFile

/-!
# C139: under every fair schedule a file that is given several times ends up fixed once
-/

namespace Fixit
open Py Spec Gen

variable {C : Type} (env : Env C)

/-- **C139** Under every fair schedule, from some moment on every file has the content that fixing it once on its own gives, and every process has finished. -/
theorem C139_fair_ends {autofix hook : Bool} {w : World} {fs : List Path} (h : OnceIsEnough env autofix hook w fs) (σ : Nat → Nat) (hfair : Fair σ fs.length) :
    ∃ N, ∀ m ≥ N, (∀ p ∈ fs, (runPool (turns σ m) (startWorkers env autofix hook fs) w).2.files (env.resolve p) = afterAlone env autofix hook w p (w.files (env.resolve p))) ∧
      ∀ k ∈ (runPool (turns σ m) (startWorkers env autofix hook fs) w).1, k.done = true := by
  obtain ⟨N, hN⟩ := C51_fair_ends env autofix hook fs w σ hfair
  exact ⟨N, fun m hm => ⟨fun p hp => C139_finished h (turns σ m) p hp (fun i p' k _ _ hk => (hN m hm).2 k (List.mem_of_getElem? hk)), (hN m hm).2⟩⟩

end Fixit
